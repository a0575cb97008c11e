import Verif.Spec.Printed
import Verif.Proof.Parse
import Verif.Proof.Reorder
/-!
# Printed diffs: lines of the texts, and what is printed
-/

namespace NcDiff.Running

/-- A command: not empty, not indented, on one line. -/
structure KeyOk (k : Str) : Prop where
  first : ∃ c r, k = c :: r ∧ c ≠ ' '
  oneLine : ∀ c ∈ k, isBreak c = false

/-- A parsed section: commands without marks. -/
inductive Parsed : List Item → Prop
  | mk {l} : (∀ i ∈ l, KeyOk i.key ∧ i.info = .ctx) → (∀ i ∈ l, ∀ s, i.sub = some s → Parsed s) → Parsed l

/-- A diff: in a removed or added line everything is without marks. -/
inductive DiffShape : List Item → Prop
  | mk {l} : (∀ i ∈ l, KeyOk i.key ∧ i.info ≠ .same) →
      (∀ i ∈ l, i.info = .ctx → ∀ s, i.sub = some s → DiffShape s) →
      (∀ i ∈ l, i.info ≠ .ctx → ∀ s, i.sub = some s → Parsed s) → DiffShape l

/-- An item of a parsed section. -/
def ItemOk (i : Item) : Prop := (KeyOk i.key ∧ i.info = .ctx) ∧ ∀ s, i.sub = some s → Parsed s

theorem parsed_iff {l : List Item} : Parsed l ↔ ∀ i ∈ l, ItemOk i :=
  ⟨fun h i hi => by cases h with | mk h1 h2 => exact ⟨h1 i hi, h2 i hi⟩,
   fun h => .mk (fun i hi => (h i hi).1) (fun i hi => (h i hi).2)⟩

theorem Parsed.of_mem {l r : List Item} (h : Parsed l) (hm : ∀ i ∈ r, i ∈ l) : Parsed r :=
  parsed_iff.2 (fun i hi => parsed_iff.1 h i (hm i hi))

theorem Parsed.append {l r : List Item} (hl : Parsed l) (hr : Parsed r) : Parsed (l ++ r) :=
  parsed_iff.2 (fun i hi => (List.mem_append.1 hi).elim (parsed_iff.1 hl i) (parsed_iff.1 hr i))

theorem Parsed.nil : Parsed [] := parsed_iff.2 (by simp)

/-! ## Parsing -/

/-- A line of a text. -/
def OneLine (l : Str) : Prop := ∀ c ∈ l, isBreak c = false

theorem splitLinesGo_oneLine : ∀ (cur s : Str), OneLine cur → ∀ l ∈ splitLinesGo cur s, OneLine l := by
  intro cur s
  fun_induction splitLinesGo cur s with
  | case1 => intro _ l hl; simp at hl
  | case2 cur h =>
    intro hc l hl
    rw [List.mem_singleton] at hl; subst hl
    intro c h; exact hc c (by simpa using h)
  | case3 cur r ih =>
    intro hc l hl
    rcases List.mem_cons.1 hl with rfl | hl
    · intro c h; exact hc c (by simpa using h)
    · exact ih (by intro c h; simp at h) l hl
  | case4 cur c r h1 hb ih =>
    intro hc l hl
    rcases List.mem_cons.1 hl with rfl | hl
    · intro c h; exact hc c (by simpa using h)
    · exact ih (by intro c h; simp at h) l hl
  | case5 cur c r h1 hb ih =>
    intro hc l hl
    refine ih ?_ l hl
    intro x hx
    rcases List.mem_cons.1 hx with rfl | hx
    · simpa using hb
    · exact hc x hx

theorem splitLines_oneLine (s : Str) : ∀ l ∈ splitLines s, OneLine l :=
  splitLinesGo_oneLine [] s (by intro c h; simp at h)

theorem rstrip_split (s : Str) : ∃ r, s = rstrip s ++ r := by
  unfold rstrip
  refine ⟨(s.reverse.takeWhile isSpace).reverse, ?_⟩
  rw [← List.reverse_append, List.takeWhile_append_dropWhile, List.reverse_reverse]

/-- A pending line: none, or one that is a command apart from blanks at its end. -/
def Pending (l : Str) : Prop := l = [] ∨ KeyOk (rstrip l)

structure ParseOk (st : ParseState) : Prop where
  ret : Parsed st.ret
  last : Pending st.lastLine
  sec : ∀ l ∈ st.lastSection, OneLine l

theorem flush_ok {rec : List Str → List Item} (hr : ∀ ls, (∀ l ∈ ls, OneLine l) → Parsed (rec ls)) {st : ParseState}
    (h : ParseOk st) : Parsed (flush rec st) := by
  unfold flush
  split
  · exact h.ret
  · rename_i hn
    have hk := h.last.resolve_left hn
    split
    · refine h.ret.append (parsed_iff.2 ?_)
      intro i hi
      rw [List.mem_singleton] at hi; subst hi
      refine ⟨⟨hk, rfl⟩, ?_⟩
      intro s hs
      cases hs
      exact hr _ h.sec
    · refine h.ret.append (parsed_iff.2 ?_)
      intro i hi
      rw [List.mem_singleton] at hi; subst hi
      refine ⟨⟨hk, rfl⟩, ?_⟩
      intro s hs
      cases hs

theorem dropWhile_nil {α} {p : α → Bool} : ∀ {l : List α}, l.dropWhile p = [] ↔ ∀ c ∈ l, p c = true
  | [] => by simp
  | a :: r => by
    cases h : p a with
    | false => simp [h]
    | true => simp [h, dropWhile_nil (l := r)]

theorem rstrip_ne_nil {s : Str} (h : strip s ≠ []) : rstrip s ≠ [] := by
  intro h1
  unfold rstrip at h1
  have h2 : s.reverse.dropWhile isSpace = [] := by simpa using h1
  have h3 : ∀ c ∈ s, isSpace c = true := by
    intro c hc
    exact dropWhile_nil.1 h2 c (by simpa using hc)
  apply h
  have : lstrip s = [] := dropWhile_nil.2 h3
  unfold strip
  rw [this]
  rfl

theorem parseLine_ok {t : Tables} {rec : List Str → List Item}
    (hr : ∀ ls, (∀ l ∈ ls, OneLine l) → Parsed (rec ls)) {st : ParseState} {line : Str} (h : ParseOk st)
    (hl : OneLine line) : ParseOk (parseLine t rec st line) := by
  have hsec : ∀ x, OneLine x → ∀ l ∈ st.lastSection ++ [x], OneLine l := by
    intro x hx l hm
    rcases List.mem_append.1 hm with hm | hm
    · exact h.sec l hm
    · rw [List.mem_singleton] at hm; subst hm; exact hx
  have hdrop : ∀ n, OneLine (line.drop n) := fun n c hc => hl c (List.mem_of_mem_drop hc)
  unfold parseLine
  simp only
  split
  · exact h
  split
  · exact h
  split
  · exact h
  rename_i hne
  split
  · exact ⟨flush_ok hr h, Or.inl rfl, by simp⟩
  split
  · exact h
  split
  · generalize (if st.lastIndent = 0 then _ else _ : Nat) = li
    split
    · refine ⟨h.ret, h.last, hsec _ ?_⟩
      intro c hc
      rcases List.mem_append.1 hc with hc | hc
      · rw [(List.mem_replicate.1 hc).2]; decide
      · exact hdrop _ c hc
    · exact ⟨h.ret, h.last, hsec _ (hdrop _)⟩
  rename_i hind
  have hk : KeyOk (rstrip line) := by
    obtain ⟨x, hx⟩ := rstrip_split line
    have hr := rstrip_ne_nil hne
    refine ⟨?_, ?_⟩
    · cases hrs : rstrip line with
      | nil => exact absurd hrs hr
      | cons c r =>
        refine ⟨c, r, rfl, ?_⟩
        rintro rfl
        apply hind
        rw [hx, hrs, List.cons_append, List.takeWhile_cons_of_pos (by simp)]
        simp
    · intro c hc
      exact hl c (by rw [hx]; exact List.mem_append_left _ hc)
  split
  · exact ⟨flush_ok hr h, Or.inr hk, by simp⟩
  split
  · exact ⟨h.ret, h.last, hsec _ hl⟩
  · exact ⟨flush_ok hr h, Or.inr hk, by simp⟩

theorem config2listFuel_ok {t : Tables} : ∀ (n : Nat) (ls : List Str), (∀ l ∈ ls, OneLine l) →
    Parsed (config2listFuel t n ls)
  | 0, _, _ => Parsed.nil
  | n + 1, ls, h => by
    rw [config2listFuel]
    refine flush_ok (config2listFuel_ok n) ?_
    have : ∀ (ls : List Str) (st : ParseState), ParseOk st → (∀ l ∈ ls, OneLine l) →
        ParseOk (ls.foldl (parseLine t (config2listFuel t n)) st) := by
      intro ls
      induction ls with
      | nil => intro st h1 _; exact h1
      | cons a r ih =>
        intro st h1 h2
        exact ih _ (parseLine_ok (config2listFuel_ok n) h1 (h2 a (by simp))) (fun l hl => h2 l (by simp [hl]))
    exact this ls _ ⟨Parsed.nil, Or.inl rfl, by simp⟩ h

/-- A parsed text consists of commands without marks. -/
theorem config2list_ok (t : Tables) (s : Str) : Parsed (config2list t s) :=
  config2listFuel_ok _ _ (splitLines_oneLine s)

/-! ## Orderless and sibling commands -/

theorem insertAll_mem {α} {l xs : List α} {i : Nat} {x : α} (h : x ∈ insertAll l i xs) : x ∈ l ∨ x ∈ xs := by
  rw [insertAll_eq] at h
  rcases List.mem_append.1 h with h | h
  · rcases List.mem_append.1 h with h | h
    · exact Or.inl (List.mem_of_mem_take h)
    · exact Or.inr h
  · exact Or.inl (List.mem_of_mem_drop h)

/-- Lines that are taken out of the list are put back as they were. -/
def EnvFrom (l1 : List Item) (env : OrderEnv) : Prop := ∀ s, env.isMatch s = true → env.removed s ∈ l1

theorem insertNew_mem {l1 : List Item} {env : OrderEnv} (he : EnvFrom l1 env) {l : List Item} {n : Nat}
    {new : List Str} (hl : ∀ i ∈ l, i ∈ l1) (hn : ∀ s ∈ new, env.isMatch s = true) :
    ∀ i ∈ insertAll l n (new.map env.removed), i ∈ l1 := by
  intro i hi
  rcases insertAll_mem hi with h | h
  · exact hl i h
  · obtain ⟨s, hs, rfl⟩ := List.mem_map.1 h
    exact he s (hn s hs)

theorem orderStep_mem {l1 : List Item} {env : OrderEnv} (he : EnvFrom l1 env) {st : OrderState} {line : Str}
    (h : ∀ i ∈ st.list1, i ∈ l1) : ∀ i ∈ (orderStep env st line).list1, i ∈ l1 := by
  unfold orderStep
  split
  · rename_i hm
    split
    · exact h
    · simp only
      split
      · refine insertNew_mem he h ?_
        intro s hs
        simp only [List.mem_filter, Bool.and_eq_true] at hs
        exact hs.2.1.1
      · rw [insertAt_eq]
        exact insertNew_mem (new := [line]) he h (by simpa using hm)
  · split
    · refine insertNew_mem he h ?_
      intro s hs
      split at hs
      · simp only [List.mem_filter, Bool.and_eq_true] at hs
        exact hs.2.1.1
      · simp at hs
    · exact h

theorem orderLoop_mem {l1 : List Item} {env : OrderEnv} (he : EnvFrom l1 env) : ∀ (ls : List Str) (st : OrderState),
    (∀ i ∈ st.list1, i ∈ l1) → ∀ i ∈ (ls.foldl (orderStep env) st).list1, i ∈ l1
  | [], _, h => h
  | a :: r, st, h => orderLoop_mem he r (orderStep env st a) (orderStep_mem he h)

theorem orderTop_mem {t : Tables} {l1 l2 : List Item} {n : Nat} : ∀ i ∈ orderTop t l1 l2 n, i ∈ l1 := by
  unfold orderTop
  simp only
  have he : EnvFrom l1 (⟨l1.map Item.key, l2.map Item.key,
      fun s => t.orderless s n && decide (s ∈ l1.map Item.key) && decide (s ∈ l2.map Item.key),
      commonKeys ((l1.filter (fun i => !(t.orderless i.key n && decide (i.key ∈ l1.map Item.key) &&
        decide (i.key ∈ l2.map Item.key)))).map Item.key) (l2.map Item.key),
      fun s => (l1.find? (fun i => i.key = s)).getD default⟩ : OrderEnv) := by
    intro s hs
    simp only [Bool.and_eq_true, decide_eq_true_eq] at hs
    obtain ⟨i, hi, hik⟩ := List.mem_map.1 hs.1.2
    cases hf : l1.find? (fun i => i.key = s) with
    | none =>
      have := List.find?_eq_none.1 hf i hi
      simp [hik] at this
    | some x =>
      simp only [hf, Option.getD_some]
      exact List.mem_of_find?_eq_some hf
  refine insertNew_mem he ?_ ?_
  · exact orderLoop_mem he _ _ (fun i hi => (List.mem_filter.1 hi).1)
  · intro s hs
    exact (Bool.and_eq_true _ _ ▸ (List.mem_filter.1 hs).2).1

theorem children_parsed {i : Item} (h : ItemOk i) {c : List Item} (hc : children i = some c) : Parsed c := by
  unfold children at hc
  split at hc
  · rename_i hs
    obtain rfl := Option.some.inj hc
    exact h.2 _ hs
  · cases hc

theorem orderKids_parsed {rec : List Item → List Item → List Item} {l2 : List Item}
    (hr : ∀ c1 c2, Parsed c1 → Parsed (rec c1 c2)) : ∀ {l : List Item}, Parsed l → Parsed (orderKids rec l2 l)
  | [], _ => Parsed.nil
  | .mk k s i :: r, h => by
    have hi := parsed_iff.1 h (.mk k s i) (by simp)
    have hrest := orderKids_parsed (l2 := l2) hr (h.of_mem (r := r) (fun x hx => by simp [hx]))
    rw [orderKids]
    refine parsed_iff.2 ?_
    intro x hx
    rcases List.mem_cons.1 hx with rfl | hx
    · refine ⟨hi.1, ?_⟩
      intro s' hs'
      simp only [Item.sub] at hs'
      split at hs'
      · rename_i c1 _ _ hc _ _
        obtain rfl := Option.some.inj hs'
        exact hr _ _ (children_parsed hi hc)
      · exact hi.2 s' hs'
    · exact parsed_iff.1 hrest x hx

theorem orderlessFuel_parsed {t : Tables} : ∀ (n depth : Nat) (l1 l2 : List Item), Parsed l1 →
    Parsed (orderlessFuel t n depth l1 l2)
  | 0, _, _, _, h => h
  | n + 1, depth, l1, l2, h => by
    rw [orderlessFuel]
    exact orderKids_parsed (fun c1 c2 hc => orderlessFuel_parsed n (depth + 1) c1 c2 hc) (h.of_mem orderTop_mem)

theorem takeSiblings_ok : ∀ (rxs : List (Str → Bool)) (i : Item), ItemOk i →
    ItemOk (takeSiblings rxs i).1 ∧ Parsed (takeSiblings rxs i).2
  | [], i, h => ⟨h, Parsed.nil⟩
  | rx :: r, .mk k s i, h => by
    cases s with
    | none => simp only [takeSiblings]; exact ⟨h, Parsed.nil⟩
    | some l =>
      simp only [takeSiblings]
      have hl : Parsed l := h.2 l rfl
      split
      · refine ⟨⟨h.1, ?_⟩, hl.of_mem (fun x hx => (List.mem_filter.1 hx).1)⟩
        intro s hs
        simp only [Item.sub] at hs
        split at hs
        · cases hs
        · obtain rfl := Option.some.inj hs
          exact hl.of_mem (fun x hx => (List.mem_filter.1 hx).1)
      · exact takeSiblings_ok r _ h

theorem siblingLoop_parsed {t : Tables} {rec : List Item → List Item} (hr : ∀ l, Parsed l → Parsed (rec l)) :
    ∀ (n : Nat) (l : List Item), Parsed l → Parsed (siblingLoop t rec n l)
  | 0, _, h => h
  | _ + 1, [], h => h
  | n + 1, it :: r, h => by
    have hi := takeSiblings_ok t.sibling it (parsed_iff.1 h it (by simp))
    rw [siblingLoop]
    have hrest := siblingLoop_parsed (t := t) hr n ((takeSiblings t.sibling it).2 ++ r)
      (hi.2.append (h.of_mem (fun x hx => by simp [hx])))
    refine parsed_iff.2 ?_
    intro x hx
    rcases List.mem_cons.1 hx with rfl | hx
    · generalize (takeSiblings t.sibling it).1 = it' at hi
      obtain ⟨k, s, i⟩ := it'
      cases s with
      | none => exact hi.1
      | some s =>
        refine ⟨hi.1.1, ?_⟩
        intro s' hs'
        obtain rfl := Option.some.inj hs'
        exact hr s (hi.1.2 s rfl)
    · exact parsed_iff.1 hrest x hx

theorem siblingFuel_parsed {t : Tables} : ∀ (n : Nat) (l : List Item), Parsed l → Parsed (siblingFuel t n l)
  | 0, _, h => h
  | n + 1, l, h => siblingLoop_parsed (siblingFuel_parsed n) _ l h

/-! ## The diff -/

theorem Marked.mem {m : Info} {l l' : List Item} (h : Marked m l l') : ∀ x ∈ l', ∃ y ∈ l, x = y.withInfo m := by
  induction h with
  | nil => intro x hx; simp at hx
  | @cons k s i l l' _ ih =>
    intro x hx
    rcases List.mem_cons.1 hx with rfl | hx
    · exact ⟨.mk k s i, by simp, rfl⟩
    · obtain ⟨y, hy, e⟩ := ih x hx
      exact ⟨y, by simp [hy], e⟩

theorem Parsed.diffShape {l : List Item} (h : Parsed l) : DiffShape l := by
  induction h with
  | mk h1 h2 ih =>
    exact .mk (fun i hi => ⟨(h1 i hi).1, by rw [(h1 i hi).2]; decide⟩) (fun i hi _ s hs => ih i hi s hs)
      (fun i hi _ s hs => h2 i hi s hs)

/-- An item of a diff. -/
def DiffItem (i : Item) : Prop := (KeyOk i.key ∧ i.info ≠ .same) ∧
  (i.info = .ctx → ∀ s, i.sub = some s → DiffShape s) ∧ (i.info ≠ .ctx → ∀ s, i.sub = some s → Parsed s)

theorem diffShape_iff {l : List Item} : DiffShape l ↔ ∀ i ∈ l, DiffItem i :=
  ⟨fun h i hi => by cases h with | mk h1 h2 h3 => exact ⟨h1 i hi, h2 i hi, h3 i hi⟩,
   fun h => .mk (fun i hi => (h i hi).1) (fun i hi => (h i hi).2.1) (fun i hi => (h i hi).2.2)⟩

theorem ItemOk.marked {i : Item} (h : ItemOk i) {m : Info} (hm : m ≠ .same) : DiffItem (i.withInfo m) := by
  obtain ⟨k, s, j⟩ := i
  exact ⟨⟨h.1.1, hm⟩, fun _ s hs => (h.2 s hs).diffShape, fun _ s hs => h.2 s hs⟩

theorem Report.origin {s d : List Item} (h : Report s d) : ∀ x ∈ d, ∃ y ∈ s,
    x = if y.info = .same then y.withInfo .ctx else y := by
  obtain ⟨shown, _, rfl⟩ := h
  intro x hx
  obtain ⟨y, hy, rfl⟩ := List.mem_map.1 hx
  obtain ⟨p, hp, rfl⟩ := List.mem_map.1 hy
  obtain ⟨a, n⟩ := p
  have := (List.mem_filter.1 hp).1
  exact ⟨a, (List.mem_zipIdx' this).2 ▸ List.getElem_mem _, rfl⟩

/-- What a complete account consists of. -/
def ScriptItem (i : Item) : Prop := DiffItem (if i.info = .same then i.withInfo .ctx else i)

theorem Report.shape {s d : List Item} (h : Report s d) (hs : ∀ i ∈ s, ScriptItem i) : DiffShape d := by
  refine diffShape_iff.2 ?_
  intro x hx
  obtain ⟨y, hy, rfl⟩ := h.origin x hx
  exact hs y hy

theorem Marked.shape {m : Info} (hm : m ≠ .same) {l l' : List Item} (h : Marked m l l') (hp : Parsed l) :
    DiffShape l' := by
  refine diffShape_iff.2 ?_
  intro x hx
  obtain ⟨y, hy, rfl⟩ := h.mem x hx
  exact (parsed_iff.1 hp y hy).marked hm

theorem Marked.parsed {l l' : List Item} (h : Marked .ctx l l') (hp : Parsed l) : Parsed l' := by
  refine parsed_iff.2 ?_
  intro x hx
  obtain ⟨y, hy, rfl⟩ := h.mem x hx
  obtain ⟨k, s, j⟩ := y
  exact ⟨⟨(parsed_iff.1 hp _ hy).1.1, rfl⟩, (parsed_iff.1 hp _ hy).2⟩

mutual
theorem Script.items {l1 l2 s : List Item} (h : Script l1 l2 s) (h1 : Parsed l1) (h2 : Parsed l2) :
    ∀ i ∈ s, ScriptItem i := by
  cases h with
  | nil => simp
  | @del k s i l1 l2 d hr =>
    intro x hx
    rcases List.mem_cons.1 hx with rfl | hx
    · exact (parsed_iff.1 h1 (.mk k s i) (by simp)).marked (m := .del) (by decide)
    · exact hr.items (h1.of_mem (fun x hx => by simp [hx])) h2 x hx
  | @add k s i l1 l2 d hr =>
    intro x hx
    rcases List.mem_cons.1 hx with rfl | hx
    · exact (parsed_iff.1 h2 (.mk k s i) (by simp)).marked (m := .add) (by decide)
    · exact hr.items h1 (h2.of_mem (fun x hx => by simp [hx])) x hx
  | @same k s s' i j l1 l2 d hp hr =>
    intro x hx
    rcases List.mem_cons.1 hx with rfl | hx
    · have hi := parsed_iff.1 h1 (.mk k s i) (by simp)
      have hpar : ∀ y, s' = some y → Parsed y := by
        intro y hy
        subst hy
        cases hp with
        | some hm => exact hm.parsed (hi.2 _ rfl)
      exact ⟨⟨hi.1.1, fun hc => Info.noConfusion hc⟩, fun _ y hy => (hpar y hy).diffShape, fun _ y hy => hpar y hy⟩
    · exact hr.items (h1.of_mem (fun x hx => by simp [hx])) (h2.of_mem (fun x hx => by simp [hx])) x hx
  | @changed k s s' y i j l1 l2 d hs hr =>
    intro x hx
    rcases List.mem_cons.1 hx with rfl | hx
    · have hi := parsed_iff.1 h1 (.mk k s i) (by simp)
      have hj := parsed_iff.1 h2 (.mk k s' j) (by simp)
      have hy : DiffShape y := hs.shape (fun z hz => hi.2 z hz) (fun z hz => hj.2 z hz)
      refine ⟨⟨hi.1.1, fun hc => Info.noConfusion hc⟩, ?_, ?_⟩
      · intro _ z hz
        obtain rfl := Option.some.inj hz
        exact hy
      · intro hn; exact absurd rfl hn
    · exact hr.items (h1.of_mem (fun x hx => by simp [hx])) (h2.of_mem (fun x hx => by simp [hx])) x hx
theorem ScriptSub.shape {s s' : Option (List Item)} {y : List Item} (h : ScriptSub s s' y)
    (h1 : ∀ z, s = some z → Parsed z) (h2 : ∀ z, s' = some z → Parsed z) : DiffShape y := by
  cases h with
  | both _ hs hr => exact hr.shape (hs.items (h1 _ rfl) (h2 _ rfl))
  | gone hm => exact hm.shape (by decide) (h1 _ rfl)
  | new hm => exact hm.shape (by decide) (h2 _ rfl)
end

theorem Faithful.shape {l1 l2 d : List Item} (h : Faithful l1 l2 d) (h1 : Parsed l1) (h2 : Parsed l2) : DiffShape d := by
  obtain ⟨s, hs, hr⟩ := h
  exact hr.shape (hs.items h1 h2)

/-! ## What is printed -/

/-- The printed line of an entry. -/
def entryLine (e : Info × Nat × Str) : Str := e.1.char :: ' ' :: (List.replicate (2 * e.2.1) ' ' ++ e.2.2)

/-- The same lines one level further down. -/
def deeper (e : Info × Nat × Str) : Info × Nat × Str := (e.1, e.2.1 + 1, e.2.2)

mutual
theorem entries_succ (m : Info) (n : Nat) : ∀ l, entries m (n + 1) l = (entries m n l).map deeper
  | [] => rfl
  | a :: r => by rw [entries, entries, List.map_append, itemEntries_succ m n a, entries_succ m n r]
theorem itemEntries_succ (m : Info) (n : Nat) : ∀ a, itemEntries m (n + 1) a = (itemEntries m n a).map deeper
  | .mk k s i => by rw [itemEntries, itemEntries, List.map_cons, subEntries_succ (markIn m i) (n + 1) s]; rfl
theorem subEntries_succ (m : Info) (n : Nat) : ∀ s, subEntries m (n + 1) s = (subEntries m n s).map deeper
  | none => rfl
  | some l => by rw [subEntries, subEntries, entries_succ m n l]
end

/-- An entry whose mark can be printed. -/
def EntryOk (e : Info × Nat × Str) : Prop := e.1 ≠ .same ∧ KeyOk e.2.2

theorem entryLine_oneLine {e : Info × Nat × Str} (h : EntryOk e) : OneLine (entryLine e) := by
  intro c hc
  unfold entryLine at hc
  rcases List.mem_cons.1 hc with rfl | hc
  · obtain ⟨m, n, k⟩ := e
    cases m
    · show isBreak ' ' = false
      decide
    · show isBreak '+' = false
      decide
    · show isBreak '-' = false
      decide
    · exact absurd rfl h.1
  rcases List.mem_cons.1 hc with rfl | hc
  · decide
  rcases List.mem_append.1 hc with hc | hc
  · rw [(List.mem_replicate.1 hc).2]; decide
  · exact h.2.oneLine c hc

theorem indentLine_entry {e : Info × Nat × Str} (h : EntryOk e) :
    indentLine (entryLine e) = entryLine (deeper e) ++ ['\n'] := by
  obtain ⟨m, n, k⟩ := e
  have : List.replicate (2 * (n + 1)) ' ' = ' ' :: ' ' :: List.replicate (2 * n) ' ' := rfl
  cases m with
  | ctx => simp [entryLine, deeper, Info.char, indentLine, this]
  | add => simp [entryLine, deeper, Info.char, indentLine, this]
  | del => simp [entryLine, deeper, Info.char, indentLine, this]
  | same => exact absurd rfl h.1

theorem indent_entries {es : List (Info × Nat × Str)} (h : ∀ e ∈ es, EntryOk e) :
    indent (unlines (es.map entryLine)) = unlines ((es.map deeper).map entryLine) := by
  unfold indent
  rw [splitLines_unlines _ (by
    intro l hl
    obtain ⟨e, he, rfl⟩ := List.mem_map.1 hl
    exact entryLine_oneLine (h e he))]
  induction es with
  | nil => rfl
  | cons e r ih =>
    rw [List.map_cons, List.flatMap_cons, ih (fun x hx => h x (by simp [hx])), indentLine_entry (h e (by simp))]
    simp [unlines]

/-- A section that is printed with the mark `m` of the line it belongs to. -/
def Below (m : Info) (l : List Item) : Prop := if m = .ctx then DiffShape l else Parsed l

theorem Below.item {m : Info} (hm : m ≠ .same) {l : List Item} (h : Below m l) {i : Item} (hi : i ∈ l) :
    KeyOk i.key ∧ markIn m i.info ≠ .same ∧ ∀ s, i.sub = some s → Below (markIn m i.info) s := by
  unfold Below at h
  split at h
  · rename_i he
    subst he
    have hd := diffShape_iff.1 h i hi
    have hmk : markIn .ctx i.info = i.info := by unfold markIn; rw [if_pos rfl]
    rw [hmk]
    refine ⟨hd.1.1, hd.1.2, ?_⟩
    intro s hs
    unfold Below
    split
    · rename_i hc; exact hd.2.1 hc s hs
    · rename_i hc; exact hd.2.2 hc s hs
  · rename_i he
    have hp := parsed_iff.1 h i hi
    have hmk : markIn m i.info = m := by unfold markIn; rw [if_neg he]
    rw [hmk]
    refine ⟨hp.1.1, hm, ?_⟩
    intro s hs
    unfold Below
    rw [if_neg he]
    exact hp.2 s hs

mutual
theorem entries_ok {m : Info} (hm : m ≠ .same) (n : Nat) : ∀ l, Below m l → ∀ e ∈ entries m n l, EntryOk e
  | [], _ => by simp [entries]
  | a :: r, h => by
    intro e he
    rw [entries] at he
    rcases List.mem_append.1 he with he | he
    · exact itemEntries_ok hm n a (h.item hm (by simp)) e he
    · refine entries_ok hm n r ?_ e he
      unfold Below at h ⊢
      split
      · rename_i hc
        rw [if_pos hc] at h
        exact diffShape_iff.2 (fun i hi => diffShape_iff.1 h i (by simp [hi]))
      · rename_i hc
        rw [if_neg hc] at h
        exact h.of_mem (fun x hx => by simp [hx])
theorem itemEntries_ok {m : Info} (hm : m ≠ .same) (n : Nat) : ∀ i : Item,
    (KeyOk i.key ∧ markIn m i.info ≠ .same ∧ ∀ s, i.sub = some s → Below (markIn m i.info) s) →
    ∀ e ∈ itemEntries m n i, EntryOk e
  | .mk k s i, h => by
    intro e he
    rw [itemEntries] at he
    rcases List.mem_cons.1 he with rfl | he
    · exact ⟨h.2.1, h.1⟩
    · exact subEntries_ok h.2.1 (n + 1) s (fun x hx => h.2.2 x hx) e he
theorem subEntries_ok {m : Info} (hm : m ≠ .same) (n : Nat) : ∀ s : Option (List Item),
    (∀ x, s = some x → Below m x) → ∀ e ∈ subEntries m n s, EntryOk e
  | none, _ => by simp [subEntries]
  | some l, h => by
    intro e he
    rw [subEntries] at he
    exact entries_ok hm n l (h l rfl) e he
end

theorem Below.tail {m : Info} {a : Item} {r : List Item} (h : Below m (a :: r)) : Below m r := by
  unfold Below at h ⊢
  split
  · rename_i hc
    rw [if_pos hc] at h
    exact diffShape_iff.2 (fun i hi => diffShape_iff.1 h i (by simp [hi]))
  · rename_i hc
    rw [if_neg hc] at h
    exact h.of_mem (fun x hx => by simp [hx])

theorem localType_some (m i : Info) : localType (some m) i = some (markIn m i) := by
  cases m <;> rfl

mutual
theorem list2config_entries {m : Info} (hm : m ≠ .same) : ∀ l, Below m l →
    list2config (some m) l = unlines ((entries m 0 l).map entryLine)
  | [], _ => by simp [list2config, entries, unlines]
  | a :: r, h => by
    rw [list2config, entries, List.map_append, unlines_append, list2config_entries hm r h.tail,
      item2config_entries hm a (h.item hm (by simp))]
theorem item2config_entries {m : Info} (hm : m ≠ .same) : ∀ i : Item,
    (KeyOk i.key ∧ markIn m i.info ≠ .same ∧ ∀ s, i.sub = some s → Below (markIn m i.info) s) →
    item2config (some m) i = unlines ((itemEntries m 0 i).map entryLine)
  | .mk k s i, h => by
    have hn : k ≠ [] := by
      obtain ⟨c, r, e, _⟩ := h.1.first
      simp only [Item.key] at e
      rw [e]; simp
    rw [item2config, if_neg hn, localType_some, sub2config_entries (m := markIn m i) h.2.1 s (fun x hx => h.2.2 x hx), itemEntries]
    simp [unlines, entryLine, linePrefix]
theorem sub2config_entries {m : Info} (hm : m ≠ .same) : ∀ s : Option (List Item), (∀ x, s = some x → Below m x) →
    sub2config (some m) s = unlines ((subEntries m 1 s).map entryLine)
  | none, _ => by simp [sub2config, subEntries, unlines]
  | some l, h => by
    have hl := h l rfl
    rw [sub2config, list2config_entries hm l hl, indent_entries (entries_ok hm 0 l hl), subEntries, entries_succ]
end

theorem readMark_char {m : Info} (h : m ≠ .same) : readMark m.char = some m := by
  cases m with
  | same => exact absurd rfl h
  | _ => rfl

theorem readLine_entry {e : Info × Nat × Str} (h : EntryOk e) : readLine (entryLine e) = some e := by
  obtain ⟨m, n, k⟩ := e
  obtain ⟨c, r, hk, hc⟩ := h.2.first
  simp only at hk
  have h1 : (List.replicate (2 * n) ' ' ++ k).takeWhile (· = ' ') = List.replicate (2 * n) ' ' := by
    rw [List.takeWhile_append_of_pos (by simp), hk, List.takeWhile_cons_of_neg (by simpa using hc), List.append_nil]
  have h2 : (List.replicate (2 * n) ' ' ++ k).dropWhile (· = ' ') = k := by
    rw [List.dropWhile_append_of_pos (by simp), hk, List.dropWhile_cons_of_neg (by simpa using hc)]
  have hm : readMark m.char = some m := readMark_char h.1
  simp only [entryLine, readLine, hm, h1, h2, List.length_replicate]
  rw [if_pos (by omega)]
  congr 3
  omega

end NcDiff.Running
