import Verif.Proof.Printed
/-!
# Printed diffs: the paths that one reads
-/

namespace NcDiff.Running

mutual
/-- The marked paths of the lines of a diff, from top to bottom. -/
def paths (p : Path) (m : Info) : List Item → List (Info × Path)
  | [] => []
  | a :: r => itemPaths p m a ++ paths p m r
def itemPaths (p : Path) (m : Info) : Item → List (Info × Path)
  | .mk k s i => (markIn m i, p ++ [k]) :: subPaths (p ++ [k]) (markIn m i) s
def subPaths (p : Path) (m : Info) : Option (List Item) → List (Info × Path)
  | none => []
  | some l => paths p m l
end

theorem take_append_one {p st : Path} {k : Str} (h : st.take (p.length + 1) = p ++ [k]) : st.take p.length = p := by
  have := congrArg (List.take p.length) h
  rw [List.take_take, Nat.min_eq_left (by omega)] at this
  rw [this, List.take_left]

mutual
theorem follow_entries (p : Path) (m : Info) : ∀ (l : List Item) (st : Path) (rest : List (Info × Nat × Str)),
    st.take p.length = p → ∃ st', st'.take p.length = p ∧
      follow st (entries m p.length l ++ rest) = paths p m l ++ follow st' rest
  | [], st, rest, h => ⟨st, h, by simp [entries, paths]⟩
  | a :: r, st, rest, h => by
    obtain ⟨s1, h1, e1⟩ := follow_item p m a st (entries m p.length r ++ rest) h
    obtain ⟨s2, h2, e2⟩ := follow_entries p m r s1 rest h1
    exact ⟨s2, h2, by rw [entries, paths, List.append_assoc, e1, e2, List.append_assoc]⟩
theorem follow_item (p : Path) (m : Info) : ∀ (a : Item) (st : Path) (rest : List (Info × Nat × Str)),
    st.take p.length = p → ∃ st', st'.take p.length = p ∧
      follow st (itemEntries m p.length a ++ rest) = itemPaths p m a ++ follow st' rest
  | .mk k s i, st, rest, h => by
    obtain ⟨s1, h1, e1⟩ := follow_sub (p ++ [k]) (markIn m i) s (p ++ [k]) rest (List.take_length ..)
    rw [List.length_append, List.length_singleton] at h1 e1
    refine ⟨s1, take_append_one h1, ?_⟩
    rw [itemEntries, itemPaths, List.cons_append, follow, h, e1, List.cons_append]
theorem follow_sub (p : Path) (m : Info) : ∀ (s : Option (List Item)) (st : Path) (rest : List (Info × Nat × Str)),
    st.take p.length = p → ∃ st', st'.take p.length = p ∧
      follow st (subEntries m p.length s ++ rest) = subPaths p m s ++ follow st' rest
  | none, st, rest, h => ⟨st, h, by simp [subEntries, subPaths]⟩
  | some l, st, rest, h => by
    rw [subEntries, subPaths]
    exact follow_entries p m l st rest h
end

theorem follow_diff (d : List Item) : follow [] (entries .ctx 0 d) = paths [] .ctx d := by
  obtain ⟨st, _, e⟩ := follow_entries [] .ctx d [] [] rfl
  simpa [follow] using e

/-! ## Membership -/

/-- A line is shown with a mark. -/
def Shown (m : Info) : List Item → Info → Path → Prop
  | _, _, [] => False
  | l, m', k :: r => ∃ i ∈ l, i.key = k ∧
      ((r = [] ∧ m' = markIn m i.info) ∨ ∃ s, i.sub = some s ∧ Shown (markIn m i.info) s m' r)

theorem hasPath_step {l : List Item} {k : Str} {p : Path} : hasPath l (k :: p) ↔
    ∃ i ∈ l, i.key = k ∧ (p = [] ∨ ∃ s, i.sub = some s ∧ hasPath s p) := by
  cases p with
  | nil => simp [hasPath]
  | cons a r => simp [hasPath]

theorem hasPath_empty {l : List Item} : ¬ hasPath l [] := by simp [hasPath]

mutual
theorem paths_mem (p : Path) (m : Info) : ∀ (l : List Item) (m' : Info) (q : Path),
    (m', q) ∈ paths p m l ↔ ∃ q0, q = p ++ q0 ∧ Shown m l m' q0
  | [], m', q => by
    simp only [paths, List.not_mem_nil, false_iff]
    rintro ⟨q0, _, h⟩
    cases q0 with
    | nil => exact h
    | cons k r => obtain ⟨i, hi, _⟩ := h; simp at hi
  | a :: r, m', q => by
    rw [paths, List.mem_append, itemPaths_mem p m a m' q, paths_mem p m r m' q]
    constructor
    · rintro (⟨q0, e, h⟩ | ⟨q0, e, h⟩)
      · refine ⟨q0, e, ?_⟩
        cases q0 with
        | nil => exact h
        | cons k x => obtain ⟨i, hi, h⟩ := h; exact ⟨i, by simp at hi; simp [hi], h⟩
      · refine ⟨q0, e, ?_⟩
        cases q0 with
        | nil => exact h
        | cons k x => obtain ⟨i, hi, h⟩ := h; exact ⟨i, by simp [hi], h⟩
    · rintro ⟨q0, e, h⟩
      cases q0 with
      | nil => exact absurd h (by simp [Shown])
      | cons k x =>
        obtain ⟨i, hi, h⟩ := h
        rcases List.mem_cons.1 hi with rfl | hi
        · exact Or.inl ⟨_, e, i, by simp, h⟩
        · exact Or.inr ⟨_, e, i, hi, h⟩
theorem itemPaths_mem (p : Path) (m : Info) : ∀ (a : Item) (m' : Info) (q : Path),
    (m', q) ∈ itemPaths p m a ↔ ∃ q0, q = p ++ q0 ∧ Shown m [a] m' q0
  | .mk k s i, m', q => by
    rw [itemPaths, List.mem_cons, subPaths_mem (p ++ [k]) (markIn m i) s m' q]
    constructor
    · rintro (h | ⟨x, hx, q0, e, h⟩)
      · cases h
        exact ⟨[k], rfl, _, List.mem_singleton.2 rfl, rfl, Or.inl ⟨rfl, rfl⟩⟩
      · exact ⟨k :: q0, by simp [e], _, List.mem_singleton.2 rfl, rfl, Or.inr ⟨x, hx, h⟩⟩
    · rintro ⟨q0, e, h⟩
      cases q0 with
      | nil => exact absurd h (by simp [Shown])
      | cons k' x =>
        obtain ⟨j, hj, hk, h⟩ := h
        rw [List.mem_singleton] at hj
        subst hj
        simp only [Item.key] at hk
        subst hk
        rcases h with ⟨rfl, rfl⟩ | ⟨y, hy, h⟩
        · left; rw [e]; rfl
        · exact Or.inr ⟨y, hy, x, by simp [e], h⟩
theorem subPaths_mem (p : Path) (m : Info) : ∀ (s : Option (List Item)) (m' : Info) (q : Path),
    (m', q) ∈ subPaths p m s ↔ ∃ x, s = some x ∧ ∃ q0, q = p ++ q0 ∧ Shown m x m' q0
  | none, m', q => by simp [subPaths]
  | some l, m', q => by
    rw [subPaths, paths_mem p m l m' q]
    constructor
    · intro h; exact ⟨l, rfl, h⟩
    · rintro ⟨x, hx, h⟩
      obtain rfl := Option.some.inj hx
      exact h
end

theorem shown_iff {d : List Item} {m : Info} {q : Path} : (m, q) ∈ follow [] (entries .ctx 0 d) ↔ Shown .ctx d m q := by
  rw [follow_diff, paths_mem]
  simp

/-! ## Shown lines and the two configs -/

/-- Below a removed or added line everything has its mark. -/
theorem shown_marked {m : Info} (hm : m ≠ .ctx) : ∀ {l : List Item} {m' : Info} {q : Path},
    Shown m l m' q ↔ m' = m ∧ hasPath l q
  | l, m', [] => by simp [Shown, hasPath]
  | l, m', k :: r => by
    have e : ∀ i, markIn m i = m := fun i => if_neg hm
    rw [Shown, hasPath_step]
    constructor
    · rintro ⟨i, hi, hk, h⟩
      rw [e] at h
      rcases h with ⟨rfl, rfl⟩ | ⟨s, hs, h⟩
      · exact ⟨rfl, i, hi, hk, Or.inl rfl⟩
      · obtain ⟨rfl, h'⟩ := (shown_marked hm).1 h
        exact ⟨rfl, i, hi, hk, Or.inr ⟨s, hs, h'⟩⟩
    · rintro ⟨rfl, i, hi, hk, h⟩
      refine ⟨i, hi, hk, ?_⟩
      rw [e]
      rcases h with rfl | ⟨s, hs, h⟩
      · exact Or.inl ⟨rfl, rfl⟩
      · exact Or.inr ⟨s, hs, (shown_marked hm).2 ⟨rfl, h⟩⟩

/-- In a parsed section nothing is marked. -/
theorem shown_parsed : ∀ {l : List Item}, Parsed l → ∀ {m' : Info} {q : Path}, Shown .ctx l m' q →
    m' = .ctx ∧ hasPath l q := by
  intro l h m' q
  induction q generalizing l with
  | nil => intro h; exact absurd h (by simp [Shown])
  | cons k r ih =>
    rintro ⟨i, hi, hk, hs⟩
    have hp := parsed_iff.1 h i hi
    rw [hp.1.2] at hs
    rcases hs with ⟨rfl, rfl⟩ | ⟨s, hs, hx⟩
    · exact ⟨rfl, hasPath_step.2 ⟨i, hi, hk, Or.inl rfl⟩⟩
    · obtain ⟨e, hp'⟩ := ih (hp.2 s hs) hx
      exact ⟨e, hasPath_step.2 ⟨i, hi, hk, Or.inr ⟨s, hs, hp'⟩⟩⟩

theorem hasPath_tail {a : Item} {l : List Item} {q : Path} (h : hasPath l q) : hasPath (a :: l) q := by
  cases q with
  | nil => exact absurd h hasPath_empty
  | cons k r =>
    obtain ⟨i, hi, h⟩ := hasPath_step.1 h
    exact hasPath_step.2 ⟨i, by simp [hi], h⟩

theorem hasPath_head {a : Item} {q : Path} (h : hasPath [a] q) {l : List Item} : hasPath (a :: l) q := by
  cases q with
  | nil => exact absurd h hasPath_empty
  | cons k r =>
    obtain ⟨i, hi, h⟩ := hasPath_step.1 h
    exact hasPath_step.2 ⟨i, by simp at hi; simp [hi], h⟩

theorem hasPath_split {a : Item} {l : List Item} {q : Path} (h : hasPath (a :: l) q) : hasPath [a] q ∨ hasPath l q := by
  cases q with
  | nil => exact absurd h hasPath_empty
  | cons k r =>
    obtain ⟨i, hi, h'⟩ := hasPath_step.1 h
    rcases List.mem_cons.1 hi with rfl | hi
    · exact Or.inl (hasPath_step.2 ⟨i, by simp, h'⟩)
    · exact Or.inr (hasPath_step.2 ⟨i, hi, h'⟩)

theorem hasPath_one {k : Str} {s : Option (List Item)} {i : Info} {q : Path} : hasPath [.mk k s i] q ↔
    ∃ r, q = k :: r ∧ (r = [] ∨ ∃ x, s = some x ∧ hasPath x r) := by
  cases q with
  | nil => simp [hasPath]
  | cons a r => rw [hasPath_step]; simp [Item.key, Item.sub, eq_comm]

theorem shown_one {m : Info} {k : Str} {s : Option (List Item)} {i m' : Info} {q : Path} :
    Shown m [.mk k s i] m' q ↔
    ∃ r, q = k :: r ∧ ((r = [] ∧ m' = markIn m i) ∨ ∃ x, s = some x ∧ Shown (markIn m i) x m' r) := by
  cases q with
  | nil => simp [Shown]
  | cons a r => rw [Shown]; simp [Item.key, Item.sub, Item.info, eq_comm]

theorem shown_mem {m : Info} {l : List Item} {m' : Info} {q : Path} : Shown m l m' q ↔ ∃ i ∈ l, Shown m [i] m' q := by
  cases q with
  | nil => simp [Shown]
  | cons a r =>
    constructor
    · rintro ⟨i, hi, h⟩; exact ⟨i, hi, i, by simp, h⟩
    · rintro ⟨i, hi, j, hj, h⟩
      rw [List.mem_singleton] at hj; subst hj
      exact ⟨_, hi, h⟩

/-- A removed or added line, with everything below it. -/
theorem shown_one_marked {m : Info} (hm : m ≠ .ctx) {k : Str} {s : Option (List Item)} {i m' : Info} {q : Path} :
    Shown .ctx [.mk k s m] m' q ↔ m' = m ∧ hasPath [.mk k s i] q := by
  have e : markIn .ctx m = m := if_pos rfl
  rw [shown_one, hasPath_one, e]
  constructor
  · rintro ⟨r, rfl, ⟨rfl, rfl⟩ | ⟨x, hx, h⟩⟩
    · exact ⟨rfl, _, rfl, Or.inl rfl⟩
    · obtain ⟨rfl, h'⟩ := (shown_marked hm).1 h
      exact ⟨rfl, _, rfl, Or.inr ⟨x, hx, h'⟩⟩
  · rintro ⟨rfl, r, rfl, rfl | ⟨x, hx, h⟩⟩
    · exact ⟨_, rfl, Or.inl ⟨rfl, rfl⟩⟩
    · exact ⟨_, rfl, Or.inr ⟨x, hx, (shown_marked hm).2 ⟨rfl, h⟩⟩⟩

/-- How an item of an account is shown. -/
def conv (i : Item) : Item := if i.info = .same then i.withInfo .ctx else i

/-- What is shown belongs to the configs. -/
def Sound (l1 l2 : List Item) (m : Info) (q : Path) : Prop :=
  (m ≠ .add → hasPath l1 q) ∧ (m ≠ .del → hasPath l2 q) ∧ m ≠ .same

theorem Marked.shown {m : Info} (hm : m ≠ .ctx) {l l' : List Item} (h : Marked m l l') {m' : Info} {q : Path} :
    Shown .ctx l' m' q ↔ m' = m ∧ hasPath l q := by
  induction h with
  | nil =>
    constructor
    · intro h
      obtain ⟨i, hi, _⟩ := shown_mem.1 h
      simp at hi
    · rintro ⟨_, h⟩
      cases q with
      | nil => exact absurd h hasPath_empty
      | cons k r => obtain ⟨i, hi, _⟩ := hasPath_step.1 h; simp at hi
  | @cons k s i l l' _ ih =>
    constructor
    · intro h
      obtain ⟨x, hx, h⟩ := shown_mem.1 h
      rcases List.mem_cons.1 hx with rfl | hx
      · obtain ⟨rfl, h'⟩ := (shown_one_marked hm (i := i)).1 h
        exact ⟨rfl, hasPath_head h'⟩
      · obtain ⟨rfl, h'⟩ := ih.1 (shown_mem.2 ⟨x, hx, h⟩)
        exact ⟨rfl, hasPath_tail h'⟩
    · rintro ⟨rfl, h⟩
      rcases hasPath_split h with h | h
      · exact shown_mem.2 ⟨_, List.mem_cons_self .., (shown_one_marked hm).2 ⟨rfl, h⟩⟩
      · obtain ⟨x, hx, h⟩ := shown_mem.1 (ih.2 ⟨rfl, h⟩)
        exact shown_mem.2 ⟨x, by simp [hx], h⟩

theorem Marked.hasPath_iff {m : Info} {l l' : List Item} (h : Marked m l l') {q : Path} : hasPath l' q ↔ hasPath l q := by
  induction h with
  | nil => rfl
  | @cons k s i l l' _ ih =>
    constructor
    · intro h
      rcases hasPath_split h with h | h
      · exact hasPath_head (hasPath_one.2 (hasPath_one.1 h))
      · exact hasPath_tail (ih.1 h)
    · intro h
      rcases hasPath_split h with h | h
      · exact hasPath_head (hasPath_one.2 (hasPath_one.1 h))
      · exact hasPath_tail (ih.2 h)

theorem Report.keep {s d : List Item} (h : Report s d) {x : Item} (hx : x ∈ s) (hi : x.info ≠ .same) : x ∈ d := by
  obtain ⟨shown, hs, rfl⟩ := h
  obtain ⟨n, hn, rfl⟩ := List.getElem_of_mem hx
  refine List.mem_map.2 ⟨s[n], List.mem_map.2 ⟨(s[n], n), List.mem_filter.2 ⟨?_, ?_⟩, rfl⟩, by rw [if_neg hi]⟩
  · exact List.mk_mem_zipIdx_iff_getElem?.2 (List.getElem?_eq_getElem hn)
  · refine (hs n).2 ?_
    intro y hy hsame
    rw [List.getElem?_eq_getElem hn] at hy
    obtain rfl := Option.some.inj hy
    exact absurd hsame hi

mutual
theorem Script.sound {l1 l2 s : List Item} (h : Script l1 l2 s) (h1 : Parsed l1) (h2 : Parsed l2) :
    ∀ x ∈ s, ∀ m q, Shown .ctx [conv x] m q → Sound l1 l2 m q := by
  cases h with
  | nil => simp
  | @del k s i l1 l2 d hr =>
    intro x hx m q hq
    rcases List.mem_cons.1 hx with rfl | hx
    · obtain ⟨rfl, hp⟩ := (shown_one_marked (m := .del) (i := i) (by decide)).1 hq
      exact ⟨fun _ => hasPath_head hp, fun hn => absurd rfl hn, by decide⟩
    · have := hr.sound (h1.of_mem (fun x hx => by simp [hx])) h2 x hx m q hq
      exact ⟨fun hn => hasPath_tail (this.1 hn), this.2⟩
  | @add k s i l1 l2 d hr =>
    intro x hx m q hq
    rcases List.mem_cons.1 hx with rfl | hx
    · obtain ⟨rfl, hp⟩ := (shown_one_marked (m := .add) (i := i) (by decide)).1 hq
      exact ⟨fun hn => absurd rfl hn, fun _ => hasPath_head hp, by decide⟩
    · have := hr.sound h1 (h2.of_mem (fun x hx => by simp [hx])) x hx m q hq
      exact ⟨this.1, fun hn => hasPath_tail (this.2.1 hn), this.2.2⟩
  | @same k s s' i j l1 l2 d hp hr =>
    intro x hx m q hq
    rcases List.mem_cons.1 hx with rfl | hx
    · have hi := parsed_iff.1 h1 (.mk k s i) (by simp)
      have e : conv (.mk k s' .same) = .mk k s' .ctx := rfl
      rw [e, shown_one] at hq
      obtain ⟨r, rfl, ⟨rfl, rfl⟩ | ⟨x, hx, hq⟩⟩ := hq
      · exact ⟨fun _ => hasPath_head (hasPath_one.2 ⟨_, rfl, Or.inl rfl⟩),
          fun _ => hasPath_head (hasPath_one.2 ⟨_, rfl, Or.inl rfl⟩), by decide⟩
      · subst hx
        cases hp with
        | @some y _ hm =>
          obtain ⟨rfl, hq'⟩ := shown_parsed (hm.parsed (hi.2 _ rfl)) hq
          have hq := hm.hasPath_iff.1 hq'
          exact ⟨fun _ => hasPath_head (hasPath_one.2 ⟨_, rfl, Or.inr ⟨_, rfl, hq⟩⟩),
            fun _ => hasPath_head (hasPath_one.2 ⟨_, rfl, Or.inr ⟨_, rfl, hq⟩⟩), by decide⟩
    · have := hr.sound (h1.of_mem (fun x hx => by simp [hx])) (h2.of_mem (fun x hx => by simp [hx])) x hx m q hq
      exact ⟨fun hn => hasPath_tail (this.1 hn), fun hn => hasPath_tail (this.2.1 hn), this.2.2⟩
  | @changed k s s' y i j l1 l2 d hs hr =>
    intro x hx m q hq
    rcases List.mem_cons.1 hx with rfl | hx
    · have hi := parsed_iff.1 h1 (.mk k s i) (by simp)
      have hj := parsed_iff.1 h2 (.mk k s' j) (by simp)
      have e : conv (.mk k (some y) .ctx) = .mk k (some y) .ctx := rfl
      rw [e, shown_one] at hq
      obtain ⟨r, rfl, ⟨rfl, rfl⟩ | ⟨x, hx, hq⟩⟩ := hq
      · exact ⟨fun _ => hasPath_head (hasPath_one.2 ⟨_, rfl, Or.inl rfl⟩),
          fun _ => hasPath_head (hasPath_one.2 ⟨_, rfl, Or.inl rfl⟩), by decide⟩
      · obtain rfl := Option.some.inj hx
        have := hs.sound (fun z hz => hi.2 z hz) (fun z hz => hj.2 z hz) m r hq
        exact ⟨fun hn => hasPath_head (hasPath_one.2 ⟨_, rfl, Or.inr (this.1 hn)⟩),
          fun hn => hasPath_head (hasPath_one.2 ⟨_, rfl, Or.inr (this.2.1 hn)⟩), this.2.2⟩
    · have := hr.sound (h1.of_mem (fun x hx => by simp [hx])) (h2.of_mem (fun x hx => by simp [hx])) x hx m q hq
      exact ⟨fun hn => hasPath_tail (this.1 hn), fun hn => hasPath_tail (this.2.1 hn), this.2.2⟩
theorem ScriptSub.sound {s s' : Option (List Item)} {y : List Item} (h : ScriptSub s s' y)
    (h1 : ∀ z, s = some z → Parsed z) (h2 : ∀ z, s' = some z → Parsed z) : ∀ m q, Shown .ctx y m q →
    (m ≠ .add → ∃ z, s = some z ∧ hasPath z q) ∧ (m ≠ .del → ∃ z, s' = some z ∧ hasPath z q) ∧ m ≠ .same := by
  intro m q hq
  cases h with
  | @both z z' x _ _ hs hr =>
    obtain ⟨i, hi, hq⟩ := shown_mem.1 hq
    obtain ⟨j, hj, rfl⟩ := hr.origin i hi
    have := hs.sound (h1 _ rfl) (h2 _ rfl) j hj m q hq
    exact ⟨fun hn => ⟨_, rfl, this.1 hn⟩, fun hn => ⟨_, rfl, this.2.1 hn⟩, this.2.2⟩
  | gone hm =>
    obtain ⟨rfl, hp⟩ := (hm.shown (by decide)).1 hq
    exact ⟨fun _ => ⟨_, rfl, hp⟩, fun hn => absurd rfl hn, by decide⟩
  | new hm =>
    obtain ⟨rfl, hp⟩ := (hm.shown (by decide)).1 hq
    exact ⟨fun hn => absurd rfl hn, fun _ => ⟨_, rfl, hp⟩, by decide⟩
end

mutual
theorem Script.complete {l1 l2 s : List Item} (h : Script l1 l2 s) : ∀ q,
    (hasPath l1 q → ¬ hasPath l2 q → ∃ x ∈ s, x.info ≠ .same ∧ Shown .ctx [x] .del q) ∧
    (hasPath l2 q → ¬ hasPath l1 q → ∃ x ∈ s, x.info ≠ .same ∧ Shown .ctx [x] .add q) := by
  cases h with
  | nil =>
    intro q
    have : ¬ hasPath [] q := by
      intro h
      cases q with
      | nil => exact hasPath_empty h
      | cons k r => obtain ⟨i, hi, _⟩ := hasPath_step.1 h; simp at hi
    exact ⟨fun h => absurd h this, fun h => absurd h this⟩
  | @del k s i l1 l2 d hr =>
    have ih := hr.complete
    intro q
    have ih1 := (ih q).1
    have ih2 := (ih q).2
    constructor
    · intro hp hn
      rcases hasPath_split hp with hp | hp
      · exact ⟨_, List.mem_cons_self .., fun hc => Info.noConfusion hc, (shown_one_marked (by decide)).2 ⟨rfl, hp⟩⟩
      · obtain ⟨x, hx, h⟩ := ih1 hp hn
        exact ⟨x, by simp [hx], h⟩
    · intro hp hn
      obtain ⟨x, hx, h⟩ := ih2 hp (fun hc => hn (hasPath_tail hc))
      exact ⟨x, by simp [hx], h⟩
  | @add k s i l1 l2 d hr =>
    have ih := hr.complete
    intro q
    have ih1 := (ih q).1
    have ih2 := (ih q).2
    constructor
    · intro hp hn
      obtain ⟨x, hx, h⟩ := ih1 hp (fun hc => hn (hasPath_tail hc))
      exact ⟨x, by simp [hx], h⟩
    · intro hp hn
      rcases hasPath_split hp with hp | hp
      · exact ⟨_, List.mem_cons_self .., fun hc => Info.noConfusion hc, (shown_one_marked (by decide)).2 ⟨rfl, hp⟩⟩
      · obtain ⟨x, hx, h⟩ := ih2 hp hn
        exact ⟨x, by simp [hx], h⟩
  | @same k s s' i j l1 l2 d _ hr =>
    have ih := hr.complete
    intro q
    have ih1 := (ih q).1
    have ih2 := (ih q).2
    constructor
    · intro hp hn
      rcases hasPath_split hp with hp | hp
      · exact absurd (hasPath_head (hasPath_one.2 (hasPath_one.1 hp))) hn
      · obtain ⟨x, hx, h⟩ := ih1 hp (fun hc => hn (hasPath_tail hc))
        exact ⟨x, by simp [hx], h⟩
    · intro hp hn
      rcases hasPath_split hp with hp | hp
      · exact absurd (hasPath_head (hasPath_one.2 (hasPath_one.1 hp))) hn
      · obtain ⟨x, hx, h⟩ := ih2 hp (fun hc => hn (hasPath_tail hc))
        exact ⟨x, by simp [hx], h⟩
  | @changed k s s' y i j l1 l2 d hs hr =>
    have ih := hr.complete
    have ihs := hs.complete
    intro q
    have ih1 := (ih q).1
    have ih2 := (ih q).2
    constructor
    · intro hp hn
      rcases hasPath_split hp with hp | hp
      · obtain ⟨r, rfl, rfl | ⟨z, hz, hp⟩⟩ := hasPath_one.1 hp
        · exact absurd (hasPath_head (hasPath_one.2 ⟨_, rfl, Or.inl rfl⟩)) hn
        · refine ⟨_, List.mem_cons_self .., fun hc => Info.noConfusion hc, shown_one.2 ⟨r, rfl, Or.inr ⟨y, rfl, ?_⟩⟩⟩
          refine (ihs r).1 ⟨z, hz, hp⟩ ?_
          rintro ⟨z', hz', hp'⟩
          exact hn (hasPath_head (hasPath_one.2 ⟨_, rfl, Or.inr ⟨z', hz', hp'⟩⟩))
      · obtain ⟨x, hx, h⟩ := ih1 hp (fun hc => hn (hasPath_tail hc))
        exact ⟨x, by simp [hx], h⟩
    · intro hp hn
      rcases hasPath_split hp with hp | hp
      · obtain ⟨r, rfl, rfl | ⟨z, hz, hp⟩⟩ := hasPath_one.1 hp
        · exact absurd (hasPath_head (hasPath_one.2 ⟨_, rfl, Or.inl rfl⟩)) hn
        · refine ⟨_, List.mem_cons_self .., fun hc => Info.noConfusion hc, shown_one.2 ⟨r, rfl, Or.inr ⟨y, rfl, ?_⟩⟩⟩
          refine (ihs r).2 ⟨z, hz, hp⟩ ?_
          rintro ⟨z', hz', hp'⟩
          exact hn (hasPath_head (hasPath_one.2 ⟨_, rfl, Or.inr ⟨z', hz', hp'⟩⟩))
      · obtain ⟨x, hx, h⟩ := ih2 hp (fun hc => hn (hasPath_tail hc))
        exact ⟨x, by simp [hx], h⟩
termination_by sizeOf l1 + sizeOf l2
theorem ScriptSub.complete {s s' : Option (List Item)} {y : List Item} (h : ScriptSub s s' y) : ∀ q,
    ((∃ z, s = some z ∧ hasPath z q) → ¬ (∃ z, s' = some z ∧ hasPath z q) → Shown .ctx y .del q) ∧
    ((∃ z, s' = some z ∧ hasPath z q) → ¬ (∃ z, s = some z ∧ hasPath z q) → Shown .ctx y .add q) := by
  cases h with
  | @both z z' x _ _ hs hr =>
    have ih := hs.complete
    intro q
    have c1 := (ih q).1
    have c2 := (ih q).2
    constructor
    · rintro ⟨w, hw, hp⟩ hn
      obtain rfl := Option.some.inj hw
      obtain ⟨i, hi, hne, hq⟩ := c1 hp (fun hc => hn ⟨_, rfl, hc⟩)
      exact shown_mem.2 ⟨i, hr.keep hi hne, hq⟩
    · rintro ⟨w, hw, hp⟩ hn
      obtain rfl := Option.some.inj hw
      obtain ⟨i, hi, hne, hq⟩ := c2 hp (fun hc => hn ⟨_, rfl, hc⟩)
      exact shown_mem.2 ⟨i, hr.keep hi hne, hq⟩
  | gone hm =>
    intro q
    constructor
    · rintro ⟨w, hw, hp⟩ _
      obtain rfl := Option.some.inj hw
      exact (hm.shown (by decide)).2 ⟨rfl, hp⟩
    · rintro ⟨w, hw, _⟩; cases hw
  | new hm =>
    intro q
    constructor
    · rintro ⟨w, hw, _⟩; cases hw
    · rintro ⟨w, hw, hp⟩ _
      obtain rfl := Option.some.inj hw
      exact (hm.shown (by decide)).2 ⟨rfl, hp⟩
termination_by sizeOf s + sizeOf s'
end

theorem Faithful.shown_sound {l1 l2 d : List Item} (h : Faithful l1 l2 d) (h1 : Parsed l1) (h2 : Parsed l2) {m : Info}
    {q : Path} (hq : Shown .ctx d m q) : Sound l1 l2 m q := by
  obtain ⟨s, hs, hr⟩ := h
  obtain ⟨i, hi, hq⟩ := shown_mem.1 hq
  obtain ⟨j, hj, rfl⟩ := hr.origin i hi
  exact hs.sound h1 h2 j hj m q hq

theorem Faithful.shown_complete {l1 l2 d : List Item} (h : Faithful l1 l2 d) (q : Path) :
    (hasPath l1 q → ¬ hasPath l2 q → Shown .ctx d .del q) ∧
    (hasPath l2 q → ¬ hasPath l1 q → Shown .ctx d .add q) := by
  obtain ⟨s, hs, hr⟩ := h
  obtain ⟨c1, c2⟩ := hs.complete q
  constructor
  · intro hp hn
    obtain ⟨i, hi, hne, hq⟩ := c1 hp hn
    exact shown_mem.2 ⟨i, hr.keep hi hne, hq⟩
  · intro hp hn
    obtain ⟨i, hi, hne, hq⟩ := c2 hp hn
    exact shown_mem.2 ⟨i, hr.keep hi hne, hq⟩

end NcDiff.Running
