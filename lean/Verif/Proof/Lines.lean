import Verif.Spec.Lines
import Verif.Proof.Parse
import Verif.Proof.Printed
/-!
# Proof that parsing loses no line
-/

namespace NcDiff.Running

theorem allCommands_append : ∀ a b : List Item, allCommands (a ++ b) = allCommands a ++ allCommands b
  | [], _ => rfl
  | x :: a, b => by rw [List.cons_append, allCommands, allCommands, allCommands_append a b, List.append_assoc]

theorem blank_iff {l : Str} : strip l = [] ↔ Blank l := by
  unfold Blank
  constructor
  · intro h
    have : rstrip (lstrip l) = [] := h
    unfold rstrip at this
    have h2 : (lstrip l).reverse.dropWhile isSpace = [] := by simpa using this
    have h3 : ∀ c ∈ lstrip l, isSpace c = true := fun c hc => dropWhile_nil.1 h2 c (by simpa using hc)
    unfold lstrip at h3
    cases hd : l.dropWhile isSpace with
    | nil => exact dropWhile_nil.1 hd
    | cons a r =>
      have := List.head?_dropWhile_not (p := isSpace) l
      rw [hd] at this
      rw [hd] at h3
      simp [h3 a (by simp)] at this
  · intro h
    have : lstrip l = [] := dropWhile_nil.2 h
    unfold strip
    rw [this]; rfl

theorem mark_iff {c : Char} {l : Str} : startsWithMark c l = true ↔ (l.dropWhile (· = ' ')).head? = some c := by
  unfold startsWithMark
  cases l.dropWhile (· = ' ') with
  | nil => simp
  | cons x r => simp

theorem remark_iff {l : Str} : (startsWithMark '!' l = true ∨ startsWithMark '%' l = true) ↔ Remark l := by
  rw [mark_iff, mark_iff]; rfl

theorem take_prefix {p l : Str} {n : Nat} (hn : p.length = n) : l.take n = p ↔ p <+: l := by
  subst hn
  rw [List.prefix_iff_eq_take]
  exact eq_comm

theorem indent_pos {l : Str} : 0 < (l.takeWhile (· = ' ')).length ↔ StartsBlank l := by
  unfold StartsBlank
  cases l with
  | nil => simp
  | cons c r =>
    by_cases h : c = ' '
    · simp [h]
    · simp [h]

/-! ## Lines that are moved to the left -/

/-- Two lines that differ in the blanks before them. -/
def SameButBlanks (a b : Str) : Prop := a.dropWhile (· = ' ') = b.dropWhile (· = ' ')

theorem SameButBlanks.command {a b : Str} (h : SameButBlanks a b) : command a = command b := by
  unfold Running.command; rw [h]

theorem SameButBlanks.remark {a b : Str} (h : SameButBlanks a b) : Remark a ↔ Remark b := by
  unfold Remark; rw [h]

theorem blank_drop {l : Str} : Blank l ↔ Blank (l.dropWhile (· = ' ')) := by
  induction l with
  | nil => rfl
  | cons c r ih =>
    by_cases hc : c = ' '
    · rw [List.dropWhile_cons_of_pos (by simp [hc]), ← ih]
      subst hc
      unfold Blank
      simp [show isSpace ' ' = true by decide]
    · rw [List.dropWhile_cons_of_neg (by simp [hc])]

theorem SameButBlanks.blank {a b : Str} (h : SameButBlanks a b) : Blank a ↔ Blank b := by
  rw [blank_drop, blank_drop (l := b), h]

theorem SameButBlanks.meant {a b : Str} (h : SameButBlanks a b) : Meant a ↔ Meant b := by
  unfold Meant; rw [h.blank, h.remark]

theorem drop_same {l : Str} : ∀ {n : Nat}, n ≤ (l.takeWhile (· = ' ')).length → SameButBlanks (l.drop n) l := by
  induction l with
  | nil => intro n _; simp [SameButBlanks]
  | cons c r ih =>
    intro n h
    cases n with
    | zero => rfl
    | succ n =>
      by_cases hc : c = ' '
      · rw [List.takeWhile_cons_of_pos (by simp [hc])] at h
        have := ih (n := n) (by simpa using h)
        unfold SameButBlanks at this ⊢
        rw [List.drop_succ_cons, this, List.dropWhile_cons_of_pos (by simp [hc])]
      · rw [List.takeWhile_cons_of_neg (by simp [hc])] at h
        simp at h

theorem blanks_same (n : Nat) (l : Str) : SameButBlanks (List.replicate n ' ' ++ l) l := dropBlanks n l

theorem SameButBlanks.trans {a b c : Str} (h : SameButBlanks a b) (k : SameButBlanks b c) : SameButBlanks a c := Eq.trans h k

theorem drop_all {l : Str} : l.drop (l.takeWhile (· = ' ')).length = l.dropWhile (· = ' ') := by
  induction l with
  | nil => rfl
  | cons c r ih =>
    by_cases hc : c = ' '
    · rw [List.takeWhile_cons_of_pos (by simp [hc]), List.dropWhile_cons_of_pos (by simp [hc])]
      simpa using ih
    · rw [List.takeWhile_cons_of_neg (by simp [hc]), List.dropWhile_cons_of_neg (by simp [hc])]
      rfl

theorem dropWhile_not {l : Str} : ¬ StartsBlank (l.dropWhile (· = ' ')) := by
  unfold StartsBlank
  intro h
  have := List.head?_dropWhile_not (p := (· = ' ')) l
  rw [h] at this
  simp at this

theorem command_top {l : Str} (h : ¬ StartsBlank l) : command l = rstrip l := by
  unfold command
  cases l with
  | nil => rfl
  | cons c r =>
    have : c ≠ ' ' := fun hc => h (by simp [StartsBlank, hc])
    rw [List.dropWhile_cons_of_neg (by simp [this])]

/-! ## One line -/

/-- The cases of the loop. -/
inductive Case (t : Tables) (rec : List Str → List Item) (st : ParseState) (l : Str) : ParseState → Prop where
  | skip (h : Heading l ∨ Blank l) : Case t rec st l st
  | ends (h : ¬ (Heading l ∨ Blank l)) (hm : st.missing = true) (hr : rstrip l = ['!']) :
      Case t rec st l ⟨flush rec st, [], [], 0, false⟩
  | remark (h : ¬ (Heading l ∨ Blank l)) (hr : ¬ (st.missing = true ∧ rstrip l = ['!'])) (hm : Remark l) : Case t rec st l st
  | under (h : ¬ (Heading l ∨ Blank l)) (hr : ¬ (st.missing = true ∧ rstrip l = ['!'])) (hm : ¬ Remark l) (hb : StartsBlank l)
      (x : Str) (hx : SameButBlanks x l) (n : Nat) (hn : 0 < n) (h0 : st.lastIndent = 0 → ¬ StartsBlank x) :
      Case t rec st l { st with lastIndent := n, lastSection := st.lastSection ++ [x] }
  | block (h : ¬ (Heading l ∨ Blank l)) (hr : ¬ (st.missing = true ∧ rstrip l = ['!'])) (hm : ¬ Remark l) (hb : ¬ StartsBlank l)
      (hs : st.missing = true) (hi : t.missingIndent.any (fun x => x l) = false) (n : Nat) (hn : 0 < n) :
      Case t rec st l { st with lastIndent := n, lastSection := st.lastSection ++ [l] }
  | top (h : ¬ (Heading l ∨ Blank l)) (hr : ¬ (st.missing = true ∧ rstrip l = ['!'])) (hm : ¬ Remark l) (hb : ¬ StartsBlank l)
      (hs : st.missing = true → t.missingIndent.any (fun x => x l) = true) :
      Case t rec st l ⟨flush rec st, l, [], 0, t.missingIndent.any (fun x => x l)⟩

theorem parseLine_case (t : Tables) (rec : List Str → List Item) (st : ParseState) (l : Str) :
    Case t rec st l (parseLine t rec st l) := by
  unfold parseLine
  simp only
  split
  · rename_i h
    exact .skip (.inl (.inl ⟨(take_prefix rfl).1 h.2, h.1⟩))
  rename_i h1
  split
  · rename_i h
    exact .skip (.inl (.inr ⟨(take_prefix rfl).1 h.2, h.1⟩))
  rename_i h2
  split
  · rename_i h
    exact .skip (.inr (blank_iff.1 h))
  rename_i h3
  have hh : ¬ (Heading l ∨ Blank l) := by
    rintro ((⟨a, b⟩ | ⟨a, b⟩) | h)
    · exact h1 ⟨b, (take_prefix rfl).2 a⟩
    · exact h2 ⟨b, (take_prefix rfl).2 a⟩
    · exact h3 (blank_iff.2 h)
  split
  · rename_i h
    exact .ends hh h.1 h.2
  rename_i h4
  split
  · rename_i h
    exact .remark hh h4 (remark_iff.1 h)
  rename_i h5
  have h5' : ¬ Remark l := fun h => h5 (remark_iff.2 h)
  split
  · rename_i h
    have hb := indent_pos.1 h
    generalize hli : (if st.lastIndent = 0 then _ else _ : Nat) = li
    have hpos : 0 < li := by rw [← hli]; split <;> omega
    split
    · rename_i h6
      refine .under hh h4 h5' hb _ ((blanks_same _ _).trans (drop_same (Nat.le_refl _))) _ hpos ?_
      intro h0
      rw [if_pos h0] at hli
      omega
    · rename_i h6
      refine .under hh h4 h5' hb _ (drop_same (Nat.le_of_not_lt h6)) _ hpos ?_
      intro h0
      rw [if_pos h0] at hli
      rw [← hli, drop_all]
      exact dropWhile_not
  rename_i h
  have hb : ¬ StartsBlank l := fun hb => h (indent_pos.2 hb)
  split
  · rename_i h7
    have := Case.top (t := t) (rec := rec) hh h4 h5' hb (fun _ => h7)
    rwa [h7] at this
  rename_i h7
  split
  · rename_i h8
    refine .block hh h4 h5' hb h8 (by simpa using h7) _ ?_
    split <;> omega
  · rename_i h8
    have := Case.top (t := t) (rec := rec) (st := st) hh h4 h5' hb (fun h => absurd h h8)
    rwa [Bool.not_eq_true _ |>.mp h7] at this

/-! ## Nothing is invented -/

/-- The commands of the lines that are meant. -/
def meantCommands (ls : List Str) : List Str := (ls.filter (fun l => decide (Meant l))).map command

/-- The commands that are pending. -/
def pending (st : ParseState) : List Str :=
  if st.lastLine = [] then [] else rstrip st.lastLine :: st.lastSection.map command

structure LineState (Q : Str → Prop) (st : ParseState) : Prop where
  sec : ∀ l ∈ st.lastSection, Q l
  last : ¬ StartsBlank st.lastLine
  zero : st.lastIndent = 0 ↔ st.lastSection = []
  first : ∀ l r, st.lastSection = l :: r → ¬ StartsBlank l
  open_ : st.missing = true → st.lastLine ≠ []

theorem lineState_init (Q : Str → Prop) : LineState Q ⟨[], [], [], 0, false⟩ :=
  ⟨nofun, by simp [StartsBlank], by simp, nofun, nofun⟩

theorem LineState.step {Q : Str → Prop} {t : Tables} {rec : List Str → List Item} {st st' : ParseState} {l : Str}
    (h : LineState Q st) (hQ : ∀ x, SameButBlanks x l → Meant l → ¬ Heading l → Q x) (hc : Case t rec st l st') :
    LineState Q st' := by
  have append : ∀ x : Str, Q x → (st.lastIndent = 0 → ¬ StartsBlank x) → ∀ n, 0 < n →
      LineState Q { st with lastIndent := n, lastSection := st.lastSection ++ [x] } := by
    intro x hx h0 n hn
    refine ⟨?_, h.last, ?_, ?_, h.open_⟩
    · intro y hy
      rcases List.mem_append.1 hy with hy | hy
      · exact h.sec y hy
      · rw [List.mem_singleton.1 hy]; exact hx
    · simp only [List.append_eq_nil_iff, List.cons_ne_self, and_false, iff_false]
      omega
    · intro y r hyr
      simp only at hyr
      cases hs : st.lastSection with
      | cons a s =>
        rw [hs, List.cons_append] at hyr
        cases hyr
        exact h.first _ _ hs
      | nil =>
        rw [hs, List.nil_append] at hyr
        cases hyr
        exact h0 (h.zero.2 hs)
  cases hc with
  | skip => exact h
  | remark => exact h
  | ends => exact ⟨nofun, by simp [StartsBlank], by simp, nofun, nofun⟩
  | under hh hr hm hb x hx n hn h0 =>
    exact append x (hQ x hx ⟨fun hb => hh (.inr hb), hm⟩ (fun hb => hh (.inl hb))) h0 n hn
  | block hh hr hm hb hs hi n hn =>
    exact append l (hQ l rfl ⟨fun hb => hh (.inr hb), hm⟩ (fun hb => hh (.inl hb))) (fun _ => hb) n hn
  | top hh hr hm hb hs =>
    exact ⟨nofun, hb, by simp, nofun, fun _ hl => hh (.inr (by rw [show l = [] from hl]; simp [Blank]))⟩

theorem meantCommands_all {ls : List Str} (h : ∀ l ∈ ls, Meant l) : meantCommands ls = ls.map command := by
  unfold meantCommands
  rw [List.filter_eq_self.2]
  intro l hl
  exact decide_eq_true (h l hl)

theorem flush_nil {rec : List Str → List Item} {st : ParseState} (h : st.lastLine = []) : flush rec st = st.ret := by
  unfold flush; rw [if_pos h]

/-- What is flushed, when sections are known to be parsed. -/
theorem flush_commands {rec : List Str → List Item} {st : ParseState} (R : List Str → List Str → Prop)
    (happ : ∀ a x, R x (st.lastSection.map command) → R (a ++ x) (a ++ st.lastSection.map command))
    (hrefl : ∀ a, R a a) (hz : st.lastIndent = 0 ↔ st.lastSection = [])
    (hrec : st.lastLine ≠ [] → R (allCommands (rec st.lastSection)) (st.lastSection.map command)) :
    R (allCommands (flush rec st)) (allCommands st.ret ++ pending st) := by
  unfold flush pending
  split
  · rw [List.append_nil]; exact hrefl _
  · rename_i hn
    split
    · rw [allCommands_append]
      simp only [allCommands, itemCommands, subCommands, List.append_nil]
      have := happ (allCommands st.ret ++ [rstrip st.lastLine]) _ (hrec hn)
      simpa using this
    · rename_i hi
      rw [allCommands_append]
      simp only [allCommands, itemCommands, subCommands, List.append_nil]
      rw [hz.1 (by omega)]
      exact hrefl _

/-- Room for the recursion. -/
def Room (st : ParseState) (N : Nat) : Prop := st.lastLine ≠ [] → st.lastSection.length + 1 ≤ N

theorem Room.step {t : Tables} {rec : List Str → List Item} {st st' : ParseState} {l : Str} {N : Nat} (h : Room st N)
    (hc : Case t rec st l st') : Room st' (N + 1) := by
  cases hc with
  | skip => exact fun hl => Nat.le_succ_of_le (h hl)
  | remark => exact fun hl => Nat.le_succ_of_le (h hl)
  | ends => exact fun hl => absurd rfl hl
  | under hh hr hm hb x hx n hn h0 => intro hl; have := h hl; simp only [List.length_append, List.length_singleton]; omega
  | block hh hr hm hb hs hi n hn => intro hl; have := h hl; simp only [List.length_append, List.length_singleton]; omega
  | top hh hr hm hb hs => intro _; simp

/-- The new pending commands. -/
theorem pending_append {st : ParseState} {x l : Str} (hx : SameButBlanks x l) (n : Nat) :
    pending { st with lastIndent := n, lastSection := st.lastSection ++ [x] } =
      pending st ++ (if st.lastLine = [] then [] else [command l]) := by
  unfold pending
  by_cases h : st.lastLine = []
  · simp [h]
  · simp [h, hx.command]

theorem pending_top {l : Str} (hn : ¬ Blank l) (hb : ¬ StartsBlank l) (ret : List Item) (m : Bool) :
    pending ⟨ret, l, [], 0, m⟩ = [command l] := by
  unfold pending
  have : l ≠ [] := by rintro rfl; exact hn (by simp [Blank])
  simp [this, command_top hb]

theorem meantCommands_cons (l : Str) (r : List Str) :
    meantCommands (l :: r) = (if Meant l then [command l] else []) ++ meantCommands r := by
  unfold meantCommands
  by_cases h : Meant l <;> simp [h]

theorem fold_commands_sub {t : Tables} {rec : List Str → List Item} {M : Nat}
    (hrec : ∀ ls, ls.length < M → (allCommands (rec ls)).Sublist (meantCommands ls)) :
    ∀ (lines : List Str) (st : ParseState) (N : Nat), LineState Meant st → Room st N → N + lines.length ≤ M →
      (allCommands (flush rec (lines.foldl (parseLine t rec) st))).Sublist (allCommands st.ret ++ pending st ++ meantCommands lines) := by
  have hflush : ∀ (st : ParseState) (N : Nat), LineState Meant st → Room st N → N ≤ M →
      (allCommands (flush rec st)).Sublist (allCommands st.ret ++ pending st) := by
    intro st N h hr hN
    refine flush_commands List.Sublist (fun a x hx => (List.append_sublist_append_left a).2 hx) List.Sublist.refl h.zero fun hl => ?_
    rw [← meantCommands_all h.sec]
    exact hrec _ (by have := hr hl; omega)
  intro lines
  induction lines with
  | nil =>
    intro st N h hr hN
    rw [List.foldl_nil, meantCommands, List.filter_nil, List.map_nil, List.append_nil]
    exact hflush st N h hr hN
  | cons l r ih =>
    intro st N h hr hN
    rw [List.foldl_cons]
    have hc := parseLine_case t rec st l
    have := ih _ (N + 1) (h.step (fun x hx hm _ => hx.meant.2 hm) hc) (hr.step hc) (by rw [List.length_cons] at hN; omega)
    refine this.trans ?_
    rw [meantCommands_cons, ← List.append_assoc]
    refine (List.append_sublist_append_right _).2 ?_
    generalize parseLine t rec st l = st' at hc
    cases hc with
    | skip => simp
    | remark => simp
    | ends hh hm hb =>
      rw [show pending ⟨flush rec st, [], [], 0, false⟩ = [] from rfl, List.append_nil]
      exact (hflush st N h hr (by omega)).trans (List.sublist_append_left _ _)
    | under hh hr' hm hb x hx n hn h0 =>
      rw [pending_append hx, if_pos (show Meant l from ⟨fun hb => hh (.inr hb), hm⟩)]
      by_cases hl : st.lastLine = []
      · simp [hl]
      · simp [hl]
    | block hh hr' hm hb hs hi n hn =>
      rw [pending_append rfl, if_pos (show Meant l from ⟨fun hb => hh (.inr hb), hm⟩)]
      by_cases hl : st.lastLine = []
      · simp [hl]
      · simp [hl]
    | top hh hr' hm hb hs =>
      rw [pending_top (fun hb => hh (.inr hb)) hb, if_pos (show Meant l from ⟨fun hb => hh (.inr hb), hm⟩)]
      exact (List.append_sublist_append_right _).2 (hflush st N h hr (by omega))

/-- No line is invented or repeated, and the order stays. -/
theorem parse_sub (t : Tables) : ∀ (n : Nat) (ls : List Str), ls.length < n →
    (allCommands (parseLines t ls)).Sublist (meantCommands ls)
  | 0, _, h => by omega
  | n + 1, ls, h => by
    rw [parseLines_eq]
    have := fold_commands_sub (t := t) (rec := parseLines t) (M := n) (fun x hx => parse_sub t n x hx) ls _ 0 (lineState_init _)
      (fun hl => absurd rfl hl) (by omega)
    simpa [allCommands, pending] using this

/-! ## Nothing is lost -/

/-- Not a heading, wherever it begins. -/
def NoHeading (l : Str) : Prop := ¬ Heading (l.dropWhile (· = ' '))

theorem heading_top {l : Str} (h : Heading l) : ¬ StartsBlank l := by
  intro hb
  unfold StartsBlank at hb
  rcases h with ⟨⟨x, rfl⟩, _⟩ | ⟨⟨x, rfl⟩, _⟩ <;> exact absurd hb (by simp)

theorem noHeading_of {l : Str} (h : NoHeading l) : ¬ Heading l := by
  intro hh
  have := heading_top hh
  apply h
  cases l with
  | nil => exact hh
  | cons c r =>
    rwa [List.dropWhile_cons_of_neg (by simp; rintro rfl; exact this rfl)]

theorem bang_remark {l : Str} (h : rstrip l = ['!']) : Remark l := by
  obtain ⟨r, hr⟩ := rstrip_split l
  rw [h] at hr
  left
  rw [hr]
  simp

theorem heard_all (t : Tables) : ∀ (ls : List Str) (block : Bool), (∀ l ∈ ls, Meant l ∧ NoHeading l) →
    heard t true block ls = ls.map command
  | [], _, _ => rfl
  | l :: r, block, h => by
    obtain ⟨⟨h1, h2⟩, h3⟩ := h l (by simp)
    have ih := fun b => heard_all t r b (fun x hx => h x (by simp [hx]))
    rw [heard, if_neg (by rintro (h | h); exacts [noHeading_of h3 h, h1 h]), if_neg (fun h => h2 (bang_remark h.2)), if_neg h2,
      List.map_cons]
    split
    · rw [if_pos rfl, ih]
    · rw [ih]

theorem fold_eq {t : Tables} {rec : List Str → List Item} {M : Nat}
    (hrec : ∀ ls, ls.length < M → (∀ l ∈ ls, Meant l ∧ NoHeading l) → (∀ l r, ls = l :: r → ¬ StartsBlank l) →
      allCommands (rec ls) = ls.map command) :
    ∀ (lines : List Str) (st : ParseState) (N : Nat), LineState (fun l => Meant l ∧ NoHeading l) st → Room st N →
      N + lines.length ≤ M → (∀ l ∈ lines, StartsBlank l → NoHeading l) →
      allCommands (flush rec (lines.foldl (parseLine t rec) st)) =
        allCommands st.ret ++ pending st ++ heard t (decide (st.lastLine ≠ [])) st.missing lines := by
  have hflush : ∀ (st : ParseState) (N : Nat), LineState (fun l => Meant l ∧ NoHeading l) st → Room st N → N ≤ M →
      allCommands (flush rec st) = allCommands st.ret ++ pending st := by
    intro st N h hr hN
    refine flush_commands (· = ·) (fun a x hx => by rw [hx]) (fun _ => rfl) h.zero fun hl => ?_
    exact hrec _ (by have := hr hl; omega) h.sec h.first
  intro lines
  induction lines with
  | nil =>
    intro st N h hr hN _
    rw [List.foldl_nil, heard, List.append_nil]
    exact hflush st N h hr hN
  | cons l r ih =>
    intro st N h hr hN hh'
    rw [List.foldl_cons]
    have hc := parseLine_case t rec st l
    have hQ : ∀ x, SameButBlanks x l → Meant l → ¬ Heading l → Meant x ∧ NoHeading x := by
      intro x hx hm hn
      refine ⟨hx.meant.2 hm, ?_⟩
      by_cases hb : StartsBlank l
      · have := hh' l (by simp) hb
        unfold NoHeading at this ⊢
        rwa [hx]
      · unfold NoHeading
        rw [hx]
        cases l with
        | nil => exact hn
        | cons c r => rwa [List.dropWhile_cons_of_neg (by simp; rintro rfl; exact hb rfl)]
    rw [ih _ (N + 1) (h.step hQ hc) (hr.step hc) (by rw [List.length_cons] at hN; omega) (fun x hx => hh' x (by simp [hx]))]
    rw [heard]
    generalize parseLine t rec st l = st' at hc
    cases hc with
    | skip hh => rw [if_pos hh]
    | remark hh hr' hm => rw [if_neg hh, if_neg hr', if_pos hm]
    | ends hh hm hb =>
      rw [if_neg hh, if_pos ⟨hm, hb⟩, hflush st N h hr (by omega)]
      simp [pending]
    | under hh hr' hm hb x hx n hn h0 =>
      rw [pending_append hx, if_neg hh, if_neg hr', if_neg hm, if_pos hb]
      by_cases hl : st.lastLine = []
      · simp [hl]
      · simp [hl]
    | block hh hr' hm hb hs hi n hn =>
      rw [pending_append rfl, if_neg hh, if_neg hr', if_neg hm, if_neg hb, hi]
      have hl := h.open_ hs
      simp [hl]
    | top hh hr' hm hb hs =>
      rw [pending_top (fun hb => hh (.inr hb)) hb, if_neg hh, if_neg hr', if_neg hm, if_neg hb, hflush st N h hr (by omega)]
      have hl : l ≠ [] := by rintro rfl; exact hh (.inr (by simp [Blank]))
      have hor : (st.missing || t.missingIndent.any (fun x => x l)) = t.missingIndent.any (fun x => x l) := by
        cases hs' : st.missing with
        | false => rfl
        | true => rw [hs hs']; rfl
      rw [hor]
      simp [hl]

theorem parse_heard (t : Tables) : ∀ (n : Nat) (ls : List Str), ls.length < n → (∀ l ∈ ls, StartsBlank l → NoHeading l) →
    allCommands (parseLines t ls) = heard t false false ls
  | 0, _, h, _ => by omega
  | n + 1, ls, h, hh => by
    rw [parseLines_eq]
    have := fold_eq (t := t) (rec := parseLines t) (M := n) (fun x hx hm hf => ?_) ls _ 0 (lineState_init _)
      (fun hl => absurd rfl hl) (by omega) hh
    · simpa [allCommands, pending] using this
    · rw [parse_heard t n x hx (fun l hl _ => (hm l hl).2)]
      cases x with
      | nil => rfl
      | cons l r =>
        obtain ⟨⟨h1, h2⟩, h3⟩ := hm l (by simp)
        rw [heard, if_neg (by rintro (h | h); exacts [noHeading_of h3 h, h1 h]), if_neg (by simp), if_neg h2,
          if_neg (hf l r rfl), heard_all t r _ (fun y hy => hm y (by simp [hy]))]
        rfl

end NcDiff.Running
