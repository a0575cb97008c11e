import Verif.Spec.Render
/-!
# Parsing of running-config text
-/

namespace NcDiff.Running

/-! ## The bound of the recursion is enough -/

/-- `rec` is only used on sections shorter than the text. -/
def SecOk (n : Nat) (st : ParseState) : Prop := st.lastLine = [] ∨ st.lastSection.length < n

theorem flush_congr {f g : List Str → List Item} {n N : Nat} (h : ∀ l, l.length < N → f l = g l)
    {st : ParseState} (hs : SecOk n st) (hn : n ≤ N) : flush f st = flush g st := by
  unfold flush
  split
  · rfl
  · rename_i he
    rcases hs with hs | hs
    · exact absurd hs he
    · rw [h _ (by omega)]

theorem parseLine_congr {t : Tables} {f g : List Str → List Item} {n N : Nat}
    (h : ∀ l, l.length < N → f l = g l) {st : ParseState} (hs : SecOk n st) (hn : n ≤ N) (line : Str) :
    parseLine t f st line = parseLine t g st line ∧ SecOk (n + 1) (parseLine t f st line) := by
  have hf := flush_congr h hs hn
  unfold parseLine
  rw [hf]
  refine ⟨rfl, ?_⟩
  have hs1 : SecOk (n + 1) st := by
    rcases hs with hs | hs
    · exact Or.inl hs
    · exact Or.inr (by omega)
  have app : ∀ (x : Str) (li : Nat), SecOk (n + 1) { st with lastIndent := li, lastSection := st.lastSection ++ [x] } := by
    intro x li
    rcases hs with hs | hs
    · exact Or.inl hs
    · exact Or.inr (by simp; omega)
  simp only
  split
  · exact hs1
  split
  · exact hs1
  split
  · exact hs1
  split
  · exact Or.inl rfl
  split
  · exact hs1
  split
  · split <;> split <;> exact app _ _
  split
  · exact Or.inr (by simp)
  split
  · exact app _ _
  · exact Or.inr (by simp)

theorem foldl_congr {t : Tables} {f g : List Str → List Item} {N : Nat}
    (h : ∀ l, l.length < N → f l = g l) : ∀ (lines : List Str) (n : Nat) (st : ParseState),
    SecOk n st → n + lines.length ≤ N →
    lines.foldl (parseLine t f) st = lines.foldl (parseLine t g) st ∧
      SecOk (n + lines.length) (lines.foldl (parseLine t f) st)
  | [], n, st, hs, _ => ⟨rfl, hs⟩
  | a :: r, n, st, hs, hn => by
    rw [List.length_cons] at hn
    obtain ⟨h1, h2⟩ := parseLine_congr (t := t) h hs (by omega) a
    obtain ⟨h3, h4⟩ := foldl_congr h r (n + 1) (parseLine t f st a) h2 (by omega)
    rw [List.foldl_cons, List.foldl_cons, ← h1, List.length_cons]
    exact ⟨h3, by rw [show n + (r.length + 1) = n + 1 + r.length by omega]; exact h4⟩

/-- More fuel than lines never changes the result. -/
theorem config2list_fuel (t : Tables) : ∀ (n m : Nat) (lines : List Str), lines.length < n →
    lines.length < m → config2listFuel t n lines = config2listFuel t m lines
  | 0, _, _, h, _ => by omega
  | _ + 1, 0, _, _, h => by omega
  | n + 1, m + 1, lines, h1, h2 => by
    have h : ∀ l : List Str, l.length < lines.length → config2listFuel t n l = config2listFuel t m l :=
      fun l hl => config2list_fuel t n m l (by omega) (by omega)
    unfold config2listFuel
    obtain ⟨h3, h4⟩ := foldl_congr (t := t) h lines 0 ⟨[], [], [], 0, false⟩ (Or.inl rfl) (by omega)
    rw [← h3]
    exact flush_congr h h4 (by omega)

/-- Parsing lines, without a bound. -/
def parseLines (t : Tables) (lines : List Str) : List Item := config2listFuel t (lines.length + 1) lines

theorem parseLines_eq (t : Tables) (lines : List Str) : parseLines t lines =
    flush (parseLines t) (lines.foldl (parseLine t (parseLines t)) ⟨[], [], [], 0, false⟩) := by
  have h : ∀ l : List Str, l.length < lines.length → config2listFuel t lines.length l = parseLines t l :=
    fun l hl => config2list_fuel t _ _ l hl (by omega)
  show config2listFuel t (lines.length + 1) lines = _
  rw [config2listFuel]
  obtain ⟨h3, h4⟩ := foldl_congr (t := t) h lines 0 ⟨[], [], [], 0, false⟩ (Or.inl rfl) (by omega)
  rw [← h3]
  exact flush_congr h h4 (by omega)

/-! ## Splitting lines -/

theorem splitLinesGo_line : ∀ (k cur r : Str), (∀ c ∈ k, isBreak c = false) →
    splitLinesGo cur (k ++ '\n' :: r) = (cur.reverse ++ k) :: splitLinesGo [] r
  | [], cur, r, _ => by
    rw [List.nil_append, splitLinesGo]
    · simp [isBreak]
    · intro r' h; simp at h
  | c :: k, cur, r, h => by
    have hc : isBreak c = false := h c (by simp)
    rw [List.cons_append, splitLinesGo]
    · rw [hc]
      simp only [Bool.false_eq_true, if_false]
      rw [splitLinesGo_line k (c :: cur) r (fun x hx => h x (by simp [hx]))]
      simp
    · intro r' h1
      subst h1
      simp [isBreak] at hc

theorem splitLines_unlines : ∀ (ls : List Str), (∀ l ∈ ls, ∀ c ∈ l, isBreak c = false) →
    splitLines (unlines ls) = ls
  | [], _ => rfl
  | l :: ls, h => by
    unfold splitLines
    have : unlines (l :: ls) = l ++ '\n' :: unlines ls := by simp [unlines]
    rw [this, splitLinesGo_line l [] _ (h l (by simp))]
    simp only [List.reverse_nil, List.nil_append, List.cons.injEq, true_and]
    exact splitLines_unlines ls (fun x hx => h x (by simp [hx]))

/-! ## Lines -/

theorem GoodLine.strip {t : Tables} {k : Str} (h : GoodLine t k) : strip k = k := by
  obtain ⟨c, r, rfl, hc, _⟩ := h.first
  unfold Running.strip lstrip
  rw [List.dropWhile_cons_of_neg (by simp [hc])]
  exact h.last

theorem lstrip_blanks (n : Nat) (k : Str) : lstrip (List.replicate n ' ' ++ k) = lstrip k := by
  induction n with
  | zero => rfl
  | succ n ih =>
    rw [List.replicate_succ, List.cons_append, lstrip, List.dropWhile_cons_of_pos (by decide)]
    exact ih

theorem strip_blanks (n : Nat) (k : Str) : strip (List.replicate n ' ' ++ k) = strip k := by
  unfold strip; rw [lstrip_blanks]

theorem dropBlanks (n : Nat) (k : Str) :
    (List.replicate n ' ' ++ k).dropWhile (· = ' ') = k.dropWhile (· = ' ') := by
  induction n with
  | zero => rfl
  | succ n ih =>
    rw [List.replicate_succ, List.cons_append, List.dropWhile_cons_of_pos (by decide)]
    exact ih

theorem takeBlanks (n : Nat) (k : Str) :
    (List.replicate n ' ' ++ k).takeWhile (· = ' ') = List.replicate n ' ' ++ k.takeWhile (· = ' ') := by
  induction n with
  | zero => rfl
  | succ n ih =>
    rw [List.replicate_succ, List.cons_append, List.takeWhile_cons_of_pos (by decide), ih]
    rfl

/-- A good line, indented. -/
structure Indented (t : Tables) (n : Nat) (k line : Str) : Prop where
  good : GoodLine t k
  eq : line = List.replicate n ' ' ++ k

section
variable {t : Tables} {n : Nat} {k line : Str} (h : Indented t n k line)
include h

theorem Indented.ne_nil : strip line ≠ [] := by
  obtain ⟨c, r, hk, _⟩ := h.good.first
  rw [h.eq, strip_blanks, h.good.strip, hk]; simp

theorem Indented.ind : (line.takeWhile (· = ' ')).length = n := by
  obtain ⟨c, r, hk, hc, _⟩ := h.good.first
  have : ¬ c = ' ' := by rintro rfl; simp [isSpace] at hc
  rw [h.eq, takeBlanks, hk, List.takeWhile_cons_of_neg (by simp [this])]; simp

theorem Indented.mark {x : Char} (hx : x = '!' ∨ x = '%') : startsWithMark x line = false := by
  obtain ⟨c, r, hk, hc, h1, h2⟩ := h.good.first
  have : ¬ c = ' ' := by rintro rfl; simp [isSpace] at hc
  unfold startsWithMark
  rw [h.eq, dropBlanks, hk, List.dropWhile_cons_of_neg (by simp [this])]
  rcases hx with rfl | rfl
  · simpa using h1
  · simpa using h2

theorem Indented.header (s : Str) (hs : ∃ c r, s = c :: r ∧ c ≠ ' ') (m : Nat) (hm : s.length = m)
    (hk : ¬ s <+: k) : ¬ line.take m = s := by
  intro he
  cases n with
  | zero =>
    have e : line = k := by rw [h.eq]; rfl
    rw [e] at he
    exact hk (by rw [← he]; exact List.take_prefix _ _)
  | succ n =>
    obtain ⟨c, r, rfl, hc⟩ := hs
    cases m with
    | zero => simp at hm
    | succ m =>
      rw [h.eq, List.replicate_succ, List.cons_append, List.take_succ_cons] at he
      simp only [List.cons.injEq] at he
      exact hc he.1.symm
end

/-- An indented line in a section. -/
theorem parseLine_indented {t : Tables} {f : List Str → List Item} {st : ParseState} {n : Nat} {k line : Str}
    (h : Indented t n k line) (hn : 2 ≤ n) (hi : st.lastIndent = 0 ∧ n = 2 ∨ st.lastIndent = 2)
    (hm : st.missing = false) :
    parseLine t f st line = { st with lastIndent := 2, lastSection := st.lastSection ++ [line.drop 2] } := by
  unfold parseLine
  simp only [h.ind]
  have h1 := h.header "Building configuration".toList ⟨_, _, rfl, by decide⟩ 22 rfl h.good.header.1
  have h2 := h.header "Current configuration".toList ⟨_, _, rfl, by decide⟩ 21 rfl h.good.header.2
  rw [if_neg (fun x => h1 x.2), if_neg (fun x => h2 x.2), if_neg h.ne_nil, if_neg (by simp [hm]),
    if_neg (by rw [h.mark (Or.inl rfl), h.mark (Or.inr rfl)]; simp), if_pos (by omega)]
  rcases hi with ⟨hi, rfl⟩ | hi
  · simp [hi]
  · simp only [hi]
    rw [if_neg (by decide : ¬ (2 = 0)), if_neg (by omega)]

/-- A line without indentation. -/
theorem parseLine_top {t : Tables} {f : List Str → List Item} {st : ParseState} {k : Str}
    (h : GoodLine t k) (hm : st.missing = false) :
    parseLine t f st k = ⟨flush f st, k, [], 0, false⟩ := by
  have h' : Indented t 0 k k := ⟨h, rfl⟩
  unfold parseLine
  simp only [h'.ind]
  have h1 := h'.header "Building configuration".toList ⟨_, _, rfl, by decide⟩ 22 rfl h.header.1
  have h2 := h'.header "Current configuration".toList ⟨_, _, rfl, by decide⟩ 21 rfl h.header.2
  rw [if_neg (fun x => h1 x.2), if_neg (fun x => h2 x.2), if_neg h'.ne_nil, if_neg (by simp [hm]),
    if_neg (by rw [h'.mark (Or.inl rfl), h'.mark (Or.inr rfl)]; simp), if_neg (by omega), if_neg, if_neg (by simp [hm])]
  rw [List.any_eq_true]
  rintro ⟨r, hr, hx⟩
  rw [h.indented r hr] at hx
  cases hx

/-! ## Rendered lines -/

mutual
theorem textLines_shift (n : Nat) : ∀ l, textLines (n + 1) l = (textLines n l).map (fun x => ' ' :: ' ' :: x)
  | [] => rfl
  | a :: r => by
    rw [textLines, textLines, List.map_append, itemLines_shift n a, textLines_shift n r]
theorem itemLines_shift (n : Nat) : ∀ a, itemLines (n + 1) a = (itemLines n a).map (fun x => ' ' :: ' ' :: x)
  | .mk k s i => by
    rw [itemLines, itemLines, List.map_cons, subLines_shift n s]
    rw [show 2 * (n + 1) = 2 * n + 1 + 1 by omega, List.replicate_succ, List.replicate_succ]
    rfl
theorem subLines_shift (n : Nat) : ∀ s, subLines (n + 1) s = (subLines n s).map (fun x => ' ' :: ' ' :: x)
  | none => rfl
  | some l => by rw [subLines, subLines, textLines_shift (n + 1) l]
end

theorem GoodText.lines {t : Tables} {l : List Item} (h : GoodText t l) : ∀ n, ∀ x ∈ textLines n l,
    ∃ k m, n ≤ m ∧ Indented t (2 * m) k x := by
  induction h with
  | nil => intro n x hx; simp [textLines] at hx
  | leaf hk _ ih =>
    intro n x hx
    simp only [textLines, itemLines, subLines, List.mem_append, List.mem_cons, List.not_mem_nil, or_false] at hx
    rcases hx with rfl | hx
    · exact ⟨_, n, Nat.le_refl _, hk, rfl⟩
    · exact ih n x hx
  | node hk _ _ _ ih1 ih2 =>
    intro n x hx
    simp only [textLines, itemLines, subLines, List.mem_append, List.mem_cons] at hx
    rcases hx with (rfl | hx) | hx
    · exact ⟨_, n, Nat.le_refl _, hk, rfl⟩
    · obtain ⟨k, m, hm, hx⟩ := ih1 (n + 1) x hx
      exact ⟨k, m, by omega, hx⟩
    · exact ih2 n x hx

/-- The first line of a section is at its own depth. -/
theorem GoodText.head {t : Tables} {l : List Item} (h : GoodText t l) (hl : l ≠ []) (n : Nat) :
    ∃ k x r, textLines n l = x :: r ∧ Indented t (2 * n) k x := by
  cases h with
  | nil => exact absurd rfl hl
  | leaf hk _ => exact ⟨_, _, _, rfl, hk, rfl⟩
  | node hk _ _ _ => exact ⟨_, _, _, rfl, hk, rfl⟩

/-- The lines of a section, once the first has been read. -/
theorem fold_section {t : Tables} {f : List Str → List Item} : ∀ (ls : List Str) (st : ParseState),
    st.missing = false → st.lastIndent = 2 → (∀ x ∈ ls, ∃ k m, 1 ≤ m ∧ Indented t (2 * m) k x) →
    ls.foldl (parseLine t f) st = { st with lastSection := st.lastSection ++ ls.map (·.drop 2) }
  | [], st, _, _, _ => by simp
  | x :: r, st, hm, hi, h => by
    obtain ⟨k, m, hm1, hx⟩ := h x (by simp)
    rw [List.foldl_cons, parseLine_indented hx (by omega) (Or.inr hi) hm,
      fold_section r { st with lastIndent := 2, lastSection := st.lastSection ++ [x.drop 2] } hm rfl (fun y hy => h y (by simp [hy]))]
    simp [hi]

theorem fold_sub {t : Tables} {f : List Str → List Item} {l : List Item} (h : GoodText t l) (hl : l ≠ [])
    (st : ParseState) (hm : st.missing = false) (hi : st.lastIndent = 0) :
    (textLines 1 l).foldl (parseLine t f) st =
      { st with lastIndent := 2, lastSection := st.lastSection ++ textLines 0 l } := by
  obtain ⟨k, x, r, he, hx⟩ := h.head hl 1
  have hd : (textLines 1 l).map (·.drop 2) = textLines 0 l := by
    rw [textLines_shift 0 l, List.map_map]
    have : ((fun x : Str => x.drop 2) ∘ fun x => ' ' :: ' ' :: x) = id := by funext y; rfl
    rw [this, List.map_id]
  rw [← hd, he, List.foldl_cons, parseLine_indented hx (by omega) (Or.inl ⟨hi, rfl⟩) hm,
    fold_section r { st with lastIndent := 2, lastSection := st.lastSection ++ [x.drop 2] } hm rfl]
  · simp
  · intro y hy
    obtain ⟨k', m, h1, h2⟩ := h.lines 1 y (by rw [he]; exact List.mem_cons_of_mem _ hy)
    exact ⟨k', m, h1, h2⟩

/-- Parsing the lines of a good text, from any state at a line boundary. -/
theorem fold_good {t : Tables} {l : List Item} (h : GoodText t l) :
    parseLines t (textLines 0 l) = l ∧ ∀ st : ParseState, st.missing = false →
      flush (parseLines t) ((textLines 0 l).foldl (parseLine t (parseLines t)) st) =
        flush (parseLines t) st ++ l := by
  have key : (∀ st : ParseState, st.missing = false →
      flush (parseLines t) ((textLines 0 l).foldl (parseLine t (parseLines t)) st) =
        flush (parseLines t) st ++ l) → parseLines t (textLines 0 l) = l := by
    intro h1
    rw [parseLines_eq, h1 ⟨[], [], [], 0, false⟩ rfl]; rfl
  have main : ∀ st : ParseState, st.missing = false →
      flush (parseLines t) ((textLines 0 l).foldl (parseLine t (parseLines t)) st) =
        flush (parseLines t) st ++ l := by
    induction h with
    | nil => intro st _; simp [textLines]
    | @leaf k l hk _ ih =>
      intro st hm
      have e : textLines 0 (.mk k none .ctx :: l) = k :: textLines 0 l := rfl
      have hn : k ≠ [] := by obtain ⟨c, r, rfl, _⟩ := hk.first; simp
      rw [e, List.foldl_cons, parseLine_top hk hm, ih (fun h1 => by rw [parseLines_eq, h1 ⟨[], [], [], 0, false⟩ rfl]; rfl) _ rfl]
      simp [flush, hn, hk.last]
    | @node k s l hk hs hgs _ ih1 ih2 =>
      intro st hm
      have e : textLines 0 (.mk k (some s) .ctx :: l) = k :: (textLines 1 s ++ textLines 0 l) := rfl
      have hn : k ≠ [] := by obtain ⟨c, r, rfl, _⟩ := hk.first; simp
      have hr : parseLines t (textLines 0 s) = s := by
        rw [parseLines_eq, ih1 (fun h1 => by rw [parseLines_eq, h1 ⟨[], [], [], 0, false⟩ rfl]; rfl) _ rfl]; rfl
      rw [e, List.foldl_cons, parseLine_top hk hm, List.foldl_append, fold_sub hgs hs _ rfl rfl,
        ih2 (fun h1 => by rw [parseLines_eq, h1 ⟨[], [], [], 0, false⟩ rfl]; rfl) _ rfl]
      simp [flush, hn, hk.last, hr]
  exact ⟨key main, main⟩

theorem Indented.noBreak {t : Tables} {n : Nat} {k x : Str} (h : Indented t n k x) :
    ∀ c ∈ x, isBreak c = false := by
  intro c hc
  rw [h.eq, List.mem_append] at hc
  rcases hc with hc | hc
  · rw [(List.mem_replicate.1 hc).2]; decide
  · exact h.good.oneLine c hc

/-- Parsing the rendered text of good lines gives the lines. -/
theorem config2list_unlines {t : Tables} {l : List Item} (h : GoodText t l) :
    config2list t (unlines (textLines 0 l)) = l := by
  unfold config2list
  rw [splitLines_unlines]
  · exact (fold_good h).1
  · intro x hx
    obtain ⟨k, m, _, h1⟩ := h.lines 0 x hx
    exact h1.noBreak

/-! ## What the code prints -/

theorem indent_unlines : ∀ (ls : List Str), (∀ l ∈ ls, ∀ c ∈ l, isBreak c = false) →
    (∀ l ∈ ls, ∃ r, l = ' ' :: r) → indent (unlines ls) = unlines (ls.map (fun x => ' ' :: ' ' :: x))
  | ls, h1, h2 => by
    unfold indent
    rw [splitLines_unlines ls h1]
    clear h1
    induction ls with
    | nil => rfl
    | cons l ls ih =>
      obtain ⟨r, rfl⟩ := h2 l (by simp)
      rw [List.flatMap_cons, ih (fun x hx => h2 x (by simp [hx]))]
      simp [unlines, indentLine]

theorem unlines_append (a b : List Str) : unlines (a ++ b) = unlines a ++ unlines b := by
  simp [unlines]

/-- `list2config` without marks renders at depth one. -/
theorem list2config_eq {t : Tables} {l : List Item} (h : GoodText t l) :
    list2config none l = unlines (textLines 1 l) := by
  induction h with
  | nil => rfl
  | @leaf k l hk _ ih =>
    have hn : k ≠ [] := by obtain ⟨c, r, rfl, _⟩ := hk.first; simp
    rw [list2config, ih, item2config, if_neg hn]
    simp [linePrefix, localType, sub2config, textLines, itemLines, subLines, unlines]
  | @node k s l hk hs hgs _ ih1 ih2 =>
    have hn : k ≠ [] := by obtain ⟨c, r, rfl, _⟩ := hk.first; simp
    rw [list2config, ih2, item2config, if_neg hn]
    have e : indent (unlines (textLines 1 s)) = unlines (textLines 2 s) := by
      rw [textLines_shift 1 s]
      apply indent_unlines
      · intro x hx
        obtain ⟨k, m, _, h1⟩ := hgs.lines 1 x hx
        exact h1.noBreak
      · intro x hx
        obtain ⟨k, m, h0, h1⟩ := hgs.lines 1 x hx
        obtain ⟨m, rfl⟩ := Nat.exists_eq_add_of_le h0
        exact ⟨_, by rw [h1.eq, show 2 * (1 + m) = (2 * m + 1) + 1 by omega, List.replicate_succ, List.cons_append]⟩
    have : sub2config (localType none .ctx) (some s) = unlines (textLines 2 s) := by
      rw [sub2config]; exact (congrArg indent ih1).trans e
    rw [this, textLines, itemLines, subLines, unlines_append]
    simp [linePrefix, unlines]

end NcDiff.Running
