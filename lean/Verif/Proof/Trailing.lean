import Verif.Proof.Layout
/-!
# Proof that white space at the ends of lines does not count
-/

namespace NcDiff.Running

theorem rstrip_cons (c : Char) (m : Str) : rstrip (c :: m) = if rstrip m = [] ∧ isSpace c = true then [] else c :: rstrip m := by
  unfold rstrip
  rw [List.reverse_cons, List.dropWhile_append]
  cases h : m.reverse.dropWhile isSpace with
  | nil =>
    cases hc : isSpace c <;> simp [hc]
  | cons a r => simp

theorem rstrip_nil {l : Str} : rstrip l = [] ↔ Blank l := by
  induction l with
  | nil => simp [Blank, rstrip]
  | cons c m ih =>
    rw [rstrip_cons]
    have : Blank (c :: m) ↔ isSpace c = true ∧ Blank m := by simp [Blank]
    rw [this, ← ih]
    split
    · rename_i h; simp [h.1, h.2]
    · rename_i h
      constructor
      · intro h'; simp at h'
      · intro h'; exact absurd ⟨h'.2, h'.1⟩ h

theorem rstrip_app {m : Str} (h : ¬ Blank m) : ∀ a : Str, rstrip (a ++ m) = a ++ rstrip m
  | [] => rfl
  | c :: a => by
    have hb : ¬ Blank (a ++ m) := fun hb => h fun c hc => hb c (by simp [hc])
    rw [List.cons_append, rstrip_cons, if_neg (fun h => hb (rstrip_nil.1 h.1)), rstrip_app h a, List.cons_append]

theorem rstrip_idem (l : Str) : rstrip (rstrip l) = rstrip l := by
  unfold rstrip
  rw [List.reverse_reverse]
  congr 1
  induction l.reverse with
  | nil => rfl
  | cons c m ih =>
    rw [List.dropWhile_cons]
    split
    · exact ih
    · rename_i hc
      rw [List.dropWhile_cons_of_neg hc]

/-- A line that is not blank, by its indentation. -/
theorem not_blank_split {l : Str} (p : Char → Bool) (hp : ∀ c, p c = true → isSpace c = true) (h : ¬ Blank l) :
    ∃ a c m m', l = a ++ c :: m ∧ rstrip l = a ++ c :: m' ∧ rstrip (c :: m) = c :: m' ∧ (∀ x ∈ a, p x = true) ∧ p c = false := by
  induction l with
  | nil => exact absurd (by simp [Blank]) h
  | cons x r ih =>
    cases hx : p x
    · have e : rstrip (x :: r) = x :: rstrip r := by
        rw [rstrip_cons, if_neg]
        intro hh
        exact h (fun c hc => by
          rcases List.mem_cons.1 hc with rfl | hc
          · exact hh.2
          · exact rstrip_nil.1 hh.1 c hc)
      exact ⟨[], x, r, rstrip r, rfl, e, e, by simp, hx⟩
    · have hr : ¬ Blank r := fun hb => h (fun c hc => by
        rcases List.mem_cons.1 hc with rfl | hc
        · exact hp _ hx
        · exact hb c hc)
      obtain ⟨a, c, m, m', e1, e2, e3, e4, e5⟩ := ih hr
      refine ⟨x :: a, c, m, m', by rw [e1]; rfl, ?_, e3, ?_, e5⟩
      · rw [rstrip_cons, if_neg (fun h => hr (rstrip_nil.1 h.1)), e2]; rfl
      · intro y hy
        rcases List.mem_cons.1 hy with rfl | hy
        · exact hx
        · exact e4 y hy

theorem strip_rstrip (l : Str) : strip (rstrip l) = strip l := by
  by_cases h : Blank l
  · rw [rstrip_nil.2 h, blank_iff.2 h]; rfl
  · obtain ⟨a, c, m, m', e1, e2, e3, e4, e5⟩ := not_blank_split isSpace (fun _ h => h) h
    unfold strip lstrip
    rw [e2, e1, List.dropWhile_append_of_pos e4, List.dropWhile_append_of_pos e4, List.dropWhile_cons_of_neg (by simp [e5]),
      List.dropWhile_cons_of_neg (by simp [e5]), ← e3, rstrip_idem]

theorem rstrip_prefix (l : Str) : rstrip l <+: l := by
  obtain ⟨r, h⟩ := rstrip_split l
  exact ⟨r, h.symm⟩

theorem head_kept {P l : Str} {n : Nat} {c : Char} {w : Str} (hP : P = c :: w) (hc : isSpace c = false) (hl : P.length = n) :
    (n < (strip (rstrip l)).length ∧ (rstrip l).take n = P) ↔ (n < (strip l).length ∧ l.take n = P) := by
  rw [strip_rstrip, take_prefix hl, take_prefix hl]
  constructor
  · exact fun h => ⟨h.1, h.2.trans (rstrip_prefix l)⟩
  · rintro ⟨h1, h2⟩
    refine ⟨h1, List.prefix_of_prefix_length_le h2 (rstrip_prefix l) ?_⟩
    obtain ⟨r, rfl⟩ := h2
    rw [hP] at h1 hl ⊢
    have : strip (c :: w ++ r) = rstrip (c :: w ++ r) := by
      unfold strip lstrip
      rw [List.cons_append, List.dropWhile_cons_of_neg (by simp [hc])]
    rw [this] at h1
    omega

theorem blanks_kept {l : Str} (h : ¬ Blank l) : (rstrip l).takeWhile (· = ' ') = l.takeWhile (· = ' ') ∧
    ((rstrip l).dropWhile (· = ' ')).head? = (l.dropWhile (· = ' ')).head? ∧
    ∀ n ≤ (l.takeWhile (· = ' ')).length, (rstrip l).drop n = rstrip (l.drop n) := by
  obtain ⟨a, c, m, m', e1, e2, e3, e4, e5⟩ := not_blank_split (fun c => decide (c = ' '))
    (fun c h => by obtain rfl := of_decide_eq_true h; decide) h
  have t1 : ∀ r : Str, (a ++ c :: r).takeWhile (· = ' ') = a := by
    intro r
    rw [List.takeWhile_append_of_pos e4, List.takeWhile_cons_of_neg (by simpa using e5), List.append_nil]
  have t2 : ∀ r : Str, (a ++ c :: r).dropWhile (· = ' ') = c :: r := by
    intro r
    rw [List.dropWhile_append_of_pos e4, List.dropWhile_cons_of_neg (by simpa using e5)]
  rw [e2, e1, t1, t1, t2, t2]
  refine ⟨rfl, rfl, fun n hn => ?_⟩
  have hb : ¬ Blank (c :: m) := by
    intro hb
    rw [rstrip_nil.2 hb] at e3
    simp at e3
  rw [List.drop_append_of_le_length hn, List.drop_append_of_le_length hn, rstrip_app hb, e3]

theorem mark_kept {l : Str} (h : ¬ Blank l) (c : Char) : startsWithMark c (rstrip l) = startsWithMark c l := by
  rw [Bool.eq_iff_iff, mark_iff, mark_iff, (blanks_kept h).2.1]

/-! ## The parser -/

/-- The state without white space at the ends of lines. -/
def ParseState.trim (st : ParseState) : ParseState :=
  { st with lastLine := rstrip st.lastLine, lastSection := st.lastSection.map rstrip }

/-- The last line is not white space. -/
structure Trimmable (t : Tables) (st : ParseState) : Prop where
  last : st.lastLine = [] ∨ ¬ Blank st.lastLine
  sect : ∀ x ∈ st.lastSection, Steady t x

theorem Steady.of_same {t : Tables} {x l : Str} (h : Steady t l) (hx : SameButBlanks x l) : Steady t x :=
  fun y hy => h y (hy.trans hx)

theorem Trimmable.step {t : Tables} {rec : List Str → List Item} {st : ParseState} {l : Str} (h : Trimmable t st) (hl : Steady t l) :
    Trimmable t (parseLine t rec st l) := by
  have hc := parseLine_case t rec st l
  generalize parseLine t rec st l = st' at hc
  cases hc with
  | skip => exact h
  | ends => exact ⟨.inl rfl, by simp⟩
  | remark => exact h
  | under _ _ _ _ x hx =>
    refine ⟨h.last, fun y hy => ?_⟩
    rcases List.mem_append.1 hy with hy | hy
    · exact h.sect y hy
    · rw [List.mem_singleton.1 hy]; exact hl.of_same hx
  | block =>
    refine ⟨h.last, fun y hy => ?_⟩
    rcases List.mem_append.1 hy with hy | hy
    · exact h.sect y hy
    · rw [List.mem_singleton.1 hy]; exact hl
  | top hb => exact ⟨.inr fun h => hb (.inr h), by simp⟩

theorem flush_trim {t : Tables} {rec : List Str → List Item} (hr : ∀ ls, (∀ l ∈ ls, Steady t l) → rec (ls.map rstrip) = rec ls)
    {st : ParseState} (h : Trimmable t st) : flush rec st.trim = flush rec st := by
  unfold flush
  rcases h.last with h0 | h0
  · have : st.trim.lastLine = [] := by simp [ParseState.trim, h0, rstrip]
    rw [if_pos this, if_pos h0]; rfl
  · have h1 : st.lastLine ≠ [] := fun he => h0 (by simp [he, Blank])
    have h2 : st.trim.lastLine ≠ [] := fun he => h0 (rstrip_nil.1 he)
    rw [if_neg h1, if_neg h2]
    show (if 0 < st.lastIndent then st.ret ++ [Item.mk (rstrip (rstrip st.lastLine)) (some (rec (st.lastSection.map rstrip))) .ctx]
      else st.ret ++ [Item.mk (rstrip (rstrip st.lastLine)) none .ctx]) = _
    rw [rstrip_idem, hr _ h.sect]

theorem step_trim {t : Tables} {rec : List Str → List Item} (hr : ∀ ls, (∀ l ∈ ls, Steady t l) → rec (ls.map rstrip) = rec ls)
    {st : ParseState} (h : Trimmable t st) {l : Str} (hl : Steady t l) :
    parseLine t rec st.trim (rstrip l) = (parseLine t rec st l).trim := by
  have hf := flush_trim hr h
  unfold parseLine
  have p1 := head_kept (P := "Building configuration".toList) (l := l) (c := 'B') (n := 22) rfl (by decide) rfl
  have p2 := head_kept (P := "Current configuration".toList) (l := l) (c := 'C') (n := 21) rfl (by decide) rfl
  simp only [p1, p2]
  rw [strip_rstrip, rstrip_idem]
  by_cases c1 : 22 < (strip l).length ∧ l.take 22 = "Building configuration".toList
  · rw [if_pos c1, if_pos c1]
  rw [if_neg c1, if_neg c1]
  by_cases c2 : 21 < (strip l).length ∧ l.take 21 = "Current configuration".toList
  · rw [if_pos c2, if_pos c2]
  rw [if_neg c2, if_neg c2]
  by_cases c3 : strip l = []
  · rw [if_pos c3, if_pos c3]
  rw [if_neg c3, if_neg c3]
  have hb : ¬ Blank l := fun h => c3 (blank_iff.2 h)
  have hm : st.trim.missing = st.missing := rfl
  have hi : st.trim.lastIndent = st.lastIndent := rfl
  obtain ⟨k1, k2, k3⟩ := blanks_kept hb
  rw [hm, hf, mark_kept hb, mark_kept hb, k1, hi, hl l rfl]
  by_cases c4 : st.missing = true ∧ rstrip l = ['!']
  · rw [if_pos c4, if_pos c4]; rfl
  rw [if_neg c4, if_neg c4]
  by_cases c5 : startsWithMark '!' l = true ∨ startsWithMark '%' l = true
  · rw [if_pos c5, if_pos c5]
  rw [if_neg c5, if_neg c5]
  by_cases c6 : 0 < (l.takeWhile (· = ' ')).length
  · rw [if_pos c6, if_pos c6]
    generalize (if st.lastIndent = 0 then (l.takeWhile (· = ' ')).length else st.lastIndent) = li
    by_cases c7 : (l.takeWhile (· = ' ')).length < li
    · rw [if_pos c7, if_pos c7, k3 _ (Nat.le_refl _)]
      have hd : ¬ Blank (l.drop (l.takeWhile (· = ' ')).length) := by
        rw [drop_all]
        exact fun h => hb (blank_drop.2 h)
      simp only [ParseState.trim, List.map_append, List.map_cons, List.map_nil, rstrip_app hd]
    · rw [if_neg c7, if_neg c7, k3 _ (Nat.le_of_not_lt c7)]
      simp only [ParseState.trim, List.map_append, List.map_cons, List.map_nil]
  rw [if_neg c6, if_neg c6]
  by_cases c8 : t.missingIndent.any (fun r => r l) = true
  · rw [if_pos c8, if_pos c8]; rfl
  rw [if_neg c8, if_neg c8]
  by_cases c9 : st.missing = true
  · rw [if_pos c9, if_pos c9]
    simp only [ParseState.trim, List.map_append, List.map_cons, List.map_nil]
  · rw [if_neg c9, if_neg c9]; rfl

theorem parse_trim {t : Tables} : ∀ (n : Nat) (ls : List Str), (∀ l ∈ ls, Steady t l) →
    config2listFuel t n (ls.map rstrip) = config2listFuel t n ls
  | 0, _, _ => rfl
  | n + 1, ls, h => by
    have hr := parse_trim (t := t) n
    have key : ∀ (ls : List Str) (st : ParseState), (∀ l ∈ ls, Steady t l) → Trimmable t st →
        (ls.map rstrip).foldl (parseLine t (config2listFuel t n)) st.trim = (ls.foldl (parseLine t (config2listFuel t n)) st).trim ∧
        Trimmable t (ls.foldl (parseLine t (config2listFuel t n)) st) := by
      intro ls
      induction ls with
      | nil => exact fun st _ hs => ⟨rfl, hs⟩
      | cons l r ih =>
        intro st hl hs
        rw [List.map_cons, List.foldl_cons, List.foldl_cons, step_trim hr hs (hl l (by simp))]
        exact ih _ (fun x hx => hl x (by simp [hx])) (hs.step (hl l (by simp)))
    obtain ⟨k1, k2⟩ := key ls ⟨[], [], [], 0, false⟩ h ⟨.inl rfl, by simp⟩
    rw [config2listFuel, config2listFuel]
    have e : (⟨[], [], [], 0, false⟩ : ParseState).trim = ⟨[], [], [], 0, false⟩ := rfl
    rw [e] at k1
    rw [k1, flush_trim hr k2]

theorem parse_layout {t : Tables} {s : Str} (h : ∀ l ∈ busyLines s, Steady t l) :
    config2list t s = parseLines t ((busyLines s).map rstrip) := by
  rw [parse_busy, parseLines, parseLines, List.length_map, parse_trim _ _ h]

/-! ## The table of the code -/

theorem client_search (x : Str) : ciscoTables.missingIndent.any (fun r => r x) = "client ".toList.isPrefixOf (x.dropWhile (· = ' ')) := by
  show ((searchToks (litPat "client ") x).isSome || false) = _
  unfold searchToks litPat
  simp only [Option.isSome_map, Bool.or_false, drop_all]
  rw [matchToks]
  cases h : "client ".toList.isPrefixOf (x.dropWhile (· = ' ')) <;> simp [matchToks]

theorem client_prefix {y : Str} (h : rstrip y ≠ "client".toList) : "client ".toList <+: rstrip y ↔ "client ".toList <+: y := by
  constructor
  · exact fun k => k.trans (rstrip_prefix y)
  · rintro ⟨z, rfl⟩
    by_cases hz : Blank z
    · exfalso
      apply h
      have hb : Blank (' ' :: z) := fun c hc => by
        rcases List.mem_cons.1 hc with rfl | hc
        · decide
        · exact hz c hc
      have e : rstrip ('t' :: ' ' :: z) = ['t'] := by
        rw [rstrip_cons, rstrip_nil.2 hb, if_neg (by decide)]
      have hn : ¬ Blank ('t' :: ' ' :: z) := fun k => by
        rw [rstrip_nil.2 k] at e
        simp at e
      have := rstrip_app hn "clien".toList
      rw [e] at this
      exact this
    · rw [rstrip_app hz]
      exact List.prefix_append _ _

/-- White space at the end of a line does not count for the table of the code, unless the command is `client` and nothing else. -/
theorem steady_cisco {l : Str} (h : command l ≠ "client".toList) : Steady ciscoTables l := by
  intro x hx
  rw [client_search, client_search]
  have h' : rstrip (x.dropWhile (· = ' ')) ≠ "client".toList := by rw [hx]; exact h
  by_cases hb : Blank x
  · rw [rstrip_nil.2 hb]
    have hd := blank_drop.1 hb
    have : ¬ "client ".toList <+: x.dropWhile (· = ' ') := by
      rintro ⟨z, hz⟩
      have := hd 'c' (by rw [← hz]; simp)
      exact absurd this (by decide)
    rw [Bool.eq_iff_iff, List.isPrefixOf_iff_prefix, List.isPrefixOf_iff_prefix]
    exact iff_of_false (by decide) this
  · obtain ⟨k1, _, k3⟩ := blanks_kept hb
    have e : (rstrip x).dropWhile (· = ' ') = rstrip (x.dropWhile (· = ' ')) := by
      rw [← drop_all, k1, k3 _ (Nat.le_refl _), drop_all]
    rw [Bool.eq_iff_iff, List.isPrefixOf_iff_prefix, List.isPrefixOf_iff_prefix, e]
    exact client_prefix h'

end NcDiff.Running
