import Verif.Proof.PasteText
/-!
# The tables of the code fit the device
-/

namespace NcDiff.Running

/-! ## Lines that follow are not taken for a part of the line -/

/-- The texts of a pattern have no line break. -/
def NoBreak (ts : List Tok) : Prop := ∀ t, Tok.lit t ∈ ts → '\n' ∉ t

theorem prefix_newline {p k x : Str} (h0 : '\n' ∉ p) (hp : p <+: k ++ '\n' :: x) : p <+: k := by
  rcases Nat.le_total p.length k.length with hl | hl
  · exact List.prefix_of_prefix_length_le hp (List.prefix_append _ _) hl
  · obtain ⟨t, rfl⟩ := List.prefix_of_prefix_length_le (List.prefix_append k ('\n' :: x)) hp hl
    cases t with
    | nil => simp
    | cons c t =>
      have := (List.cons_prefix_cons.1 ((List.prefix_append_right_inj k).1 hp)).1
      subst this
      exact absurd (by simp) h0

theorem takeWhile_newline {p : Char → Bool} (hp : p '\n' = false) : ∀ (s r : Str),
    (s ++ '\n' :: r).takeWhile p = s.takeWhile p
  | [], r => by simp [hp]
  | c :: s, r => by
    rw [List.cons_append, List.takeWhile_cons, List.takeWhile_cons, takeWhile_newline hp s r]

theorem takeWhile_drop {p : Char → Bool} (s r : Str) : (s ++ r).drop (s.takeWhile p).length = s.drop (s.takeWhile p).length ++ r := by
  rw [List.drop_append_of_le_length (List.takeWhile_prefix p).length_le]

theorem matchToks_newline : ∀ {ts : List Tok} {s r : Str} {n : Nat}, NoBreak ts →
    matchToks ts (s ++ '\n' :: r) = some n → matchToks ts s = some n
  | [], s, r, n, _, h => by rw [matchToks] at h ⊢; exact h
  | .lit t :: ts, s, r, n, hb, h => by
    rw [matchToks] at h ⊢
    split at h
    · rename_i hp
      have hp' := prefix_newline (hb t (by simp)) (List.isPrefixOf_iff_prefix.1 hp)
      rw [if_pos (List.isPrefixOf_iff_prefix.2 hp')]
      rw [List.drop_append_of_le_length hp'.length_le] at h
      obtain ⟨k, hk, rfl⟩ := Option.map_eq_some_iff.1 h
      rw [matchToks_newline (fun t' ht' => hb t' (by simp [ht'])) hk]
      rfl
    · cases h
  | .nonspace :: ts, s, r, n, hb, h => by
    rw [matchToks] at h ⊢
    rw [takeWhile_newline (p := fun c => !isSpace c) (by decide), takeWhile_drop (p := fun c => !isSpace c)] at h
    split at h
    · cases h
    · rename_i hne
      rw [if_neg hne]
      obtain ⟨k, hk, rfl⟩ := Option.map_eq_some_iff.1 h
      rw [matchToks_newline (fun t' ht' => hb t' (by simp [ht'])) hk]
      rfl
  | .digits :: ts, s, r, n, hb, h => by
    rw [matchToks] at h ⊢
    rw [takeWhile_newline (p := Char.isDigit) (by decide), takeWhile_drop (p := Char.isDigit)] at h
    split at h
    · cases h
    · rename_i hne
      rw [if_neg hne]
      obtain ⟨k, hk, rfl⟩ := Option.map_eq_some_iff.1 h
      rw [matchToks_newline (fun t' ht' => hb t' (by simp [ht'])) hk]
      rfl
  | .digit :: ts, s, r, n, hb, h => by
    cases s with
    | nil =>
      rw [List.nil_append, matchToks.eq_def] at h
      simp only at h
      rw [if_neg (by decide)] at h
      cases h
    | cons c s =>
      rw [List.cons_append, matchToks.eq_def] at h
      rw [matchToks.eq_def]
      simp only at h ⊢
      split at h
      · rename_i hc
        rw [if_pos hc]
        obtain ⟨k, hk, rfl⟩ := Option.map_eq_some_iff.1 h
        rw [matchToks_newline (fun t' ht' => hb t' (by simp [ht'])) hk]
        rfl
      · cases h
  | .spaceOrEnd :: ts, s, r, n, hb, h => by
    cases s with
    | nil =>
      rw [List.nil_append, matchToks.eq_def] at h
      simp at h
    | cons c s =>
      rw [List.cons_append, matchToks.eq_def] at h
      rw [matchToks.eq_def]
      simp only at h ⊢
      split at h
      · cases ‹_ = []›
      · rename_i e
        obtain ⟨rfl, rfl⟩ := List.cons.inj e
        obtain ⟨k, hk, rfl⟩ := Option.map_eq_some_iff.1 h
        show Option.map (· + 1) (matchToks ts s) = _
        rw [matchToks_newline (fun t' ht' => hb t' (by simp [ht'])) hk]
        rfl
      · cases h

theorem search_newline {ts : List Tok} (hb : NoBreak ts) {s : Str} (h : searchToks ts s = none) (r : Str) :
    searchToks ts (s ++ '\n' :: r) = none := by
  unfold searchToks at h ⊢
  simp only at h ⊢
  rw [takeWhile_newline (p := (· = ' ')) (by decide), takeWhile_drop (p := (· = ' '))]
  rw [Option.map_eq_none_iff] at h ⊢
  cases e : matchToks ts (s.drop (s.takeWhile (· = ' ')).length ++ '\n' :: r) with
  | none => rfl
  | some n => rw [matchToks_newline hb e] at h; cases h

theorem cisco_keep {k : Str} : ∀ rx ∈ ciscoTables.overwritable, rx k = none → ∀ r, rx (k ++ '\n' :: r) = none := by
  intro rx hrx h r
  have e : ciscoTables.overwritable = [
    searchToks [.lit "username ".toList, .nonspace, .lit " privilege ".toList, .digits,
      .lit " password ".toList],
    searchToks [.lit "password ".toList], searchToks [.lit "description ".toList],
    searchToks [.lit "ip address".toList, .spaceOrEnd],
    searchToks [.lit "ipv6 address".toList, .spaceOrEnd]] := rfl
  rw [e] at hrx
  simp only [List.mem_cons, List.not_mem_nil, or_false] at hrx
  rcases hrx with rfl | rfl | rfl | rfl | rfl <;> refine search_newline ?_ h r <;> intro t ht <;>
    simp only [List.mem_cons, List.not_mem_nil, or_false, Tok.lit.injEq, reduceCtorEq, false_or, or_false] at ht
  · rcases ht with rfl | rfl | rfl <;> decide
  all_goals (subst ht; decide)

/-! ## The same beginning is found again -/

theorem search_first {c : Char} {w : Str} {ts : List Tok} (hc : c ≠ ' ') {n : Nat} (h : matchToks ts (c :: w) = some n) :
    searchToks ts (c :: w) = some ((c :: w).take n) := by
  unfold searchToks
  simp only [List.takeWhile_cons, decide_eq_true_eq, hc, if_false, List.length_nil, List.drop_zero, Nat.zero_add, h, Option.map_some]

theorem again_stops {L : Str} {r : List Tok} (hL : ∃ c w, L = c :: w ∧ isSpace c = false) (hs : Stops (.lit L :: r))
    {a b m : Str} (h : searchToks (.lit L :: r) a = some m) (hp : lstrip m <+: b) :
    searchToks (.lit L :: r) b = some (lstrip m) := by
  obtain ⟨c, w, rfl, hc⟩ := hL
  obtain ⟨n, x, _, h1, h2, h3⟩ := search_begins hc h
  obtain ⟨v, rfl⟩ := hp
  have h4 := matchToks_stops hs h1 v
  rw [← h2] at h4
  obtain ⟨y, hy⟩ := h3
  have hc' : c ≠ ' ' := by rintro rfl; exact absurd hc (by decide)
  have hl : (lstrip m).length = n := by
    rw [h2, List.length_take, Nat.min_eq_left (matchToks_le h1)]
  rw [← hy] at h4 hl ⊢
  rw [List.cons_append, List.cons_append] at h4 ⊢
  rw [search_first hc' h4]
  congr 1
  rw [← hl, ← List.cons_append, ← List.cons_append, List.take_left]

theorem again_end {L : Str} (hL : ∃ c w, L = c :: w ∧ isSpace c = false) {b m : Str}
    (hm : lstrip m = L ++ [' ']) (hp : lstrip m <+: b) : searchToks [.lit L, .spaceOrEnd] b = some (lstrip m) := by
  obtain ⟨c, w, rfl, hc⟩ := hL
  have hc' : c ≠ ' ' := by rintro rfl; exact absurd hc (by decide)
  obtain ⟨v, rfl⟩ := hp
  rw [hm]
  have h : matchToks [.lit (c :: w), .spaceOrEnd] (c :: w ++ [' '] ++ v) = some ((c :: w).length + 1) := by
    rw [matchToks, List.append_assoc, if_pos (List.isPrefixOf_iff_prefix.2 ⟨_, rfl⟩), List.drop_left]
    rw [matchToks.eq_def]
    simp [matchToks, Nat.add_comm]
  rw [List.cons_append, List.cons_append] at h ⊢
  rw [search_first hc' h, ← List.cons_append, ← List.cons_append, List.take_append_of_le_length (by simp)]
  simp

theorem end_found {L : Str} (hL : ∃ c w, L = c :: w ∧ isSpace c = false) {a m : Str}
    (h : searchToks [.lit L, .spaceOrEnd] a = some m) : lstrip m = L ∨ lstrip m = L ++ [' '] := by
  obtain ⟨c, w, rfl, hc⟩ := hL
  obtain ⟨k, x, hx, h1, h2, _⟩ := search_begins hc h
  rw [h2]
  rw [matchToks] at h1
  split at h1
  · rename_i hp
    obtain ⟨j, hj, rfl⟩ := Option.map_eq_some_iff.1 h1
    obtain ⟨v, hv⟩ := List.isPrefixOf_iff_prefix.1 hp
    rw [← hv, List.drop_left] at hj
    rw [matchToks.eq_def] at hj
    simp only at hj
    split at hj
    · rw [matchToks] at hj
      cases hj
      left
      rw [← hv]
      simp
    · rename_i s'
      rw [matchToks] at hj
      cases hj
      right
      rw [← hv, List.take_append, List.take_of_length_le (by omega)]
      simp
    · cases hj
  · cases h1

theorem lstrip_idem (s : Str) : lstrip (lstrip s) = lstrip s := by
  unfold lstrip
  induction s with
  | nil => rfl
  | cons c s ih =>
    by_cases hc : isSpace c = true
    · rw [List.dropWhile_cons_of_pos hc, ih]
    · rw [List.dropWhile_cons_of_neg hc, List.dropWhile_cons_of_neg hc]

theorem strip_lstrip (s : Str) : strip (lstrip s) = strip s := by
  unfold strip
  rw [lstrip_idem]

theorem mem_found {t : Tables} {f : Str → Option Str} (hf : f ∈ t.overwritable) {s m : Str} (h : f s = some m) : m ∈ found t s :=
  List.mem_filterMap.2 ⟨f, hf, h⟩

/-- A line with a value is not just `ip address`. -/
theorem PasteLine.valued {k : Str} (h : PasteLine ciscoTables k) : k.dropWhile (· = ' ') ≠ "ip address".toList ∧
    k.dropWhile (· = ' ') ≠ "ipv6 address".toList := by
  obtain ⟨c, r, hk, hc, _⟩ := h.good.first
  have hd : k.dropWhile (· = ' ') = k := by
    rw [hk, List.dropWhile_cons_of_neg]
    simp only [decide_eq_true_eq]
    rintro rfl
    exact absurd hc (by decide)
  rw [hd]
  constructor
  · rintro rfl
    exact absurd (h.blank "ip address".toList (by decide +kernel)) (by decide +kernel)
  · rintro rfl
    exact absurd (h.blank "ipv6 address".toList (by decide +kernel)) (by decide +kernel)

/-- What the expressions of the code find begins with a known word, and a text that begins with it has the same head. -/
theorem cisco_again {a m : Str} (ha : PasteLine ciscoTables a) (hm : m ∈ found ciscoTables a) :
    ("username ".toList <+: lstrip m ∨ "password ".toList <+: lstrip m ∨ "description ".toList <+: lstrip m ∨
      lstrip m = "ip address ".toList ∨ lstrip m = "ipv6 address ".toList) ∧
    ∀ b, lstrip m <+: b → lstrip m ∈ found ciscoTables b := by
  obtain ⟨f, hf, hfa⟩ := List.mem_filterMap.1 hm
  have e : ciscoTables.overwritable = [
    searchToks [.lit "username ".toList, .nonspace, .lit " privilege ".toList, .digits,
      .lit " password ".toList],
    searchToks [.lit "password ".toList], searchToks [.lit "description ".toList],
    searchToks [.lit "ip address".toList, .spaceOrEnd],
    searchToks [.lit "ipv6 address".toList, .spaceOrEnd]] := rfl
  have hst : Stops [.lit "username ".toList, .nonspace, .lit " privilege ".toList, .digits,
    .lit " password ".toList] := ⟨⟨_, _, rfl⟩, ⟨_, _, rfl⟩, trivial⟩
  have hbl := ha.blank m hm
  have hf' := hf
  rw [e] at hf'
  simp only [List.mem_cons, List.not_mem_nil, or_false] at hf'
  -- how the found text begins
  have hb1 : "username ".toList <+: lstrip m ∨ "password ".toList <+: lstrip m ∨ "description ".toList <+: lstrip m ∨
      lstrip m = "ip address ".toList ∨ lstrip m = "ipv6 address ".toList := by
    rcases hf' with rfl | rfl | rfl | rfl | rfl
    · obtain ⟨_, _, _, _, _, h⟩ := search_begins (by decide) hfa
      exact Or.inl h
    · obtain ⟨_, _, _, _, _, h⟩ := search_begins (by decide) hfa
      exact Or.inr (Or.inl h)
    · obtain ⟨_, _, _, _, _, h⟩ := search_begins (by decide) hfa
      exact Or.inr (Or.inr (Or.inl h))
    · rcases end_found ⟨_, _, rfl, by decide⟩ hfa with h | h
      · rw [← strip_lstrip, h] at hbl
        exact absurd hbl (by decide +kernel)
      · exact Or.inr (Or.inr (Or.inr (Or.inl h)))
    · rcases end_found ⟨_, _, rfl, by decide⟩ hfa with h | h
      · rw [← strip_lstrip, h] at hbl
        exact absurd hbl (by decide +kernel)
      · exact Or.inr (Or.inr (Or.inr (Or.inr h)))
  have again : ∀ b, lstrip m <+: b → f b = some (lstrip m) := by
    intro b hpb
    rcases hf' with rfl | rfl | rfl | rfl | rfl
    · exact again_stops ⟨_, _, rfl, by decide⟩ hst hfa hpb
    · exact again_stops ⟨_, _, rfl, by decide⟩ (show Stops [.lit _] from trivial) hfa hpb
    · exact again_stops ⟨_, _, rfl, by decide⟩ (show Stops [.lit _] from trivial) hfa hpb
    · rcases end_found ⟨_, _, rfl, by decide⟩ hfa with h | h
      · rw [← strip_lstrip, h] at hbl
        exact absurd hbl (by decide +kernel)
      · exact again_end ⟨_, _, rfl, by decide⟩ h hpb
    · rcases end_found ⟨_, _, rfl, by decide⟩ hfa with h | h
      · rw [← strip_lstrip, h] at hbl
        exact absurd hbl (by decide +kernel)
      · exact again_end ⟨_, _, rfl, by decide⟩ h hpb
  exact ⟨hb1, fun b hp => mem_found hf (again b hp)⟩

/-- For the tables of the code. -/
theorem cisco_free {k : Str} (h : found ciscoTables (k.drop 3) = []) :
    ∀ a, PasteLine ciscoTables a → ∀ m ∈ found ciscoTables a, ¬ lstrip m <+: k.drop 3 := by
  intro a ha m hm hp
  have := (cisco_again ha hm).2 _ hp
  rw [h] at this
  cases this

/-- The tables of the code. -/
theorem cisco_heads : HeadsOk ciscoTables where
  apart := by
    rw [List.pairwise_iff_getElem]
    intro i j hi hj hij a b ha hb m n hm hn
    have h := (cisco_apart (l := [a, b]) (by
      intro x hx
      simp only [List.mem_cons, List.not_mem_nil, or_false] at hx
      rcases hx with rfl | rfl
      · exact ha.valued
      · exact hb.valued)).apart
    exact (List.pairwise_iff_getElem.1 h) i j hi hj hij a (by simp) b (by simp) m n hm hn
  exclusive := by
    intro a b ha hb
    exact (cisco_apart (l := [a, b]) (by
      intro x hx
      simp only [List.mem_cons, List.not_mem_nil, or_false] at hx
      rcases hx with rfl | rfl
      · exact ha.valued
      · exact hb.valued)).exclusive a (by simp) b (by simp)
  known := by
    intro a b ha hb m hm hp
    obtain ⟨hb1, again⟩ := cisco_again ha hm
    unfold negation at hp
    split at hp
    · rename_i s hs
      have hs' := List.mem_of_find?_eq_some hs
      simp only [ciscoTables, List.mem_cons, List.not_mem_nil, or_false] at hs'
      exfalso
      have hlit : ∀ L ∈ ["username ".toList, "password ".toList, "description ".toList, "ip address ".toList,
          "ipv6 address ".toList], ∀ s ∈ ["no license boot level ".toList, "no transport input ".toList,
          "no transport output ".toList, "no ip address ".toList, "no ipv6 address ".toList],
          ("no ".toList ++ L).isPrefixOf (strip s) = false := by decide +kernel
      have hcon : ∀ L ∈ ["username ".toList, "password ".toList, "description ".toList, "ip address ".toList,
          "ipv6 address ".toList], L <+: lstrip m → False := by
        intro L hL hLm
        have h1 := hlit L hL s (by simpa using hs')
        have h2 : "no ".toList ++ L <+: strip s := ((List.prefix_append_right_inj _).2 hLm).trans hp
        rw [List.isPrefixOf_iff_prefix.2 h2] at h1
        cases h1
      rcases hb1 with h | h | h | h | h
      · exact hcon _ (by simp) h
      · exact hcon _ (by simp) h
      · exact hcon _ (by simp) h
      · exact hcon "ip address ".toList (by simp) (h ▸ List.prefix_refl _)
      · exact hcon "ipv6 address ".toList (by simp) (h ▸ List.prefix_refl _)
    · refine ⟨lstrip m, again _ ((List.prefix_append_right_inj _).1 hp), (strip_lstrip m).symm⟩

end NcDiff.Running
