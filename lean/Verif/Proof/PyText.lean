import Verif.Spec.PyText
import Verif.Proof.Regex
/-!
# The model's functions on text are those of Python
-/

namespace NcDiff.PyText

open Running (isBreak splitLines splitLinesGo replaceAll replaceGo strip lstrip rstrip isSpace)

theorem of_takeWhile {p : Char → Bool} {c : Char} : ∀ {s : Text}, c ∈ s.takeWhile p → p c = true
  | x :: r, h => by
    rw [List.takeWhile_cons] at h
    split at h
    · rename_i hx
      rcases List.mem_cons.1 h with rfl | h
      · exact hx
      · exact of_takeWhile h
    · cases h

theorem isBreak_iff (c : Char) : isBreak c = true ↔ c ∈ boundaries := by
  have key : ∀ n : Nat, (Char.ofNat n).toNat = n → (c = Char.ofNat n ↔ c.toNat = n) := by
    intro n hn
    constructor
    · rintro rfl
      exact hn
    · rintro rfl
      exact (Char.ofNat_toNat c).symm
  unfold boundaries isBreak
  simp only [List.map_cons, List.map_nil, List.mem_cons, List.not_mem_nil, or_false]
  rw [key 10 (by decide), key 11 (by decide), key 12 (by decide), key 13 (by decide), key 28 (by decide), key 29 (by decide),
    key 30 (by decide), key 0x85 (by decide), key 0x2028 (by decide), key 0x2029 (by decide)]
  simp only [Bool.or_eq_true, Bool.and_eq_true, decide_eq_true_eq]
  omega

theorem not_break {c : Char} : c ∉ boundaries ↔ isBreak c = false := by
  rw [← isBreak_iff]; simp

theorem go_skip : ∀ (l cur r : Text), (∀ c ∈ l, c ∉ boundaries) →
    splitLinesGo cur (l ++ r) = splitLinesGo (l.reverse ++ cur) r
  | [], cur, r, _ => rfl
  | c :: l, cur, r, h => by
    have hc := not_break.1 (h c (by simp))
    rw [List.cons_append, splitLinesGo]
    · rw [hc]
      simp only [Bool.false_eq_true, if_false]
      rw [go_skip l (c :: cur) r fun x hx => h x (by simp [hx])]
      simp
    · intro r' h1
      subst h1
      exact absurd hc (by decide)

theorem lines_sound {s : Text} {ls : List Text} (h : Lines s ls) : splitLines s = ls := by
  induction h with
  | none => rfl
  | @last l ne one =>
    unfold splitLines
    have := go_skip l [] [] one
    rw [List.append_nil, List.append_nil] at this
    rw [this, splitLinesGo, if_neg (by simpa using ne), List.reverse_reverse]
  | @line l r ls b one hb crlf _ ih =>
    unfold splitLines at ih ⊢
    rw [go_skip l [] _ one, List.append_nil, splitLinesGo]
    · rw [(isBreak_iff b).2 hb, if_pos rfl, List.reverse_reverse, ih]
    · intro r' h1 h2
      exact crlf h1 r' h2
  | @crlf l r ls one _ ih =>
    unfold splitLines at ih ⊢
    rw [go_skip l [] _ one, List.append_nil, splitLinesGo, List.reverse_reverse, ih]

theorem lines_exist : ∀ (n : Nat) (s : Text), s.length ≤ n → ∃ ls, Lines s ls := by
  intro n
  induction n with
  | zero => intro s h; cases s with
    | nil => exact ⟨_, .none⟩
    | cons c r => simp at h
  | succ n ih =>
    intro s h
    have hsplit := List.takeWhile_append_dropWhile (p := fun c => !isBreak c) (l := s)
    have hone : ∀ c ∈ s.takeWhile (fun c => !isBreak c), c ∉ boundaries := fun c hc => by
      have := of_takeWhile hc
      exact not_break.2 (by simpa using this)
    cases hd : s.dropWhile (fun c => !isBreak c) with
    | nil =>
      rw [hd, List.append_nil] at hsplit
      by_cases hs : s = []
      · subst hs; exact ⟨_, .none⟩
      · rw [hsplit] at hone
        exact ⟨_, .last hs hone⟩
    | cons b r =>
      have hb : b ∈ boundaries := by
        have := List.head?_dropWhile_not (fun c => !isBreak c) s
        rw [hd] at this
        exact (isBreak_iff b).1 (by simpa using this)
      rw [hd] at hsplit
      have hlen : r.length < s.length := by rw [← hsplit]; simp; omega
      by_cases hc : b = '\r' ∧ ∃ t, r = '\n' :: t
      · obtain ⟨rfl, t, rfl⟩ := hc
        obtain ⟨ls, hls⟩ := ih t (by simp at hlen; omega)
        rw [← hsplit]
        exact ⟨_, .crlf hone hls⟩
      · obtain ⟨ls, hls⟩ := ih r (by omega)
        rw [← hsplit]
        exact ⟨_, .line b hone hb (fun h1 t h2 => hc ⟨h1, t, h2⟩) hls⟩

theorem lines_iff (s : Text) (ls : List Text) : Lines s ls ↔ splitLines s = ls := by
  refine ⟨lines_sound, ?_⟩
  rintro rfl
  obtain ⟨ls, h⟩ := lines_exist _ s (Nat.le_refl _)
  rw [lines_sound h]; exact h

theorem skip_drop (old new : Text) : ∀ (n : Nat) (s : Text), replaceGo old new n s = replaceGo old new 0 (s.drop n)
  | 0, s => by rw [List.drop_zero]
  | n + 1, [] => by rw [List.drop_nil, replaceGo, replaceGo]
  | n + 1, c :: r => by rw [replaceGo, List.drop_succ_cons, skip_drop old new n r]

theorem replaceAll_first (old new : Text) (ho : old ≠ []) : ∀ (a b : Text),
    (∀ a' b', a ++ old ++ b = a' ++ old ++ b' → a.length ≤ a'.length) →
    replaceAll old new (a ++ old ++ b) = a ++ new ++ replaceAll old new b
  | [], b, _ => by
    obtain ⟨c, r, rfl⟩ := List.exists_cons_of_ne_nil ho
    unfold replaceAll
    rw [List.nil_append, List.nil_append, List.cons_append, replaceGo, if_pos (by simp), skip_drop]
    simp
  | c :: a, b, h => by
    have hn : ¬ old.isPrefixOf (c :: (a ++ old ++ b)) := by
      intro hp
      obtain ⟨t, ht⟩ := List.isPrefixOf_iff_prefix.1 hp
      have := h [] t (by rw [List.nil_append, ht]; rfl)
      simp at this
    unfold replaceAll
    rw [List.cons_append, List.cons_append, replaceGo, if_neg hn]
    have := replaceAll_first old new ho a b (fun a' b' e => by
      have := h (c :: a') b' (by rw [List.cons_append, List.cons_append, e]; rfl)
      simpa using this)
    unfold replaceAll at this
    rw [this]; rfl

theorem replaceAll_none (old new : Text) : ∀ (s : Text), ¬ old <:+: s → replaceAll old new s = s
  | [], _ => rfl
  | c :: r, h => by
    unfold replaceAll
    rw [replaceGo, if_neg (fun hp => h (List.isPrefixOf_iff_prefix.1 hp).isInfix)]
    have := replaceAll_none old new r (fun hr => h (hr.trans (List.suffix_cons c r).isInfix))
    unfold replaceAll at this
    rw [this]

theorem replaced_sound {old new s r : Text} (ho : old ≠ []) (h : Replaced old new s r) : replaceAll old new s = r := by
  induction h with
  | none no => exact replaceAll_none _ _ _ no
  | first leftmost _ ih => rw [replaceAll_first _ _ ho _ _ leftmost, ih]

theorem leftmost (old : Text) : ∀ (s : Text), old <:+: s → ∃ a b, s = a ++ old ++ b ∧
    ∀ a' b', a ++ old ++ b = a' ++ old ++ b' → a.length ≤ a'.length
  | [], h => by
    obtain rfl := List.infix_nil.1 h
    exact ⟨[], [], rfl, fun _ _ _ => by simp⟩
  | c :: r, h => by
    by_cases hp : old <+: c :: r
    · obtain ⟨t, ht⟩ := hp
      exact ⟨[], t, by simpa using ht.symm, fun _ _ _ => by simp⟩
    · rcases List.infix_cons_iff.1 h with h | h
      · exact absurd h hp
      · obtain ⟨a, b, rfl, hl⟩ := leftmost old r h
        refine ⟨c :: a, b, rfl, fun a' b' e => ?_⟩
        cases a' with
        | nil => exact absurd ⟨b', by simpa using e.symm⟩ hp
        | cons x a' =>
          simp only [List.cons_append, List.cons.injEq] at e
          have := hl a' b' e.2
          simpa using this

theorem replaced_exists (old new : Text) (ho : old ≠ []) : ∀ (n : Nat) (s : Text), s.length ≤ n → ∃ r, Replaced old new s r := by
  intro n
  induction n with
  | zero =>
    intro s h
    refine ⟨s, .none fun hi => ?_⟩
    have := hi.length_le
    have : old.length ≠ 0 := by simpa using ho
    omega
  | succ n ih =>
    intro s h
    by_cases hi : old <:+: s
    · obtain ⟨a, b, rfl, hl⟩ := leftmost old s hi
      have : old.length ≠ 0 := by simpa using ho
      obtain ⟨r, hr⟩ := ih b (by simp at h; omega)
      exact ⟨_, .first hl hr⟩
    · exact ⟨s, .none hi⟩

theorem replaced_iff (old new s r : Text) (ho : old ≠ []) : Replaced old new s r ↔ replaceAll old new s = r := by
  refine ⟨replaced_sound ho, ?_⟩
  rintro rfl
  obtain ⟨r, h⟩ := replaced_exists old new ho _ s (Nat.le_refl _)
  rw [replaced_sound ho h]; exact h

theorem lstrip_spec (s : Text) : Stripped true false s (lstrip s) := by
  refine ⟨s.takeWhile isSpace, [], ?_, ?_, by simp, fun _ => rfl, fun _ c hc => ?_, by simp⟩
  · unfold lstrip
    rw [List.append_nil, List.takeWhile_append_dropWhile]
  · intro c hc
    rw [List.append_nil] at hc
    rw [Regex.space_eq]; exact of_takeWhile hc
  · have := List.head?_dropWhile_not isSpace s
    unfold lstrip at hc
    rw [hc] at this
    rw [Regex.space_eq]; simpa using this

theorem rstrip_spec (s : Text) : Stripped false true s (rstrip s) := by
  refine ⟨[], (s.reverse.takeWhile isSpace).reverse, ?_, ?_, fun _ => rfl, by simp, by simp, fun _ c hc => ?_⟩
  · unfold rstrip
    rw [List.nil_append, ← List.reverse_append, List.takeWhile_append_dropWhile, List.reverse_reverse]
  · intro c hc
    rw [List.nil_append, List.mem_reverse] at hc
    rw [Regex.space_eq]; exact of_takeWhile hc
  · have := List.head?_dropWhile_not isSpace s.reverse
    unfold rstrip at hc
    rw [List.getLast?_reverse] at hc
    rw [hc] at this
    rw [Regex.space_eq]; simpa using this

theorem strip_spec (s : Text) : Stripped true true s (strip s) := by
  obtain ⟨a, b, h1, h2, _, h4, h5, _⟩ := lstrip_spec s
  obtain rfl := h4 rfl
  obtain ⟨a', b', g1, g2, g3, _, _, g6⟩ := rstrip_spec (lstrip s)
  obtain rfl := g3 rfl
  refine ⟨a, b', ?_, ?_, by simp, by simp, fun _ c hc => ?_, fun _ => g6 rfl⟩
  · rw [List.append_nil] at h1
    rw [List.nil_append] at g1
    unfold strip
    rw [List.append_assoc, ← g1, ← h1]
  · intro c hc
    rcases List.mem_append.1 hc with hc | hc
    · exact h2 c (by simp [hc])
    · exact g2 c (by simp [hc])
  · refine h5 rfl c ?_
    rw [g1, List.nil_append, List.head?_append]
    unfold strip at hc
    rw [hc]; rfl

end NcDiff.PyText
