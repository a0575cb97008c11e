import Verif.Proof.Parse
import Verif.Proof.Printed
/-!
# Proof that replacements work line by line
-/

namespace NcDiff.Running

/-- No line boundary. -/
def WithinLine (s : Str) : Prop := ∀ c ∈ s, isBreak c = false

theorem prefix_line {old a r : Str} {b : Char} (ho : WithinLine old) (hb : isBreak b = true) :
    old.isPrefixOf (a ++ b :: r) = old.isPrefixOf a := by
  rw [Bool.eq_iff_iff, List.isPrefixOf_iff_prefix, List.isPrefixOf_iff_prefix]
  induction a generalizing old with
  | nil =>
    cases old with
    | nil => simp
    | cons x o =>
      simp only [List.nil_append, List.cons_prefix_cons, List.prefix_nil, reduceCtorEq, iff_false]
      rintro ⟨rfl, _⟩
      rw [ho x (by simp)] at hb
      cases hb
  | cons c a ih =>
    cases old with
    | nil => simp
    | cons x o =>
      rw [List.cons_append, List.cons_prefix_cons, List.cons_prefix_cons, ih (fun c hc => ho c (by simp [hc]))]

theorem replaceGo_line {old new r : Str} {b : Char} (ho : WithinLine old) (hn : old ≠ []) (hb : isBreak b = true) : ∀ (a : Str) (n : Nat),
    n ≤ a.length → replaceGo old new n (a ++ b :: r) = replaceGo old new n a ++ b :: replaceGo old new 0 r
  | [], n, h => by
    obtain rfl : n = 0 := by simpa using h
    have hp : old.isPrefixOf (b :: r) = false := by
      have := prefix_line (a := []) (r := r) ho hb
      rw [List.nil_append] at this
      rw [this]
      cases old with
      | nil => exact absurd rfl hn
      | cons => rfl
    show replaceGo old new 0 (b :: r) = b :: replaceGo old new 0 r
    conv_lhs => rw [replaceGo, hp]
    simp
  | c :: a, n + 1, h => by
    rw [List.cons_append, replaceGo, replaceGo]
    exact replaceGo_line ho hn hb a n (by simpa using h)
  | c :: a, 0, _ => by
    have hp := prefix_line (a := c :: a) (r := r) ho hb
    rw [List.cons_append] at hp
    rw [List.cons_append, replaceGo, replaceGo, hp]
    split
    · rename_i h
      have hl := (List.isPrefixOf_iff_prefix.1 h).length_le
      rw [replaceGo_line ho hn hb a _ (by simp at hl; omega), List.append_assoc]
    · rw [replaceGo_line ho hn hb a 0 (Nat.zero_le _)]; rfl

theorem replaceGo_noBreak {old new : Str} (hw : WithinLine new) : ∀ (n : Nat) (s : Str), WithinLine s → WithinLine (replaceGo old new n s)
  | _, [], _ => by intro c hc; simp [replaceGo] at hc
  | n + 1, x :: r, h => by
    rw [replaceGo]
    exact replaceGo_noBreak hw n r (fun c hc => h c (by simp [hc]))
  | 0, x :: r, h => by
    have hr : WithinLine r := fun c hc => h c (by simp [hc])
    rw [replaceGo]
    split
    · intro c hc
      rcases List.mem_append.1 hc with hc | hc
      · exact hw c hc
      · exact replaceGo_noBreak hw _ r hr c hc
    · intro c hc
      rcases List.mem_cons.1 hc with rfl | hc
      · exact h c (by simp)
      · exact replaceGo_noBreak hw 0 r hr c hc

/-- A text that is replaced begins with a line boundary only if the text does. -/
theorem replace_head {old new : Str} (hw : WithinLine new) (hn : new ≠ []) {c : Char} (hc : isBreak c = true) (s : Str) :
    (replaceAll old new s).head? = some c → s.head? = some c := by
  cases s with
  | nil => intro h; exact absurd h (by simp [replaceAll, replaceGo])
  | cons x r =>
    unfold replaceAll
    rw [replaceGo]
    split
    · cases new with
      | nil => exact absurd rfl hn
      | cons y w =>
        intro h
        simp only [List.cons_append, List.head?_cons, Option.some.injEq] at h
        rw [← h, hw y (by simp)] at hc
        cases hc
    · exact id

/-- The first line of a text. -/
theorem split_first (s : Str) : WithinLine s ∨ ∃ a b r, s = a ++ b :: r ∧ WithinLine a ∧ isBreak b = true := by
  induction s with
  | nil => exact .inl (by simp [WithinLine])
  | cons c s ih =>
    cases hc : isBreak c
    · rcases ih with h | ⟨a, b, r, rfl, h1, h2⟩
      · exact .inl (by
          intro x hx
          rcases List.mem_cons.1 hx with rfl | hx
          · exact hc
          · exact h x hx)
      · exact .inr ⟨c :: a, b, r, rfl, by
          intro x hx
          rcases List.mem_cons.1 hx with rfl | hx
          · exact hc
          · exact h1 x hx, h2⟩
    · exact .inr ⟨[], c, s, rfl, by simp [WithinLine], hc⟩

theorem go_first {b : Char} {r : Str} (hb : isBreak b = true) : ∀ (a cur : Str), WithinLine a → (b = '\r' → r.head? ≠ some '\n') →
    splitLinesGo cur (a ++ b :: r) = (cur.reverse ++ a) :: splitLinesGo [] r
  | [], cur, _, h => by
    rw [List.nil_append, splitLinesGo]
    · simp [hb]
    · rintro r' rfl rfl
      exact h rfl rfl
  | c :: a, cur, ha, h => by
    have hc : isBreak c = false := ha c (by simp)
    rw [List.cons_append, splitLinesGo]
    · rw [hc]
      simp only [Bool.false_eq_true, if_false]
      rw [go_first hb a (c :: cur) (fun x hx => ha x (by simp [hx])) h]
      simp
    · intro r' h1
      subst h1
      simp [isBreak] at hc

theorem go_crlf {r : Str} : ∀ (a cur : Str), WithinLine a →
    splitLinesGo cur (a ++ '\r' :: '\n' :: r) = (cur.reverse ++ a) :: splitLinesGo [] r
  | [], cur, _ => by
    rw [List.nil_append, splitLinesGo]
    simp
  | c :: a, cur, ha => by
    have hc : isBreak c = false := ha c (by simp)
    rw [List.cons_append, splitLinesGo]
    · rw [hc]
      simp only [Bool.false_eq_true, if_false]
      rw [go_crlf a (c :: cur) (fun x hx => ha x (by simp [hx]))]
      simp
    · intro r' h1
      subst h1
      simp [isBreak] at hc

theorem go_last : ∀ (a cur : Str), WithinLine a → splitLinesGo cur a = if cur.reverse ++ a = [] then [] else [cur.reverse ++ a]
  | [], cur, _ => by
    rw [splitLinesGo]
    simp
  | c :: a, cur, ha => by
    have hc : isBreak c = false := ha c (by simp)
    rw [splitLinesGo]
    · rw [hc]
      simp only [Bool.false_eq_true, if_false]
      rw [go_last a (c :: cur) (fun x hx => ha x (by simp [hx]))]
      simp
    · intro r' h1
      subst h1
      simp [isBreak] at hc

theorem replace_nil {old new s : Str} (hn : new ≠ []) : replaceAll old new s = [] ↔ s = [] := by
  cases s with
  | nil => simp [replaceAll, replaceGo]
  | cons x r =>
    unfold replaceAll
    rw [replaceGo]
    split <;> simp [hn]

theorem replace_lines {old new : Str} (ho : WithinLine old) (ho' : old ≠ []) (hw : WithinLine new) (hw' : new ≠ []) :
    ∀ (n : Nat) (s : Str), s.length ≤ n → splitLines (replaceAll old new s) = (splitLines s).map (replaceAll old new)
  | n, s, hl => by
    rcases split_first s with h | ⟨a, b, r, rfl, ha, hb⟩
    · have h2 : WithinLine (replaceAll old new s) := replaceGo_noBreak hw 0 s h
      unfold splitLines
      rw [go_last _ _ h2, go_last _ _ h]
      by_cases he : s = []
      · subst he; rfl
      · have := mt (replace_nil (old := old) (s := s) hw').1 he
        simp [he, this]
    · have h2 : WithinLine (replaceAll old new a) := replaceGo_noBreak hw 0 a ha
      have e : replaceAll old new (a ++ b :: r) = replaceAll old new a ++ b :: replaceAll old new r :=
        replaceGo_line ho ho' hb a 0 (Nat.zero_le _)
      cases n with
      | zero => simp at hl
      | succ n =>
        simp only [List.length_append, List.length_cons] at hl
        by_cases hc : b = '\r' ∧ r.head? = some '\n'
        · obtain ⟨rfl, hr⟩ := hc
          cases r with
          | nil => simp at hr
          | cons x r =>
            obtain rfl : x = '\n' := by simpa using hr
            have e2 : replaceAll old new ('\n' :: r) = '\n' :: replaceAll old new r := by
              have := replaceGo_line (new := new) (r := r) (b := '\n') ho ho' (by decide) [] 0 (Nat.zero_le _)
              simpa [replaceGo, replaceAll] using this
            have ih := replace_lines ho ho' hw hw' n r (by simp at hl; omega)
            rw [e, e2]
            unfold splitLines at ih ⊢
            rw [go_crlf _ _ h2, go_crlf _ _ ha, ih]
            simp
        · have ih := replace_lines ho ho' hw hw' n r (by omega)
          have h3 : b = '\r' → (replaceAll old new r).head? ≠ some '\n' := fun hb' hh =>
            hc ⟨hb', replace_head hw hw' (by decide) r hh⟩
          rw [e]
          unfold splitLines at ih ⊢
          rw [go_first hb _ _ h2 h3, go_first hb _ _ ha (fun h1 h2 => hc ⟨h1, h2⟩), ih]
          simp

end NcDiff.Running
