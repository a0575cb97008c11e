import Verif.Spec.KeyNames
import Verif.Proof.Yang
/-!
# Names in key statements
-/

namespace NcDiff.Compile

theorem splitSpace_tail {v n : List Char} (h : n ∈ (splitSpace v).tail) :
    ∃ a b, v = a ++ n ++ b ∧ a.getLast? = some ' ' ∧ ∀ c ∈ b.head?, c = ' ' := by
  induction v with
  | nil => simp [splitSpace] at h
  | cons c r ih =>
    rw [splitSpace] at h
    split at h
    · subst_vars
      rw [List.tail_cons] at h
      cases hr : splitSpace r with
      | nil => exact absurd hr (splitSpace_ne r)
      | cons p ps =>
        rw [hr] at h ih
        rcases List.mem_cons.1 h with rfl | h
        · obtain ⟨b, rfl, hb, _⟩ := splitSpace_head hr
          exact ⟨[' '], b, rfl, rfl, hb⟩
        · obtain ⟨a, b, rfl, ha, hb⟩ := ih h
          refine ⟨' ' :: a, b, rfl, ?_, hb⟩
          cases a with
          | nil => simp at ha
          | cons x y => rw [List.getLast?_cons_cons]; exact ha
    · have h : n ∈ (splitSpace r).tail := by
        cases hr : splitSpace r with
        | nil => exact absurd hr (splitSpace_ne r)
        | cons p ps => rw [hr] at h; exact h
      obtain ⟨a, b, rfl, ha, hb⟩ := ih h
      refine ⟨c :: a, b, rfl, ?_, hb⟩
      cases a with
      | nil => simp at ha
      | cons x y => rw [List.getLast?_cons_cons]; exact ha

/-- The parts of a text are what stands between spaces. -/
theorem mem_keyParts {n v : List Char} (hn : n ≠ []) (hs : ' ' ∉ n) : n ∈ keyParts v ↔ StandsIn (· = ' ') n v := by
  constructor
  · intro h
    have h : n ∈ splitSpace v := List.mem_of_mem_filter h
    cases hv : splitSpace v with
    | nil => exact absurd hv (splitSpace_ne v)
    | cons p ps =>
      rw [hv] at h
      rcases List.mem_cons.1 h with rfl | h
      · obtain ⟨b, rfl, hb, _⟩ := splitSpace_head hv
        exact ⟨[], b, rfl, by simp, hb⟩
      · obtain ⟨a, b, h1, h2, h3⟩ := splitSpace_tail (v := v) (by rw [hv]; exact h)
        exact ⟨a, b, h1, by rw [h2]; simp, h3⟩
  · rintro ⟨a, b, rfl, ha, hb⟩
    rcases List.eq_nil_or_concat a with rfl | ⟨a, c, rfl⟩
    · rw [List.nil_append, keyParts_name hn hs hb]; exact .head _
    · obtain rfl : c = ' ' := ha c (by simp)
      rw [List.concat_eq_append, List.append_assoc, List.append_assoc, List.singleton_append, keyParts_space,
        keyParts_name hn hs hb]
      simp

/-- Names without prefixes are taken as they are. -/
theorem keyLocal_id {n : List Char} (h : ':' ∉ n) : keyLocal n = n := by
  have h' : ':' ∉ n.dropLast := fun hc => h (List.dropLast_subset n hc)
  rw [keyLocal]
  split <;> split <;> first | rfl | (rw [splitLastAt_none h']) | (rw [splitLastAt_none h])

theorem mem_splitSpace_sub {v n : List Char} (h : n ∈ splitSpace v) : ∀ c ∈ n, c ∈ v := by
  induction v generalizing n with
  | nil => simp [splitSpace] at h; subst h; simp
  | cons x r ih =>
    rw [splitSpace] at h
    split at h
    · rcases List.mem_cons.1 h with rfl | h
      · simp
      · exact fun c hc => .tail _ (ih h c hc)
    · cases hr : splitSpace r with
      | nil => exact absurd hr (splitSpace_ne r)
      | cons p ps =>
        rw [hr] at h ih
        rcases List.mem_cons.1 h with rfl | h
        · intro c hc
          rcases List.mem_cons.1 hc with rfl | hc
          · exact .head _
          · exact .tail _ (ih (.head _) c hc)
        · exact fun c hc => .tail _ (ih (.tail _ h) c hc)

theorem mem_keyNamesOf {n v : String} (hv : ':' ∉ v.toList) (hn : PlainName n) :
    n ∈ keyNamesOf v ↔ StandsIn (· = ' ') n.toList v.toList := by
  have hs : ' ' ∉ n.toList := fun h => hn.2.1 _ h white_space
  rw [← mem_keyParts (toList_ne hn.1) hs, keyNamesOf, List.mem_map]
  constructor
  · rintro ⟨p, hp, rfl⟩
    have : ':' ∉ p := fun h => hv (mem_splitSpace_sub (List.mem_of_mem_filter hp) _ h)
    rw [keyLocal_id this]
    rwa [String.toList_ofList]
  · intro h
    exact ⟨_, h, by rw [keyLocal_id hn.2.2, String.ofList_toList]⟩

theorem StandsIn.mono {P Q : Char → Prop} {n v : List Char} (h : StandsIn P n v) (hpq : ∀ c ∈ v, P c → Q c) : StandsIn Q n v := by
  obtain ⟨a, b, rfl, ha, hb⟩ := h
  refine ⟨a, b, rfl, fun c hc => hpq c ?_ (ha c hc), fun c hc => hpq c ?_ (hb c hc)⟩
  · simp [List.mem_of_getLast? hc]
  · simp [List.mem_of_mem_head? hc]

end NcDiff.Compile
