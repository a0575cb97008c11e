import Verif.Spec.Delta
import Verif.Proof.Attrs
import Mathlib.Data.List.Nodup
/-!
# identityref values: writing with the prefixes of another node keeps the identity
-/

namespace NcDiff

theorem splitLastColon_none_of {i : List Char} : ∀ {s p : List Char},
    splitLastColon s = some (p, i) → splitLastColon i = none ∧ p ≠ [] ∧ i ≠ [] ∧
      (∀ x y, i ≠ ':' :: x :: y) ∧ s = p ++ ':' :: i
  | [], p, h => by simp [splitLastColon] at h
  | c :: r, p, h => by
    unfold splitLastColon at h
    cases hr : splitLastColon r with
    | some ab =>
      obtain ⟨a, b⟩ := ab
      simp only [hr, Option.some.injEq, Prod.mk.injEq] at h
      obtain ⟨rfl, rfl⟩ := h
      obtain ⟨h1, _, h3, h4, h5⟩ := splitLastColon_none_of hr
      exact ⟨h1, by simp, h3, h4, by simp [h5]⟩
    | none =>
      simp only [hr] at h
      split at h
      · rename_i x y
        simp only [Option.some.injEq, Prod.mk.injEq] at h
        obtain ⟨rfl, rfl⟩ := h
        have h1 : splitLastColon (x :: y) = none := by
          unfold splitLastColon at hr
          cases h2 : splitLastColon (x :: y) with
          | none => rfl
          | some ab => simp [h2] at hr
        refine ⟨h1, by simp, by simp, ?_, rfl⟩
        intro x' y' he
        simp only [List.cons.injEq] at he
        obtain ⟨rfl, rfl⟩ := he
        unfold splitLastColon at hr
        rw [h1] at hr
        simp at hr
      · cases h

theorem splitLastColon_append {i : List Char} (h0 : splitLastColon i = none) (hi : i ≠ [])
    (h1 : ∀ x y, i ≠ ':' :: x :: y) : ∀ {p : List Char}, p ≠ [] →
    splitLastColon (p ++ ':' :: i) = some (p, i)
  | [c], _ => by
    have h2 : splitLastColon (':' :: i) = none := by
      unfold splitLastColon
      rw [h0]
      simp only
    simp only [List.cons_append, List.nil_append]
    unfold splitLastColon
    rw [h2]
    cases i with
    | nil => exact absurd rfl hi
    | cons x y => rfl
  | c :: c' :: p, _ => by
    have := splitLastColon_append h0 hi h1 (p := c' :: p) (by simp)
    rw [List.cons_append]
    unfold splitLastColon
    rw [this]

theorem NsMap.url_of_prefixOf {m : NsMap} (hm : (m.map Prod.fst).Nodup) {u : String}
    {p : Option String} (h : m.prefixOf u = some p) : m.url p = some u := by
  unfold NsMap.prefixOf at h
  rw [Option.map_eq_some_iff] at h
  obtain ⟨q, hq, rfl⟩ := h
  have hmem := List.mem_reverse.1 (List.mem_of_find?_eq_some hq)
  have hu : q.2 = u := by simpa using List.find?_some hq
  unfold NsMap.url
  clear hq
  induction m with
  | nil => simp at hmem
  | cons a m ih =>
    rw [List.map_cons, List.nodup_cons] at hm
    rw [List.lookup_cons]
    rcases List.mem_cons.1 hmem with rfl | hmem
    · simp [hu]
    · have : (q.1 == a.1) = false := by
        rw [beq_eq_false_iff_ne]
        intro e; exact hm.1 (by rw [← e]; exact List.mem_map_of_mem hmem)
      rw [this]; exact ih hm.2 hmem

theorem NsMap.mem_of_prefixOf {m : NsMap} {u : String}
    {p : Option String} (h : m.prefixOf u = some p) : (p, u) ∈ m := by
  unfold NsMap.prefixOf at h
  rw [Option.map_eq_some_iff] at h
  obtain ⟨q, hq, rfl⟩ := h
  have hmem := List.mem_reverse.1 (List.mem_of_find?_eq_some hq)
  have hu : q.2 = u := by simpa using List.find?_some hq
  rw [← hu]; exact hmem

/-- Writing an identity with the prefixes of another node and reading it back. -/
theorem parse_composeTo {d : Device} {m m2 : NsMap} (hto : NsMapOk m2) {s s' : List Char}
    (hs : ∃ c r, s = c :: r ∧ c ≠ ':') {u : String} {i : List Char}
    (h : IdentityRef.parse d m s = .ok (u, i)) (h' : IdentityRef.composeTo m2 u i = .ok s') :
    IdentityRef.parse d m2 s' = .ok (u, i) := by
  -- the identity part cannot be split
  have hi : splitLastColon i = none ∧ i ≠ [] ∧ ∀ x y, i ≠ ':' :: x :: y := by
    unfold IdentityRef.parse at h
    cases hsp : splitLastColon s with
    | some pi =>
      obtain ⟨p, i'⟩ := pi
      rw [hsp] at h
      simp only [bind, Except.bind] at h
      cases hr : resolvePrefix d m (String.ofList p) with
      | error x => simp [hr] at h
      | ok u' =>
        simp only [hr, pure, Except.pure, Except.ok.injEq, Prod.mk.injEq] at h
        obtain ⟨rfl, rfl⟩ := h
        obtain ⟨h1, _, h3, h4, _⟩ := splitLastColon_none_of hsp
        exact ⟨h1, h3, h4⟩
    | none =>
      rw [hsp] at h
      simp only at h
      split at h
      · simp only [Except.ok.injEq, Prod.mk.injEq] at h
        obtain ⟨_, rfl⟩ := h
        obtain ⟨c, r, rfl, hc⟩ := hs
        refine ⟨hsp, by simp, ?_⟩
        intro x y he
        simp only [List.cons.injEq] at he
        exact hc he.1
      · cases h
  unfold IdentityRef.composeTo at h'
  cases hp : m2.prefixOf u with
  | none => simp [hp] at h'
  | some p =>
    have hurl := NsMap.url_of_prefixOf hto.1 hp
    have hmem := NsMap.mem_of_prefixOf hp
    cases p with
    | none =>
      simp only [hp, Except.ok.injEq] at h'
      subst h'
      unfold IdentityRef.parse
      rw [hi.1]; simp only [hurl]
    | some p =>
      simp only [hp, Except.ok.injEq] at h'
      subst h'
      have hpne : p.toList ≠ [] := by
        intro e
        have h2 : p = "" := by
          rw [← String.ofList_toList (s := p), e]
        exact hto.2.1 _ hmem (by rw [h2])
      unfold IdentityRef.parse
      rw [splitLastColon_append hi.1 hi.2.1 hi.2.2 hpne]
      simp only [String.ofList_toList, resolvePrefix, hurl]
      rfl

end NcDiff
