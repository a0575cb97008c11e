import Verif.Spec.Find
import Verif.Proof.NodeReport
import Verif.Proof.Tags
/-!
# Searching in replies and configs: proofs
-/

namespace NcDiff.Find

open Report (path_steps pathText_written pathOf tagsTo_length)
open Statement (tagsTo mem_select_tags select_nodup)

theorem lookup_mem {l : List (String × String)} (h : (l.map Prod.fst).Nodup) {p u : String} :
    l.lookup p = some u ↔ (p, u) ∈ l := by
  induction l with
  | nil => simp
  | cons e l ih =>
    obtain ⟨e1, e2⟩ := e
    rw [List.map_cons, List.nodup_cons] at h
    rw [List.lookup, List.mem_cons]
    by_cases hp : p = e1
    · subst hp
      simp only [BEq.rfl, Option.some.injEq, Prod.mk.injEq, true_and]
      exact ⟨fun h => .inl h.symm, fun h' => h'.elim (·.symm) fun h' => absurd (List.mem_map.2 ⟨_, h', rfl⟩) h.1⟩
    · have hb : (p == e1) = false := beq_eq_false_iff_ne.2 hp
      simp only [hb, Prod.mk.injEq, hp, false_and, false_or]
      exact ih h.2

theorem ns_keys (d : Device) (urls : List String) : ((getNs d urls).map Prod.fst).Nodup := dictOf_keys (acc := []) List.nodup_nil

theorem means_lookup {table l : List (String × String)} (h : (table.map Prod.fst).Nodup) {path : List QName} (hm : Means table l path) :
    List.Forall₂ (fun p q => table.lookup p.1 = some q.ns ∧ p.2 = q.name) l path :=
  hm.imp fun _ _ h' => ⟨(lookup_mem h).2 h'.1, h'.2⟩

theorem eval_abs {ps : List (String × String)} {t : Elem} {l : List (String × String)} {path : List QName} (hl : l ≠ [])
    (hi : ∀ p ∈ l, Ident p.1.toList ∧ Ident p.2.toList)
    (h : List.Forall₂ (fun p q => ps.lookup p.1 = some q.ns ∧ p.2 = q.name) l path) :
    XPath.eval ⟨ps, false⟩ t (rootPathOf l) = some (XPath.select (path.map fun q => ⟨q, []⟩) (XPath.document t)) := by
  obtain ⟨g1, g2⟩ := path_steps hi h ""
  rw [rootPathOf, pathText_written, XPath.eval_eq]
  cases l with
  | nil => exact absurd rfl hl
  | cons p l =>
    rw [show Report.written (p :: l) = (p.1.toList ++ ':' :: p.2.toList, []) :: Report.written l from rfl] at g1 g2 ⊢
    rw [XPath.parse_absolute g2]
    simp only [Option.bind_some, g1, Option.map_some]
    rfl

/-- Invented prefixes are identifiers. -/
theorem genPrefix_ident (i : Nat) : Ident (genPrefix i).toList := by
  rw [genPrefix_toList]
  refine ⟨⟨'n', _, rfl, .inl (by decide)⟩, fun c hc => ?_⟩
  rcases List.mem_cons.1 hc with rfl | hc
  · exact .inl (by decide)
  · rcases List.mem_cons.1 hc with rfl | hc
    · exact .inl (by decide)
    · exact .inr (.inl (genDigits_digits i c hc))

theorem special_ident : ∀ s ∈ specialUrls, Ident s.2.toList := by
  have id : ∀ s ∈ specialUrls, s.2.toList.head?.any (fun c => c.isAlpha) = true ∧
      ∀ c ∈ s.2.toList, c.isAlpha = true ∨ c.isDigit = true ∨ c = '_' ∨ c = '-' ∨ c = '.' := by decide +kernel
  intro s hs
  obtain ⟨h1, h2⟩ := id s hs
  cases hc : s.2.toList with
  | nil => rw [hc] at h1; cases h1
  | cons c r =>
    rw [hc] at h1 h2
    exact ⟨⟨c, r, rfl, .inl (by simpa using h1)⟩, h2⟩

theorem ns_ident {d : Device} (hd : DistinctPrefixes d) (hp : PrefixIdents d) {urls : List String} (hn : urls.Nodup) :
    ∀ q ∈ getNs d urls, Ident q.1.toList := by
  intro q hq
  rw [getNs_eq hd hn] at hq
  rcases (assign_mem hq).2 with h | ⟨_, j, _, h⟩
  · unfold getPrefix at h
    split at h
    · rename_i p hs
      cases h
      have : (q.2, q.1) ∈ specialUrls := by
        have aux : ∀ {l : List (String × String)} {a b : String}, l.lookup a = some b → (a, b) ∈ l := by
          intro l a b h
          induction l with
          | nil => cases h
          | cons e l ih =>
            obtain ⟨e1, e2⟩ := e
            rw [List.lookup] at h
            split at h
            · rename_i he
              cases h
              rw [beq_iff_eq.1 he]
              simp
            · exact List.mem_cons_of_mem _ (ih h)
        exact aux hs
      exact special_ident _ this
    · obtain ⟨m, hm, he⟩ := Option.map_eq_some_iff.1 h
      have := hp m (List.mem_of_find?_eq_some hm)
      rw [← he]
      exact this
  · rw [h]
    exact genPrefix_ident j

end NcDiff.Find
