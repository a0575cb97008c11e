import Verif.Proof.Kids
import Verif.Proof.Settle
import Mathlib.Data.List.Perm.Subperm
/-!
# Where `insert` attributes put children

What becomes of the children of one ordered-by-user list or leaf-list, as a list of instances.
-/

namespace NcDiff

/-! ## Sublists of a list without duplicates -/

section lists
variable {α : Type}

theorem sublist_split {p : α} {A C l r : List α} (hn : (A ++ p :: C).Nodup)
    (h : (l ++ p :: r).Sublist (A ++ p :: C)) : l.Sublist A ∧ r.Sublist C := by
  have hpA : p ∉ A := fun hp => by
    have := (List.nodup_append.1 hn).2.2 p hp p (by simp); exact this rfl
  have hpC : p ∉ C := (List.nodup_cons.1 (List.nodup_append.1 hn).2.1).1
  obtain ⟨l1, l2, he, h1, h2⟩ := List.sublist_append_iff.1 h
  have hp1 : p ∉ l1 := fun hp => hpA (h1.subset hp)
  rcases List.append_eq_append_iff.1 he with ⟨m, e1, e2⟩ | ⟨m, e1, e2⟩
  · -- l1 = l ++ m, p :: r = m ++ l2
    cases m with
    | nil =>
      simp only [List.append_nil] at e1
      simp only [List.nil_append] at e2
      subst e1 e2
      exact ⟨h1, List.cons_sublist_cons.1 h2⟩
    | cons y m =>
      simp only [List.cons_append, List.cons.injEq] at e2
      exact absurd (by rw [e1]; simp [e2.1]) hp1
  · -- l = l1 ++ m, l2 = m ++ p :: r
    subst e2
    cases m with
    | nil =>
      simp only [List.append_nil] at e1
      subst e1
      exact ⟨h1, List.cons_sublist_cons.1 h2⟩
    | cons y m =>
      exfalso
      rw [List.cons_append] at h2
      cases h2 with
      | cons _ h2 => exact hpC (h2.subset (by simp))
      | cons_cons _ h2 => exact hpC (h2.subset (by simp))

theorem eq_of_sublist_of_subset {us vs : List α} (h : us.Sublist vs) (hn : vs.Nodup)
    (hs : ∀ x ∈ vs, x ∈ us) : us = vs := by
  refine h.eq_of_length_le ?_
  exact (hn.subperm hs).length_le

end lists

/-! ## Cells -/

/-- The instances with tag `t` that are in `TU`, in the order of the cells. -/
def proj (d : Device) (sc : Scope) (TU : List UID) (t : QName) (st : List Cell) : List UID :=
  (uidsOf d sc st).filter (fun u => u.1 = t ∧ u ∈ TU)

section proj
variable {d : Device} {sc : Scope} {TU : List UID} {t : QName} {st st' : List Cell} {u : UID}

theorem proj_append (a b : List Cell) :
    proj d sc TU t (a ++ b) = proj d sc TU t a ++ proj d sc TU t b := by
  simp [proj, uidsOf]

theorem proj_cons (c : Cell) (b : List Cell) :
    proj d sc TU t (c :: b) = proj d sc TU t [c] ++ proj d sc TU t b := by
  rw [← proj_append]; rfl

theorem proj_in {c : Cell} (hu : uid d sc c.2 = u) (h1 : u.1 = t) (h2 : u ∈ TU) :
    proj d sc TU t [c] = [u] := by
  simp [proj, uidsOf, hu, h1, h2]

theorem proj_out {c : Cell} (h : ¬ ((uid d sc c.2).1 = t ∧ uid d sc c.2 ∈ TU)) :
    proj d sc TU t [c] = [] := by
  simp only [proj, uidsOf, List.map_cons, List.map_nil, List.filter_cons, List.filter_nil, h]
  simp

theorem mem_proj {v : UID} : v ∈ proj d sc TU t st ↔ v ∈ uidsOf d sc st ∧ v.1 = t ∧ v ∈ TU := by
  simp [proj]

theorem proj_eq_nil (h : ∀ c ∈ st, c.2.tag ≠ t) : proj d sc TU t st = [] := by
  rw [proj, List.filter_eq_nil_iff]
  intro v hv
  obtain ⟨c, hc, rfl⟩ := List.mem_map.1 hv
  simp [uid_tag, h c hc]

/-- Only the cells of other instances matter when `u` is not looked at. -/
theorem proj_of_othU (h : othU d sc u st' = othU d sc u st) (hu : u.1 ≠ t ∨ u ∉ TU) :
    proj d sc TU t st' = proj d sc TU t st := by
  have e : ∀ l, proj d sc TU t l = proj d sc TU t (othU d sc u l) := by
    intro l
    unfold proj uidsOf othU
    induction l with
    | nil => rfl
    | cons c l ih =>
      simp only [List.map_cons, List.filter_cons]
      by_cases hc : uid d sc c.2 = u
      · have : ¬ (u.1 = t ∧ u ∈ TU) := by
          rintro ⟨a, b⟩; rcases hu with hu | hu
          · exact hu a
          · exact hu b
        simp only [hc, this, decide_false, Bool.false_eq_true, if_false, ne_eq, not_true_eq_false]
        simpa using ih
      · simp only [hc, ne_eq, not_false_eq_true, decide_true, if_true, List.map_cons, List.filter_cons]
        split
        · rw [ih]
        · simpa using ih
  rw [e, h, ← e]

theorem proj_sublist (h : st'.Sublist st) : (proj d sc TU t st').Sublist (proj d sc TU t st) :=
  (h.map _).filter _

/-- Placing a new cell `c` of instance `u` of the target `TU`. -/
theorem proj_putFirst {c : Cell} (hu : uid d sc c.2 = u) (hut : u.1 = t) (hU : u ∈ TU) :
    proj d sc TU t (putFirst t c st) = u :: proj d sc TU t st := by
  unfold putFirst
  cases hi : insertBefore (hasTag t) c st with
  | none =>
    have hno := insertBefore_none.1 hi
    have : proj d sc TU t st = [] := proj_eq_nil (fun y hy => by simpa [hasTag] using hno y hy)
    simp only [Option.getD_none]
    rw [proj_append, this, proj_in hu hut hU]; rfl
  | some st' =>
    obtain ⟨l, x, r', rfl, h2, h3, rfl⟩ := insertBefore_some hi
    have hl : proj d sc TU t l = [] := proj_eq_nil (fun y hy => by simpa [hasTag] using h2 y hy)
    simp only [Option.getD_some]
    rw [proj_append, proj_cons, proj_in hu hut hU, proj_append, hl]
    simp

theorem proj_putLast {c : Cell} (hu : uid d sc c.2 = u) (hut : u.1 = t) (hU : u ∈ TU) :
    proj d sc TU t (putLast t c st) = proj d sc TU t st ++ [u] := by
  unfold putLast
  cases hi : insertAfterLast (hasTag t) c st with
  | none =>
    simp only [Option.getD_none]
    rw [proj_append, proj_in hu hut hU]
  | some st' =>
    obtain ⟨l, x, r', rfl, h2, h3, rfl⟩ := insertAfterLast_some hi
    have hl : proj d sc TU t r' = [] := proj_eq_nil (fun y hy => by simpa [hasTag] using h2 y hy)
    simp only [Option.getD_some]
    rw [show l ++ x :: c :: r' = (l ++ [x]) ++ (c :: r') by simp,
      show l ++ x :: r' = (l ++ [x]) ++ r' by simp, proj_append (l ++ [x]) (c :: r'), proj_cons c,
      proj_in hu hut hU, proj_append (l ++ [x]) r', hl]
    simp

theorem proj_insertAfter {c : Cell} {w : UID} {P : Cell → Bool}
    (hu : uid d sc c.2 = u) (hut : u.1 = t) (hU : u ∈ TU) (hwt : w.1 = t) (hwT : w ∈ TU)
    (hP : ∀ c ∈ st, P c = true ↔ uid d sc c.2 = w) (hw : w ∈ uidsOf d sc st)
    (hnd : (proj d sc TU t st).Nodup) :
    ∃ st', insertAfter P c st = some st' ∧ proj d sc TU t st' = behind w u (proj d sc TU t st) := by
  cases hi : insertAfter P c st with
  | none =>
    obtain ⟨x, hx, hxw⟩ := List.mem_map.1 hw
    have := insertAfter_none.1 hi x hx
    rw [(hP x hx).2 hxw] at this; cases this
  | some st' =>
    refine ⟨st', rfl, ?_⟩
    obtain ⟨l, x, r', rfl, h2, h3, rfl⟩ := insertAfter_some hi
    have hx : uid d sc x.2 = w := (hP x (by simp)).1 h3
    rw [proj_append, proj_cons x, proj_in hx hwt hwT] at hnd ⊢
    rw [proj_append, proj_cons x, proj_cons c, proj_in hx hwt hwT, proj_in hu hut hU]
    simp only [List.cons_append, List.nil_append] at hnd ⊢
    rw [behind_split (fun hm => (List.nodup_append.1 hnd).2.2 w hm w (by simp) rfl)
      (List.nodup_cons.1 (List.nodup_append.1 hnd).2.1).1]

/-- Taking out the cells of one instance. -/
theorem proj_filter {P : Cell → Bool} (hP : ∀ c ∈ st, P c = true ↔ uid d sc c.2 ≠ u) :
    proj d sc TU t (st.filter P) = (proj d sc TU t st).filter (· ≠ u) := by
  induction st with
  | nil => rfl
  | cons c st ih =>
    have ih := ih (fun x hx => hP x (by simp [hx]))
    rw [proj_cons c, List.filter_append, ← ih, List.filter_cons]
    have hc := hP c (by simp)
    by_cases h : uid d sc c.2 = u
    · have : P c = false := by
        rw [← Bool.not_eq_true, hc]; simpa using h
      rw [if_neg (by simp [this])]
      have : (proj d sc TU t [c]).filter (· ≠ u) = [] := by
        rw [List.filter_eq_nil_iff]
        intro v hv
        have := (mem_proj.1 hv).1
        simp only [uidsOf, List.map_cons, List.map_nil, List.mem_singleton] at this
        simp [this, h]
      rw [this]; rfl
    · rw [if_pos (hc.2 h), proj_cons c]
      congr 1
      symm
      rw [List.filter_eq_self]
      intro v hv
      have := (mem_proj.1 hv).1
      simp only [uidsOf, List.map_cons, List.map_nil, List.mem_singleton] at this
      simpa [this] using h

end proj

end NcDiff
