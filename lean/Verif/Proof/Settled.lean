import Verif.Proof.Level
import Verif.Spec.Settle
/-!
# What the order condition of a transition says about instances
-/

namespace NcDiff

theorem sublist_of_before {α : Type} [DecidableEq α] {A B : List α} (hA : A.Nodup) (hB : B.Nodup)
    (hsub : ∀ x ∈ A, x ∈ B) (h : ∀ x y, [x, y].Sublist A → [x, y].Sublist B) : A.Sublist B := by
  have hp : A.Perm (B.filter (fun x => x ∈ A)) := by
    rw [List.perm_ext_iff_of_nodup hA (hB.filter _)]
    intro x
    simp only [List.mem_filter, decide_eq_true_eq]
    exact ⟨fun hx => ⟨hsub x hx, hx⟩, fun hx => hx.2⟩
  have : A = B.filter (fun x => x ∈ A) := by
    refine List.Perm.eq_of_pairwise (le := fun x y => [x, y].Sublist B) ?_ ?_ ?_ hp
    · intro a b _ _ h1 h2
      by_contra hne
      have h3 : [a, b].Sublist [b, a] := by
        have e : [b, a] = B.filter (fun x => x = a ∨ x = b) := by
          have h4 := h2.filter (fun x => decide (x = a ∨ x = b))
          simp only [List.filter_cons, decide_true, or_true, if_true, true_or, List.filter_nil] at h4
          refine h4.eq_of_length_le ?_
          have h5 : (B.filter (fun x => decide (x = a ∨ x = b))).Nodup := hB.filter _
          have h6 : (B.filter (fun x => decide (x = a ∨ x = b))) ⊆ [b, a] := by
            intro x hx
            have := (List.mem_filter.1 hx).2
            simp only [decide_eq_true_eq] at this
            simp only [List.mem_cons, List.not_mem_nil, or_false]
            exact this.symm
          exact (h5.subperm h6).length_le
        rw [e]
        have h4 := h1.filter (fun x => decide (x = a ∨ x = b))
        simpa using h4
      cases h3 with
      | cons _ h3 =>
        have := h3.length_le
        simp at this
      | cons_cons _ _ => exact hne rfl
    · rw [List.pairwise_iff_forall_sublist]
      intro a b hab; exact h a b hab
    · rw [List.pairwise_iff_forall_sublist]
      intro a b hab
      exact hab.trans List.filter_sublist
  rw [this]
  exact List.filter_sublist

section
variable {d : Device} {sc : Scope} {S T D : Elem} {t : QName}

theorem same_uid (vS : Valid d sc S) (vT : Valid d sc T) {x y : Elem} (hx : x ∈ S.kids) (hy : y ∈ T.kids) :
    uid d sc x = uid d sc y ↔ SameInstance d sc x y := by
  obtain ⟨f, hf, kf⟩ := vS.shape' x hx
  obtain ⟨g, hg, kg⟩ := vT.shape' y hy
  exact uid_eq_iff' hf kf hg kg

theorem targetOf_eq : targetOf d sc T t = (T.kids.filter (fun k => k.tag = t)).map (uid d sc) := by
  unfold targetOf
  rw [List.filter_map]
  congr 1
  refine List.filter_congr ?_
  intro k _
  simp [uid_tag]

/-- The instances of configs that are the same come in the same order. -/
theorem targetOf_same (vS : Valid d sc S) (vT : Valid d sc T) (h : SameConfig d sc S T) (ht : UserOrdered d sc t) :
    targetOf d sc S t = targetOf d sc T t := by
  have nS := vS.indexable.nodup
  have nT := vT.indexable.nodup
  have hST : ∀ u ∈ targetOf d sc S t, u ∈ targetOf d sc T t := by
    intro u hu
    obtain ⟨h1, h2⟩ := List.mem_filter.1 hu
    obtain ⟨x, hx, rfl⟩ := List.mem_map.1 h1
    cases h.1 with
    | mk _ _ _ kids _ _ =>
      obtain ⟨y, hy, hs⟩ := kids x hx
      rw [(same_uid vS vT hx hy).2 hs] at h2 ⊢
      exact List.mem_filter.2 ⟨List.mem_map_of_mem hy, h2⟩
  have hTS : ∀ u ∈ targetOf d sc T t, u ∈ targetOf d sc S t := by
    intro u hu
    obtain ⟨h1, h2⟩ := List.mem_filter.1 hu
    obtain ⟨x, hx, rfl⟩ := List.mem_map.1 h1
    cases h.2 with
    | mk _ _ _ kids _ _ =>
      obtain ⟨y, hy, hs⟩ := kids x hx
      rw [(same_uid vT vS hx hy).2 hs] at h2 ⊢
      exact List.mem_filter.2 ⟨List.mem_map_of_mem hy, h2⟩
  refine eq_of_sublist_of_subset (sublist_of_before (nS.filter _) (nT.filter _) hST ?_) (nT.filter _) hTS
  intro u v huv
  have hu := (List.mem_filter.1 (huv.subset (by simp : u ∈ [u, v]))).2
  have hv := (List.mem_filter.1 (huv.subset (by simp : v ∈ [u, v]))).2
  simp only [decide_eq_true_eq] at hu hv
  obtain ⟨l, hl, hle⟩ := List.sublist_map_iff.1 (huv.trans List.filter_sublist)
  obtain ⟨x, y, rfl⟩ : ∃ x y, l = [x, y] := by
    match l, hle with
    | [x, y], _ => exact ⟨x, y, rfl⟩
  simp only [List.map_cons, List.map_nil, List.cons.injEq, and_true] at hle
  obtain ⟨rfl, rfl⟩ := hle
  rw [uid_tag] at hu hv
  cases h.1 with
  | mk _ _ _ _ _ order =>
    obtain ⟨x', y', hb, h1, h2⟩ := order x y hl (hu.trans hv.symm) (by rw [hu]; exact ht)
    have hx : x ∈ S.kids := hl.subset (by simp)
    have hy : y ∈ S.kids := hl.subset (by simp)
    have hx' : x' ∈ T.kids := hb.subset (by simp)
    have hy' : y' ∈ T.kids := hb.subset (by simp)
    have e1 := (same_uid vS vT hx hx').2 h1
    have e2 := (same_uid vS vT hy hy').2 h2
    have := (List.Sublist.map (uid d sc) hb).filter (fun u => decide (u.1 = t))
    simp only [List.map_cons, List.map_nil, ← e1, ← e2] at this
    simpa [List.filter_cons, uid_tag, hu, hv] using this

/-- The entries that stay. -/
theorem staysOf_ranks (vS : Valid d sc S) (vT : Valid d sc T) {σ : List Nat} (h : Ranks d sc t S.kids T.kids σ) :
    ∃ f : Nat → UID, (∀ j, (h : j < (targetOf d sc T t).length) → f j = (targetOf d sc T t)[j]) ∧
      staysOf d sc S T t = σ.map f ∧ ∀ x ∈ σ, x < (targetOf d sc T t).length := by
  obtain ⟨m, hm, hmem, hfor⟩ := h
  have hnd : S.kids.Nodup := List.Nodup.of_map _ vS.indexable.nodup
  have hm' : m.map (uid d sc) = staysOf d sc S T t := by
    have e : staysOf d sc S T t = (S.kids.filter (fun s => s.tag = t ∧ uid d sc s ∈ T.kids.map (uid d sc))).map (uid d sc) := by
      unfold staysOf
      rw [List.filter_map]
      congr 1
      refine List.filter_congr ?_
      intro s _
      simp [uid_tag]
    rw [e]
    congr 1
    have hs : m.Sublist (S.kids.filter (fun s => s.tag = t ∧ uid d sc s ∈ T.kids.map (uid d sc))) := by
      have := hm.filter (fun s => decide (s.tag = t ∧ uid d sc s ∈ T.kids.map (uid d sc)))
      rwa [List.filter_eq_self.2] at this
      intro s hsm
      obtain ⟨h1, k, hk, h2⟩ := (hmem s (hm.subset hsm)).1 hsm
      simp only [decide_eq_true_eq]
      exact ⟨h1, List.mem_map.2 ⟨k, hk, ((same_uid vS vT (hm.subset hsm) hk).2 h2).symm⟩⟩
    refine eq_of_sublist_of_subset hs (hnd.filter _) ?_
    intro s hs
    obtain ⟨h1, h2⟩ := List.mem_filter.1 hs
    simp only [decide_eq_true_eq] at h2
    obtain ⟨k, hk, hku⟩ := List.mem_map.1 h2.2
    exact (hmem s h1).2 ⟨h2.1, k, hk, (same_uid vS vT h1 hk).1 hku.symm⟩
  refine ⟨fun j => (targetOf d sc T t)[j]?.getD default, ?_, ?_, ?_⟩
  · intro j hj
    simp [List.getElem?_eq_getElem hj]
  · rw [← hm']
    have key : ∀ {m' : List Elem} {σ' : List Nat}, (∀ s ∈ m', s ∈ S.kids) →
        List.Forall₂ (fun s j => ∃ k, (T.kids.filter (fun k => k.tag = t))[j]? = some k ∧ SameInstance d sc s k) m' σ' →
        m'.map (uid d sc) = σ'.map (fun j => (targetOf d sc T t)[j]?.getD default) := by
      intro m' σ' hin hf
      induction hf with
      | nil => rfl
      | @cons s j m' σ' hk _ ih =>
        obtain ⟨k, hk1, hk2⟩ := hk
        rw [List.map_cons, List.map_cons, ih (fun x hx => hin x (by simp [hx]))]
        congr 1
        have hkT : k ∈ T.kids := (List.mem_filter.1 (List.mem_of_getElem? hk1)).1
        rw [(same_uid vS vT (hin s (by simp)) hkT).2 hk2, targetOf_eq, List.getElem?_map, hk1]
        rfl
    exact key (fun s hs => hm.subset hs) hfor
  · intro x hx
    have key : ∀ {m' : List Elem} {σ' : List Nat},
        List.Forall₂ (fun s j => ∃ k, (T.kids.filter (fun k => k.tag = t))[j]? = some k ∧ SameInstance d sc s k) m' σ' →
        ∀ x ∈ σ', x < (targetOf d sc T t).length := by
      intro m' σ' hf
      induction hf with
      | nil => simp
      | @cons s j m' σ' hk _ ih =>
        obtain ⟨k, hk1, _⟩ := hk
        intro x hx
        rcases List.mem_cons.1 hx with rfl | hx
        · rw [targetOf_eq, List.length_map]
          exact (List.getElem?_eq_some_iff.1 hk1).1
        · exact ih x hx
    exact key hfor x hx

/-- What ends up where, for a delta with all entries of the target. -/
theorem ends_iff (vT : Valid d sc T)
    (hall : ∀ k ∈ T.kids, k.tag = t → ∃ o ∈ D.kids, uid d sc o = uid d sc k)
    (hseq : ((D.kids.map (uid d sc)).filter (fun u => u ∈ T.kids.map (uid d sc))).Sublist (T.kids.map (uid d sc))) :
    Ends d sc S T D t ↔ ((targetOf d sc T t).filter (· ∉ staysOf d sc S T t) ++ staysOf d sc S T t).foldl
      (goTo (targetOf d sc T t)) (staysOf d sc S T t) = targetOf d sc T t := by
  have nT := vT.indexable.nodup
  have hinD : ∀ u ∈ T.kids.map (uid d sc), u.1 = t → u ∈ D.kids.map (uid d sc) := by
    intro u hu hut
    obtain ⟨k, hk, rfl⟩ := List.mem_map.1 hu
    obtain ⟨o, ho, hou⟩ := hall k hk (by rw [← hut, uid_tag])
    exact List.mem_map.2 ⟨o, ho, hou⟩
  have hm : movesOf d sc S T D t = staysOf d sc S T t := by
    refine List.filter_congr ?_
    intro u _
    rw [Bool.eq_iff_iff]
    simp only [decide_eq_true_eq]
    exact ⟨fun h => ⟨h.1, h.2.1⟩, fun h => ⟨h.1, h.2, hinD u h.2 h.1⟩⟩
  have ha : addsOf d sc S T D t = (targetOf d sc T t).filter (· ∉ staysOf d sc S T t) := by
    have hd : (D.kids.map (uid d sc)).filter (fun u => u.1 = t ∧ u ∈ T.kids.map (uid d sc)) = targetOf d sc T t := by
      refine eq_of_sublist_of_subset ?_ (nT.filter _) ?_
      · have := hseq.filter (fun u => decide (u.1 = t))
        rw [List.filter_filter] at this
        have e : (D.kids.map (uid d sc)).filter (fun u => u.1 = t ∧ u ∈ T.kids.map (uid d sc)) =
            (D.kids.map (uid d sc)).filter (fun u => decide (u.1 = t) && decide (u ∈ T.kids.map (uid d sc))) := by
          refine List.filter_congr ?_
          intro u _
          simp only [Bool.decide_and]
        rw [e]
        exact this
      · intro u hu
        obtain ⟨h1, h2⟩ := List.mem_filter.1 hu
        have h2 : u.1 = t := by simpa using h2
        exact List.mem_filter.2 ⟨hinD u h1 h2, by simpa using ⟨h2, List.mem_map.1 h1⟩⟩
    rw [← hd, List.filter_filter]
    refine List.filter_congr ?_
    intro u _
    rw [Bool.eq_iff_iff]
    simp only [Bool.and_eq_true, decide_eq_true_eq, List.mem_filter]
    constructor
    · rintro ⟨h1, h2, h3⟩
      exact ⟨fun h => h3 h.1, h1, h2⟩
    · rintro ⟨h1, h2, h3⟩
      exact ⟨h2, h3, fun h => h1 ⟨h, h2, h3⟩⟩
  unfold Ends
  rw [hm, ha]

/-- A delta with all entries of the target. -/
theorem ends_of_settles (vS : Valid d sc S) (vT : Valid d sc T) (h : OrderSettles d sc t S.kids T.kids)
    (hall : ∀ k ∈ T.kids, k.tag = t → ∃ o ∈ D.kids, uid d sc o = uid d sc k)
    (hseq : ((D.kids.map (uid d sc)).filter (fun u => u ∈ T.kids.map (uid d sc))).Sublist (T.kids.map (uid d sc))) :
    Ends d sc S T D t := by
  obtain ⟨σ, hr, hs⟩ := h
  obtain ⟨f, hf, hst, hl⟩ := staysOf_ranks vS vT hr
  have hlen : (T.kids.filter (fun k => k.tag = t)).length = (targetOf d sc T t).length := by
    rw [targetOf_eq, List.length_map]
  rw [hlen] at hs
  refine (ends_iff vT hall hseq).2 (Eq.trans ?_ (settles_map (vT.indexable.nodup.filter _) hf hst hl hs))
  refine congrArg (fun l => List.foldl (goTo (targetOf d sc T t)) (staysOf d sc S T t) (l ++ staysOf d sc S T t)) ?_
  refine List.filter_congr ?_
  intro u _
  simp only [decide_not, decide_eq_decide]

/-! ## Conditions that are easier to check -/

/-- The numbers of the entries that stay. -/
theorem ranks_exist (vS : Valid d sc S) (vT : Valid d sc T) :
    Ranks d sc t S.kids T.kids ((staysOf d sc S T t).map (fun u => (targetOf d sc T t).idxOf u)) := by
  refine ⟨S.kids.filter (fun s => s.tag = t ∧ uid d sc s ∈ T.kids.map (uid d sc)), List.filter_sublist, ?_, ?_⟩
  · intro s hs
    simp only [List.mem_filter, decide_eq_true_eq, List.mem_map]
    constructor
    · rintro ⟨_, h1, k, hk, hku⟩
      exact ⟨h1, k, hk, (same_uid vS vT hs hk).1 hku.symm⟩
    · rintro ⟨h1, k, hk, hku⟩
      exact ⟨hs, h1, k, hk, ((same_uid vS vT hs hk).2 hku).symm⟩
  · have e : staysOf d sc S T t = (S.kids.filter (fun s => s.tag = t ∧ uid d sc s ∈ T.kids.map (uid d sc))).map (uid d sc) := by
      unfold staysOf
      rw [List.filter_map]
      congr 1
      refine List.filter_congr ?_
      intro s _
      simp [uid_tag]
    rw [e, List.map_map, List.forall₂_map_right_iff, List.forall₂_same]
    intro s hs
    obtain ⟨h1, h2⟩ := List.mem_filter.1 hs
    simp only [decide_eq_true_eq] at h2
    have hm : uid d sc s ∈ targetOf d sc T t := List.mem_filter.2 ⟨h2.2, by simpa [uid_tag] using h2.1⟩
    have hlt := List.idxOf_lt_length_iff.2 hm
    have hlt' : (targetOf d sc T t).idxOf (uid d sc s) < (T.kids.filter (fun k => k.tag = t)).length := by
      rw [targetOf_eq, List.length_map] at hlt; rw [targetOf_eq]; exact hlt
    refine ⟨(T.kids.filter (fun k => k.tag = t))[(targetOf d sc T t).idxOf (uid d sc s)]'hlt', ?_, ?_⟩
    · exact List.getElem?_eq_getElem hlt'
    have hk : (T.kids.filter (fun k => k.tag = t))[(targetOf d sc T t).idxOf (uid d sc s)] ∈ T.kids :=
      (List.mem_filter.1 (List.getElem_mem hlt')).1
    refine (same_uid vS vT h1 hk).1 ?_
    have h3 := List.getElem_idxOf hlt
    refine h3.symm.trans ?_
    have h4 : ∀ (l : List UID) (j : Nat) (h : j < l.length) (e : l = (T.kids.filter (fun k => k.tag = t)).map (uid d sc))
        (h' : j < (T.kids.filter (fun k => k.tag = t)).length),
        l[j] = uid d sc ((T.kids.filter (fun k => k.tag = t))[j]) := by
      intro l j h e h'
      subst e
      simp
    exact h4 _ _ _ targetOf_eq hlt'

/-- If the entries end in the order of the target, the order condition is met. -/
theorem settles_of_ends (vS : Valid d sc S) (vT : Valid d sc T)
    (hall : ∀ k ∈ T.kids, k.tag = t → ∃ o ∈ D.kids, uid d sc o = uid d sc k)
    (hseq : ((D.kids.map (uid d sc)).filter (fun u => u ∈ T.kids.map (uid d sc))).Sublist (T.kids.map (uid d sc)))
    (h : Ends d sc S T D t) : OrderSettles d sc t S.kids T.kids := by
  have hr := ranks_exist (t := t) vS vT
  refine ⟨_, hr, ?_⟩
  obtain ⟨f, hf, hst, hl⟩ := staysOf_ranks vS vT hr
  have hlen : (T.kids.filter (fun k => k.tag = t)).length = (targetOf d sc T t).length := by
    rw [targetOf_eq, List.length_map]
  rw [hlen]
  refine (settles_map_iff (vT.indexable.nodup.filter _) hf hst hl).2 (Eq.trans ?_ ((ends_iff vT hall hseq).1 h))
  refine congrArg (fun l => List.foldl (goTo (targetOf d sc T t)) (staysOf d sc S T t) (l ++ staysOf d sc S T t)) ?_
  refine List.filter_congr ?_
  intro u _
  simp only [decide_not, decide_eq_decide]

theorem map_idxOf {α : Type*} [BEq α] [LawfulBEq α] {l : List α} (h : l.Nodup) : l.map (fun u => l.idxOf u) = List.range l.length := by
  refine List.ext_getElem (by simp) ?_
  intro i h1 h2
  simp [h.idxOf_getElem]

theorem target_before {X : List Elem} {x y : Elem} (h : Before X x y) (hx : x.tag = t) (hy : y.tag = t) :
    [uid d sc x, uid d sc y].Sublist ((X.map (uid d sc)).filter (fun u => u.1 = t)) := by
  have := (List.Sublist.map (uid d sc) h).filter (fun u => decide (u.1 = t))
  simpa [List.filter_cons, uid_tag, hx, hy] using this

theorem before_of_uid {X : List Elem} {u v : UID} (h : [u, v].Sublist (X.map (uid d sc))) :
    ∃ x y, Before X x y ∧ uid d sc x = u ∧ uid d sc y = v := by
  obtain ⟨l, hl, hle⟩ := List.sublist_map_iff.1 h
  obtain ⟨x, y, rfl⟩ : ∃ x y, l = [x, y] := by
    match l, hle with
    | [x, y], _ => exact ⟨x, y, rfl⟩
  simp only [List.map_cons, List.map_nil, List.cons.injEq, and_true] at hle
  exact ⟨x, y, hl, hle.1.symm, hle.2.symm⟩

theorem mem_stays {u : UID} : u ∈ staysOf d sc S T t ↔ u ∈ S.kids.map (uid d sc) ∧ u.1 = t ∧ u ∈ T.kids.map (uid d sc) := by
  simp only [staysOf, List.mem_filter, decide_eq_true_eq]

theorem mem_target {u : UID} : u ∈ targetOf d sc T t ↔ u ∈ T.kids.map (uid d sc) ∧ u.1 = t := by
  simp only [targetOf, List.mem_filter, decide_eq_true_eq]

/-- Entries that keep their order end in the order of the target. -/
theorem settles_of_kept (vS : Valid d sc S) (vT : Valid d sc T) (h : KeepsOrder d sc t S.kids T.kids) :
    OrderSettles d sc t S.kids T.kids := by
  have nS := vS.indexable.nodup
  have nT := vT.indexable.nodup
  have hsub : (staysOf d sc S T t).Sublist (targetOf d sc T t) := by
    refine sublist_of_before (nS.filter _) (nT.filter _) (fun u hu => mem_target.2 (mem_stays.1 hu).2.symm) ?_
    intro u v huv
    have hu := mem_stays.1 (huv.subset (by simp : u ∈ [u, v]))
    have hv := mem_stays.1 (huv.subset (by simp : v ∈ [u, v]))
    obtain ⟨x, y, hb, rfl, rfl⟩ := before_of_uid (huv.trans List.filter_sublist)
    obtain ⟨x', hx', ex⟩ := List.mem_map.1 hu.2.2
    obtain ⟨y', hy', ey⟩ := List.mem_map.1 hv.2.2
    have hx : x ∈ S.kids := hb.subset (by simp)
    have hy : y ∈ S.kids := hb.subset (by simp)
    have tx : x.tag = t := by rw [← hu.2.1, uid_tag]
    have ty : y.tag = t := by rw [← hv.2.1, uid_tag]
    have sx := (same_uid vS vT hx hx').1 ex.symm
    have sy := (same_uid vS vT hy hy').1 ey.symm
    have := target_before (d := d) (sc := sc) (t := t) (h x y hb tx ty x' hx' y' hy' sx sy) (by rw [← sx.1]; exact tx) (by rw [← sy.1]; exact ty)
    rw [ex, ey] at this
    exact this
  refine ⟨_, ranks_exist vS vT, settles_sorted ?_ ?_⟩
  · have := hsub.map (fun u => (targetOf d sc T t).idxOf u)
    rw [map_idxOf (nT.filter _)] at this
    exact List.Pairwise.sublist this List.pairwise_lt_range
  · intro x hx
    obtain ⟨u, hu, rfl⟩ := List.mem_map.1 hx
    have := List.idxOf_lt_length_iff.2 (hsub.subset hu)
    rw [targetOf_eq, List.length_map] at this
    rwa [targetOf_eq]

theorem adjacent_sublist {α : Type*} {l : List α} {j : Nat} (h : j + 1 < l.length) : [l[j], l[j + 1]].Sublist l := by
  induction l generalizing j with
  | nil => simp at h
  | cons a r ih =>
    cases j with
    | zero =>
      cases r with
      | nil => simp at h
      | cons b r => exact List.Sublist.cons_cons _ (List.Sublist.cons_cons _ (List.nil_sublist _))
    | succ j => exact List.Sublist.cons _ (ih (by simpa using h))

/-- A part of the entries that moves ends in the order of the target. -/
theorem settles_of_moved (vS : Valid d sc S) (vT : Valid d sc T) (h : MovesPart d sc t S.kids T.kids) :
    OrderSettles d sc t S.kids T.kids := by
  have nS := vS.indexable.nodup
  have nT := vT.indexable.nodup
  obtain ⟨hold, X, Y, hXY, hX, hY⟩ := h
  have hlen : (T.kids.filter (fun k => k.tag = t)).length = (targetOf d sc T t).length := by
    rw [targetOf_eq, List.length_map]
  have hperm : (staysOf d sc S T t).Perm (targetOf d sc T t) := by
    refine (List.perm_ext_iff_of_nodup (nS.filter _) (nT.filter _)).2 ?_
    intro u
    rw [mem_stays, mem_target]
    refine ⟨fun h => h.2.symm, fun h => ⟨?_, h.2, h.1⟩⟩
    obtain ⟨k, hk, rfl⟩ := List.mem_map.1 h.1
    obtain ⟨s, hs, hsk⟩ := hold k hk (by rw [← h.2, uid_tag])
    exact List.mem_map.2 ⟨s, hs, (same_uid vS vT hs hk).2 hsk⟩
  have pair : ∀ {l : List Elem}, (∀ k ∈ l, k ∈ T.kids ∧ k.tag = t) → InOrderOf d sc S.kids l → ∀ x y, Before l x y →
      [uid d sc x, uid d sc y].Sublist (staysOf d sc S T t) := by
    intro l hl ho x y hb
    obtain ⟨x', y', hb', sx, sy⟩ := ho x y hb
    have hx := hl x (hb.subset (by simp))
    have hy := hl y (hb.subset (by simp))
    have hx' : x' ∈ S.kids := hb'.subset (by simp)
    have hy' : y' ∈ S.kids := hb'.subset (by simp)
    have ex := (same_uid vS vT hx' hx.1).2 sx
    have ey := (same_uid vS vT hy' hy.1).2 sy
    have := (List.Sublist.map (uid d sc) hb').filter (fun u => decide (u.1 = t ∧ u ∈ T.kids.map (uid d sc)))
    simp only [List.map_cons, List.map_nil, ex, ey] at this
    rw [List.filter_eq_self.2] at this
    · exact this
    · intro u hu
      simp only [decide_eq_true_eq]
      rcases List.mem_cons.1 hu with rfl | hu
      · exact ⟨by rw [uid_tag]; exact hx.2, List.mem_map_of_mem hx.1⟩
      · rw [List.mem_singleton.1 hu]
        exact ⟨by rw [uid_tag]; exact hy.2, List.mem_map_of_mem hy.1⟩
  have hall : ∀ k ∈ X ++ Y, k ∈ T.kids ∧ k.tag = t := by
    intro k hk
    rw [← hXY] at hk
    simpa using hk
  refine ⟨_, ranks_exist vS vT, ?_⟩
  rw [hlen]
  refine settles_runs (k := X.length) ?_ ?_
  · rw [← map_idxOf (nT.filter (fun u => decide (u.1 = t)))]
    exact hperm.map _
  · intro j hj hjk
    have hj' : j + 1 < (X ++ Y).length := by rw [← hXY, hlen]; exact hj
    have e : targetOf d sc T t = (X ++ Y).map (uid d sc) := by rw [targetOf_eq, hXY]
    have key : [uid d sc (X ++ Y)[j], uid d sc (X ++ Y)[j + 1]].Sublist (staysOf d sc S T t) := by
      by_cases hlt : j + 1 < X.length
      · have := pair (fun k hk => hall k (List.mem_append_left _ hk)) hX X[j] X[j + 1] (adjacent_sublist hlt)
        simpa [List.getElem_append_left (bs := Y) hlt, List.getElem_append_left (bs := Y) (show j < X.length by omega)] using this
      · have hge : X.length ≤ j := by omega
        have hY' : j - X.length + 1 < Y.length := by rw [List.length_append] at hj'; omega
        have := pair (fun k hk => hall k (List.mem_append_right _ hk)) hY Y[j - X.length] Y[j - X.length + 1] (adjacent_sublist hY')
        rw [List.getElem_append_right hge, List.getElem_append_right (show X.length ≤ j + 1 by omega)]
        have e2 : j + 1 - X.length = j - X.length + 1 := by omega
        simpa [e2] using this
    have := key.map (fun u => (targetOf d sc T t).idxOf u)
    have ei : ∀ i (hi : i < (X ++ Y).length), (targetOf d sc T t).idxOf (uid d sc (X ++ Y)[i]) = i := by
      intro i hi
      have hn : ((X ++ Y).map (uid d sc)).Nodup := by rw [← e]; exact nT.filter _
      rw [e]
      have h3 := hn.idxOf_getElem i (by simpa using hi)
      rwa [List.getElem_map] at h3
    simp only [List.map_cons, List.map_nil, ei] at this
    exact this

end

end NcDiff
