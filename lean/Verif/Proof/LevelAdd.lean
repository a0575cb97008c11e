import Verif.Proof.Level
/-!
# Applying a delta that describes the difference: the loops
-/

namespace NcDiff

section
variable {ω : Prop} {d : Device} {sc : Scope} {S T D : Elem}

theorem tag_of_uid {x y : Elem} (h : uid d sc x = uid d sc y) : x.tag = y.tag := by
  rw [← uid_tag d sc x, h, uid_tag]

/-- Other instances stay where they are. -/
theorem proj_other {u : UID} {st st' : List Cell} {t : QName} (ho : othU d sc u st' = othU d sc u st)
    (hu : u.1 ≠ t) : proj d sc (T.kids.map (uid d sc)) t st' = proj d sc (T.kids.map (uid d sc)) t st :=
  proj_of_othU ho (Or.inl hu)

/-- The position of a child that was not there. -/
theorem place_new (L : Level ω d sc S T D) {o k e : Elem} {f : Found} {st : List Cell}
    (hk : k ∈ T.kids) (ho : o ∈ D.kids) (huo : uid d sc o = uid d sc k)
    (hnoS : ∀ s ∈ S.kids, uid d sc s ≠ uid d sc k)
    (hf : d.lookup sc k.tag = .ok f) (hue : uid d sc e = uid d sc k)
    (hnd : UserOrdered d sc k.tag → (proj d sc (T.kids.map (uid d sc)) k.tag st).Nodup)
    (hcell : ∀ c ∈ st, CellOk d sc c.2) (hnot : uid d sc k ∉ uidsOf d sc st)
    (hpre : ∀ p ∈ T.kids, ∀ l r, T.kids.map (uid d sc) = l ++ uid d sc k :: r → uid d sc p ∈ l →
      UserOrdered d sc k.tag → uid d sc p ∈ uidsOf d sc st)
    (hlast : (∀ s ∈ S.kids, s.tag ≠ k.tag) → UserOrdered d sc k.tag → ∃ r,
      targetOf d sc T k.tag = proj d sc (T.kids.map (uid d sc)) k.tag st ++ uid d sc k :: r) :
    ∃ st', newPlace f o (none, e) st = .ok st' ∧ Ins (none, e) st st' ∧ (UserOrdered d sc k.tag →
      proj d sc (T.kids.map (uid d sc)) k.tag st' =
        goTo (targetOf d sc T k.tag) (proj d sc (T.kids.map (uid d sc)) k.tag st) (uid d sc k)) := by
  have hto : o.tag = k.tag := tag_of_uid huo
  have hkT : uid d sc k ∈ T.kids.map (uid d sc) := List.mem_map_of_mem hk
  have hnT : (T.kids.map (uid d sc)).Nodup := L.vT.indexable.nodup
  have hnt' : (targetOf d sc T k.tag).Nodup := hnT.filter _
  have hfil : (proj d sc (T.kids.map (uid d sc)) k.tag st).filter (· ≠ uid d sc k) =
      proj d sc (T.kids.map (uid d sc)) k.tag st :=
    filter_ne_of_not_mem (fun hm => hnot (mem_proj.1 hm).1)
  -- a child that is ordered by the user
  have main : ∀ anchor : Except Err (Cell → Bool),
      ((f.node.ntype = .leafList ∧ anchor = valueAnchor o) ∨
        (f.node.ntype = .list ∧ anchor = keyAnchor o)) →
      ∃ st', placeNew f.node anchor o (none, e) st = .ok st' ∧ Ins (none, e) st st' ∧ (UserOrdered d sc k.tag →
        proj d sc (T.kids.map (uid d sc)) k.tag st' =
          goTo (targetOf d sc T k.tag) (proj d sc (T.kids.map (uid d sc)) k.tag st) (uid d sc k)) := by
    intro anchor hanchor
    have hnt : f.node.ntype = .leafList ∨ f.node.ntype = .list := by
      rcases hanchor with h | h
      · exact Or.inl h.1
      · exact Or.inr h.1
    unfold placeNew
    by_cases huo' : f.node.userOrdered = true
    · have hUO : UserOrdered d sc k.tag := ⟨f, hf, huo', hnt⟩
      simp only [huo', if_true]
      rcases L.pos o ho k hk huo f hf huo' hnt with ⟨hi, r, hr⟩ | ⟨hi, p, hp, hap, l, r, hr⟩ | ⟨hi, hs⟩
      · simp only [hi, if_true]
        refine ⟨_, rfl, ins_putFirst _ _ _, fun _ => ?_⟩
        rw [hto, proj_putFirst hue (uid_tag d sc k) hkT, goTo_first hnt' hr, hfil]
      · simp only [hi]
        have hpu : uid d sc p ∈ (T.kids.map (uid d sc)).filter (fun u => u.1 = k.tag) := by rw [hr]; simp
        have htp : p.tag = k.tag := by
          have := (List.mem_filter.1 hpu).2
          simpa [uid_tag] using this
        obtain ⟨P, hP1, hP2, hP⟩ := anchor_iff (o := o) (by rw [htp]; exact hf) huo' (hto.trans htp.symm)
          (L.cellT p hp) hap
        have han : anchor = .ok P := by
          rcases hanchor with h | h
          · rw [h.2, hP1 h.1]
          · rw [h.2, hP2 h.1]
        have hw : uid d sc p ∈ uidsOf d sc st := by
          obtain ⟨l', r', hlr⟩ := List.append_of_mem hkT
          refine hpre p hp l' r' hlr ?_ hUO
          have h2 : (l'.filter (fun u => u.1 = k.tag)) ++ uid d sc k :: (r'.filter (fun u => u.1 = k.tag)) =
              (l ++ [uid d sc p]) ++ uid d sc k :: r := by
            rw [List.append_assoc]
            rw [show [uid d sc p] ++ uid d sc k :: r = uid d sc p :: uid d sc k :: r from rfl, ← hr, hlr]
            simp [List.filter_append, List.filter_cons, uid_tag]
          have hnd : ((l ++ [uid d sc p]) ++ uid d sc k :: r).Nodup := by
            rw [← h2]
            have := hnT.filter (fun u => decide (u.1 = k.tag))
            rw [hlr] at this
            simpa [List.filter_append, List.filter_cons, uid_tag] using this
          have h4 := sublist_split (by rw [h2]; exact hnd) (by rw [h2] :
            (((l ++ [uid d sc p]) ++ uid d sc k :: r)).Sublist
              ((l'.filter (fun u => u.1 = k.tag)) ++ uid d sc k :: (r'.filter (fun u => u.1 = k.tag))))
          have : uid d sc p ∈ l'.filter (fun u => decide (u.1 = k.tag)) := h4.1.subset (by simp)
          exact (List.mem_filter.1 this).1
        obtain ⟨st', h1, h2⟩ := proj_insertAfter (c := (none, e)) (st := st) (P := P) (w := uid d sc p) hue
          (uid_tag d sc k) hkT ((uid_tag d sc p).trans htp) (List.mem_map_of_mem hp)
          (fun c hc => hP c (hcell c hc)) hw (hnd hUO)
        refine ⟨st', ?_, ins_insertAfter h1, fun _ => ?_⟩
        · simp [han, h1, orWrong, bind, Except.bind]
        · rw [h2, goTo_after hnt' hr, hfil]
      · simp only [hi]
        refine ⟨_, rfl, ins_putLast _ _ _, fun _ => ?_⟩
        have hs : ∀ s ∈ S.kids, s.tag ≠ k.tag := by
          rcases hs with hs | hs
          · exact hs
          · exfalso
            have hm : uid d sc k ∈ (T.kids.map (uid d sc)).filter (fun u => u.1 = k.tag) :=
              List.mem_filter.2 ⟨hkT, by simp [uid_tag]⟩
            rw [← hs] at hm
            obtain ⟨s, hs, hsu⟩ := List.mem_map.1 (List.mem_filter.1 hm).1
            exact hnoS s hs hsu
        obtain ⟨r, hr⟩ := hlast hs hUO
        rw [hto, proj_putLast hue (uid_tag d sc k) hkT, goTo_next hnt' hr]
    · have hf' : f.node.userOrdered = false := by simpa using huo'
      simp only [hf', Bool.false_eq_true, if_false]
      refine ⟨_, rfl, ins_putLast _ _ _, ?_⟩
      rintro ⟨g, hg, hgu, _⟩
      rw [hf] at hg; cases hg
      exact absurd hgu huo'
  obtain ⟨g, hg, kg, _⟩ := L.cellT k hk
  rw [hf] at hg; cases hg
  unfold newPlace
  cases hn : f.node.ntype <;> simp only
  case leafList => exact main _ (Or.inl ⟨hn, rfl⟩)
  case list => exact main _ (Or.inr ⟨hn, rfl⟩)
  case leaf =>
    refine ⟨_, rfl, Ins.append _ _, ?_⟩
    rintro ⟨g, hg, _, h⟩; rw [hf] at hg; cases hg; rw [hn] at h; simp at h
  case container =>
    refine ⟨_, rfl, Ins.append _ _, ?_⟩
    rintro ⟨g, hg, _, h⟩; rw [hf] at hg; cases hg; rw [hn] at h; simp at h
  all_goals
    unfold KidOk at kg; simp [hn] at kg

/-- The position of a child that was there. -/
theorem place_old (L : Level ω d sc S T D) {o k s : Elem} {f : Found} {i : Nat} {st : List Cell}
    (hk : k ∈ T.kids) (ho : o ∈ D.kids) (huo : uid d sc o = uid d sc k) (hi : S.kids[i]? = some s)
    (hf : d.lookup sc k.tag = .ok f) (hus : uid d sc s = uid d sc k)
    (hI : HInv d sc S.kids st) (hat : atU d sc (uid d sc s) st = [(some i, s)])
    (hnd : UserOrdered d sc k.tag → (proj d sc (T.kids.map (uid d sc)) k.tag st).Nodup)
    (hcell : ∀ c ∈ st, CellOk d sc c.2)
    (hpre : ∀ p ∈ T.kids, UserOrdered d sc p.tag → uid d sc p ∈ uidsOf d sc st)
    (hfix : UserOrdered d sc k.tag →
      (S.kids.map (uid d sc)).filter (fun u => u.1 = k.tag) = targetOf d sc T k.tag →
      proj d sc (T.kids.map (uid d sc)) k.tag st = targetOf d sc T k.tag) :
    ∃ st', peerPlace f.node o i s st = .ok st' ∧ (UserOrdered d sc k.tag →
      proj d sc (T.kids.map (uid d sc)) k.tag st' =
        goTo (targetOf d sc T k.tag) (proj d sc (T.kids.map (uid d sc)) k.tag st) (uid d sc k)) := by
  have hto : o.tag = k.tag := tag_of_uid huo
  have hs : s ∈ S.kids := List.mem_of_getElem? hi
  have hkT : uid d sc k ∈ T.kids.map (uid d sc) := List.mem_map_of_mem hk
  have hnT : (T.kids.map (uid d sc)).Nodup := L.vT.indexable.nodup
  have hnt' : (targetOf d sc T k.tag).Nodup := hnT.filter _
  have hkt' : uid d sc k ∈ targetOf d sc T k.tag := List.mem_filter.2 ⟨hkT, by simp [uid_tag]⟩
  have hsm : (some i, s) ∈ st := by
    have : ((some i, s) : Cell) ∈ atU d sc (uid d sc s) st := by rw [hat]; simp
    exact (List.mem_filter.1 this).1
  have hrem : proj d sc (T.kids.map (uid d sc)) k.tag (removeCell i st) =
      (proj d sc (T.kids.map (uid d sc)) k.tag st).filter (· ≠ uid d sc k) := by
    refine proj_filter ?_
    intro c hc
    by_cases h : isCell i c = true
    · have := (hI.uid_handle hi hc h).trans hus
      simp [h, this]
    · simp only [h, Bool.not_false, true_iff]
      intro hcu
      have : c ∈ atU d sc (uid d sc s) st := List.mem_filter.2 ⟨hc, by simpa [hus] using hcu⟩
      rw [hat, List.mem_singleton] at this
      subst this
      simp [isCell] at h
  have main : ∀ anchor : Except Err (Cell → Bool),
      ((f.node.ntype = .leafList ∧ anchor = valueAnchor o) ∨
        (f.node.ntype = .list ∧ anchor = keyAnchor o)) →
      ∃ st', placeOld f.node anchor o i s st = .ok st' ∧ (UserOrdered d sc k.tag →
        proj d sc (T.kids.map (uid d sc)) k.tag st' =
          goTo (targetOf d sc T k.tag) (proj d sc (T.kids.map (uid d sc)) k.tag st) (uid d sc k)) := by
    intro anchor hanchor
    have hnt : f.node.ntype = .leafList ∨ f.node.ntype = .list := by
      rcases hanchor with h | h
      · exact Or.inl h.1
      · exact Or.inr h.1
    unfold placeOld
    by_cases huo' : f.node.userOrdered = true
    · have hUO : UserOrdered d sc k.tag := ⟨f, hf, huo', hnt⟩
      simp only [huo', if_true]
      rcases L.pos o ho k hk huo f hf huo' hnt with ⟨hins, r, hr⟩ | ⟨hins, p, hp, hap, l, r, hr⟩ | ⟨hins, hwhy⟩
      · simp only [hins, if_true]
        cases hfi : st.find? (hasTag o.tag) with
        | none =>
          have := List.find?_eq_none.1 hfi _ hsm
          simp [hasTag, hto, tag_of_uid hus] at this
        | some c =>
          simp only
          split
          · rename_i hcell'
            refine ⟨_, rfl, fun _ => ?_⟩
            have hcu := (hI.uid_handle hi (List.mem_of_find?_eq_some hfi) hcell').trans hus
            obtain ⟨_, A, B, hAB, hA⟩ := List.find?_eq_some_iff_append.1 hfi
            have hpA : proj d sc (T.kids.map (uid d sc)) k.tag A = [] :=
              proj_eq_nil (fun y hy => by simpa [hasTag, hto] using hA y hy)
            have hn := hnd hUO
            rw [goTo_first hnt' hr]
            rw [hAB, proj_append, hpA, List.nil_append, proj_cons, proj_in hcu (uid_tag d sc k) hkT] at hn ⊢
            have hno : uid d sc k ∉ proj d sc (T.kids.map (uid d sc)) k.tag B :=
              (List.nodup_cons.1 hn).1
            have := filter_ne_of_not_mem hno
            simp only [List.cons_append, List.nil_append, List.filter_cons, ne_eq, not_true_eq_false, decide_false,
              Bool.false_eq_true, if_false]
            rw [this]
          · refine ⟨_, rfl, fun _ => ?_⟩
            rw [hto, proj_putFirst hus (uid_tag d sc k) hkT, goTo_first hnt' hr, hrem]
      · simp only [hins]
        have hpu : uid d sc p ∈ (T.kids.map (uid d sc)).filter (fun u => u.1 = k.tag) := by rw [hr]; simp
        have htp : p.tag = k.tag := by
          have := (List.mem_filter.1 hpu).2
          simpa [uid_tag] using this
        have hpk : uid d sc p ≠ uid d sc k := by
          intro h
          have := hnT.filter (fun u => decide (u.1 = k.tag))
          rw [hr, h] at this
          have := (List.nodup_append.1 this).2.1
          simp at this
        obtain ⟨P, hP1, hP2, hP⟩ := anchor_iff (o := o) (by rw [htp]; exact hf) huo' (hto.trans htp.symm)
          (L.cellT p hp) hap
        have han : anchor = .ok P := by
          rcases hanchor with h | h
          · rw [h.2, hP1 h.1]
          · rw [h.2, hP2 h.1]
        have hw := hpre p hp (by rw [htp]; exact hUO)
        obtain ⟨c0, hc0, hc0u⟩ := List.mem_map.1 hw
        have hc0r : c0 ∈ removeCell i st := by
          refine List.mem_filter.2 ⟨hc0, ?_⟩
          by_cases hcell' : isCell i c0 = true
          · exact absurd (hc0u.symm.trans ((hI.uid_handle hi hc0 hcell').trans hus)) hpk
          · simpa using hcell'
        obtain ⟨st', h1, h2⟩ := proj_insertAfter (c := (some i, s)) (st := removeCell i st) (P := P)
          (w := uid d sc p) hus (uid_tag d sc k) hkT ((uid_tag d sc p).trans htp) (List.mem_map_of_mem hp)
          (fun c hc => hP c (hcell c (List.mem_filter.1 hc).1))
          (List.mem_map.2 ⟨c0, hc0r, hc0u⟩) (by rw [hrem]; exact (hnd hUO).filter _)
        have hmove : moveCell insertAfter P i s st = .ok st' := by
          unfold moveCell
          cases hfi : st.find? P with
          | none =>
            have := List.find?_eq_none.1 hfi c0 hc0
            exact absurd ((hP c0 (hcell c0 hc0)).2 hc0u) this
          | some c =>
            have hcm := List.mem_of_find?_eq_some hfi
            have hcu := (hP c (hcell c hcm)).1 (List.find?_some hfi)
            have : isCell i c = false := by
              by_contra hb
              have hb : isCell i c = true := by simpa using hb
              exact hpk (hcu.symm.trans ((hI.uid_handle hi hcm hb).trans hus))
            simp [this, h1, orWrong]
        refine ⟨st', ?_, fun _ => ?_⟩
        · simp [han, hmove, bind, Except.bind]
        · rw [h2, goTo_after hnt' hr, hrem]
      · simp only [hins]
        refine ⟨_, rfl, fun _ => ?_⟩
        rcases hwhy with hno | hsame
        · exact absurd (tag_of_uid hus) (hno s hs)
        · rw [hfix hUO hsame, goTo_self hnt' hkt']
    · have hf' : f.node.userOrdered = false := by simpa using huo'
      simp only [hf', Bool.false_eq_true, if_false]
      refine ⟨_, rfl, ?_⟩
      rintro ⟨g, hg, hgu, _⟩
      rw [hf] at hg; cases hg
      exact absurd hgu huo'
  obtain ⟨x, e, hx, hxe, _⟩ := L.peer s hs k hk o ho hus huo f hf
  unfold peerPlace
  cases hn : f.node.ntype <;> simp only
  case leafList =>
    split
    · exact main _ (Or.inl ⟨hn, rfl⟩)
    · rename_i hop
      exfalso
      unfold peerContent at hx
      simp only [hn, hop, if_false] at hx
      split at hx
      · cases hx
      · split at hx
        · cases hx; cases hxe
        · cases hx
  case list =>
    split
    · exact main _ (Or.inr ⟨hn, rfl⟩)
    · rename_i hop
      exfalso
      have hop : opOf o = "delete" ∨ opOf o = "remove" := by
        by_contra h
        exact hop ⟨fun h1 => h (Or.inl h1), fun h1 => h (Or.inr h1)⟩
      unfold peerContent peerTree at hx
      simp only [hn] at hx
      rcases hop with hop | hop <;> simp [hop] at hx <;> split at hx <;> cases hx <;> cases hxe
  all_goals
    refine ⟨_, rfl, ?_⟩
    rintro ⟨g, hg, _, h⟩; rw [hf] at hg; cases hg; rw [hn] at h; simp at h

/-! ## The loops -/

/-- A child of the result, by instance. -/
theorem mem_of_local {u : UID} {st st' : List Cell} {c : Cell} (hc : c ∈ st')
    (ho : othU d sc u st' = othU d sc u st) : c ∈ st ∨ c ∈ atU d sc u st' := by
  by_cases h : uid d sc c.2 = u
  · exact Or.inr (List.mem_filter.2 ⟨hc, by simpa using h⟩)
  · have : c ∈ othU d sc u st' := List.mem_filter.2 ⟨hc, by simpa using h⟩
    rw [ho] at this
    exact Or.inl (List.mem_filter.1 this).1

theorem mem_uids_iff_atU {v : UID} {st : List Cell} : v ∈ uidsOf d sc st ↔ atU d sc v st ≠ [] := by
  unfold uidsOf atU
  rw [Ne, List.filter_eq_nil_iff]
  push_neg
  constructor
  · intro h
    obtain ⟨c, hc, hu⟩ := List.mem_map.1 h
    exact ⟨c, hc, by simpa using hu⟩
  · rintro ⟨c, hc, hu⟩
    exact List.mem_map.2 ⟨c, hc, by simpa using hu⟩

/-- The invariant of the first loop. -/
structure Inv1 (d : Device) (sc : Scope) (S T : Elem) (done : List (Elem × AddFn)) (st : List Cell) :
    Prop where
  mem : ∀ v, v ∈ uidsOf d sc st ↔ v ∈ S.kids.map (uid d sc) ∨ v ∈ done.map (fun p => uid d sc p.1)
  cell : ∀ c ∈ st, CellOk d sc c.2
  ord : ∀ t, UserOrdered d sc t → proj d sc (T.kids.map (uid d sc)) t st =
    ((done.map (fun p => uid d sc p.1)).filter (fun u => u.1 = t)).foldl (goTo (targetOf d sc T t)) (staysOf d sc S T t)
  hinv : HInv d sc S.kids st
  old : ∀ (i : Nat) s, S.kids[i]? = some s → atU d sc (uid d sc s) st = [(some i, s)]

/-- The invariant of the second loop. -/
structure Inv2 (d : Device) (sc : Scope) (S T D : Elem) (done : List ((Elem × Nat) × (Elem × AddFn)))
    (st : List Cell) : Prop where
  mem : ∀ p ∈ T.kids, UserOrdered d sc p.tag → uid d sc p ∈ uidsOf d sc st
  cell : ∀ c ∈ st, CellOk d sc c.2
  ord : ∀ t, UserOrdered d sc t → proj d sc (T.kids.map (uid d sc)) t st =
    ((done.map (fun q => uid d sc q.1.1)).filter (fun u => u.1 = t ∧ u ∈ T.kids.map (uid d sc))).foldl
      (goTo (targetOf d sc T t)) ((addsOf d sc S T D t).foldl (goTo (targetOf d sc T t)) (staysOf d sc S T t))
  hinv : HInv d sc S.kids st
  old : ∀ (i : Nat) s, S.kids[i]? = some s → (∀ q ∈ done, uid d sc q.1.1 ≠ uid d sc s) →
    atU d sc (uid d sc s) st = [(some i, s)]

/-- The loops succeed and keep the order. -/
theorem Level.loops (L : Level ω d sc S T D) : ∃ st,
    nodeAdd d D sc S = .ok (S.setKids (st.map Prod.snd)) ∧ (∀ c ∈ st, CellOk d sc c.2) ∧
    ∀ t, UserOrdered d sc t → proj d sc (T.kids.map (uid d sc)) t st =
      (addsOf d sc S T D t ++ movesOf d sc S T D t).foldl (goTo (targetOf d sc T t)) (staysOf d sc S T t) := by
  have iS := L.vS.indexable
  have iD := L.vD.indexable
  have iT := L.vT.indexable
  set kids : List (Elem × AddFn) := D.kids.map (fun k => (k, fun sc sum => nodeAdd d k sc sum)) with hkids
  have hkm : ∀ p ∈ kids, p.1 ∈ D.kids ∧ p = (p.1, addFn d p.1) := by
    rintro p hp
    obtain ⟨k, hk, rfl⟩ := List.mem_map.1 hp
    exact ⟨hk, rfl⟩
  have hG : groupKids d sc Prod.fst Prod.fst S.kids.zipIdx kids =
      .ok (groupsOf (fun a : Elem × Nat => uid d sc a.1) (fun b : Elem × AddFn => uid d sc b.1)
        S.kids.zipIdx kids) := by
    apply groupKids_ok
    · rw [List.zipIdx_map_fst]; exact iS
    · rw [hkids, List.map_map]; simpa [Function.comp_def] using iD
  set g := groupsOf (fun a : Elem × Nat => uid d sc a.1) (fun b : Elem × AddFn => uid d sc b.1)
    S.kids.zipIdx kids with hg
  have hinjD : ∀ x ∈ D.kids, ∀ y ∈ D.kids, uid d sc x = uid d sc y → x = y :=
    fun x hx y hy h => List.inj_on_of_nodup_map iD.nodup hx hy h
  have hinjS : ∀ x ∈ S.kids, ∀ y ∈ S.kids, uid d sc x = uid d sc y → x = y :=
    fun x hx y hy h => List.inj_on_of_nodup_map iS.nodup hx hy h
  -- facts about the first list
  have h1mem : ∀ p ∈ g.onlyTwo, p.1 ∈ D.kids ∧ p = (p.1, addFn d p.1) ∧
      (∀ s ∈ S.kids, uid d sc s ≠ uid d sc p.1) ∧ ∃ k ∈ T.kids, uid d sc k = uid d sc p.1 := by
    intro p hp
    obtain ⟨h1, h2⟩ := mem_onlyTwo_iff.1 hp
    obtain ⟨h3, h4⟩ := hkm p h1
    have h5 : ∀ s ∈ S.kids, uid d sc s ≠ uid d sc p.1 := by
      intro s hs
      obtain ⟨i, hi⟩ := List.mem_iff_getElem?.1 hs
      exact h2 (s, i) (List.mem_zipIdx_iff_getElem?.2 hi)
    refine ⟨h3, h4, h5, ?_⟩
    rcases L.only _ h3 with h | ⟨s, hs, hu⟩
    · exact h
    · exact absurd hu (h5 s hs)
  have h1sub : (g.onlyTwo.map (fun p => uid d sc p.1)).Sublist (T.kids.map (uid d sc)) := by
    have e1 : (g.onlyTwo.map (fun p => uid d sc p.1)).Sublist (D.kids.map (uid d sc)) := by
      have : (g.onlyTwo.map (fun p => uid d sc p.1)).Sublist (kids.map (fun p => uid d sc p.1)) :=
        List.Sublist.map _ List.filter_sublist
      rwa [hkids, List.map_map] at this
    have e2 := e1.filter (fun u => decide (u ∈ T.kids.map (uid d sc)))
    rw [List.filter_eq_self.2] at e2
    · exact e2.trans L.seq
    · intro u hu
      obtain ⟨p, hp, rfl⟩ := List.mem_map.1 hu
      obtain ⟨_, _, _, k, hk, hku⟩ := h1mem p hp
      simp only [decide_eq_true_eq]
      rw [← hku]; exact List.mem_map_of_mem hk
  -- the first loop
  obtain ⟨st1, f1, I1⟩ : ∃ st1, g.onlyTwo.foldlM (addWithoutPeer d sc)
      (S.kids.zipIdx.map (fun p => (some p.2, p.1))) = .ok st1 ∧ Inv1 d sc S T g.onlyTwo st1 := by
    apply foldlM_ok
    · have hu0 : uidsOf d sc (S.kids.zipIdx.map (fun p => ((some p.2, p.1) : Cell))) =
          S.kids.map (uid d sc) := by
        unfold uidsOf
        rw [List.map_map]
        conv_rhs => rw [← List.zipIdx_map_fst 0 S.kids, List.map_map]
        rfl
      refine ⟨?_, ?_, ?_, HInv.init d sc S.kids, fun i s hs => atU_init iS hs⟩
      · intro v; rw [hu0]; simp
      · intro c hc
        obtain ⟨⟨s, i⟩, hs, rfl⟩ := List.mem_map.1 hc
        exact L.cellS s (List.mem_of_getElem? (List.mem_zipIdx_iff_getElem?.1 hs))
      · intro t ht
        unfold proj
        rw [hu0]
        rfl
    · rintro done ⟨o, rec⟩ todo st hl hI
      have hmem : ((o, rec) : Elem × AddFn) ∈ g.onlyTwo := by rw [hl]; simp
      obtain ⟨ho, hrec, hno, k, hk, hku⟩ := h1mem _ hmem
      have hrec := (Prod.mk.inj hrec).2
      simp only at hrec
      subst hrec
      simp only at ho hno hku
      obtain ⟨o', ho', hou, hop, hc⟩ := L.new k hk (fun s hs => by rw [hku]; exact hno s hs)
      have : o' = o := hinjD _ ho' _ ho (hou.trans hku)
      subst this
      obtain ⟨f, hf, kf, _⟩ := L.cellT k hk
      have hft : d.lookup sc o'.tag = .ok f := by rw [tag_of_uid hou]; exact hf
      obtain ⟨e, hce, hcell, _⟩ := hc f hf
      obtain ⟨f', hf', kfo⟩ := L.lD.shape o' ho
      rw [hft] at hf'; cases hf'
      obtain ⟨_, _, hue, _⟩ := newContent_ok hft kfo (L.lD.keys o' ho f hft) hce
      have hsubl : (done.map (fun p => uid d sc p.1) ++ uid d sc k :: todo.map (fun p => uid d sc p.1)).Sublist
          (T.kids.map (uid d sc)) := by
        have := h1sub
        rw [hl, List.map_append, List.map_cons] at this
        simpa [hku] using this
      have hnot : uid d sc k ∉ uidsOf d sc st := by
        rw [hI.mem]
        rintro (h | h)
        · obtain ⟨s, hs, hsu⟩ := List.mem_map.1 h
          exact hno s hs (hsu.trans hku)
        · have := hsubl.nodup iT.nodup
          exact (List.nodup_append.1 this).2.2 _ h _ (by simp) rfl
      have hstay : ∀ t, (staysOf d sc S T t).Nodup := fun t => iS.nodup.filter _
      obtain ⟨st', hp, hins, hord⟩ := place_new L hk ho hou (fun s hs => by rw [hku]; exact hno s hs) hf (hue.trans hou)
        (fun hU => by rw [hI.ord _ hU]; exact fold_nodup (hstay _)) hI.cell hnot
        (by
          intro p hp l r hlr hpl _
          rw [hI.mem]
          by_cases hps : ∃ s ∈ S.kids, uid d sc s = uid d sc p
          · obtain ⟨s, hs, hsu⟩ := hps
            exact Or.inl (List.mem_map.2 ⟨s, hs, hsu⟩)
          · right
            push_neg at hps
            obtain ⟨q, hq, hqu, _⟩ := L.new p hp hps
            have hq2 : ((q, addFn d q) : Elem × AddFn) ∈ g.onlyTwo := by
              refine mem_onlyTwo_iff.2 ⟨List.mem_map.2 ⟨q, hq, rfl⟩, ?_⟩
              rintro ⟨s, i⟩ hs
              simp only [hqu]
              exact hps s (List.mem_of_getElem? (List.mem_zipIdx_iff_getElem?.1 hs))
            rw [hl] at hq2
            have hnd : (l ++ uid d sc k :: r).Nodup := by rw [← hlr]; exact iT.nodup
            have hsubl' := hsubl
            rw [hlr] at hsubl'
            have hsp := sublist_split hnd hsubl'
            rcases List.mem_append.1 hq2 with h | h
            · exact List.mem_map.2 ⟨_, h, hqu⟩
            · exfalso
              rcases List.mem_cons.1 h with h | h
              · cases h
                rw [hqu] at hou
                exact (List.nodup_append.1 hnd).2.2 _ hpl _ (by rw [hou]; simp) rfl
              · have : uid d sc p ∈ r := hsp.2.subset (List.mem_map.2 ⟨_, h, hqu⟩)
                exact (List.nodup_append.1 hnd).2.2 _ hpl _ (by simp [this]) rfl)
        (by
          intro hs hU
          have hs0 : staysOf d sc S T k.tag = [] := by
            rw [List.filter_eq_nil_iff]
            intro v hv
            obtain ⟨s, hsm, rfl⟩ := List.mem_map.1 hv
            simp [uid_tag, hs s hsm]
          -- all of the target is new
          have hall : ((g.onlyTwo.map (fun p => uid d sc p.1)).filter (fun u => u.1 = k.tag)) = targetOf d sc T k.tag := by
            refine eq_of_sublist_of_subset (h1sub.filter _) (iT.nodup.filter _) ?_
            intro v hv
            obtain ⟨hv1, hv2⟩ := List.mem_filter.1 hv
            obtain ⟨q, hq, rfl⟩ := List.mem_map.1 hv1
            have hqt : q.tag = k.tag := by simpa [uid_tag] using hv2
            obtain ⟨x, hx, hxu, _⟩ := L.new q hq (fun s hsm h => hs s hsm ((tag_of_uid h).trans hqt))
            refine List.mem_filter.2 ⟨List.mem_map.2 ⟨(x, addFn d x), ?_, hxu⟩, hv2⟩
            refine mem_onlyTwo_iff.2 ⟨List.mem_map.2 ⟨x, hx, rfl⟩, ?_⟩
            rintro ⟨s, i⟩ hsi h
            have h : uid d sc s = uid d sc x := h
            exact hs s (List.mem_of_getElem? (List.mem_zipIdx_iff_getElem?.1 hsi)) ((tag_of_uid (h.trans hxu)).trans hqt)
          have hsplit : targetOf d sc T k.tag = (done.map (fun p => uid d sc p.1)).filter (fun u => u.1 = k.tag) ++
              uid d sc k :: (todo.map (fun p => uid d sc p.1)).filter (fun u => u.1 = k.tag) := by
            rw [← hall, hl, List.map_append, List.map_cons, List.filter_append, List.filter_cons,
              if_pos (by simp only [← hku, uid_tag, decide_true]), hku]
          refine ⟨(todo.map (fun p => uid d sc p.1)).filter (fun u => u.1 = k.tag), ?_⟩
          rw [hI.ord _ hU, hs0, fold_next (iT.nodup.filter _) (A := []) (by rw [List.nil_append]; exact hsplit),
            List.nil_append]
          exact hsplit)
      refine ⟨st', (addWithoutPeer_ok hft).2 (Or.inr ⟨hop, e, hce, hp⟩), ?_⟩
      refine ⟨?_, ?_, ?_, hI.hinv.ins_none hins, ?_⟩
      · intro v
        unfold uidsOf
        rw [List.map_append, List.mem_append, List.map_cons, List.map_nil, List.mem_singleton, ← or_assoc,
          ← hI.mem]
        constructor
        · intro h
          obtain ⟨c, hc, rfl⟩ := List.mem_map.1 h
          rcases hins.mem.1 hc with rfl | hc
          · exact Or.inr hue
          · exact Or.inl (List.mem_map.2 ⟨c, hc, rfl⟩)
        · rintro (h | h)
          · obtain ⟨c, hc, rfl⟩ := List.mem_map.1 h
            exact List.mem_map.2 ⟨c, hins.mem.2 (Or.inr hc), rfl⟩
          · exact List.mem_map.2 ⟨(none, e), hins.mem.2 (Or.inl rfl), hue.trans h.symm⟩
      · intro c hc
        rcases hins.mem.1 hc with rfl | hc
        · exact hcell
        · exact hI.cell c hc
      · intro t ht
        rw [List.map_append, List.filter_append, List.foldl_append, ← hI.ord t ht, List.map_cons, List.map_nil]
        simp only
        by_cases hkt : k.tag = t
        · subst hkt
          rw [hord ht, ← hku, List.filter_cons, if_pos (by simp [uid_tag])]
          rfl
        · rw [proj_other (hins.othU hue) (by rw [hou, uid_tag]; exact hkt), List.filter_cons,
            if_neg (by rw [← hku, uid_tag]; simpa using hkt)]
          rfl
      · intro i s hs
        rw [atU_of_othU (hno s (List.mem_of_getElem? hs)) (hins.othU hue)]
        exact hI.old i s hs
  have hadds : ∀ t, (g.onlyTwo.map (fun p => uid d sc p.1)).filter (fun u => u.1 = t) = addsOf d sc S T D t := by
    intro t
    have e1 : g.onlyTwo.map (fun p => uid d sc p.1) =
        (D.kids.map (uid d sc)).filter (fun u => u ∉ S.kids.map (uid d sc)) := by
      have e2 : D.kids.map (uid d sc) = kids.map (fun p => uid d sc p.1) := by
        rw [hkids, List.map_map]; rfl
      rw [e2, List.filter_map, hg]
      unfold groupsOf
      simp only
      congr 1
      refine List.filter_congr ?_
      intro b _
      rw [Bool.eq_iff_iff, Option.isNone_iff_eq_none, List.find?_eq_none]
      simp only [decide_eq_true_eq, Function.comp, List.mem_map, not_exists, not_and]
      constructor
      · intro h s hs
        obtain ⟨i, hi⟩ := List.mem_iff_getElem?.1 hs
        exact h (s, i) (List.mem_zipIdx_iff_getElem?.2 hi)
      · rintro h ⟨s, i⟩ hs
        exact h s (List.mem_of_getElem? (List.mem_zipIdx_iff_getElem?.1 hs))
    rw [e1, List.filter_filter]
    refine List.filter_congr ?_
    intro u hu
    rw [Bool.eq_iff_iff]
    simp only [Bool.and_eq_true, decide_eq_true_eq]
    constructor
    · rintro ⟨h1, h2⟩
      refine ⟨h1, ?_, h2⟩
      obtain ⟨o, ho, rfl⟩ := List.mem_map.1 hu
      rcases L.only o ho with ⟨k, hk, hku⟩ | ⟨s, hs, hsu⟩
      · exact List.mem_map.2 ⟨k, hk, hku⟩
      · exact absurd (List.mem_map.2 ⟨s, hs, hsu⟩) h2
    · rintro ⟨h1, _, h2⟩
      exact ⟨h1, h2⟩
  have hmoves : ∀ t, (g.both.map (fun q => uid d sc q.1.1)).filter (fun u => u.1 = t ∧ u ∈ T.kids.map (uid d sc)) =
      movesOf d sc S T D t := by
    intro t
    have e1 : g.both.map (fun q => uid d sc q.1.1) =
        (S.kids.map (uid d sc)).filter (fun u => u ∈ D.kids.map (uid d sc)) := by
      have e2 : S.kids.map (uid d sc) = S.kids.zipIdx.map (fun a => uid d sc a.1) := by
        conv_lhs => rw [← List.zipIdx_map_fst 0 S.kids, List.map_map]
        rfl
      rw [e2, hg]
      unfold groupsOf
      simp only
      rw [List.map_filterMap, List.filter_map]
      generalize S.kids.zipIdx = l
      induction l with
      | nil => rfl
      | cons a l ih =>
        rw [List.filterMap_cons, List.filter_cons]
        cases hfd : (List.find? (fun b : Elem × AddFn => decide (uid d sc b.1 = uid d sc a.1)) kids) with
        | none =>
          rw [if_neg, ih]
          · rfl
          · simp only [Function.comp, decide_eq_true_eq]
            intro hm
            obtain ⟨o, ho, hou⟩ := List.mem_map.1 hm
            have := List.find?_eq_none.1 hfd (o, addFn d o) (List.mem_map.2 ⟨o, ho, rfl⟩)
            simp [hou] at this
        | some b =>
          rw [if_pos, List.map_cons, ← ih]
          · rfl
          · simp only [Function.comp, decide_eq_true_eq]
            have h1 := List.find?_some hfd
            simp only [decide_eq_true_eq] at h1
            rw [← h1]
            exact List.mem_map_of_mem (hkm b (List.mem_of_find?_eq_some hfd)).1
    rw [e1, List.filter_filter]
    refine List.filter_congr ?_
    intro u _
    rw [Bool.eq_iff_iff]
    simp only [Bool.and_eq_true, decide_eq_true_eq, and_assoc]
  -- the second loop
  have hz : (S.kids.zipIdx.map (fun a : Elem × Nat => uid d sc a.1)).Nodup := by
    have := iS.nodup
    rw [← List.zipIdx_map_fst 0 S.kids, List.map_map] at this
    exact this
  have h2nd : (g.both.map (fun q => uid d sc q.1.1)).Nodup := by
    rw [hg]
    unfold groupsOf
    simp only
    rw [List.map_filterMap]
    refine List.Nodup.sublist ?_ hz
    generalize S.kids.zipIdx = l
    induction l with
    | nil => simp
    | cons a l ih =>
      rw [List.filterMap_cons, List.map_cons]
      cases (List.find? (fun b : Elem × AddFn => decide (uid d sc b.1 = uid d sc a.1)) kids) with
      | none => exact List.Sublist.cons _ ih
      | some b => exact List.Sublist.cons_cons _ ih
  obtain ⟨st2, f2, I2⟩ : ∃ st2, g.both.foldlM (addWithPeer d sc) st1 = .ok st2 ∧
      Inv2 d sc S T D g.both st2 := by
    apply foldlM_ok
    · refine ⟨?_, I1.cell, fun t ht => ?_, I1.hinv, fun i s hs _ => I1.old i s hs⟩
      rotate_left
      · rw [I1.ord t ht, hadds]; rfl
      intro p hp _
      rw [I1.mem]
      by_cases hps : ∃ s ∈ S.kids, uid d sc s = uid d sc p
      · obtain ⟨s, hs, hsu⟩ := hps
        exact Or.inl (List.mem_map.2 ⟨s, hs, hsu⟩)
      · right
        push_neg at hps
        obtain ⟨q, hq, hqu, _⟩ := L.new p hp hps
        refine List.mem_map.2 ⟨(q, addFn d q), ?_, hqu⟩
        refine mem_onlyTwo_iff.2 ⟨List.mem_map.2 ⟨q, hq, rfl⟩, ?_⟩
        rintro ⟨s, i⟩ hs
        simp only [hqu]
        exact hps s (List.mem_of_getElem? (List.mem_zipIdx_iff_getElem?.1 hs))
    · rintro done ⟨⟨s, i⟩, ⟨o, rec⟩⟩ todo st hl hI
      have hmem : (((s, i), (o, rec)) : (Elem × Nat) × (Elem × AddFn)) ∈ g.both := by rw [hl]; simp
      obtain ⟨ha, hb, hu⟩ := mem_both hmem
      obtain ⟨ho, hrec⟩ := hkm _ hb
      have hrec := (Prod.mk.inj hrec).2
      simp only at hrec
      subst hrec
      have hsi := List.mem_zipIdx_iff_getElem?.1 ha
      simp only at ho hu hsi
      have hs := List.mem_of_getElem? hsi
      have hdone : ∀ q ∈ done, uid d sc q.1.1 ≠ uid d sc s := by
        intro q hq he
        rw [hl, List.map_append, List.map_cons] at h2nd
        exact (List.nodup_append.1 h2nd).2.2 _ (List.mem_map.2 ⟨q, hq, rfl⟩) _ (by simp) he
      have hat := hI.old i s hsi hdone
      obtain ⟨f, hf, kf, _⟩ := L.cellS s hs
      obtain ⟨f', hf', kfo⟩ := L.lD.shape o ho
      have hto : o.tag = s.tag := tag_of_uid hu
      rw [hto, hf] at hf'; cases hf'
      have hft : d.lookup sc o.tag = .ok f := by rw [hto]; exact hf
      have hsame : SameInstance d sc s o := (uid_eq_iff hf kf kfo hto.symm).1 hu.symm
      -- a step in general
      have step : ∀ st' x, peerPlace f.node o i s st = .ok st' →
          (∀ t, UserOrdered d sc t → s.tag = t → uid d sc s ∈ T.kids.map (uid d sc) →
            proj d sc (T.kids.map (uid d sc)) t st' =
              goTo (targetOf d sc T t) (proj d sc (T.kids.map (uid d sc)) t st) (uid d sc s)) →
          peerContent d f.node (o, addFn d o) s = .ok x →
          (∀ e, x.elem s = some e → CellOk d sc e) →
          (x.elem s = none → ∀ k ∈ T.kids, uid d sc k ≠ uid d sc s) →
          ∃ st2, addWithPeer d sc st ((s, i), (o, addFn d o)) = .ok st2 ∧
            Inv2 d sc S T D (done ++ [((s, i), (o, addFn d o))]) st2 := by
        intro st' x hp hord hx hce hnone
        have hue : ∀ e', x.elem s = some e' → uid d sc e' = uid d sc s := fun e' he' =>
          (peerContent_uid hf kf kfo hsame (L.lD.keys o ho f hft) (L.nS s hs f hf) hx e' he').1
        obtain ⟨l1, l2, l3⟩ := peer_local hI.hinv hsi (peerPlace_ins hp) x hue
        have l3 := l3 hat
        refine ⟨x.apply i st', (addWithPeer_ok hf).2 ⟨st', x, hp, hx, rfl⟩, ?_⟩
        have hI' : HInv d sc S.kids st' := by
          rcases peerPlace_ins hp with rfl | h
          · exact hI.hinv
          · exact (hI.hinv.removeCell).ins_some hsi h
        have hat' : ∀ c ∈ atU d sc (uid d sc s) (x.apply i st'), ∃ e, x.elem s = some e ∧ c.2 = e := by
          intro c hc
          have h4 := PeerRes.cells_elem i s x
          rw [← l3] at h4
          have : c.2 ∈ (x.elem s).toList := by rw [← h4]; exact List.mem_map_of_mem hc
          exact ⟨c.2, by simpa using this, rfl⟩
        refine ⟨?_, ?_, ?_, l1, ?_⟩
        · intro p hp' hup
          by_cases hps : uid d sc p = uid d sc s
          · rw [hps, mem_uids_iff_atU, l3]
            intro h
            have h4 := PeerRes.cells_elem i s x
            rw [h] at h4
            have : x.elem s = none := by
              cases he : x.elem s with
              | none => rfl
              | some e => rw [he] at h4; simp at h4
            exact hnone this p hp' hps
          · rw [mem_uids_iff_atU, atU_of_othU hps l2, ← mem_uids_iff_atU]
            exact hI.mem p hp' hup
        · intro c hc
          rcases mem_of_local hc l2 with h | h
          · exact hI.cell c h
          · obtain ⟨e, he, rfl⟩ := hat' c h
            exact hce _ he
        · -- order
          intro t ht
          rw [List.map_append, List.filter_append, List.foldl_append, ← hI.ord t ht, List.map_cons, List.map_nil]
          simp only
          by_cases hst : s.tag = t ∧ uid d sc s ∈ T.kids.map (uid d sc)
          rotate_left
          · rw [List.filter_cons, if_neg (by simpa [uid_tag] using hst)]
            exact proj_of_othU l2 (by
              by_cases h : s.tag = t
              · exact Or.inr (fun hm => hst ⟨h, hm⟩)
              · exact Or.inl (by rw [uid_tag]; exact h))
          rw [List.filter_cons, if_pos (by simpa [uid_tag] using hst), List.filter_nil, List.foldl_cons,
            List.foldl_nil, ← hord t ht hst.1 hst.2]
          cases he : x.elem s with
          | none =>
            obtain ⟨k, hk, hku⟩ := List.mem_map.1 hst.2
            exact absurd hku (hnone he k hk)
          | some e =>
            have huids : uidsOf d sc (x.apply i st') = uidsOf d sc st' := by
              have hmap : ∀ (gfun : Cell → Cell), (∀ c ∈ st', uid d sc (gfun c).2 = uid d sc c.2) →
                  uidsOf d sc (st'.map gfun) = uidsOf d sc st' := by
                intro gfun hgf
                unfold uidsOf
                rw [List.map_map]
                exact List.map_congr_left hgf
              cases x with
              | gone => simp [PeerRes.elem] at he
              | keep => rfl
              | set e' =>
                simp only [PeerRes.elem, Option.some.injEq] at he
                subst he
                refine hmap _ (fun c hc => ?_)
                by_cases hcc : isCell i c = true
                · simp only [hcc, if_true]
                  rw [hI'.uid_handle hsi hc hcc]
                  exact hue e' (by simp [PeerRes.elem])
                · simp [hcc]
              | repl e' =>
                simp only [PeerRes.elem, Option.some.injEq] at he
                subst he
                refine hmap _ (fun c hc => ?_)
                by_cases hcc : isCell i c = true
                · simp only [hcc, if_true]
                  rw [hI'.uid_handle hsi hc hcc]
                  exact hue e' (by simp [PeerRes.elem])
                · simp [hcc]
            unfold proj
            rw [huids]
        · intro j s' hj hd
          have hne : uid d sc s' ≠ uid d sc s := fun h => hd ((s, i), (o, addFn d o)) (by simp) h.symm
          rw [atU_of_othU hne l2]
          exact hI.old j s' hj (fun q hq => hd q (by simp [hq]))
      by_cases hT : ∃ k ∈ T.kids, uid d sc k = uid d sc s
      · obtain ⟨k, hk, hku⟩ := hT
        have hfk : d.lookup sc k.tag = .ok f := by rw [tag_of_uid hku]; exact hf
        obtain ⟨x, e, hx, hxe, hce, _⟩ := L.peer s hs k hk o ho hku.symm (hu.trans hku.symm) f hfk
        have hstay : ∀ t, (staysOf d sc S T t).Nodup := fun t => iS.nodup.filter _
        obtain ⟨st', hp, hord⟩ := place_old L hk ho (hu.trans hku.symm) hsi hfk hku.symm hI.hinv hat
          (fun hU => by rw [hI.ord _ hU]; exact fold_nodup (fold_nodup (hstay _))) hI.cell hI.mem
          (by
            intro hU hsame
            have h0 : addsOf d sc S T D k.tag = [] := by
              rw [List.filter_eq_nil_iff]
              intro u _
              simp only [decide_eq_true_eq]
              rintro ⟨h1, h2, h3⟩
              have : u ∈ targetOf d sc T k.tag := List.mem_filter.2 ⟨h2, by simpa using h1⟩
              rw [← hsame] at this
              exact h3 (List.mem_filter.1 this).1
            have h1 : staysOf d sc S T k.tag = targetOf d sc T k.tag := by
              rw [← hsame]
              refine List.filter_congr ?_
              intro u hu
              rw [Bool.eq_iff_iff]
              simp only [decide_eq_true_eq]
              refine ⟨fun h => h.1, fun h => ⟨h, ?_⟩⟩
              have : u ∈ (S.kids.map (uid d sc)).filter (fun u => u.1 = k.tag) :=
                List.mem_filter.2 ⟨hu, by simpa using h⟩
              rw [hsame] at this
              exact (List.mem_filter.1 this).1
            rw [hI.ord _ hU, h0, List.foldl_nil, h1, fold_self (iT.nodup.filter _)]
            intro u hu
            have := (List.mem_filter.1 hu).2
            simp only [decide_eq_true_eq] at this
            exact List.mem_filter.2 ⟨this.2, by simpa using this.1⟩)
        refine step st' x hp (fun t ht hst _ => ?_) hx ?_ ?_
        · have : k.tag = t := (tag_of_uid hku).trans hst
          subst this
          rw [← hku]; exact hord ht
        · intro e' he'
          rw [hxe] at he'; cases he'; exact hce
        · intro hn; rw [hxe] at hn; cases hn
      · push_neg at hT
        obtain ⟨m, hm, hmu, hgone⟩ := L.gone s hs hT
        have : m = o := hinjD _ hm _ ho (hmu.trans hu.symm)
        subst this
        obtain ⟨hop, x, hx, hxe⟩ := hgone f hf
        have hp : peerPlace f.node m i s st = .ok st := by
          unfold peerPlace
          cases hn : f.node.ntype <;> simp only
          · rcases hop (Or.inl hn) with h | h <;> simp [h]
          · rcases hop (Or.inr hn) with h | h <;> simp [h]
        refine step st x hp (fun t _ _ hm => ?_) hx (by intro e he; rw [hxe] at he; cases he) (fun _ => hT)
        obtain ⟨k, hk, hku⟩ := List.mem_map.1 hm
        exact absurd hku (hT k hk)
  refine ⟨st2, ?_, I2.cell, fun t ht => ?_⟩
  rotate_left
  · rw [I2.ord t ht, hmoves, ← List.foldl_append]
  rw [nodeAdd_eq]
  unfold nodeAddBody
  rw [← hkids, hG]
  simp only [bind, Except.bind, pure, Except.pure]
  rw [f1]
  simp only
  rw [f2]

/-- The sum is the target.  The order of user-ordered entries is known in any case. -/
theorem Level.add' (L : Level ω d sc S T D) : ∃ R, nodeAdd d D sc S = .ok R ∧ SameW ω d sc R T ∧
    (∀ t, UserOrdered d sc t → (R.kids.map (uid d sc)).filter (fun u => u.1 = t) =
      (addsOf d sc S T D t ++ movesOf d sc S T D t).foldl (goTo (targetOf d sc T t)) (staysOf d sc S T t)) := by
  obtain ⟨st, hR, hcell, hord⟩ := L.loops
  refine ⟨_, hR, ?_⟩
  have iT := L.vT.indexable
  obtain ⟨hnd, horig⟩ := nodeAdd_origin hR L.vS.shape' L.nS L.lD
  obtain ⟨at1, at2, at3⟩ := nodeAdd_at hR L.vS.shape' L.nS L.lD
  obtain ⟨t1, t2, t3, t4⟩ := nodeAdd_tag hR
  have hsh : ∀ x ∈ (S.setKids (st.map Prod.snd)).kids, ∃ f, d.lookup sc x.tag = .ok f ∧ KidOk d f.node x := by
    intro x hx
    simp only [Elem.kids_setKids] at hx
    obtain ⟨c, hc, rfl⟩ := List.mem_map.1 hx
    obtain ⟨f, hf, kf, _⟩ := hcell c hc
    exact ⟨f, hf, kf⟩
  generalize hRR : S.setKids (st.map Prod.snd) = R at *
  have hkidsR : R.kids = st.map Prod.snd := by rw [← hRR]; rfl
  -- every child of the target
  have hfwd : ∀ k ∈ T.kids, ∃ r ∈ R.kids, uid d sc r = uid d sc k ∧
      ∀ f, d.lookup sc k.tag = .ok f → SameW ω d (.node f.node) r k := by
    intro k hk
    obtain ⟨f, hf, kf, _⟩ := L.cellT k hk
    by_cases hS : ∃ s ∈ S.kids, uid d sc s = uid d sc k
    · obtain ⟨s, hs, hsu⟩ := hS
      by_cases hD : ∃ o ∈ D.kids, uid d sc o = uid d sc k
      · obtain ⟨o, ho, hou⟩ := hD
        obtain ⟨f', x, hf', hx, hel⟩ := at2 s hs o ho (hsu.trans hou.symm)
        rw [tag_of_uid hsu, hf] at hf'; cases hf'
        obtain ⟨x', e, hx', hxe, hce, hsc⟩ := L.peer s hs k hk o ho hsu hou f hf
        rw [hx] at hx'; cases hx'
        rw [hxe] at hel
        have he : e ∈ elemsAt d sc (uid d sc s) R.kids := by rw [hel]; simp
        obtain ⟨h1, h2⟩ := mem_elemsAt.1 he
        refine ⟨e, h1, h2.trans hsu, fun g hg => ?_⟩
        rw [hf] at hg; cases hg; exact hsc
      · push_neg at hD
        have hel := at3 (uid d sc k) hD
        have he : s ∈ elemsAt d sc (uid d sc k) R.kids := by
          rw [hel]; exact mem_elemsAt.2 ⟨hs, hsu⟩
        obtain ⟨h1, h2⟩ := mem_elemsAt.1 he
        refine ⟨s, h1, h2, fun g hg => (L.out s hs k hk hsu hD g hg).loose⟩
    · push_neg at hS
      obtain ⟨o, ho, hou, hop, hc⟩ := L.new k hk hS
      obtain ⟨f', hf', hR'⟩ := at1 o ho (by rw [hou]; exact hS)
      rw [tag_of_uid hou, hf] at hf'; cases hf'
      obtain ⟨e, hce, hcell', hsc⟩ := hc f hf
      rcases hR' with ⟨hr, _⟩ | ⟨_, e', he', hR'⟩
      · rw [hr] at hop; simp at hop
      rw [hce] at he'; cases he'
      rcases hR' with ⟨_, hel⟩ | ⟨hbad, _⟩
      · have he : e ∈ elemsAt d sc (uid d sc o) R.kids := by rw [hel]; simp
        obtain ⟨h1, h2⟩ := mem_elemsAt.1 he
        refine ⟨e, h1, h2.trans hou, fun g hg => ?_⟩
        rw [hf] at hg; cases hg; exact hsc
      · exfalso
        obtain ⟨hn, huo, i, hi, b1, b2, b3, b4⟩ := hbad
        rcases L.pos o ho k hk hou f hf huo hn with ⟨h, _⟩ | ⟨h, _⟩ | ⟨h, _⟩ <;> rw [hi] at h
        · cases h; exact b1 rfl
        · cases h; exact b4 rfl
        · cases h
  -- every child of the result
  have hbwd : ∀ r ∈ R.kids, ∃ k ∈ T.kids, uid d sc k = uid d sc r := by
    intro r hr
    cases horig r hr with
    | old hm hu =>
      by_contra hT
      push_neg at hT
      obtain ⟨m, hm', hmu, _⟩ := L.gone r hm hT
      exact hu m hm' hmu
    | new o ho f hf hu hno hc =>
      rcases L.only o ho with ⟨k, hk, hku⟩ | ⟨s, hs, hsu⟩
      · exact ⟨k, hk, hku.trans hu.symm⟩
      · exact absurd hsu (hno s hs)
    | peer s hs o ho hu f hf x hx he =>
      by_contra hT
      push_neg at hT
      have hur : uid d sc r = uid d sc s := by
        obtain ⟨f1, hf1, kf1⟩ := L.vS.shape' s hs
        rw [hf] at hf1; cases hf1
        obtain ⟨f2, hf2, kf2⟩ := L.lD.shape o ho
        have hto := tag_of_uid hu
        rw [← hto, hf] at hf2; cases hf2
        have hsame : SameInstance d sc s o := (uid_eq_iff hf kf1 kf2 hto).1 hu
        exact (peerContent_uid hf kf1 kf2 hsame (L.lD.keys o ho f (by rw [← hto]; exact hf)) (L.nS s hs f hf) hx r he).1
      obtain ⟨m, hm', hmu, hg⟩ := L.gone s hs (by rw [← hur]; exact hT)
      have : m = o := List.inj_on_of_nodup_map L.vD.indexable.nodup hm' ho (hmu.trans hu)
      subst this
      obtain ⟨_, x', hx', hnone⟩ := hg f hf
      rw [hx] at hx'; cases hx'
      rw [hnone] at he; cases he
  have hpair : ∀ r ∈ R.kids, ∀ k ∈ T.kids, uid d sc r = uid d sc k → ∀ f, d.lookup sc k.tag = .ok f →
      SameW ω d (.node f.node) r k := by
    intro r hr k hk hu f hf
    obtain ⟨r', hr', hu', hsc⟩ := hfwd k hk
    have : r' = r := List.inj_on_of_nodup_map hnd hr' hr (hu'.trans hu.symm)
    subst this
    exact hsc f hf
  have hords' : ∀ t, UserOrdered d sc t → (R.kids.map (uid d sc)).filter (fun u => u.1 = t) =
      (addsOf d sc S T D t ++ movesOf d sc S T D t).foldl (goTo (targetOf d sc T t)) (staysOf d sc S T t) := by
    intro t ht
    have e1 : proj d sc (T.kids.map (uid d sc)) t st =
        (R.kids.map (uid d sc)).filter (fun u => u.1 = t) := by
      unfold proj uidsOf
      rw [hkidsR, List.map_map]
      refine List.filter_congr (fun u hu => ?_)
      have : u ∈ T.kids.map (uid d sc) := by
        obtain ⟨c, hc, rfl⟩ := List.mem_map.1 hu
        obtain ⟨k, hk, hku⟩ := hbwd c.2 (by rw [hkidsR]; exact List.mem_map_of_mem hc)
        exact List.mem_map.2 ⟨k, hk, hku⟩
      simp [this]
    rw [← e1]
    exact hord t ht
  have hords : ω → ∀ t, UserOrdered d sc t → (R.kids.map (uid d sc)).filter (fun u => u.1 = t) =
      (T.kids.map (uid d sc)).filter (fun u => u.1 = t) := fun w t ht => (hords' t ht).trans (L.ends w t ht)
  have hval : parseTextAt d sc R = parseTextAt d sc T := by
    rw [← L.value]
    unfold parseTextAt
    rw [t2]
    cases sc with
    | root => rfl
    | node sn => simp only [parseText_congr t1 t2 t4]
  refine ⟨⟨incl_of_uids hsh L.vT.shape' (t1.trans L.tag) hval (t3.trans L.attrsS) ?_ ?_ hords,
    incl_of_uids L.vT.shape' hsh (t1.trans L.tag).symm hval.symm L.attrsT ?_ ?_ (fun w t ht => (hords w t ht).symm)⟩, hords'⟩
  · intro r hr
    obtain ⟨k, hk, h⟩ := hbwd r hr
    exact ⟨k, hk, h.symm⟩
  · intro r hr k hk hu f hf
    exact (hpair r hr k hk hu f (by rw [← tag_of_uid hu]; exact hf)).1
  · intro k hk
    obtain ⟨r, hr, h, _⟩ := hfwd k hk
    exact ⟨r, hr, h.symm⟩
  · intro k hk r hr hu f hf
    exact (hpair r hr k hk hu.symm f hf).2

theorem Level.add (L : Level ω d sc S T D) : ∃ R, nodeAdd d D sc S = .ok R ∧ SameW ω d sc R T := by
  obtain ⟨R, h, hs, _⟩ := L.add'
  exact ⟨R, h, hs⟩

end

end NcDiff
