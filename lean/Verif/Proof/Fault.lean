import Verif.Proof.Applied
/-!
# Operations that cannot be carried out raise `ConfigDeltaError`
-/

namespace NcDiff

theorem foldlM_append_ok {σ α : Type} {f : σ → α → Except Err σ} {l r : List α} {s s' : σ}
    (h : (l ++ r).foldlM f s = .ok s') : ∃ t, l.foldlM f s = .ok t := by
  rw [List.foldlM_append] at h
  cases hl : l.foldlM f s with
  | error x => simp [hl, bind, Except.bind] at h
  | ok t => exact ⟨t, rfl⟩

theorem foldlM_error {σ α : Type} {f : σ → α → Except Err σ} {l r : List α} {a : α} {s t : σ} {x : Err}
    (h : l.foldlM f s = .ok t) (ha : ∀ t, f t a = .error x) : (l ++ a :: r).foldlM f s = .error x := by
  rw [List.foldlM_append, h]
  simp only [bind, Except.bind, List.foldlM_cons, ha]

section
variable {d : Device} {sc : Scope} {delta src o : Elem} {l r : List Elem}

theorem indexable_insert (hk : delta.kids = l ++ o :: r)
    (hr : Indexable d sc (l ++ r)) (ho : uidOf d sc o = .ok (uid d sc o))
    (hu : ∀ y ∈ l ++ r, uid d sc y ≠ uid d sc o) : Indexable d sc delta.kids := by
  rw [hk]
  have hp : (l ++ o :: r).Perm (o :: (l ++ r)) := List.perm_middle
  refine ⟨?_, ?_⟩
  · intro k hm
    rcases List.mem_cons.1 (hp.mem_iff.1 hm) with rfl | hm
    · exact ho
    · exact hr.ok k hm
  · refine (hp.map _).nodup_iff.2 ?_
    rw [List.map_cons, List.nodup_cons]
    refine ⟨?_, hr.nodup⟩
    intro hm
    obtain ⟨y, hy, he⟩ := List.mem_map.1 hm
    exact hu y hy he

theorem nodeAdd_run (i1 : Indexable d sc src.kids) (i2 : Indexable d sc delta.kids) :
    nodeAdd d delta sc src =
      (do let g := groupsOf (fun a : Elem × Nat => uid d sc a.1) (fun b : Elem × AddFn => uid d sc b.1)
            src.kids.zipIdx (delta.kids.map (fun k => (k, fun sc sum => nodeAdd d k sc sum)))
          let st ← g.onlyTwo.foldlM (addWithoutPeer d sc) (src.kids.zipIdx.map (fun p => (some p.2, p.1)))
          let st ← g.both.foldlM (addWithPeer d sc) st
          pure (src.setKids (st.map Prod.snd))) := by
  rw [nodeAdd_eq]
  unfold nodeAddBody
  rw [groupKids_ok (by rw [List.zipIdx_map_fst]; exact i1)
    (by rw [List.map_map]; simpa [Function.comp_def] using i2)]
  rfl

theorem nodeAdd_error_new (hk : delta.kids = l ++ o :: r) {res : Elem}
    (hrest : nodeAdd d (delta.setKids (l ++ r)) sc src = .ok res) (ho : uidOf d sc o = .ok (uid d sc o))
    (hu : ∀ y ∈ l ++ r, uid d sc y ≠ uid d sc o) (hno : ∀ s ∈ src.kids, uid d sc s ≠ uid d sc o)
    {x : Err} (hx : ∀ st, addWithoutPeer d sc st (o, addFn d o) = .error x) :
    nodeAdd d delta sc src = .error x := by
  obtain ⟨i1, i2, st1, st2, h1, _⟩ := nodeAdd_inv hrest
  rw [nodeAdd_run i1 (indexable_insert hk i2 ho hu)]
  simp only [Elem.kids_setKids] at h1
  have key : ((groupsOf (fun a : Elem × Nat => uid d sc a.1) (fun b : Elem × AddFn => uid d sc b.1)
      src.kids.zipIdx (delta.kids.map (fun k => (k, fun sc sum => nodeAdd d k sc sum)))).onlyTwo).foldlM
      (addWithoutPeer d sc) (src.kids.zipIdx.map (fun p => (some p.2, p.1))) = .error x := by
    unfold groupsOf at h1 ⊢
    simp only [hk, List.map_append, List.map_cons, List.filter_append, List.filter_cons] at h1 ⊢
    obtain ⟨t, ht⟩ := foldlM_append_ok h1
    rw [if_pos ?_]
    · exact foldlM_error ht hx
    · rw [Option.isNone_iff_eq_none, List.find?_eq_none]
      rintro ⟨s, i⟩ hs
      simpa using hno s (List.mem_of_getElem? (List.mem_zipIdx_iff_getElem?.1 hs))
  simp only [key, bind, Except.bind]

theorem filterMap_find_insert {α β : Type} (f : α → UID) (g : β → UID) (l r : List β) (o : β) :
    ∀ as : List α, (∀ a ∈ as, f a ≠ g o) →
      as.filterMap (fun a => ((l ++ o :: r).find? (fun b => g b = f a)).map (fun b => (a, b))) =
      as.filterMap (fun a => ((l ++ r).find? (fun b => g b = f a)).map (fun b => (a, b))) := by
  intro as h
  apply List.filterMap_congr
  intro a ha
  have : (l ++ o :: r).find? (fun b => g b = f a) = (l ++ r).find? (fun b => g b = f a) := by
    rw [List.find?_append, List.find?_append, List.find?_cons]
    have : decide (g o = f a) = false := by
      rw [decide_eq_false_iff_not]; exact fun e => h a ha e.symm
    rw [this]
  rw [this]

theorem nodeAdd_error_peer (hk : delta.kids = l ++ o :: r) {res : Elem}
    (hrest : nodeAdd d (delta.setKids (l ++ r)) sc src = .ok res) (ho : uidOf d sc o = .ok (uid d sc o))
    (hu : ∀ y ∈ l ++ r, uid d sc y ≠ uid d sc o) {s : Elem} (hs : s ∈ src.kids)
    (hso : uid d sc s = uid d sc o)
    {x : Err} (hx : ∀ i st, addWithPeer d sc st ((s, i), (o, addFn d o)) = .error x) :
    nodeAdd d delta sc src = .error x := by
  obtain ⟨i1, i2, st1, st2, h1, h2, _⟩ := nodeAdd_inv hrest
  rw [nodeAdd_run i1 (indexable_insert hk i2 ho hu)]
  simp only [Elem.kids_setKids] at h1 h2
  obtain ⟨i, hi⟩ := List.mem_iff_getElem?.1 hs
  have hmz : (s, i) ∈ src.kids.zipIdx := List.mem_zipIdx_iff_getElem?.2 hi
  have honly : ((groupsOf (fun a : Elem × Nat => uid d sc a.1) (fun b : Elem × AddFn => uid d sc b.1)
      src.kids.zipIdx (delta.kids.map (fun k => (k, fun sc sum => nodeAdd d k sc sum)))).onlyTwo).foldlM
      (addWithoutPeer d sc) (src.kids.zipIdx.map (fun p => (some p.2, p.1))) = .ok st1 := by
    unfold groupsOf at h1 ⊢
    simp only [hk, List.map_append, List.map_cons, List.filter_append, List.filter_cons] at h1 ⊢
    rw [if_neg ?_]
    · exact h1
    · rw [Option.isNone_iff_eq_none, List.find?_eq_none]
      intro h
      have := h (s, i) hmz
      simp [hso] at this
  obtain ⟨as1, as2, has⟩ := List.append_of_mem hmz
  have hne : ∀ a ∈ as1 ++ as2, uid d sc a.1 ≠ uid d sc o := by
    intro a ha e
    have hnz : (src.kids.zipIdx.map (fun p => uid d sc p.1)).Nodup := by
      have := i1.nodup
      rw [← List.zipIdx_map_fst 0 src.kids, List.map_map] at this
      exact this
    rw [has] at hnz
    have hp : (as1 ++ (s, i) :: as2).Perm ((s, i) :: (as1 ++ as2)) := List.perm_middle
    have := (hp.map (fun p : Elem × Nat => uid d sc p.1)).nodup_iff.1 hnz
    rw [List.map_cons, List.nodup_cons] at this
    exact this.1 (List.mem_map.2 ⟨a, ha, by rw [e, hso]⟩)
  have hfind : ((l ++ o :: r).map (fun k => ((k, fun sc sum => nodeAdd d k sc sum) : Elem × AddFn))).find?
      (fun b => decide (uid d sc b.1 = uid d sc s)) = some (o, addFn d o) := by
    cases hf : ((l ++ o :: r).map (fun k => ((k, fun sc sum => nodeAdd d k sc sum) : Elem × AddFn))).find?
        (fun b => decide (uid d sc b.1 = uid d sc s)) with
    | none =>
      have := List.find?_eq_none.1 hf (o, addFn d o) (List.mem_map.2 ⟨o, by simp, rfl⟩)
      simp [hso] at this
    | some b =>
      obtain ⟨k, hkm, rfl⟩ := List.mem_map.1 (List.mem_of_find?_eq_some hf)
      have hub : uid d sc k = uid d sc s := by simpa using List.find?_some hf
      have : k = o := by
        by_contra hne'
        refine hu k ?_ (hub.trans hso)
        simp only [List.mem_append, List.mem_cons] at hkm ⊢
        rcases hkm with h | h | h
        · exact Or.inl h
        · exact absurd h hne'
        · exact Or.inr h
      rw [this]
  have key : ((groupsOf (fun a : Elem × Nat => uid d sc a.1) (fun b : Elem × AddFn => uid d sc b.1)
      src.kids.zipIdx (delta.kids.map (fun k => (k, fun sc sum => nodeAdd d k sc sum)))).both).foldlM
      (addWithPeer d sc) st1 = .error x := by
    unfold groupsOf at h2 ⊢
    simp only at h2 ⊢
    rw [hk, has, List.filterMap_append, List.filterMap_cons]
    simp only [hfind, Option.map_some]
    rw [has, List.filterMap_append] at h2
    obtain ⟨t, ht⟩ := foldlM_append_ok h2
    have h3 := filterMap_find_insert (fun a : Elem × Nat => uid d sc a.1)
      (fun b : Elem × AddFn => uid d sc b.1) (l.map (fun k => (k, fun sc sum => nodeAdd d k sc sum)))
      (r.map (fun k => (k, fun sc sum => nodeAdd d k sc sum))) (o, addFn d o) as1
      (fun a ha => hne a (by simp [ha]))
    rw [List.map_append, List.map_cons]
    rw [h3]
    rw [List.map_append] at ht
    exact foldlM_error ht (hx i)
  simp only [honly, key, bind, Except.bind]

end

theorem peerPlace_noInsert {sn : SNode} {o e : Elem} {h : Nat} {st : List Cell} (hi : insertOf o = none) :
    peerPlace sn o h e st = .ok st := by
  unfold peerPlace placeOld
  simp only [hi, ite_self]
  cases sn.ntype <;> simp

theorem peerContent_bad {d : Device} {sc : Scope} {src o s : Elem} {f : Found} {x : DeltaErr}
    (hf : d.lookup sc o.tag = .ok f) (hk : KidOk d f.node o) (hs : s ∈ src.kids) (hso : SameInstance d sc s o)
    (hb : BadOp d sc src o x) : peerContent d f.node (o, addFn d o) s = .error (.configDelta x) := by
  unfold peerContent peerTree
  cases hb with
  | deleteMissing hop h => exact absurd hso (h s hs)
  | createExisting hop h =>
    unfold KidOk at hk
    cases hn : f.node.ntype <;> simp [hn, hop] at hk ⊢
  | unknown hop =>
    simp only [List.mem_cons, List.not_mem_nil, or_false, not_or] at hop
    unfold KidOk at hk
    cases hn : f.node.ntype <;> simp [hn, hop] at hk ⊢

theorem addWithoutPeer_bad {d : Device} {sc : Scope} {src o : Elem} {x : DeltaErr}
    (hno : ∀ s ∈ src.kids, ¬ SameInstance d sc s o)
    (hb : BadOp d sc src o x) (st : List Cell) (rec : AddFn) :
    addWithoutPeer d sc st (o, rec) = .error (.configDelta x) := by
  unfold addWithoutPeer
  cases hb with
  | deleteMissing hop h => simp [hop]
  | createExisting hop h => obtain ⟨s, hs, hsm⟩ := h; exact absurd hsm (hno s hs)
  | unknown hop =>
    simp only [List.mem_cons, List.not_mem_nil, or_false, not_or] at hop
    simp [hop]

theorem nodeAdd_fault {d : Device} {sc : Scope} {delta src : Elem} {x : DeltaErr}
    (h : OneFault d sc delta src x) : Valid d sc src → Valid d sc delta →
    nodeAdd d delta sc src = .error (.configDelta x) := by
  have main : ∀ {sc : Scope} {delta src : Elem} {x : DeltaErr} (l r : List Elem) (o : Elem),
      delta.kids = l ++ o :: r → insertOf o = none →
      (∃ res, nodeAdd d (delta.setKids (l ++ r)) sc src = .ok res) → Valid d sc src → Valid d sc delta →
      (BadOp d sc src o x ∨ ∃ s ∈ src.kids, SameInstance d sc s o ∧ opOf o = "merge" ∧
        ∃ f, d.lookup sc o.tag = .ok f ∧ (f.node.ntype = .container ∨ f.node.ntype = .list) ∧
          nodeAdd d o (.node f.node) s = .error (.configDelta x)) →
      nodeAdd d delta sc src = .error (.configDelta x) := by
    intro sc delta src x l r o kids ins rest hv hvd hb
    obtain ⟨res, hres⟩ := rest
    have hom : o ∈ delta.kids := by rw [kids]; simp
    obtain ⟨f, hf, kf⟩ := hvd.shape' o hom
    have hou := hvd.indexable.ok o hom
    have huniq : ∀ y ∈ l ++ r, uid d sc y ≠ uid d sc o := by
      have hn := hvd.indexable.nodup
      rw [kids] at hn
      have hp : (l ++ o :: r).Perm (o :: (l ++ r)) := List.perm_middle
      have := (hp.map (uid d sc)).nodup_iff.1 hn
      rw [List.map_cons, List.nodup_cons] at this
      intro y hy e
      exact this.1 (List.mem_map.2 ⟨y, hy, e⟩)
    by_cases hp : ∃ s ∈ src.kids, SameInstance d sc s o
    · obtain ⟨s, hs, hso⟩ := hp
      have hsu := (same_iff_uid hv.shape' hf kf hs).1 hso
      refine nodeAdd_error_peer kids hres hou huniq hs hsu ?_
      intro i st
      rw [addWithPeer_eq]
      have hfs : d.lookup sc s.tag = .ok f := by rw [hso.1]; exact hf
      simp only [hfs, peerPlace_noInsert ins, bind, Except.bind]
      rcases hb with hb | ⟨s', hs', hso', hop, g, hg, hn, herr⟩
      · rw [peerContent_bad hf kf hs hso hb]
      · rw [hf] at hg; cases hg
        have hss : s' = s := List.inj_on_of_nodup_map hv.indexable.nodup hs' hs
          (((same_iff_uid hv.shape' hf kf hs').1 hso').trans hsu.symm)
        subst hss
        have : peerContent d f.node (o, addFn d o) s' = .error (.configDelta x) := by
          unfold peerContent peerTree
          rcases hn with hn | hn <;> simp [hn, hop, addFn, herr, bind, Except.bind]
        rw [this]
    · have hno : ∀ s ∈ src.kids, ¬ SameInstance d sc s o := fun s hs hsm => hp ⟨s, hs, hsm⟩
      rcases hb with hb | ⟨s', hs', hso', _⟩
      · refine nodeAdd_error_new kids hres hou huniq ?_ (fun st => addWithoutPeer_bad hno hb st _)
        intro s hs e
        exact hno s hs ((same_iff_uid hv.shape' hf kf hs).2 e)
      · exact absurd hso' (hno s' hs')
  induction h with
  | here l r o kids ins rest bad =>
    intro hv hvd
    exact main l r o kids ins rest hv hvd (Or.inl bad)
  | inside l r o s f kids ins rest hs hso hop hf hn bad ih =>
    intro hv hvd
    have hfs := hf
    rw [← hso.1] at hfs
    exact main l r o kids ins rest hv hvd
      (Or.inr ⟨s, hs, hso, hop, f, hf, hn, ih (hv.sub' s hs f hfs) (hvd.sub' o (by rw [kids]; simp) f hf)⟩)

end NcDiff
