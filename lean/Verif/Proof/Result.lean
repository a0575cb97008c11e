import Verif.Proof.At
/-!
# The children of a sum, instance by instance
-/

namespace NcDiff

/-- The children that denote instance `u`. -/
def elemsAt (d : Device) (sc : Scope) (u : UID) (ks : List Elem) : List Elem :=
  ks.filter (fun k => uid d sc k = u)

theorem elemsAt_map (d : Device) (sc : Scope) (u : UID) (st : List Cell) :
    elemsAt d sc u (st.map Prod.snd) = (atU d sc u st).map Prod.snd := by
  unfold elemsAt atU
  rw [List.filter_map]; rfl

theorem placeNew_cases {sn : SNode} {anchor : Except Err (Cell → Bool)} {o : Elem} {c : Cell}
    {st st' : List Cell} (h : placeNew sn anchor o c st = .ok st') :
    Ins c st st' ∨ (st' = st ∧ sn.userOrdered = true ∧
      ∃ i, insertOf o = some i ∧ i ≠ "first" ∧ i ≠ "last" ∧ i ≠ "before" ∧ i ≠ "after") := by
  unfold placeNew at h
  cases hoi : (if sn.userOrdered = true then insertOf o else none) with
  | none => rw [hoi] at h; cases h; exact Or.inl (ins_putLast ..)
  | some i =>
    rw [hoi] at h
    simp only at h
    split at h
    · cases h; exact Or.inl (ins_putFirst ..)
    rename_i h1
    split at h
    · cases h; exact Or.inl (ins_putLast ..)
    rename_i h2
    split at h
    · cases ha : anchor with
      | error e => simp [ha, bind, Except.bind] at h
      | ok p =>
        simp only [ha, bind, Except.bind] at h
        exact Or.inl (ins_insertBefore (orWrong_ok h))
    rename_i h3
    split at h
    · cases ha : anchor with
      | error e => simp [ha, bind, Except.bind] at h
      | ok p =>
        simp only [ha, bind, Except.bind] at h
        exact Or.inl (ins_insertAfter (orWrong_ok h))
    rename_i h4
    cases h
    by_cases hu : sn.userOrdered = true
    · rw [if_pos hu] at hoi
      exact Or.inr ⟨rfl, hu, i, hoi, h1, h2, h3, h4⟩
    · rw [if_neg hu] at hoi; cases hoi

theorem newPlace_cases {d : Device} {f : Found} {o k : Elem} {c : Cell} {st st' : List Cell}
    (hk : KidOk d f.node k) (h : newPlace f o c st = .ok st') :
    Ins c st st' ∨ (st' = st ∧ BadInsert f o) := by
  unfold newPlace at h
  unfold KidOk at hk
  cases hn : f.node.ntype <;> simp only [hn] at h hk
  · cases h; exact Or.inl (Ins.append ..)
  · rcases placeNew_cases h with h | ⟨h1, h2, h3⟩
    · exact Or.inl h
    · exact Or.inr ⟨h1, Or.inl hn, h2, h3⟩
  · cases h; exact Or.inl (Ins.append ..)
  · rcases placeNew_cases h with h | ⟨h1, h2, h3⟩
    · exact Or.inl h
    · exact Or.inr ⟨h1, Or.inr hn, h2, h3⟩

theorem newPlace_bad {f : Found} {o : Elem} {c : Cell} {st : List Cell} (h : BadInsert f o) :
    newPlace f o c st = .ok st := by
  obtain ⟨hn, hu, i, hi, h1, h2, h3, h4⟩ := h
  have hp : ∀ a, placeNew f.node a o c st = .ok st := by
    intro a
    unfold placeNew
    simp [hu, hi, h1, h2, h3, h4]
  unfold newPlace
  rcases hn with hn | hn <;> simp only [hn, hp]

theorem Ins.othU {d : Device} {sc : Scope} {c : Cell} {st st' : List Cell} (h : Ins c st st')
    {u : UID} (hu : uid d sc c.2 = u) : othU d sc u st' = othU d sc u st :=
  h.filter_neg (by simp [hu])

theorem Ins.atU_nil {d : Device} {sc : Scope} {c : Cell} {st st' : List Cell} (h : Ins c st st')
    {u : UID} (hu : uid d sc c.2 = u) (h0 : atU d sc u st = []) : atU d sc u st' = [c] := by
  obtain ⟨l, r, rfl, rfl⟩ := h
  unfold atU at *
  rw [List.filter_append, List.append_eq_nil_iff] at h0
  rw [List.filter_append, List.filter_cons, h0.1, h0.2]
  simp [hu]

/-- Handles belong to instances. -/
def HInv (d : Device) (sc : Scope) (ks : List Elem) (st : List Cell) : Prop :=
  ∀ i e, (some i, e) ∈ st → ∃ k, ks[i]? = some k ∧ uid d sc e = uid d sc k

theorem HInv.init (d : Device) (sc : Scope) (ks : List Elem) :
    HInv d sc ks (ks.zipIdx.map (fun p => (some p.2, p.1))) := by
  intro i e h
  obtain ⟨⟨k, j⟩, hk, he⟩ := List.mem_map.1 h
  have hj := List.mem_zipIdx_iff_getElem?.1 hk
  simp only [Prod.mk.injEq, Option.some.injEq] at he
  obtain ⟨rfl, rfl⟩ := he
  exact ⟨k, hj, rfl⟩

theorem HInv.ins_none {d : Device} {sc : Scope} {ks : List Elem} {st st' : List Cell} {e : Elem}
    (h : HInv d sc ks st) (hi : Ins (none, e) st st') : HInv d sc ks st' := by
  intro i x hx
  rcases hi.mem.1 hx with he | hx
  · simp at he
  · exact h i x hx

theorem peerPlace_ins {sn : SNode} {o : Elem} {h : Nat} {e : Elem} {st st1 : List Cell}
    (hp : peerPlace sn o h e st = .ok st1) : st1 = st ∨ Ins (some h, e) (removeCell h st) st1 := by
  unfold peerPlace at hp
  split at hp
  · split at hp
    · exact placeOld_ins hp
    · cases hp; exact Or.inl rfl
  · split at hp
    · exact placeOld_ins hp
    · cases hp; exact Or.inl rfl
  · cases hp; exact Or.inl rfl

section peer
variable {d : Device} {sc : Scope} {ks : List Elem} {st st1 : List Cell} {h : Nat} {e : Elem}

theorem HInv.uid_handle (hI : HInv d sc ks st) (hk : ks[h]? = some e) {c : Cell} (hc : c ∈ st)
    (hh : isCell h c = true) : uid d sc c.2 = uid d sc e := by
  obtain ⟨i, x⟩ := c
  have : i = some h := by simpa [isCell] using hh
  subst this
  obtain ⟨k, hk', hu⟩ := hI h x hc
  rw [hk] at hk'; cases hk'; exact hu

theorem HInv.removeCell (hI : HInv d sc ks st) : HInv d sc ks (removeCell h st) :=
  fun i x hx => hI i x (mem_removeCell hx)

theorem HInv.ins_some (hI : HInv d sc ks st) (hk : ks[h]? = some e)
    (hi : Ins (some h, e) st st1) : HInv d sc ks st1 := by
  intro i x hx
  rcases hi.mem.1 hx with he | hx
  · cases he; exact ⟨e, hk, rfl⟩
  · exact hI i x hx

theorem HInv.othU_remove (hI : HInv d sc ks st) (hk : ks[h]? = some e) :
    othU d sc (uid d sc e) (NcDiff.removeCell h st) = othU d sc (uid d sc e) st := by
  unfold othU NcDiff.removeCell
  rw [List.filter_filter]
  apply List.filter_congr
  intro c hc
  by_cases hh : isCell h c = true
  · simp [hI.uid_handle hk hc hh]
  · simp [hh]

theorem HInv.atU_remove (hI : HInv d sc ks st) (hk : ks[h]? = some e)
    (ha : atU d sc (uid d sc e) st = [(some h, e)]) :
    atU d sc (uid d sc e) (NcDiff.removeCell h st) = [] := by
  have : atU d sc (uid d sc e) (NcDiff.removeCell h st) =
      (atU d sc (uid d sc e) st).filter (fun c => !isCell h c) := by
    unfold atU NcDiff.removeCell
    rw [List.filter_filter, List.filter_filter]
    congr 1; funext c; exact Bool.and_comm ..
  rw [this, ha]; simp [isCell]

theorem map_othU {g : Cell → Cell} {u : UID}
    (hg : ∀ c ∈ st, uid d sc (g c).2 = uid d sc c.2 ∧ (uid d sc c.2 ≠ u → g c = c)) :
    othU d sc u (st.map g) = othU d sc u st ∧ atU d sc u (st.map g) = (atU d sc u st).map g := by
  unfold othU atU
  rw [List.filter_map, List.filter_map]
  constructor
  · have h1 : st.filter ((fun c : Cell => decide (uid d sc c.2 ≠ u)) ∘ g) =
        st.filter (fun c => decide (uid d sc c.2 ≠ u)) := by
      apply List.filter_congr
      intro c hc; simp [(hg c hc).1]
    rw [h1]
    conv_rhs => rw [← List.map_id (st.filter (fun c => decide (uid d sc c.2 ≠ u)))]
    apply List.map_congr_left
    intro c hc
    rw [List.mem_filter] at hc
    exact (hg c hc.1).2 (by simpa using hc.2)
  · congr 1
    apply List.filter_congr
    intro c hc; simp [(hg c hc).1]

/-- An iteration of the second loop changes only its own instance, and this is what is there
afterwards. -/
theorem peer_local (hI : HInv d sc ks st) (hk : ks[h]? = some e)
    (hp : st1 = st ∨ Ins (some h, e) (NcDiff.removeCell h st) st1) (x : PeerRes)
    (hx : ∀ e', x.elem e = some e' → uid d sc e' = uid d sc e) :
    HInv d sc ks (x.apply h st1) ∧
    othU d sc (uid d sc e) (x.apply h st1) = othU d sc (uid d sc e) st ∧
    (atU d sc (uid d sc e) st = [(some h, e)] →
      atU d sc (uid d sc e) (x.apply h st1) = x.cells h e) := by
  have hI1 : HInv d sc ks st1 := by
    rcases hp with rfl | hi
    · exact hI
    · exact hI.removeCell.ins_some hk hi
  have ho1 : othU d sc (uid d sc e) st1 = othU d sc (uid d sc e) st := by
    rcases hp with rfl | hi
    · rfl
    · rw [hi.othU rfl, hI.othU_remove hk]
  have ha1 : atU d sc (uid d sc e) st = [(some h, e)] →
      atU d sc (uid d sc e) st1 = [(some h, e)] := by
    intro ha
    rcases hp with rfl | hi
    · exact ha
    · exact hi.atU_nil rfl (hI.atU_remove hk ha)
  rw [← ho1]
  cases x with
  | gone =>
    refine ⟨hI1.removeCell, hI1.othU_remove hk, fun ha => ?_⟩
    exact hI1.atU_remove hk (ha1 ha)
  | keep => exact ⟨hI1, rfl, ha1⟩
  | set e' =>
    have hu := hx e' rfl
    have := map_othU (d := d) (sc := sc) (st := st1) (u := uid d sc e)
      (g := fun c => if isCell h c then (c.1, e') else c) (by
        intro c hc
        by_cases hh : isCell h c = true
        · have := hI1.uid_handle hk hc hh
          simp [hh, hu, this]
        · simp [hh])
    refine ⟨?_, this.1, fun ha => ?_⟩
    · intro i y hy
      obtain ⟨c, hc, hce⟩ := List.mem_map.1 hy
      split at hce
      · rename_i hh
        have : c.1 = some h := by simpa [isCell] using hh
        rw [this] at hce
        cases hce
        exact ⟨e, hk, hu⟩
      · subst hce; exact hI1 i y hc
    · refine this.2.trans ?_
      rw [ha1 ha]; simp [isCell, PeerRes.cells]
  | repl e' =>
    have hu := hx e' rfl
    have := map_othU (d := d) (sc := sc) (st := st1) (u := uid d sc e)
      (g := fun c => if isCell h c then (none, e') else c) (by
        intro c hc
        by_cases hh : isCell h c = true
        · have := hI1.uid_handle hk hc hh
          simp [hh, hu, this]
        · simp [hh])
    refine ⟨?_, this.1, fun ha => ?_⟩
    · intro i y hy
      obtain ⟨c, hc, hce⟩ := List.mem_map.1 hy
      split at hce
      · cases hce
      · subst hce; exact hI1 i y hc
    · refine this.2.trans ?_
      rw [ha1 ha]; simp [isCell, PeerRes.cells]

end peer

theorem PeerRes.cells_elem (h : Nat) (e : Elem) (x : PeerRes) :
    (x.cells h e).map Prod.snd = (x.elem e).toList := by cases x <;> rfl

/-- The keys condition for one child of a delta. -/
abbrev KeysPlain (d : Device) (f : Found) (k : Elem) : Prop :=
  f.node.ntype = .list → ∀ q ∈ f.node.keys,
      (∃ g, d.lookup (.node f.node) q = .ok g ∧ g.node.ntype = .leaf ∧
        ∀ c ∈ k.childrenWith q, KeyOk d g.node c) ∧
      ∀ c ∈ k.childrenWith q, opOf c = "merge"

/-- `node_add` as a table function for a child. -/
abbrev addFn (d : Device) (k : Elem) : AddFn := fun sc sum => nodeAdd d k sc sum

theorem atU_init {d : Device} {sc : Scope} {ks : List Elem} (hi : Indexable d sc ks) {i : Nat} {e : Elem}
    (he : ks[i]? = some e) :
    atU d sc (uid d sc e) (ks.zipIdx.map (fun p => (some p.2, p.1))) = [(some i, e)] := by
  unfold atU
  rw [List.filter_map]
  have hm : (e, i) ∈ ks.zipIdx := List.mem_zipIdx_iff_getElem?.2 he
  have hone : ks.zipIdx.filter ((fun c : Cell => decide (uid d sc c.2 = uid d sc e)) ∘
      fun p : Elem × Nat => ((some p.2, p.1) : Cell)) = [(e, i)] := by
    have hn : (ks.zipIdx.map (fun p => uid d sc p.1)).Nodup := by
      have := hi.nodup
      rw [← List.zipIdx_map_fst 0 ks, List.map_map] at this
      exact this
    have := filter_eq_toList_find (fun p : Elem × Nat => uid d sc p.1) (uid d sc e) ks.zipIdx hn
    have hf : ks.zipIdx.find? (fun p => decide (uid d sc p.1 = uid d sc e)) = some (e, i) := by
      cases hfi : ks.zipIdx.find? (fun p => decide (uid d sc p.1 = uid d sc e)) with
      | none =>
        have := List.find?_eq_none.1 hfi (e, i) hm
        simp at this
      | some p =>
        have hp : uid d sc p.1 = uid d sc e := by simpa using List.find?_some hfi
        have := List.inj_on_of_nodup_map hn (List.mem_of_find?_eq_some hfi) hm hp
        rw [this]
    rw [hf] at this
    exact this
  rw [hone]; rfl

/-- The children of a sum, instance by instance. -/
theorem nodeAdd_at {d : Device} {sc : Scope} {sum o r : Elem} (h : nodeAdd d o sc sum = .ok r)
    (hsum : ∀ k ∈ sum.kids, ∃ f, d.lookup sc k.tag = .ok f ∧ KidOk d f.node k) (hh : KidsHonest d sc sum)
    (ho : DeltaLevel d sc o) :
    (∀ k ∈ o.kids, (∀ s ∈ sum.kids, uid d sc s ≠ uid d sc k) →
      ∃ f, d.lookup sc k.tag = .ok f ∧
        ((opOf k = "remove" ∧ elemsAt d sc (uid d sc k) r.kids = []) ∨
         ((opOf k = "merge" ∨ opOf k = "replace" ∨ opOf k = "create") ∧
          ∃ e, newContent f (k, addFn d k) = .ok e ∧
            ((¬ BadInsert f k ∧ elemsAt d sc (uid d sc k) r.kids = [e]) ∨
             (BadInsert f k ∧ elemsAt d sc (uid d sc k) r.kids = []))))) ∧
    (∀ s ∈ sum.kids, ∀ k ∈ o.kids, uid d sc s = uid d sc k →
      ∃ f x, d.lookup sc s.tag = .ok f ∧ peerContent d f.node (k, addFn d k) s = .ok x ∧
        elemsAt d sc (uid d sc s) r.kids = (x.elem s).toList) ∧
    (∀ u, (∀ k ∈ o.kids, uid d sc k ≠ u) →
      elemsAt d sc u r.kids = elemsAt d sc u sum.kids) := by
  obtain ⟨i1, i2, st1, st2, h1, h2, rfl⟩ := nodeAdd_inv h
  have hsame : ∀ s ∈ sum.kids, ∀ k ∈ o.kids, uid d sc s = uid d sc k → SameInstance d sc s k := by
    intro s hs k hk
    obtain ⟨f, hf, kf⟩ := hsum s hs
    obtain ⟨g, hg, kg⟩ := ho.shape k hk
    exact (uid_eq_iff' hf kf hg kg).1
  -- the first loop
  have n1 : (((groupsOf (fun a : Elem × Nat => uid d sc a.1) (fun b : Elem × AddFn => uid d sc b.1)
        sum.kids.zipIdx (o.kids.map (fun k => (k, fun sc sum => nodeAdd d k sc sum)))).onlyTwo).map
          (fun p => uid d sc p.1)).Nodup := by
    refine List.Nodup.sublist (List.Sublist.map _ List.filter_sublist) ?_
    rw [List.map_map]; simpa [Function.comp_def] using i2.nodup
  obtain ⟨I1, R1, V1⟩ := foldlM_local (d := d) (sc := sc) (u := fun p : Elem × AddFn => uid d sc p.1)
    (Inv := HInv d sc sum.kids)
    (R := fun p s s' => ∃ f, d.lookup sc p.1.tag = .ok f ∧
      ((opOf p.1 = "remove" ∧ s' = s) ∨
       ((opOf p.1 = "merge" ∨ opOf p.1 = "replace" ∨ opOf p.1 = "create") ∧
          ∃ e, newContent f (p.1, addFn d p.1) = .ok e ∧
            ((¬ BadInsert f p.1 ∧ (s = [] → s' = [(none, e)])) ∨ (BadInsert f p.1 ∧ s' = s)))))
    n1 (HInv.init d sc sum.kids) (by
      rintro ⟨k, rec⟩ hk s s' hI hstep
      obtain ⟨hk0, _⟩ := mem_onlyTwo_iff.1 hk
      obtain ⟨k', hk', hke⟩ := List.mem_map.1 hk0
      cases hke
      obtain ⟨f, hf, kf⟩ := ho.shape k hk'
      simp only
      rcases (addWithoutPeer_ok hf).1 hstep with ⟨hop, rfl⟩ | ⟨hop, e, hc, hpl⟩
      · exact ⟨hI, rfl, f, hf, Or.inl ⟨hop, rfl⟩⟩
      · obtain ⟨_, _, hu, _⟩ := newContent_ok hf kf (ho.keys k hk' f hf) hc
        by_cases hb : BadInsert f k
        · rw [newPlace_bad hb] at hpl
          cases hpl
          exact ⟨hI, rfl, f, hf, Or.inr ⟨hop, e, hc, Or.inr ⟨hb, rfl⟩⟩⟩
        · rcases newPlace_cases kf hpl with hi | ⟨_, hb'⟩
          · exact ⟨hI.ins_none hi, hi.othU hu, f, hf, Or.inr ⟨hop, e, hc, Or.inl ⟨hb, hi.atU_nil hu⟩⟩⟩
          · exact absurd hb' hb) h1
  -- the second loop
  have n2 : (((groupsOf (fun a : Elem × Nat => uid d sc a.1) (fun b : Elem × AddFn => uid d sc b.1)
        sum.kids.zipIdx (o.kids.map (fun k => (k, fun sc sum => nodeAdd d k sc sum)))).both).map
          (fun q => uid d sc q.1.1)).Nodup := by
    have hz : (sum.kids.zipIdx.map (fun a : Elem × Nat => uid d sc a.1)).Nodup := by
      have := i1.nodup
      rw [← List.zipIdx_map_fst 0 sum.kids, List.map_map] at this
      exact this
    unfold groupsOf
    simp only
    rw [List.map_filterMap]
    have : List.Sublist (List.filterMap (fun x => Option.map (fun q : (Elem × Nat) × (Elem × AddFn) => uid d sc q.1.1)
        (Option.map (fun b => (x, b)) (List.find? (fun b : Elem × AddFn => decide (uid d sc b.1 = uid d sc x.1))
        (o.kids.map (fun k => (k, fun sc sum => nodeAdd d k sc sum)))))) sum.kids.zipIdx)
        (sum.kids.zipIdx.map (fun a : Elem × Nat => uid d sc a.1)) := by
      generalize sum.kids.zipIdx = l
      induction l with
      | nil => simp
      | cons a l ih =>
        rw [List.filterMap_cons, List.map_cons]
        cases (List.find? (fun b : Elem × AddFn => decide (uid d sc b.1 = uid d sc a.1))
          (o.kids.map (fun k => (k, fun sc sum => nodeAdd d k sc sum)))) with
        | none => exact List.Sublist.cons _ ih
        | some b => exact List.Sublist.cons_cons _ ih
    exact List.Nodup.sublist this hz
  obtain ⟨I2, R2, V2⟩ := foldlM_local (d := d) (sc := sc)
    (u := fun q : (Elem × Nat) × (Elem × AddFn) => uid d sc q.1.1)
    (Inv := HInv d sc sum.kids)
    (R := fun q s s' => s = [(some q.1.2, q.1.1)] → ∃ f x, d.lookup sc q.1.1.tag = .ok f ∧
      peerContent d f.node (q.2.1, addFn d q.2.1) q.1.1 = .ok x ∧ s' = x.cells q.1.2 q.1.1)
    n2 I1 (by
      rintro ⟨⟨e, j⟩, ⟨k, rec⟩⟩ hq s s' hI hstep
      obtain ⟨ha, hb, hu⟩ := mem_both hq
      obtain ⟨k', hk', hke⟩ := List.mem_map.1 hb
      cases hke
      have hj := List.mem_zipIdx_iff_getElem?.1 ha
      simp only at hj hu ⊢
      have hem := List.mem_of_getElem? hj
      obtain ⟨f, hf, kf⟩ := hsum e hem
      have hsk := hsame e hem k hk' hu.symm
      have hft : d.lookup sc k.tag = .ok f := by rw [← hsk.1]; exact hf
      obtain ⟨g, hg, kg⟩ := ho.shape k hk'
      rw [hft] at hg; cases hg
      obtain ⟨s1, x, hpl, hco, rfl⟩ := (addWithPeer_ok hf).1 hstep
      obtain ⟨l1, l2, l3⟩ := peer_local hI hj (peerPlace_ins hpl) x (fun e' he' =>
        (peerContent_uid hf kf kg hsk (ho.keys k hk' f hft) (hh e hem f hf) hco e' he').1)
      exact ⟨l1, l2, fun hs => ⟨f, x, hf, hco, l3 hs⟩⟩) h2
  simp only [Elem.kids_setKids]
  refine ⟨?_, ?_, ?_⟩
  · intro k hk hno
    have hmem : ((k, addFn d k) : Elem × AddFn) ∈ (groupsOf (fun a : Elem × Nat => uid d sc a.1)
        (fun b : Elem × AddFn => uid d sc b.1)
        sum.kids.zipIdx (o.kids.map (fun k => (k, fun sc sum => nodeAdd d k sc sum)))).onlyTwo := by
      refine mem_onlyTwo_iff.2 ⟨List.mem_map.2 ⟨k, hk, rfl⟩, ?_⟩
      rintro ⟨s, i⟩ hs
      exact hno s (List.mem_of_getElem? (List.mem_zipIdx_iff_getElem?.1 hs))
    have hV : atU d sc (uid d sc k) st2 = atU d sc (uid d sc k) st1 := by
      apply V2
      intro hm
      obtain ⟨⟨⟨e, j⟩, b⟩, hq, he⟩ := List.mem_map.1 hm
      obtain ⟨ha, _, _⟩ := mem_both hq
      exact hno e (List.mem_of_getElem? (List.mem_zipIdx_iff_getElem?.1 ha)) he
    have h0 : atU d sc (uid d sc k) (sum.kids.zipIdx.map (fun p => ((some p.2, p.1) : Cell))) = [] := by
      unfold atU
      rw [List.filter_eq_nil_iff]
      intro c hc
      obtain ⟨⟨s, i⟩, hs, rfl⟩ := List.mem_map.1 hc
      simpa using hno s (List.mem_of_getElem? (List.mem_zipIdx_iff_getElem?.1 hs))
    obtain ⟨f, hf, hR⟩ := R1 _ hmem
    refine ⟨f, hf, ?_⟩
    rw [elemsAt_map, hV]
    simp only [h0] at hR
    rcases hR with ⟨hop, hs⟩ | ⟨hop, e, hc, hR⟩
    · exact Or.inl ⟨hop, by rw [hs]; rfl⟩
    · refine Or.inr ⟨hop, e, hc, ?_⟩
      rcases hR with ⟨hb, hR⟩ | ⟨hb, hR⟩
      · exact Or.inl ⟨hb, by rw [hR trivial]; rfl⟩
      · exact Or.inr ⟨hb, by rw [hR]; rfl⟩
  · intro s hs k hk hu
    obtain ⟨i, hi⟩ := List.mem_iff_getElem?.1 hs
    have hbn : ((o.kids.map (fun k => (k, fun sc sum => nodeAdd d k sc sum))).map
        (fun b : Elem × AddFn => uid d sc b.1)).Nodup := by
      rw [List.map_map]; simpa [Function.comp_def] using i2.nodup
    have hq := mem_both_of (ks := sum.kids) (a := (s, i)) hbn (List.mem_zipIdx_iff_getElem?.2 hi)
        (List.mem_map.2 ⟨k, hk, rfl⟩) hu.symm
    have hat : atU d sc (uid d sc s) st1 = [(some i, s)] := by
      rw [V1, atU_init i1 hi]
      intro hm
      obtain ⟨⟨k', rec⟩, hk', he⟩ := List.mem_map.1 hm
      exact (mem_onlyTwo_iff.1 hk').2 (s, i) (List.mem_zipIdx_iff_getElem?.2 hi) he.symm
    obtain ⟨f, x, hf, hx, hR⟩ := R2 _ hq hat
    refine ⟨f, x, hf, hx, ?_⟩
    rw [elemsAt_map, hR, PeerRes.cells_elem]
  · intro u hu
    rw [elemsAt_map, V2 u ?_, V1 u ?_, ← elemsAt_map]
    · congr 1
      rw [List.map_map]
      exact List.zipIdx_map_fst 0 sum.kids
    · intro hm
      obtain ⟨⟨k', rec⟩, hk', he⟩ := List.mem_map.1 hm
      obtain ⟨k, hk, hke⟩ := List.mem_map.1 (mem_onlyTwo_iff.1 hk').1
      cases hke
      exact hu k' hk he
    · intro hm
      obtain ⟨⟨⟨e, j⟩, ⟨k', rec⟩⟩, hq, he⟩ := List.mem_map.1 hm
      obtain ⟨_, hb, hu'⟩ := mem_both hq
      obtain ⟨k, hk, hke⟩ := List.mem_map.1 hb
      cases hke
      exact hu k' hk (hu'.trans he)

end NcDiff
