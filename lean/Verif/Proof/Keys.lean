import Verif.Proof.Local
/-!
# Merging into a list entry keeps its keys
-/

namespace NcDiff

theorem delAttrib_tag (e : Elem) : e.delAttrib.tag = e.tag := by cases e; rfl
theorem delAttrib_text (e : Elem) : e.delAttrib.text = e.text := by cases e; rfl
theorem delAttrib_nsmap (e : Elem) : e.delAttrib.nsmap = e.nsmap := by cases e; rfl
theorem delAttrib_attrs (e : Elem) : e.delAttrib.attrs = [] := by cases e; rfl
theorem delAttrib_kids (e : Elem) : e.delAttrib.kids = e.kids.map Elem.delAttrib := by
  cases e; simp only [Elem.delAttrib, Elem.kids_mk, Elem.delAttribList_eq]

theorem delAttrib_childrenWith (e : Elem) (q : QName) :
    e.delAttrib.childrenWith q = (e.childrenWith q).map Elem.delAttrib := by
  unfold Elem.childrenWith
  rw [delAttrib_kids, List.filter_map]
  congr 1
  apply List.filter_congr
  intro k _
  simp [delAttrib_tag]

theorem delAttrib_keyTexts (e : Elem) (q : QName) : keyTexts e.delAttrib q = keyTexts e q := by
  unfold keyTexts
  rw [delAttrib_childrenWith, List.map_map]
  congr 1
  funext k
  exact delAttrib_text k

theorem setText_self (e : Elem) : e.setText e.text = e := by cases e; rfl

theorem nodeAdd_tag {d : Device} {sc : Scope} {sum o r : Elem} (h : nodeAdd d o sc sum = .ok r) :
    r.tag = sum.tag ∧ r.text = sum.text ∧ r.attrs = sum.attrs ∧ r.nsmap = sum.nsmap := by
  obtain ⟨_, _, _, _, _, _, rfl⟩ := nodeAdd_inv h; exact ⟨rfl, rfl, rfl, rfl⟩

theorem listSkeleton_ok {keys : List QName} {o sk : Elem} (h : listSkeleton keys o = .ok sk) :
    sk.tag = o.tag ∧ sk.nsmap = o.nsmap ∧ sk.attrs = [] ∧ sk.text = none ∧
      keys.mapM (fun k =>
        match o.find k with
        | some e => Except.ok e.delAttrib
        | none => Except.error Err.attributeError) = .ok sk.kids := by
  unfold listSkeleton at h
  simp only [bind, Except.bind] at h
  split at h
  · cases h
  · rename_i ks hks
    cases h
    exact ⟨rfl, rfl, rfl, rfl, hks⟩

theorem newChild_tag {d : Device} {sc : Scope} {o k e : Elem}
    (h : NewChild d sc o (fun sc sum => nodeAdd d k sc sum) e) : e.tag = o.tag := by
  rcases h with rfl | ⟨f, _, _, _, hr⟩ | ⟨f, sk, _, _, _, hs, hr⟩
  · exact delAttrib_tag o
  · exact (nodeAdd_tag hr).1
  · exact (nodeAdd_tag hr).1.trans (listSkeleton_ok hs).1

theorem uid_plain {d : Device} {sc : Scope} {e : Elem} {f : Found} (hf : d.lookup sc e.tag = .ok f)
    (hn : f.node.ntype ≠ .list) (hn' : f.node.ntype ≠ .leafList) : uid d sc e = (e.tag, .plain) := by
  apply uid_of_ok
  unfold uidOf
  simp only [hf, bind, Except.bind]
  cases h : f.node.ntype <;> simp_all [pure, Except.pure]

theorem mergeText_plain {d : Device} {sn : SNode} (hp : sn.info.datatype.plain) (src dst : Elem) :
    mergeText d sn src dst = .ok (dst.setText src.text) := by
  unfold mergeText
  cases h : src.text with
  | none => rfl
  | some t => cases hd : sn.info.datatype <;> simp_all [DType.plain]

/-- Cells after an iteration of the second loop. -/
theorem addWithPeer_mem {d : Device} {sc : Scope} {st st' : List Cell} {e o k : Elem} {h : Nat}
    (hs : addWithPeer d sc st ((e, h), (o, fun sc sum => nodeAdd d k sc sum)) = .ok st')
    (ht : o.tag = e.tag) {c : Cell} (hc : c ∈ st') :
    c ∈ st ∨ (c.2.tag = e.tag ∧ (c.1 = some h ∨ c.1 = none)) := by
  obtain ⟨st1, hst1, hout⟩ := addWithPeer_inv hs
  have h1 : ∀ c ∈ st1, c ∈ st ∨ (c.2.tag = e.tag ∧ (c.1 = some h ∨ c.1 = none)) := by
    intro c hc
    rcases hst1 with rfl | hi
    · exact Or.inl hc
    · rcases hi.mem.1 hc with rfl | hc
      · exact Or.inr ⟨rfl, Or.inl rfl⟩
      · exact Or.inl (mem_removeCell hc)
  rcases hout with rfl | rfl | ⟨e', rfl, hp⟩ | ⟨_, rfl⟩
  · exact h1 c hc
  · exact h1 c (mem_removeCell hc)
  · obtain ⟨x, hx, rfl⟩ := List.mem_map.1 hc
    split
    · rename_i hcell
      refine Or.inr ⟨?_, Or.inl (by simpa [isCell] using hcell)⟩
      rcases hp with ⟨f, _, _, hm⟩ | ⟨f, _, _, _, hr⟩
      · obtain ⟨t, rfl⟩ := mergeText_ok hm; rfl
      · exact (nodeAdd_tag hr).1
    · exact h1 x hx
  · obtain ⟨x, hx, rfl⟩ := List.mem_map.1 hc
    split
    · exact Or.inr ⟨by rw [delAttrib_tag]; exact ht, Or.inr rfl⟩
    · exact h1 x hx

theorem setCell_self {h : Nat} {e : Elem} {st : List Cell}
    (hs : ∀ x, (some h, x) ∈ st → x = e) : setCell h e st = st := by
  unfold setCell
  conv_rhs => rw [← List.map_id st]
  apply List.map_congr_left
  rintro ⟨i, x⟩ hx
  split
  · rename_i hc
    have : i = some h := by simpa [isCell] using hc
    subst this
    rw [hs x hx]; rfl
  · rfl

/-- A leaf that both sides have, and that the delta does not change, is the same afterwards. -/
theorem nodeAdd_keys {d : Device} {sc : Scope} {sum o r : Elem} (h : nodeAdd d o sc sum = .ok r)
    {q : QName} {g : Found} (hg : d.lookup sc q = .ok g) (hl : g.node.ntype = .leaf)
    {c c' : Elem} (hc : sum.childrenWith q = [c])
    (hc' : o.childrenWith q = [c']) (hop : opOf c' = "merge") (ht : ∀ x, mergeText d g.node c' c = .ok x → x = c) :
    r.childrenWith q = [c] := by
  obtain ⟨i1, i2, st1, st2, h1, h2, rfl⟩ := nodeAdd_inv h
  have hcm : c ∈ sum.kids ∧ c.tag = q := by
    have : c ∈ sum.childrenWith q := by rw [hc]; simp
    simpa [Elem.childrenWith] using this
  have hcm' : c' ∈ o.kids ∧ c'.tag = q := by
    have : c' ∈ o.childrenWith q := by rw [hc']; simp
    simpa [Elem.childrenWith] using this
  have uniq : ∀ x ∈ sum.kids, x.tag = q → x = c := by
    intro x hx hxt
    have : x ∈ sum.childrenWith q := by simp [Elem.childrenWith, hx, hxt]
    simpa [hc] using this
  have uniq' : ∀ x ∈ o.kids, x.tag = q → x = c' := by
    intro x hx hxt
    have : x ∈ o.childrenWith q := by simp [Elem.childrenWith, hx, hxt]
    simpa [hc'] using this
  have uc : uid d sc c = (q, .plain) := by
    rw [uid_plain (by rw [hcm.2]; exact hg) (by rw [hl]; decide) (by rw [hl]; decide), hcm.2]
  have uc' : uid d sc c' = (q, .plain) := by
    rw [uid_plain (by rw [hcm'.2]; exact hg) (by rw [hl]; decide) (by rw [hl]; decide), hcm'.2]
  obtain ⟨i, hi⟩ := List.mem_iff_getElem?.1 hcm.1
  have iuniq : ∀ j x, sum.kids[j]? = some x → x.tag = q → j = i := by
    intro j x hj hx
    have := uniq x (List.mem_of_getElem? hj) hx
    subst this
    have hn : (sum.kids).Nodup := List.Nodup.of_map _ i1.nodup
    have hlt : i < sum.kids.length := (List.getElem?_eq_some_iff.1 hi).1
    exact ((List.getElem?_inj hlt hn).1 (hi.trans hj.symm)).symm
  let P : List Cell → Prop := fun st =>
    (∀ c ∈ st, c.2.tag = q ↔ c.1 = some i) ∧ st.filter (keepCell (· = i)) = [(some i, c)]
  have P0 : P (sum.kids.zipIdx.map (fun p => (some p.2, p.1))) := by
    constructor
    · intro x hx
      obtain ⟨⟨k, j⟩, hk, rfl⟩ := List.mem_map.1 hx
      have hj := List.mem_zipIdx_iff_getElem?.1 hk
      simp only at hj
      simp only [Option.some.injEq]
      constructor
      · intro e; exact iuniq j k hj e
      · rintro rfl
        rw [hi] at hj; cases hj; exact hcm.2
    · have hlen : ∀ l : List Cell, l.filter (keepCell (· = i)) = l.filter (fun x => decide (x.1 = some i)) := by
        intro l
        apply List.filter_congr
        rintro ⟨a, b⟩ _
        cases a <;> simp [keepCell]
      have hs := filter_zipIdx_keep sum.kids (fun k => decide (k.tag = q))
      have hf : (sum.kids.filter (fun k => decide (k.tag = q))) = [c] := hc
      rw [hf] at hs
      have hcong : (sum.kids.zipIdx.map (fun p => ((some p.2, p.1) : Cell))).filter (keepCell (· = i)) =
          (sum.kids.zipIdx.map (fun p => ((some p.2, p.1) : Cell))).filter
            (keepCell (fun i => match sum.kids[i]? with | some k => decide (k.tag = q) | none => false)) := by
        apply List.filter_congr
        rintro x hx
        obtain ⟨⟨k, j⟩, hk, rfl⟩ := List.mem_map.1 hx
        have hj := List.mem_zipIdx_iff_getElem?.1 hk
        simp only at hj
        simp only [keepCell, hj]
        rw [decide_eq_decide]
        constructor
        · rintro rfl
          rw [hi] at hj; cases hj; exact hcm.2
        · intro e; exact iuniq j k hj e
      rw [hcong]
      generalize hL : (sum.kids.zipIdx.map (fun p => ((some p.2, p.1) : Cell))).filter
            (keepCell (fun i => match sum.kids[i]? with | some k => decide (k.tag = q) | none => false)) = L at hs
      have hall : ∀ x ∈ L, x.1 = some i := by
        intro x hx
        rw [← hL, ← hcong] at hx
        have := (List.mem_filter.1 hx).2
        obtain ⟨a, b⟩ := x
        cases a <;> simp [keepCell] at this
        simp [this]
      match L, hs, hall with
      | [x], hs, hall =>
        simp only [List.map_cons, List.map_nil, List.cons.injEq, and_true] at hs
        have := hall x (by simp)
        obtain ⟨a, b⟩ := x
        simp only at hs this
        rw [hs, this]
  have P1 : P st1 := by
    refine foldlM_inv (P := P) ?_ P0 h1
    rintro ⟨k, rec⟩ hk s s' hP hstep
    obtain ⟨hk0, hk2⟩ := mem_onlyTwo_iff.1 hk
    obtain ⟨k', hk', hke⟩ := List.mem_map.1 hk0
    cases hke
    have hkt : k.tag ≠ q := by
      intro e
      have := uniq' k hk' e
      subst this
      exact hk2 (c, i) (List.mem_zipIdx_iff_getElem?.2 hi) (by simp [uc, uc'])
    refine ⟨?_, by rw [addWithoutPeer_frame hstep]; exact hP.2⟩
    intro x hx
    rcases addWithoutPeer_inv hstep with rfl | ⟨e, hins, hnew⟩
    · exact hP.1 x hx
    · rcases hins.mem.1 hx with rfl | hx
      · simp [newChild_tag hnew, hkt]
      · exact hP.1 x hx
  have P2 : P st2 := by
    refine foldlM_inv (P := P) ?_ P1 h2
    rintro ⟨⟨e, j⟩, ⟨k, rec⟩⟩ hq s s' hP hstep
    obtain ⟨ha, hb, hu⟩ := mem_both hq
    obtain ⟨k', hk', hke⟩ := List.mem_map.1 hb
    cases hke
    have hj := List.mem_zipIdx_iff_getElem?.1 ha
    simp only at hj hu
    have htag : k.tag = e.tag := by rw [← uid_tag d sc k, hu, uid_tag]
    by_cases het : e.tag = q
    · have hji := iuniq j e hj het
      subst hji
      rw [hi] at hj; cases hj
      have hkc := uniq' k hk' (by rw [htag]; exact het)
      subst hkc
      have hf : d.lookup sc c.tag = .ok g := by rw [hcm.2]; exact hg
      obtain ⟨s1, x, hpl, hco, rfl⟩ := (addWithPeer_ok hf).1 hstep
      have hself : ∀ x, (some j, x) ∈ s → x = c := by
        intro x hx
        have : (some j, x) ∈ s.filter (keepCell (· = j)) := by simp [List.mem_filter, hx, keepCell]
        rw [hP.2] at this
        simpa using this
      unfold peerPlace at hpl
      unfold peerContent at hco
      simp only [hl, hop, true_or, if_true, bind, Except.bind, pure,
        Except.pure, Except.ok.injEq] at hpl hco
      subst hpl
      split at hco
      · cases hco
      rename_i y hy
      obtain rfl := ht y hy
      obtain rfl := (Except.ok.inj hco).symm
      simp only [PeerRes.apply]
      rw [setCell_self hself]
      exact hP
    · have hji : j ≠ i := by
        rintro rfl
        rw [hi] at hj; cases hj; exact het hcm.2
      refine ⟨?_, by rw [addWithPeer_frame hstep (by simpa using hji)]; exact hP.2⟩
      intro x hx
      rcases addWithPeer_mem hstep htag hx with hx | ⟨h1, h2⟩
      · exact hP.1 x hx
      · rw [h1]
        rcases h2 with h2 | h2 <;> rw [h2]
        · simp [het, hji]
        · simp [het]
  -- conclusion
  unfold Elem.childrenWith
  rw [Elem.kids_setKids, List.filter_map]
  have : st2.filter ((fun k : Elem => decide (k.tag = q)) ∘ Prod.snd) = st2.filter (keepCell (· = i)) := by
    apply List.filter_congr
    rintro ⟨a, b⟩ hx
    have := P2.1 _ hx
    cases a <;> simp_all [keepCell]
  rw [this, P2.2]
  rfl

end NcDiff
