import Verif.Proof.InsertAt
/-!
# A sum honours insert positions, at every level
-/

namespace NcDiff

theorem filterMap_fst_sublist {α β : Type} (g : α → Option β) : ∀ l : List α,
    ((l.filterMap (fun a => (g a).map (fun b => (a, b)))).map Prod.fst).Sublist l
  | [] => by simp
  | a :: l => by
    rw [List.filterMap_cons]
    cases g a with
    | none => exact (filterMap_fst_sublist g l).cons _
    | some b => exact (filterMap_fst_sublist g l).cons_cons _

section
variable {d : Device} {sc : Scope} {src delta res : Elem}

/-- After the first loop. -/
theorem firstLoop {st1 : List Cell} (i1 : Indexable d sc src.kids) (i2 : Indexable d sc delta.kids)
    (hlev : DeltaLevel d sc delta)
    (h1 : ((groupsOf (fun a : Elem × Nat => uid d sc a.1) (fun b : Elem × AddFn => uid d sc b.1)
        src.kids.zipIdx (delta.kids.map (fun k => (k, fun sc sum => nodeAdd d k sc sum)))).onlyTwo).foldlM
        (addWithoutPeer d sc) (src.kids.zipIdx.map (fun p => (some p.2, p.1))) = .ok st1) :
    HInv d sc src.kids st1 ∧
      ∀ (i : Nat) (s : Elem), src.kids[i]? = some s → atU d sc (uid d sc s) st1 = [(some i, s)] := by
  have n1 : (((groupsOf (fun a : Elem × Nat => uid d sc a.1) (fun b : Elem × AddFn => uid d sc b.1)
        src.kids.zipIdx (delta.kids.map (fun k => (k, fun sc sum => nodeAdd d k sc sum)))).onlyTwo).map
          (fun p => uid d sc p.1)).Nodup := by
    refine List.Nodup.sublist (List.Sublist.map _ List.filter_sublist) ?_
    rw [List.map_map]; simpa [Function.comp_def] using i2.nodup
  obtain ⟨I1, _, V1⟩ := foldlM_local (d := d) (sc := sc) (u := fun p : Elem × AddFn => uid d sc p.1)
    (Inv := HInv d sc src.kids) (R := fun _ _ _ => True) n1 (HInv.init d sc src.kids) (by
      rintro ⟨k, rec⟩ hk s s' hI hstep
      obtain ⟨hk0, _⟩ := mem_onlyTwo_iff.1 hk
      obtain ⟨k', hk', hke⟩ := List.mem_map.1 hk0
      cases hke
      obtain ⟨f, hf, kf⟩ := hlev.shape k hk'
      rcases (addWithoutPeer_ok hf).1 hstep with ⟨hop, rfl⟩ | ⟨hop, e, hc, hpl⟩
      · exact ⟨hI, rfl, trivial⟩
      · obtain ⟨_, _, hu, _⟩ := newContent_ok hf kf (hlev.keys k hk' f hf) hc
        rcases newPlace_cases kf hpl with hi | ⟨rfl, _⟩
        · exact ⟨hI.ins_none hi, hi.othU hu, trivial⟩
        · exact ⟨hI, rfl, trivial⟩) h1
  refine ⟨I1, ?_⟩
  intro i s hi
  rw [V1, atU_init i1 hi]
  intro hm
  obtain ⟨⟨k', rec⟩, hk', he⟩ := List.mem_map.1 hm
  exact (mem_onlyTwo_iff.1 hk').2 (s, i) (List.mem_zipIdx_iff_getElem?.2 hi) he.symm

open Classical in
theorem nodeAdd_steps (h : nodeAdd d delta sc src = .ok res) (hv : Valid d sc src)
    (hnsk : ∀ k ∈ src.kids, NsMapOk k.nsmap) (hh : KidsHonest d sc src) (hlev : DeltaLevel d sc delta) :
    ∃ M old, Runs (Created d sc)
        (delta.kids.filter (fun o => ∀ s ∈ src.kids, ¬ SameInstance d sc s o)) src.kids M ∧
      (old.map Prod.fst).Sublist src.kids ∧
      (∀ p : Elem × Elem, p ∈ old ↔ p.1 ∈ src.kids ∧ p.2 ∈ delta.kids ∧ SameInstance d sc p.1 p.2) ∧
      Runs (fun p => Changed d sc p.1 p.2) old M res.kids := by
  obtain ⟨i1, i2, st1, st2, h1, h2, rfl⟩ := nodeAdd_inv h
  obtain ⟨I1, hat1⟩ := firstLoop i1 i2 hlev h1
  have hsame : ∀ s ∈ src.kids, ∀ k ∈ delta.kids, (SameInstance d sc s k ↔ uid d sc s = uid d sc k) := by
    intro s hs k hk
    obtain ⟨g, hg, kg⟩ := hlev.shape k hk
    exact same_iff_uid hv.shape' hg kg hs
  have hbn : ((delta.kids.map (fun k => (k, fun sc sum => nodeAdd d k sc sum))).map
      (fun b : Elem × AddFn => uid d sc b.1)).Nodup := by
    rw [List.map_map]; simpa [Function.comp_def] using i2.nodup
  refine ⟨st1.map Prod.snd, (groupsOf (fun a : Elem × Nat => uid d sc a.1)
    (fun b : Elem × AddFn => uid d sc b.1) src.kids.zipIdx
    (delta.kids.map (fun k => (k, fun sc sum => nodeAdd d k sc sum)))).both.map (fun q => (q.1.1, q.2.1)),
    ?_, ?_, ?_, ?_⟩
  · have hr := foldlM_runs (R := fun p : Elem × AddFn => Created d sc p.1) (g := List.map (Prod.snd (α := Option Nat) (β := Elem)))
      (Inv := fun l _ => ∀ p ∈ l, p.1 ∈ delta.kids ∧ p.2 = addFn d p.1) (by
        rintro ⟨k, rec⟩ l s s' hI hstep
        obtain ⟨hk, hrec⟩ := hI (k, rec) (by simp)
        simp only at hrec; subst hrec
        obtain ⟨f, hf, kf⟩ := hlev.shape k hk
        exact ⟨fun p hp => hI p (by simp [hp]), created_of hf kf (hlev.keys k hk f hf) hstep⟩) (by
        rintro ⟨k, rec⟩ hk
        obtain ⟨hk0, _⟩ := mem_onlyTwo_iff.1 hk
        obtain ⟨k', hk', hke⟩ := List.mem_map.1 hk0
        cases hke
        exact ⟨hk', rfl⟩) h1
    have hr' := hr.map (g := Prod.fst) (Q := Created d sc) (fun a _ s t h => h)
    have e1 : (src.kids.zipIdx.map (fun p => ((some p.2, p.1) : Cell))).map Prod.snd = src.kids := by
      rw [List.map_map]; exact List.zipIdx_map_fst 0 src.kids
    rw [e1] at hr'
    have e2 : ((groupsOf (fun a : Elem × Nat => uid d sc a.1) (fun b : Elem × AddFn => uid d sc b.1)
        src.kids.zipIdx (delta.kids.map (fun k => (k, fun sc sum => nodeAdd d k sc sum)))).onlyTwo).map Prod.fst =
        delta.kids.filter (fun o => ∀ s ∈ src.kids, ¬ SameInstance d sc s o) := by
      unfold groupsOf
      simp only
      rw [List.filter_map, List.map_map]
      have : ∀ l : List Elem, l.map (Prod.fst ∘ fun k => ((k, fun sc sum => nodeAdd d k sc sum) : Elem × AddFn)) = l := by
        intro l; conv_rhs => rw [← List.map_id l]
        rfl
      rw [this]
      apply List.filter_congr
      intro o ho
      rw [Bool.eq_iff_iff, decide_eq_true_eq]
      simp only [Function.comp, Option.isNone_iff_eq_none, List.find?_eq_none, decide_eq_true_eq]
      constructor
      · intro hh s hs hsm
        obtain ⟨i, hi⟩ := List.mem_iff_getElem?.1 hs
        exact hh (s, i) (List.mem_zipIdx_iff_getElem?.2 hi) ((hsame s hs o ho).1 hsm)
      · rintro hh ⟨s, i⟩ hs hu
        have hsm := List.mem_of_getElem? (List.mem_zipIdx_iff_getElem?.1 hs)
        exact hh s hsm ((hsame s hsm o ho).2 hu)
    rw [e2] at hr'
    exact hr'
  · rw [List.map_map]
    have := filterMap_fst_sublist (fun a : Elem × Nat => List.find? (fun b : Elem × AddFn =>
      decide (uid d sc b.1 = uid d sc a.1)) (delta.kids.map (fun k => (k, fun sc sum => nodeAdd d k sc sum)))) src.kids.zipIdx
    have := this.map Prod.fst
    rw [List.map_map, List.zipIdx_map_fst] at this
    exact this
  · rintro ⟨s, o⟩
    constructor
    · intro hm
      obtain ⟨⟨⟨s', i⟩, ⟨o', rec⟩⟩, hq, he⟩ := List.mem_map.1 hm
      cases he
      obtain ⟨ha, hb, hu⟩ := mem_both hq
      obtain ⟨k', hk', hke⟩ := List.mem_map.1 hb
      cases hke
      have hs := List.mem_of_getElem? (List.mem_zipIdx_iff_getElem?.1 ha)
      exact ⟨hs, hk', (hsame s' hs o' hk').2 hu.symm⟩
    · rintro ⟨hs, ho, hso⟩
      obtain ⟨i, hi⟩ := List.mem_iff_getElem?.1 hs
      exact List.mem_map.2 ⟨((s, i), (o, fun sc sum => nodeAdd d o sc sum)), mem_both_of (ks := src.kids) (a := (s, i)) hbn
        (List.mem_zipIdx_iff_getElem?.2 hi) (List.mem_map.2 ⟨o, ho, rfl⟩)
        ((hsame s hs o ho).1 hso).symm, rfl⟩
  · have n2 : (((groupsOf (fun a : Elem × Nat => uid d sc a.1) (fun b : Elem × AddFn => uid d sc b.1)
        src.kids.zipIdx (delta.kids.map (fun k => (k, fun sc sum => nodeAdd d k sc sum)))).both).map
          (fun q => uid d sc q.1.1)).Nodup := by
      have hz : (src.kids.zipIdx.map (fun a : Elem × Nat => uid d sc a.1)).Nodup := by
        have := i1.nodup
        rw [← List.zipIdx_map_fst 0 src.kids, List.map_map] at this
        exact this
      have := filterMap_fst_sublist (fun a : Elem × Nat => List.find? (fun b : Elem × AddFn =>
        decide (uid d sc b.1 = uid d sc a.1)) (delta.kids.map (fun k => (k, fun sc sum => nodeAdd d k sc sum)))) src.kids.zipIdx
      have := this.map (fun a : Elem × Nat => uid d sc a.1)
      rw [List.map_map] at this
      exact hz.sublist this
    have hr := foldlM_runs (R := fun q : (Elem × Nat) × (Elem × AddFn) => Changed d sc q.1.1 q.2.1)
      (g := List.map (Prod.snd (α := Option Nat) (β := Elem)))
      (Inv := fun l st => HInv d sc src.kids st ∧ (l.map (fun q => uid d sc q.1.1)).Nodup ∧
        ∀ q ∈ l, atU d sc (uid d sc q.1.1) st = [(some q.1.2, q.1.1)] ∧ src.kids[q.1.2]? = some q.1.1 ∧
          q.2.1 ∈ delta.kids ∧ q.2.2 = addFn d q.2.1 ∧ uid d sc q.2.1 = uid d sc q.1.1) (by
        rintro ⟨⟨s, i⟩, ⟨k, rec⟩⟩ l st st' ⟨hI, hnd, hall⟩ hstep
        obtain ⟨hat, hi, hk, hrec, hu⟩ := hall _ (List.mem_cons_self ..)
        simp only at hat hi hk hrec hu; subst hrec
        have hs := List.mem_of_getElem? hi
        have hso := (hsame s hs k hk).2 hu.symm
        obtain ⟨f, hf, kf⟩ := hv.shape' s hs
        have hft : d.lookup sc k.tag = .ok f := by rw [← hso.1]; exact hf
        obtain ⟨g, hg, kg⟩ := hlev.shape k hk
        rw [hft] at hg; cases hg
        refine ⟨?_, changed_of hf kf kg hso (hlev.keys k hk f hft) (hh s hs f hf) hI hi hat ?_ hstep⟩
        · obtain ⟨s1, x, hpl, hco, rfl⟩ := (addWithPeer_ok hf).1 hstep
          obtain ⟨l1, l2, _⟩ := peer_local hI hi (peerPlace_ins hpl) x (fun e' he' =>
            (peerContent_uid hf kf kg hso (hlev.keys k hk f hft) (hh s hs f hf) hco e' he').1)
          rw [List.map_cons, List.nodup_cons] at hnd
          refine ⟨l1, hnd.2, ?_⟩
          intro q hq
          obtain ⟨q1, q2⟩ := hall q (by simp [hq])
          refine ⟨?_, q2⟩
          rw [← q1]
          refine atU_of_othU ?_ l2
          intro he
          exact hnd.1 (List.mem_map.2 ⟨q, hq, he⟩)
        · intro e hue hte x hx hxe
          have hke := peerContent_kidOk hf kf kg hso (hlev.keys k hk f hft) (hlev.values k hk f hft) (hnsk s hs) (hh s hs f hf) hx e hxe
          exact (uid_eq_iff' (by rw [hte]; exact hf) hke hft kg).1 (hue.trans hu.symm))
      ⟨I1, n2, by
        rintro ⟨⟨s, i⟩, ⟨k, rec⟩⟩ hq
        obtain ⟨ha, hb, hu⟩ := mem_both hq
        obtain ⟨k', hk', hke⟩ := List.mem_map.1 hb
        cases hke
        have hi := List.mem_zipIdx_iff_getElem?.1 ha
        exact ⟨hat1 i s hi, hi, hk', rfl, hu⟩⟩ h2
    have hr' := hr.map (g := fun q : (Elem × Nat) × (Elem × AddFn) => (q.1.1, q.2.1))
      (Q := fun p => Changed d sc p.1 p.2) (fun a _ s t h => h)
    simpa using hr'

end

theorem OnceAs.eq {d : Device} {sc : Scope} {ks : List Elem} {o e t : Elem} (h : OnceAs d sc ks o e)
    (ht : t ∈ ks) (hto : SameInstance d sc t o) : t = e := by
  obtain ⟨l, r, rfl, _, hn⟩ := h
  simp only [List.mem_append, List.mem_cons] at ht
  rcases ht with h | h | h
  · exact absurd hto (hn t (by simp [h]))
  · exact h
  · exact absurd hto (hn t (by simp [h]))

theorem nodeAdd_positioned (d : Device) : ∀ (delta : Elem) (sc : Scope) (src res : Elem),
    Valid d sc src → Deep d (NsLevel d) sc src → Valid d sc delta → Deep d (DeltaLevel d) sc delta →
    nodeAdd d delta sc src = .ok res → Positioned d sc delta src res := by
  intro o
  induction o using Elem.ind with
  | h t n a x ks ih =>
  generalize ho : Elem.mk t n a x ks = delta at *
  have ih' : ∀ k ∈ delta.kids, ∀ (sc : Scope) (src res : Elem),
    Valid d sc src → Deep d (NsLevel d) sc src → Valid d sc k → Deep d (DeltaLevel d) sc k →
    nodeAdd d k sc src = .ok res → Positioned d sc k src res := by
    intro k hk; rw [← ho] at hk; exact ih k hk
  clear ih ho
  intro sc src res hv hns hvo hdo h
  have hnsk : ∀ k ∈ src.kids, NsMapOk k.nsmap := by
    intro k hk
    obtain ⟨f, hf, _⟩ := hv.shape' k hk
    exact (hns.sub' k hk f hf).here'.1
  have hall : ∀ o, ∃ e b, o ∈ delta.kids → AppliedAt d sc src res o e b := by
    intro o
    by_cases hm : o ∈ delta.kids
    · by_cases hp : ∃ s ∈ src.kids, uid d sc s = uid d sc o
      · obtain ⟨s, hs, hu⟩ := hp
        obtain ⟨e, b, hab⟩ := appliedAt_old h hv hns hdo hm hs hu
        exact ⟨e, b, fun _ => hab⟩
      · obtain ⟨e, b, hab⟩ := appliedAt_new h hv hns hvo hdo hm (fun s hs e => hp ⟨s, hs, e⟩)
        exact ⟨e, b, fun _ => hab⟩
    · exact ⟨o, o, fun h => absurd h hm⟩
  choose sub base hall using hall
  obtain ⟨M, old, c1, c2, c3, c4⟩ := nodeAdd_steps h hv hnsk hns.here'.2 hdo.here'
  refine .mk M old base c1 c2 c3 c4 ?_ ?_ ?_
  · intro o ho f hf hn hop t ht hto s hs hso
    have hA := hall o ho
    have hst : d.lookup sc s.tag = .ok f := by rw [hso.1]; exact hf
    have : t = sub o := by
      rcases hA.old (Or.inl hop) ⟨s, hs, hso⟩ f hf with h | ⟨_, _, _, h⟩
      · exact h.eq ht hto
      · exact absurd hto (h t ht)
    subst this
    exact ih' o ho _ _ _ (hv.sub' s hs f hst) (hns.sub' s hs f hst) (hvo.sub' o ho f hf)
      (hdo.sub' o ho f hf) (hA.merge hop f hf hn s hs hso)
  · intro o ho f hf hn hop t ht hto hno
    have hA := hall o ho
    obtain ⟨_, h1, h2, h3⟩ := hA.mergeNew hop hno f hf hn
    have : t = sub o := by
      obtain ⟨a1, a2⟩ := hA.new (Or.inl hop) hno f hf
      by_cases hb : BadInsert f o
      · exact absurd hto (a1 hb t ht)
      · exact (a2 hb).eq ht hto
    subst this
    exact ih' o ho _ _ _ h1 h2 (hvo.sub' o ho f hf) (hdo.sub' o ho f hf) h3
  · intro o ho f hf hn hop hno
    exact ((hall o ho).mergeNew hop hno f hf hn).1

/-! ## Errors -/

theorem anchor_err_new {d : Device} {sc : Scope} {o : Elem} {f : Found} {x : Err}
    (hf : d.lookup sc o.tag = .ok f) (hk : KidOk d f.node o) (ha : Asks f.node o)
    (hi : Inserts o "before" ∨ Inserts o "after")
    (hop : opOf o = "merge" ∨ opOf o = "replace" ∨ opOf o = "create") (st : List Cell)
    (hx : anchorOf f.node o = .error x ∨ (x = .configDelta .insertWrong ∧ ∃ p, anchorOf f.node o = .ok p ∧
      ∀ c ∈ st, p c = false)) :
    addWithoutPeer d sc st (o, addFn d o) = .error x := by
  have hpl : ∀ c, placeNew f.node (anchorOf f.node o) o c st = .error x := by
    intro c
    unfold placeNew
    rcases hi with hi | hi
    · rw [inserts_iff (by decide)] at hi
      simp only [ha.2.1, if_true, hi]
      rcases hx with hx | ⟨rfl, p, hx, hp⟩
      · simp [hx, bind, Except.bind]
      · simp [hx, bind, Except.bind, insertBefore_none.2 hp, orWrong]
    · rw [inserts_iff (by decide)] at hi
      simp only [ha.2.1, if_true, hi]
      rcases hx with hx | ⟨rfl, p, hx, hp⟩
      · simp [hx, bind, Except.bind]
      · simp [hx, bind, Except.bind, insertAfter_none.2 hp, orWrong]
  have h1 : opOf o ≠ "delete" := by rcases hop with h | h | h <;> rw [h] <;> decide
  have h2 : opOf o ≠ "remove" := by rcases hop with h | h | h <;> rw [h] <;> decide
  unfold addWithoutPeer
  simp only [h1, h2, hop, if_true, if_false, hf, bind, Except.bind]
  rcases ha.1 with hn | hn
  · simp only [hn]
    rw [← anchor_list hn]
    split
    · have hs : ∃ sk, listSkeleton f.node.keys o = .ok sk := by
        unfold KidOk at hk
        simp only [hn] at hk
        unfold listSkeleton
        rw [mapM_eq_ok (g := fun q => ((o.find q).getD default).delAttrib)]
        · exact ⟨_, rfl⟩
        · intro q hq
          obtain ⟨c, hc⟩ := hk.2.2.1 q hq
          rw [find_childrenWith hc]; rfl
      obtain ⟨sk, hs⟩ := hs
      simp only [hs, hpl]
    · exact hpl _
  · simp only [hn]
    rw [← anchor_leafList hn]
    exact hpl _

theorem anchor_err_old {d : Device} {sc : Scope} {o s : Elem} {f : Found} {x : Err} {i : Nat}
    (hf : d.lookup sc s.tag = .ok f) (ha : Asks f.node o)
    (hi : Inserts o "before" ∨ Inserts o "after")
    (hop : opOf o = "merge" ∨ opOf o = "replace") (st : List Cell)
    (hx : anchorOf f.node o = .error x ∨ (x = .configDelta .insertWrong ∧ ∃ p, anchorOf f.node o = .ok p ∧
      ∀ c ∈ st, p c = false)) :
    addWithPeer d sc st ((s, i), (o, addFn d o)) = .error x := by
  have hpl : placeOld f.node (anchorOf f.node o) o i s st = .error x := by
    unfold placeOld moveCell
    rcases hi with hi | hi
    all_goals
      rw [inserts_iff (by decide)] at hi
      simp only [ha.2.1, if_true, hi]
      rcases hx with hx | ⟨rfl, p, hx, hp⟩
      · simp [hx, bind, Except.bind]
      · have : st.find? p = none := List.find?_eq_none.2 (by simpa using hp)
        simp [hx, bind, Except.bind, this]
  rw [addWithPeer_eq]
  simp only [hf, bind, Except.bind]
  have : peerPlace f.node o i s st = .error x := by
    unfold peerPlace
    rcases ha.1 with hn | hn
    · simp only [hn]
      rw [if_pos (by rcases hop with h | h <;> rw [h] <;> decide), ← anchor_list hn, hpl]
    · simp only [hn]
      rw [if_pos hop, ← anchor_leafList hn, hpl]
  rw [this]

section
variable {d : Device} {sc : Scope} {delta src : Elem}

theorem delta_unique (hvd : Valid d sc delta) {l r : List Elem} {o : Elem} (kids : delta.kids = l ++ o :: r) :
    ∀ y ∈ l ++ r, uid d sc y ≠ uid d sc o := by
  have hn := hvd.indexable.nodup
  rw [kids] at hn
  have hp : (l ++ o :: r).Perm (o :: (l ++ r)) := List.perm_middle
  have := (hp.map (uid d sc)).nodup_iff.1 hn
  rw [List.map_cons, List.nodup_cons] at this
  intro y hy e
  exact this.1 (List.mem_map.2 ⟨y, hy, e⟩)

theorem nodeAdd_error_inside {l r : List Elem} {o s : Elem} {f : Found} {x : Err}
    (hv : Valid d sc src) (hvd : Valid d sc delta) (kids : delta.kids = l ++ o :: r)
    (ins : insertOf o = none) (rest : ∃ res, nodeAdd d (delta.setKids (l ++ r)) sc src = .ok res)
    (hs : s ∈ src.kids) (hso : SameInstance d sc s o) (hop : opOf o = "merge")
    (hf : d.lookup sc o.tag = .ok f) (hn : f.node.ntype = .container ∨ f.node.ntype = .list)
    (herr : nodeAdd d o (.node f.node) s = .error x) : nodeAdd d delta sc src = .error x := by
  obtain ⟨res, hres⟩ := rest
  have hom : o ∈ delta.kids := by rw [kids]; simp
  obtain ⟨f', hf', kf⟩ := hvd.shape' o hom
  obtain rfl : f = f' := Except.ok.inj (hf.symm.trans hf')
  have hsu := (same_iff_uid hv.shape' hf kf hs).1 hso
  refine nodeAdd_error_peer kids hres (hvd.indexable.ok o hom) (delta_unique hvd kids) hs hsu ?_
  intro i st
  rw [addWithPeer_eq]
  have hfs : d.lookup sc s.tag = .ok f := by rw [hso.1]; exact hf
  simp only [hfs, peerPlace_noInsert ins, bind, Except.bind]
  have : peerContent d f.node (o, addFn d o) s = .error x := by
    unfold peerContent peerTree
    rcases hn with hn | hn <;> simp [hn, hop, addFn, herr, bind, Except.bind]
  rw [this]

theorem nodeAdd_error_missing {l r : List Elem} {o : Elem} {f : Found}
    (hv : Valid d sc src) (hvd : Valid d sc delta) (kids : delta.kids = l ++ o :: r)
    (rest : ∃ res, nodeAdd d (delta.setKids (l ++ r)) sc src = .ok res)
    (hf : d.lookup sc o.tag = .ok f) (ha : Asks f.node o) (hi : Inserts o "before" ∨ Inserts o "after")
    (hop : opOf o = "merge" ∨ opOf o = "replace" ∨ (opOf o = "create" ∧ ∀ s ∈ src.kids, ¬ SameInstance d sc s o))
    (hm : AnchorMissing f.node o) : nodeAdd d delta sc src = .error (.configDelta .insertMissing) := by
  obtain ⟨res, hres⟩ := rest
  have hom : o ∈ delta.kids := by rw [kids]; simp
  obtain ⟨f', hf', kf⟩ := hvd.shape' o hom
  obtain rfl : f = f' := Except.ok.inj (hf.symm.trans hf')
  by_cases hp : ∃ s ∈ src.kids, SameInstance d sc s o
  · obtain ⟨s, hs, hso⟩ := hp
    have hsu := (same_iff_uid hv.shape' hf kf hs).1 hso
    refine nodeAdd_error_peer kids hres (hvd.indexable.ok o hom) (delta_unique hvd kids) hs hsu ?_
    intro i st
    refine anchor_err_old (by rw [hso.1]; exact hf) ha hi ?_ st (Or.inl (anchor_missing hm))
    rcases hop with h | h | ⟨_, h⟩
    · exact Or.inl h
    · exact Or.inr h
    · exact absurd hso (h s hs)
  · have hno : ∀ s ∈ src.kids, ¬ SameInstance d sc s o := fun s hs hsm => hp ⟨s, hs, hsm⟩
    refine nodeAdd_error_new kids hres (hvd.indexable.ok o hom) (delta_unique hvd kids) ?_ ?_
    · intro s hs e
      exact hno s hs ((same_iff_uid hv.shape' hf kf hs).2 e)
    · intro st
      refine anchor_err_new hf kf ha hi ?_ st (Or.inl (anchor_missing hm))
      rcases hop with h | h | ⟨h, _⟩
      · exact Or.inl h
      · exact Or.inr (Or.inl h)
      · exact Or.inr (Or.inr h)

theorem nodeAdd_error_wrong {o : Elem} {f : Found}
    (hv : Valid d sc src) (hvd : Valid d sc delta) (kids : delta.kids = [o])
    (hf : d.lookup sc o.tag = .ok f) (ha : Asks f.node o) (hi : Inserts o "before" ∨ Inserts o "after")
    (hop : opOf o = "merge" ∨ opOf o = "replace" ∨ (opOf o = "create" ∧ ∀ s ∈ src.kids, ¬ SameInstance d sc s o))
    (hg : AnchorGiven f.node o) (hno : ∀ x ∈ src.kids, ¬ Named f.node o x) :
    nodeAdd d delta sc src = .error (.configDelta .insertWrong) := by
  have hom : o ∈ delta.kids := by rw [kids]; simp
  obtain ⟨f', hf', kf⟩ := hvd.shape' o hom
  obtain rfl : f = f' := Except.ok.inj (hf.symm.trans hf')
  obtain ⟨p, hp⟩ := anchor_given hg
  have hpn := anchor_named ha.1 hp
  have hst : ∀ c ∈ src.kids.zipIdx.map (fun p => ((some p.2, p.1) : Cell)), p c = false := by
    intro c hc
    obtain ⟨⟨s, i⟩, hs, rfl⟩ := List.mem_map.1 hc
    by_contra hcc
    exact hno s (List.mem_of_getElem? (List.mem_zipIdx_iff_getElem?.1 hs)) ((hpn (some i, s)).1 (by simpa using hcc))
  rw [nodeAdd_run hv.indexable hvd.indexable]
  simp only [kids, List.map_cons, List.map_nil]
  by_cases hpr : ∃ s ∈ src.kids, SameInstance d sc s o
  · obtain ⟨s, hs, hso⟩ := hpr
    have hsu := (same_iff_uid hv.shape' hf kf hs).1 hso
    obtain ⟨i, hi'⟩ := List.mem_iff_getElem?.1 hs
    have hmz : (s, i) ∈ src.kids.zipIdx := List.mem_zipIdx_iff_getElem?.2 hi'
    have e1 : (groupsOf (fun a : Elem × Nat => uid d sc a.1) (fun b : Elem × AddFn => uid d sc b.1)
        src.kids.zipIdx [(o, fun sc sum => nodeAdd d o sc sum)]).onlyTwo = [] := by
      rw [List.eq_nil_iff_forall_not_mem]
      intro b hb
      obtain ⟨hb1, hb2⟩ := mem_onlyTwo_iff.1 hb
      rw [List.mem_singleton] at hb1
      subst hb1
      exact hb2 (s, i) hmz hsu
    have e2 : (groupsOf (fun a : Elem × Nat => uid d sc a.1) (fun b : Elem × AddFn => uid d sc b.1)
        src.kids.zipIdx [(o, fun sc sum => nodeAdd d o sc sum)]).both ≠ [] := by
      have := mem_both_of (d := d) (sc := sc) (ks := src.kids) (a := (s, i))
        (b := (o, fun sc sum => nodeAdd d o sc sum)) (bs := [(o, fun sc sum => nodeAdd d o sc sum)])
        (by simp) hmz (by simp) hsu.symm
      intro h0; rw [h0] at this; simp at this
    simp only [e1, List.foldlM_nil, pure_bind]
    cases hb : (groupsOf (fun a : Elem × Nat => uid d sc a.1) (fun b : Elem × AddFn => uid d sc b.1)
        src.kids.zipIdx [(o, fun sc sum => nodeAdd d o sc sum)]).both with
    | nil => exact absurd hb e2
    | cons q qs =>
      obtain ⟨⟨s', i'⟩, ⟨o', rec⟩⟩ := q
      obtain ⟨m1, m2, m3⟩ := mem_both (by rw [hb]; exact List.mem_cons_self ..)
      rw [List.mem_singleton] at m2; cases m2
      have hs' := List.mem_of_getElem? (List.mem_zipIdx_iff_getElem?.1 m1)
      have hso' := (same_iff_uid hv.shape' hf kf hs').2 m3.symm
      rw [List.foldlM_cons]
      have := anchor_err_old (i := i') (x := .configDelta .insertWrong) (d := d) (sc := sc) (s := s')
        (by rw [hso'.1]; exact hf) ha hi
        (by
          rcases hop with h | h | ⟨_, h⟩
          · exact Or.inl h
          · exact Or.inr h
          · exact absurd hso (h s hs)) _ (Or.inr ⟨rfl, p, hp, hst⟩)
      unfold addFn at this
      rw [this]; rfl
  · have hno' : ∀ s ∈ src.kids, ¬ SameInstance d sc s o := fun s hs hsm => hpr ⟨s, hs, hsm⟩
    have e1 : (groupsOf (fun a : Elem × Nat => uid d sc a.1) (fun b : Elem × AddFn => uid d sc b.1)
        src.kids.zipIdx [(o, fun sc sum => nodeAdd d o sc sum)]).onlyTwo = [(o, fun sc sum => nodeAdd d o sc sum)] := by
      unfold groupsOf
      simp only [List.filter_cons, List.filter_nil]
      rw [if_pos]
      rw [Option.isNone_iff_eq_none, List.find?_eq_none]
      rintro ⟨s, i⟩ hs
      have hsm := List.mem_of_getElem? (List.mem_zipIdx_iff_getElem?.1 hs)
      simp only [decide_eq_true_eq]
      intro hu
      exact hno' s hsm ((same_iff_uid hv.shape' hf kf hsm).2 hu)
    simp only [e1, List.foldlM_cons, List.foldlM_nil]
    have := anchor_err_new (x := .configDelta .insertWrong) hf kf ha hi (by
      rcases hop with h | h | ⟨h, _⟩
      · exact Or.inl h
      · exact Or.inr (Or.inl h)
      · exact Or.inr (Or.inr h)) _ (Or.inr ⟨rfl, p, hp, hst⟩)
    unfold addFn at this
    rw [this]; rfl

end

theorem nodeAdd_insertFault {d : Device} {sc : Scope} {delta src : Elem} {x : DeltaErr}
    (h : InsertFault d sc delta src x) : Valid d sc src → Valid d sc delta →
    nodeAdd d delta sc src = .error (.configDelta x) := by
  induction h with
  | missing l r o f kids rest hf ha hi hop hm =>
    intro hv hvd
    exact nodeAdd_error_missing hv hvd kids rest hf ha hi hop hm
  | wrong o f kids hf ha hi hop hg hno =>
    intro hv hvd
    exact nodeAdd_error_wrong hv hvd kids hf ha hi hop hg hno
  | inside l r o s f kids ins rest hs hso hop hf hn bad ih =>
    intro hv hvd
    have hfs := hf
    rw [← hso.1] at hfs
    exact nodeAdd_error_inside hv hvd kids ins rest hs hso hop hf hn
      (ih (hv.sub' s hs f hfs) (hvd.sub' o (by rw [kids]; simp) f hf))

end NcDiff
