import Verif.Spec.Merge
import Verif.Proof.ConfigLaws
import Verif.Proof.NewKid
/-!
# Merging one plain config into another
-/

namespace NcDiff

variable {ω : Prop}

section
variable {d : Device} {sc : Scope}

theorem OnceAs.eq {ks : List Elem} {o e y : Elem} (h : OnceAs d sc ks o e) (hy : y ∈ ks)
    (hs : SameInstance d sc y o) : y = e := by
  obtain ⟨l, r, rfl, _, hu⟩ := h
  rcases List.mem_append.1 hy with hy | hy
  · exact absurd hs (hu y (by simp [hy]))
  · rcases List.mem_cons.1 hy with hy | hy
    · exact hy
    · exact absurd hs (hu y (by simp [hy]))

theorem OnceAs.mem {ks : List Elem} {o e : Elem} (h : OnceAs d sc ks o e) : e ∈ ks := by
  obtain ⟨l, r, rfl, _⟩ := h; simp

theorem OnceAs.same {ks : List Elem} {o e : Elem} (h : OnceAs d sc ks o e) : SameInstance d sc e o := by
  obtain ⟨l, r, _, h, _⟩ := h; exact h

theorem kid_leaf {f : Found} {k : Elem} (h : KidOk d f.node k) (hn : ¬ (f.node.ntype = .container ∨ f.node.ntype = .list)) :
    k.kids = [] := by
  unfold KidOk at h
  cases hc : f.node.ntype <;> simp_all

/-- What a sum with a plain config looks like at one level. -/
structure MergeAt (d : Device) (sc : Scope) (delta src res : Elem) (sub base : Elem → Elem) : Prop where
  once : ∀ o ∈ delta.kids, OnceAs d sc res.kids o (sub o)
  value : ∀ o ∈ delta.kids, ∀ f, d.lookup sc o.tag = .ok f → f.node.ntype = .leaf →
    parseText d (sub o) f.node = parseText d o f.node
  old : ∀ o ∈ delta.kids, ∀ f, d.lookup sc o.tag = .ok f → f.node.ntype = .container ∨ f.node.ntype = .list →
    ∀ s ∈ src.kids, SameInstance d sc s o → Applied d (.node f.node) o s (sub o)
  fresh : ∀ o ∈ delta.kids, Absent d sc src.kids o → ∀ f, d.lookup sc o.tag = .ok f →
    f.node.ntype = .container ∨ f.node.ntype = .list → Fresh f o (base o)
  new : ∀ o ∈ delta.kids, Absent d sc src.kids o → ∀ f, d.lookup sc o.tag = .ok f →
    f.node.ntype = .container ∨ f.node.ntype = .list → Applied d (.node f.node) o (base o) (sub o)
  others : ∀ s ∈ src.kids, Absent d sc delta.kids s → OnceAs d sc res.kids s s
  only : ∀ e ∈ res.kids, (∃ s ∈ src.kids, SameInstance d sc s e) ∨ ∃ o ∈ delta.kids, SameInstance d sc o e

theorem not_absent {ks : List Elem} {o : Elem} (h : ¬ Absent d sc ks o) : ∃ s ∈ ks, SameInstance d sc s o := by
  unfold Absent at h
  push_neg at h
  exact h

theorem hasAll_nil {a b : Elem} (h : a.kids = []) : HasAll d sc a b := by
  refine .mk ?_ ?_ ?_ <;> simp [h]

theorem within_nil {a b : Elem} (h : a.kids = []) : Within d sc a b := by
  refine .mk ?_ ?_ <;> simp [h]

/-- A side whose non-presence containers are not empty. -/
structure FullSide (d : Device) (sc : Scope) (e : Elem) : Prop extends Side d sc e where
  full : Deep d (FilledLevel d) sc e

theorem FullSide.sub {e k : Elem} {f : Found} (h : FullSide d sc e) (hk : k ∈ e.kids)
    (hf : d.lookup sc k.tag = .ok f) : FullSide d (.node f.node) k :=
  ⟨h.toSide.sub hk hf, h.full.sub' k hk f hf⟩

theorem merge_inv : ∀ (delta : Elem) {sc : Scope} {src res : Elem}, FullSide d sc delta → Applied d sc delta src res →
    HasAll d sc delta res ∧ ∃ sub base, MergeAt d sc delta src res sub base := by
  intro delta
  induction delta using Elem.ind with
  | h t n a x ks ih =>
    intro sc src res hside happ
    have ih' : ∀ k ∈ (Elem.mk t n a x ks).kids, ∀ {sc : Scope} {src res : Elem}, FullSide d sc k →
        Applied d sc k src res → HasAll d sc k res := fun k hk _ _ _ h1 h2 => (ih k hk h1 h2).1
    clear ih
    generalize Elem.mk t n a x ks = delta at *
    cases happ with
    | mk sub base ops delete remove create new old value copy merge mergeNew mergeBase others only =>
      have hop : ∀ o ∈ delta.kids, opOf o = "merge" := fun o ho => opOf_bare (hside.attrs ho)
      have hins : ∀ o ∈ delta.kids, ∀ f, ¬ BadInsert f o := by
        rintro o ho f ⟨_, _, i, hi, _⟩
        rw [insertOf_bare (hside.attrs ho)] at hi; cases hi
      have hall : ∀ o ∈ delta.kids, ∀ f, d.lookup sc o.tag = .ok f → HasAll d (.node f.node) o (sub o) := by
        intro o ho f hf
        by_cases hn : f.node.ntype = .container ∨ f.node.ntype = .list
        · by_cases ha : Absent d sc src.kids o
          · exact ih' o ho (hside.sub ho hf) (mergeBase o ho (hop o ho) ha f hf hn)
          · obtain ⟨s, hs, hso⟩ := not_absent ha
            exact ih' o ho (hside.sub ho hf) (merge o ho (hop o ho) f hf hn s hs hso)
        · exact hasAll_nil (kid_leaf (hside.kid ho hf) hn)
      have honce : ∀ o ∈ delta.kids, OnceAs d sc res.kids o (sub o) := by
        intro o ho
        obtain ⟨f, hf, _⟩ := hside.valid.shape' o ho
        by_cases ha : Absent d sc src.kids o
        · exact (new o ho (Or.inl (hop o ho)) ha f hf).2 (hins o ho f)
        · rcases old o ho (Or.inl (hop o ho)) (not_absent ha) f hf with h | ⟨hnp, _, hk, _⟩
          · exact h
          · exfalso
            obtain ⟨c, hc⟩ := List.exists_mem_of_ne_nil _ (hside.full.here' o ho f hf hnp)
            cases hall o ho f hf with
            | mk kids _ _ =>
              obtain ⟨y, hy, _⟩ := kids c hc
              rw [hk] at hy; simp at hy
      refine ⟨.mk ?_ ?_ ?_, sub, base, honce, ?_, ?_, ?_, ?_, others, ?_⟩
      · intro o ho; exact ⟨sub o, (honce o ho).mem, (honce o ho).same.symm⟩
      · intro o ho y hy hs f hf hn
        rw [(honce o ho).eq hy hs.symm]
        exact value o ho (Or.inl (hop o ho)) f hf hn
      · intro o ho y hy hs f hf
        rw [(honce o ho).eq hy hs.symm]
        exact hall o ho f hf
      · intro o ho f hf hn; exact value o ho (Or.inl (hop o ho)) f hf hn
      · intro o ho f hf hn s hs hso; exact merge o ho (hop o ho) f hf hn s hs hso
      · intro o ho ha f hf hn; exact mergeNew o ho (hop o ho) ha f hf hn
      · intro o ho ha f hf hn; exact mergeBase o ho (hop o ho) ha f hf hn
      · intro e he
        rcases only e he with h | ⟨o, ho, h, _⟩
        · exact Or.inl h
        · exact Or.inr ⟨o, ho, h⟩

theorem Within.refl : ∀ (e : Elem) {sc : Scope}, Valid d sc e → Within d sc e e := by
  intro e
  induction e using Elem.ind with
  | h t n a x ks ih =>
    intro sc hv
    refine .mk (fun x hx => ⟨x, hx, .refl _ _ _⟩) ?_
    intro x hx y hy hs f hf
    obtain rfl : x = y := List.inj_on_of_nodup_map hv.indexable.nodup hx hy ((hv.same_iff hv hx hy).2 hs)
    exact ih x hx (hv.sub' x hx f hf)

theorem merge_within : ∀ (delta : Elem) {sc : Scope} {src res : Elem}, FullSide d sc delta → Valid d sc src →
    Applied d sc delta src res → Within d sc src res := by
  intro delta
  induction delta using Elem.ind with
  | h t n a x ks ih =>
    intro sc src res hside hv happ
    obtain ⟨_, sub, base, M⟩ := merge_inv _ hside happ
    refine .mk ?_ ?_
    · intro s hs
      by_cases ha : Absent d sc ks s
      · exact ⟨s, (M.others s hs ha).mem, .refl _ _ _⟩
      · obtain ⟨o, ho, hos⟩ := not_absent ha
        exact ⟨sub o, (M.once o ho).mem, hos.symm.trans (M.once o ho).same.symm⟩
    · intro s hs y hy hsy f hf
      by_cases ha : Absent d sc ks s
      · rw [(M.others s hs ha).eq hy hsy.symm]
        exact .refl s (hv.sub' s hs f hf)
      · obtain ⟨o, ho, hos⟩ := not_absent ha
        have hfo : d.lookup sc o.tag = .ok f := by rw [hos.1]; exact hf
        rw [(M.once o ho).eq hy (hsy.symm.trans hos.symm)]
        obtain ⟨g, hg, kg⟩ := hv.shape' s hs
        rw [hf] at hg; cases hg
        by_cases hn : f.node.ntype = .container ∨ f.node.ntype = .list
        · exact ih o ho (hside.sub ho hfo) (hv.sub' s hs f hf) (M.old o ho f hfo hn s hs hos.symm)
        · exact within_nil (kid_leaf kg hn)

/-- What a merge of a missing child starts from. -/
theorem fresh_kids {o s : Elem} {f : Found} (h : Fresh f o s) (hn : f.node.ntype = .container ∨ f.node.ntype = .list)
    (hb : NoAttrs o) : ∀ x ∈ s.kids, x ∈ o.kids := by
  intro x hx
  rcases hn with hn | hn
  · rw [h.2.2.2.1 hn] at hx; simp at hx
  · obtain ⟨q, hq, c, hc, rfl⟩ := h.2.2.2.2 hn x hx
    have hc' : c ∈ o.kids := by simp only [Elem.childrenWith, List.mem_filter] at hc; exact hc.1
    rw [noAttrs_delAttrib (hb.sub' c hc')]; exact hc'

theorem within_sub {a b : Elem} (hv : Valid d sc b) (h : ∀ x ∈ a.kids, x ∈ b.kids) : Within d sc a b := by
  refine .mk (fun x hx => ⟨x, h x hx, .refl _ _ _⟩) ?_
  intro x hx y hy hs f hf
  obtain rfl : x = y := List.inj_on_of_nodup_map hv.indexable.nodup (h x hx) hy ((hv.same_iff hv (h x hx) hy).2 hs)
  exact .refl x (hv.sub' x hy f hf)

theorem within_of_from : ∀ {sc : Scope} {a b r : Elem}, FromBoth d sc a b r → Within d sc a b → Valid d sc b →
    Within d sc r b := by
  intro sc a b r h
  induction h with
  | @mk sc a b r only left right both ih =>
    intro hw hv
    cases hw with
    | mk kids sub =>
      have key : ∀ z ∈ r.kids, ∃ y ∈ b.kids, SameInstance d sc z y := by
        intro z hz
        rcases only z hz with ⟨x, hx, hxz⟩ | ⟨y, hy, hyz⟩
        · obtain ⟨y, hy, hxy⟩ := kids x hx
          exact ⟨y, hy, hxz.symm.trans hxy⟩
        · exact ⟨y, hy, hyz.symm⟩
      refine .mk key ?_
      intro z hz y hy hzy f hf
      have hfy : d.lookup sc y.tag = .ok f := by rw [← hzy.1]; exact hf
      by_cases ha : Absent d sc a.kids y
      · exact right z hz y hy hzy.symm ha f hfy
      · obtain ⟨x, hx, hxy⟩ := not_absent ha
        have hfx : d.lookup sc x.tag = .ok f := by rw [hxy.1]; exact hfy
        exact ih z hz x hx y hy (hxy.trans hzy.symm) hzy.symm f hfy (sub x hx y hy hxy f hfx) (hv.sub' y hy f hfy)

theorem fromBoth_nil {a b r : Elem} (h : r.kids = []) : FromBoth d sc a b r := by
  refine .mk ?_ ?_ ?_ ?_ <;> simp [h]

theorem merge_from : ∀ (delta : Elem) {sc : Scope} {src res : Elem}, FullSide d sc delta → Valid d sc res →
    Applied d sc delta src res → FromBoth d sc src delta res := by
  intro delta
  induction delta using Elem.ind with
  | h t n a x ks ih =>
    intro sc src res hside hv happ
    obtain ⟨_, sub, base, M⟩ := merge_inv _ hside happ
    refine .mk M.only ?_ ?_ ?_
    · intro z hz s hs hsz ha
      exact (M.others s hs ha).eq hz hsz.symm
    · intro z hz o ho hoz ha f hf
      have hzs := (M.once o ho).eq hz hoz.symm
      have hfz : d.lookup sc z.tag = .ok f := by rw [← hoz.1]; exact hf
      obtain ⟨g, hg, kg⟩ := hv.shape' z hz
      rw [hfz] at hg; cases hg
      by_cases hn : f.node.ntype = .container ∨ f.node.ntype = .list
      · have hso := hside.sub ho hf
        have happ' := M.new o ho ha f hf hn
        rw [← hzs] at happ'
        exact within_of_from (ih o ho hso (hv.sub' z hz f hfz) happ')
          (within_sub hso.valid (fresh_kids (M.fresh o ho ha f hf hn) hn hso.bare)) hso.valid
      · exact within_nil (kid_leaf kg hn)
    · intro z hz s hs o ho hsz hoz f hf
      have hzs := (M.once o ho).eq hz hoz.symm
      have hfz : d.lookup sc z.tag = .ok f := by rw [← hoz.1]; exact hf
      obtain ⟨g, hg, kg⟩ := hv.shape' z hz
      rw [hfz] at hg; cases hg
      by_cases hn : f.node.ntype = .container ∨ f.node.ntype = .list
      · have happ' := M.old o ho f hf hn s hs (hsz.trans hoz.symm)
        rw [← hzs] at happ'
        exact ih o ho (hside.sub ho hf) (hv.sub' z hz f hfz) happ'
      · exact fromBoth_nil (kid_leaf kg hn)

/-! ## Trimming -/

theorem trimDrops_all {sn : SNode} {all all' : List Elem} {k : Elem} (h : sn.info.dflt ≠ none → sn.ntype ≠ .leafList) :
    trimDrops sn all k = trimDrops sn all' k := by
  unfold trimDrops
  cases hn : sn.ntype <;> simp only
  cases hd : sn.info.dflt with
  | none => rfl
  | some v => exact absurd hn (h (by simp [hd]))

theorem merge_trimmed : ∀ (delta : Elem) {sc : Scope} {src res : Elem}, FullSide d sc delta → Valid d sc res →
    Applied d sc delta src res → trimDefaults d sc src = .ok src → trimDefaults d sc delta = .ok delta →
    Deep d (LeafDefaults d) sc src → Deep d (LeafDefaults d) sc delta → trimDefaults d sc res = .ok res := by
  intro delta
  induction delta using Elem.ind with
  | h t n a x ks ih =>
    intro sc src res hside hv happ ts td ds dd
    obtain ⟨_, sub, base, M⟩ := merge_inv _ hside happ
    rw [trim_fixed] at ts td ⊢
    intro z hz
    obtain ⟨f, hf, kf⟩ := hv.shape' z hz
    by_cases ha : Absent d sc ks z
    · -- only in the source
      have : ∃ s ∈ src.kids, SameInstance d sc s z := by
        rcases M.only z hz with h | ⟨o, ho, h⟩
        · exact h
        · exact absurd h (ha o ho)
      obtain ⟨s, hs, hsz⟩ := this
      have hzs := (M.others s hs (fun y hy hys => ha y hy (hys.trans hsz))).eq hz hsz.symm
      subst hzs
      obtain ⟨g, hg, h1, h2⟩ := ts z hs
      obtain rfl : f = g := Except.ok.inj (hf.symm.trans hg)
      refine ⟨f, hf, h1, ?_⟩
      rw [trimDrops_all (all' := src.kids) (fun h => (ds.here' z hs f hf h).1)]
      exact h2
    · obtain ⟨o, ho, hoz⟩ := not_absent ha
      have hfo : d.lookup sc o.tag = .ok f := by rw [hoz.1]; exact hf
      have hzs := (M.once o ho).eq hz hoz.symm
      obtain ⟨g, hg, h1, h2⟩ := td o ho
      obtain rfl : f = g := Except.ok.inj (hfo.symm.trans hg)
      have hso := hside.sub ho hfo
      have hd := dd.here' o ho f hfo
      refine ⟨f, hf, ?_, ?_⟩
      · by_cases hn : f.node.ntype = .container ∨ f.node.ntype = .list
        · by_cases hab : Absent d sc src.kids o
          · have happ' := M.new o ho hab f hfo hn
            rw [← hzs] at happ'
            have hkids := fresh_kids (M.fresh o ho hab f hfo hn) hn hso.bare
            refine ih o ho hso (hv.sub' z hz f hf) happ' ?_ h1 ?_ (dd.sub' o ho f hfo)
            · rw [trim_fixed]
              intro c hc
              obtain ⟨g, hg, h3, h4⟩ := trim_fixed.1 h1 c (hkids c hc)
              refine ⟨g, hg, h3, ?_⟩
              rw [trimDrops_all (all' := o.kids) (fun h => ((dd.sub' o ho f hfo).here' c (hkids c hc) g hg h).1)]
              exact h4
            · refine .mk ?_ ?_
              · intro c hc; exact (dd.sub' o ho f hfo).here' c (hkids c hc)
              · intro c hc; exact (dd.sub' o ho f hfo).sub' c (hkids c hc)
          · obtain ⟨s, hs, hsm⟩ := not_absent hab
            have hfs : d.lookup sc s.tag = .ok f := by rw [hsm.1]; exact hfo
            have happ' := M.old o ho f hfo hn s hs hsm
            rw [← hzs] at happ'
            obtain ⟨g, hg, h3, _⟩ := ts s hs
            obtain rfl : f = g := Except.ok.inj (hfs.symm.trans hg)
            exact ih o ho hso (hv.sub' z hz f hf) happ' h3 h1 (ds.sub' s hs f hfs) (dd.sub' o ho f hfo)
        · rw [trim_fixed, kid_leaf kf hn]; simp
      · have hkids : (f.node.ntype = .container ∨ f.node.ntype = .list) → o.kids ≠ [] → z.kids ≠ [] := by
          intro hn hne
          obtain ⟨c, hc⟩ := List.exists_mem_of_ne_nil _ hne
          have hall : HasAll d (.node f.node) o z := by
            rw [hzs]
            by_cases hab : Absent d sc src.kids o
            · exact (merge_inv _ hso (M.new o ho hab f hfo hn)).1
            · obtain ⟨s, hs, hsm⟩ := not_absent hab
              exact (merge_inv _ hso (M.old o ho f hfo hn s hs hsm)).1
          cases hall with
          | mk kids _ _ =>
            obtain ⟨y, hy, _⟩ := kids c hc
            intro h; rw [h] at hy; simp at hy
        unfold trimDrops at h2 ⊢
        cases hn : f.node.ntype <;> simp only [hn] at h2 ⊢
        · cases hdf : f.node.info.dflt with
          | none => rfl
          | some v =>
            simp only [hdf] at h2 ⊢
            have htx : z.text = o.text := by
              rw [hzs]
              exact text_of_value ((hd (by simp [hdf])).2 hn) (by rw [hn]; decide) (d := d)
                (by rw [parseTextAt_eq, parseTextAt_eq]; exact M.value o ho f hfo hn)
            rw [htx]; exact h2
        · cases hdf : f.node.info.dflt with
          | none => rfl
          | some v => exact absurd hn (hd (by simp [hdf])).1
        · have := hkids (Or.inl hn)
          cases hk : o.kids with
          | nil => simp only [hk, List.isEmpty_nil, Bool.true_and] at h2; rw [h2]; simp
          | cons c r =>
            have := this (by simp [hk])
            cases hz : z.kids with
            | nil => exact absurd hz this
            | cons _ _ => simp
        · have := hkids (Or.inr hn)
          cases hk : o.kids with
          | nil => simp [hk] at h2
          | cons c r =>
            have := this (by simp [hk])
            cases hz : z.kids with
            | nil => exact absurd hz this
            | cons _ _ => simp

/-! ## Success -/

theorem newPlace_ok {f : Found} {o : Elem} (hi : insertOf o = none) (c : Cell) (st : List Cell) :
    ∃ st', newPlace f o c st = .ok st' := by
  unfold newPlace placeNew
  cases f.node.ntype <;> simp [hi]

theorem addWithoutPeer_bare {o e : Elem} (hside : Side d sc e) (ho : o ∈ e.kids) (st : List Cell) :
    ∃ st', addWithoutPeer d sc st (o, addFn d o) = .ok st' := by
  obtain ⟨f, hf, kf⟩ := hside.valid.shape' o ho
  have hN := new_self (ω := True) o hside ho hf
  have hop := opOf_bare (hside.attrs ho)
  have hi := hN.insert
  have hplace : ∀ anchor c, ∃ st', placeNew f.node anchor o c st = .ok st' := by
    intro anchor c
    unfold placeNew
    simp [hi]
  unfold addWithoutPeer
  simp only [hop, hf, bind, Except.bind, pure, Except.pure]
  rw [if_neg (by decide), if_neg (by decide), if_pos (by simp)]
  cases hn : f.node.ntype <;> simp only
  · exact ⟨_, rfl⟩
  · exact hplace _ _
  · obtain ⟨R, hR, _⟩ := (hN.cont hop hn).add
    simp [addFn, hR]
  · unfold KidOk at kf
    simp only [hn] at kf
    obtain ⟨sk, hsk⟩ := listSkeleton_exists kf.2.2.1
    obtain ⟨R, hR, _⟩ := (hN.list hop hn sk hsk).add
    obtain ⟨st1, h1⟩ := hplace (keyAnchor o) (none, sk)
    obtain ⟨st2, h2⟩ := hplace (keyAnchor o) (none, R)
    exact ⟨st2, by simp [hsk, h1, addFn, hR, h2]⟩
  all_goals exact ⟨_, rfl⟩

/-- Adding a plain config succeeds. -/
theorem merge_ok : ∀ (delta : Elem) {sc : Scope} {src : Elem}, FullSide d sc delta → Valid d sc src →
    MergeValues d sc src delta → ∃ res, nodeAdd d delta sc src = .ok res := by
  intro delta
  induction delta using Elem.ind with
  | h t n a x ks ih =>
    intro sc src hside hv hm
    have ih' : ∀ k ∈ (Elem.mk t n a x ks).kids, ∀ {sc : Scope} {src : Elem}, FullSide d sc k → Valid d sc src →
      MergeValues d sc src k → ∃ res, nodeAdd d k sc src = .ok res := fun k hk => ih k hk
    clear ih
    generalize Elem.mk t n a x ks = delta at *
    rw [nodeAdd_run hv.indexable hside.valid.indexable]
    obtain ⟨st1, h1, _⟩ := foldlM_ok (f := addWithoutPeer d sc) (P := fun _ _ => True)
      (l := (groupsOf (fun a : Elem × Nat => uid d sc a.1) (fun b : Elem × AddFn => uid d sc b.1)
            src.kids.zipIdx (delta.kids.map (fun k => (k, fun sc sum => nodeAdd d k sc sum)))).onlyTwo)
      (s := src.kids.zipIdx.map (fun p => (some p.2, p.1))) trivial (by
        intro dn b td s hl _
        have hb : b ∈ (groupsOf (fun a : Elem × Nat => uid d sc a.1) (fun b : Elem × AddFn => uid d sc b.1)
            src.kids.zipIdx (delta.kids.map (fun k => (k, fun sc sum => nodeAdd d k sc sum)))).onlyTwo := by
          rw [hl]; simp
        have hb' := (List.mem_filter.1 hb).1
        obtain ⟨o, ho, rfl⟩ := List.mem_map.1 hb'
        obtain ⟨s', hs'⟩ := addWithoutPeer_bare hside.toSide ho s
        exact ⟨s', hs', trivial⟩)
    obtain ⟨st2, h2, _⟩ := foldlM_ok (f := addWithPeer d sc) (P := fun _ _ => True)
      (l := (groupsOf (fun a : Elem × Nat => uid d sc a.1) (fun b : Elem × AddFn => uid d sc b.1)
            src.kids.zipIdx (delta.kids.map (fun k => (k, fun sc sum => nodeAdd d k sc sum)))).both)
      (s := st1) trivial (by
        intro dn b td st hl _
        have hb : b ∈ (groupsOf (fun a : Elem × Nat => uid d sc a.1) (fun b : Elem × AddFn => uid d sc b.1)
            src.kids.zipIdx (delta.kids.map (fun k => (k, fun sc sum => nodeAdd d k sc sum)))).both := by
          rw [hl]; simp
        simp only [groupsOf, List.mem_filterMap, Option.map_eq_some_iff] at hb
        obtain ⟨⟨s, i⟩, hsi, ⟨o, fo⟩, hfind, rfl⟩ := hb
        have hs : s ∈ src.kids := List.mem_of_getElem? (List.mem_zipIdx_iff_getElem?.1 hsi)
        have hu : uid d sc o = uid d sc s := by simpa using List.find?_some hfind
        obtain ⟨o', ho, he⟩ := List.mem_map.1 (List.mem_of_find?_eq_some hfind)
        cases he
        obtain ⟨f, hf, kf⟩ := hside.valid.shape' o ho
        obtain ⟨g, hg, kg⟩ := hv.shape' s hs
        have hso : SameInstance d sc s o := (uid_eq_iff' hg kg hf kf).1 hu.symm
        obtain rfl : g = f := Except.ok.inj (hg.symm.trans (by rw [hso.1]; exact hf))
        have hop := opOf_bare (hside.attrs ho)
        have hi := insertOf_bare (hside.attrs ho)
        have hfin : ∀ r : PeerResult, r.attached = true → ∃ s', finishPeer g.node i r = .ok s' := by
          intro r hr
          unfold finishPeer
          simp only [hr, if_true]
          split <;> exact ⟨_, rfl⟩
        have hpl : ∀ anchor, placeOld g.node anchor o i s st = .ok st := by
          intro anchor
          unfold placeOld
          simp [hi]
        have htree : g.node.ntype = .container ∨ g.node.ntype = .list →
            ∃ r, withPeerTree g.node (o, fun sc sum => nodeAdd d o sc sum) i s st = .ok r ∧ r.attached = true := by
          intro hn
          cases hm with
          | mk _ sub =>
            obtain ⟨e, he⟩ := ih' o ho (hside.sub ho hf) (hv.sub' s hs g hg) (sub s hs o ho hso g hf hn)
            unfold withPeerTree
            simp only [hop, if_true, he, bind, Except.bind, pure, Except.pure]
            exact ⟨_, rfl, rfl⟩
        have hwp : ∃ r, withPeer d g.node (o, fun sc sum => nodeAdd d o sc sum) i s st = .ok r ∧ r.attached = true := by
          unfold withPeer
          cases hn : g.node.ntype <;> simp only
          · cases hm with
            | mk values _ =>
              have hval := hside.level.here'.values o ho g hf (Or.inl hn)
              unfold KidOk at kf
              simp only [hn] at kf
              obtain ⟨e, he⟩ := mergeText_writable (dst := s) hval kf.2 (values s hs o ho hso g hf hn)
              unfold withPeerLeaf
              simp only [hop, true_or, if_true, he, bind, Except.bind, pure, Except.pure]
              exact ⟨_, rfl, rfl⟩
          · unfold withPeerLeafList
            simp only [hop, true_or, if_true, hpl, bind, Except.bind, pure, Except.pure]
            exact ⟨_, rfl, rfl⟩
          · exact htree (Or.inl hn)
          · unfold withPeerList
            simp only [hop, bind, Except.bind]
            rw [if_pos (by decide), hpl]
            exact htree (Or.inr hn)
          all_goals exact ⟨_, rfl, rfl⟩
        obtain ⟨r, hr, hra⟩ := hwp
        obtain ⟨s', hs'⟩ := hfin r hra
        refine ⟨s', ?_, trivial⟩
        unfold addWithPeer
        simp only [hg, bind, Except.bind, hr]
        exact hs')
    simp only [h1, h2, bind, Except.bind]
    exact ⟨_, rfl⟩

/-! ## A config added to itself -/

theorem diff_self : ∀ (c : Elem) {sc : Scope}, FullSide d sc c → MergeValues d sc c c → Diff ω d sc c c c := by
  intro c
  induction c using Elem.ind with
  | h t n a x ks ih =>
    intro sc hs hm
    generalize hc : Elem.mk t n a x ks = c at *
    have ih' : ∀ k ∈ c.kids, ∀ {sc : Scope}, FullSide d sc k → MergeValues d sc k k → Diff ω d sc k k k := by
      intro k hk; rw [← hc] at hk; exact ih k hk
    clear ih hc
    have hb : c.attrs = [] := hs.bare.here'
    have hself : NewKids ω d sc c.kids c.kids := by
      refine List.forall₂_same.2 ?_
      intro y hy
      obtain ⟨g, hg, _⟩ := hs.valid.shape' y hy
      exact ⟨g, hg, new_self y hs.toSide hy hg⟩
    obtain ⟨hv, hd, _⟩ := newKids_facts hs.toSide rfl (by rw [hb]; simp) hself
    have hinj : ∀ x ∈ c.kids, ∀ y ∈ c.kids, uid d sc x = uid d sc y → x = y :=
      fun x hx y hy h => List.inj_on_of_nodup_map hv.indexable.nodup hx hy h
    cases hm with
    | mk values sub =>
    refine .mk ⟨hs.valid, hs.ns, hs.valid, hv, hd, hs.bare, hs.bare, rfl, rfl, fun y hy => hs.cell hy,
      fun y hy => hs.cell hy, fun o ho => Or.inl ⟨o, ho, rfl⟩, ?_, ?_, ?_, ?_, ?_, ?_, ?_, ?_,
      fun t _ => Or.inr rfl, List.filter_sublist,
      fun s hs' k hk o ho h1 h2 => by obtain rfl := hinj o ho k hk h2; exact ⟨rfl, rfl⟩⟩
      ?_ ?_ ?_ ?_
    · intro s hs' h; exact absurd rfl (h s hs')
    · intro s hs' h; exact absurd rfl (h s hs')
    · intro s hs' h; exact absurd rfl (h s hs')
    · intro s hs' h; exact absurd rfl (h s hs')
    · intro s hs' k hk o ho h1 h2 f hf
      obtain rfl := hinj s hs' k hk h1
      obtain rfl := hinj o ho s hk h2
      have hop := opOf_bare (hs.attrs ho)
      have kf := hs.kid ho hf
      refine ⟨fun hn => ⟨Or.inl hop, ?_⟩, fun _ => Or.inl hop, fun hn => Or.inl ⟨hop, hs.full.here' o ho f hf⟩⟩
      have hval := hs.level.here'.values o ho f hf (Or.inl hn)
      unfold KidOk at kf
      simp only [hn] at kf
      obtain ⟨e, he⟩ := mergeText_writable (dst := o) hval kf.2 (values o ho o ho (.refl _ _ _) f hf hn)
      exact ⟨e, he, mergeText_value hval (hs.sub ho hf).level.here'.nsmap rfl he⟩
    · intro s _ k hk _ h; exact absurd rfl (h k hk)
    · intro o ho k hk h f hf _ _
      obtain rfl := hinj o ho k hk h
      exact Or.inr (Or.inr ⟨insertOf_bare (hs.attrs ho), Or.inr rfl⟩)
    · intro _ t _
      exact Ends.same hv.indexable.nodup rfl
    · intro s hs' h; exact absurd rfl (h s hs')
    · intro s hs' h; exact absurd rfl (h s hs')
    · intro s hs' h; exact absurd rfl (h s hs')
    · intro s hs' k hk o ho h1 h2 _ f hf hn
      obtain rfl := hinj s hs' k hk h1
      obtain rfl := hinj o ho s hk h2
      exact ih' o ho (hs.sub ho hf) (sub o ho o ho (.refl _ _ _) f hf hn)

end
end NcDiff
