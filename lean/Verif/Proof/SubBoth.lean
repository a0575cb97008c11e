import Verif.Proof.SubLevel
/-!
# Computing a delta: children that both sides have
-/

namespace NcDiff

variable {ω : Prop}

/-- The child is a key of the list. -/
def isKeyKid (d : Device) (sn : SNode) (k : Elem) : Bool :=
  match d.lookup (.node sn) k.tag with
  | .ok f => f.node.info.isKey
  | .error _ => false

theorem stripNonKeys_ok {d : Device} {sn : SNode} : ∀ {ks : List Elem},
    (∀ k ∈ ks, ∃ f, d.lookup (.node sn) k.tag = .ok f) →
    stripNonKeys d sn ks = .ok (ks.filter (isKeyKid d sn))
  | [], _ => rfl
  | k :: r, h => by
    obtain ⟨f, hf⟩ := h k (by simp)
    rw [stripNonKeys, stripNonKeys_ok (fun x hx => h x (by simp [hx])), List.filter_cons]
    simp [hf, isKeyKid, bind, Except.bind, pure, Except.pure]

/-- The uid of a leaf is its tag. -/
theorem uid_leaf {d : Device} {sc : Scope} {a b : Elem} {f : Found} (hf : d.lookup sc a.tag = .ok f)
    (hn : f.node.ntype = .leaf) (ht : a.tag = b.tag) : uid d sc a = uid d sc b := by
  unfold uid uidOf
  rw [← ht]
  simp [hf, hn, bind, Except.bind, pure, Except.pure]

section
variable {d : Device} {Q : Carried} {sc : Scope} {S T s k : Elem} {f : Found}

theorem parse_leaf (hS : Side d sc S) (hs : s ∈ S.kids) (hf : d.lookup sc s.tag = .ok f)
    (hn : f.node.ntype = .leaf ∨ f.node.ntype = .leafList) : s.kids = [] ∧ ∃ t, parseText d s f.node = .ok t := by
  have := hS.kid hs hf
  unfold KidOk at this
  rcases hn with hn | hn <;> simpa only [hn] using this

/-- A key can be written where the same key is. -/
theorem KeyOk.writable {d : Device} {sn : SNode} {s k : Elem} (hk : KeyOk d sn k) (hs : KeyOk d sn s)
    (ht : s.text = k.text) (htag : s.tag = k.tag) : Writable d sn k s.nsmap := by
  rcases hk with hp | ⟨hi, h1, h2⟩
  · constructor <;> intro hid <;> rw [hid] at hp <;> exact hp.elim
  · refine ⟨fun _ t htx u i hp => ?_, fun h => by rw [hi] at h; cases h⟩
    obtain ⟨p, u', hn⟩ := h2 t htx
    obtain ⟨i', h5, _⟩ := hn.parse
    rw [h5 _ (h1 t htx p u' hn).1] at hp
    cases hp
    obtain ⟨l, r, hm, _⟩ := List.lookup_eq_some_iff.1
      (hs.honest hi t (ht.trans htx) p u (by rw [htag]; exact hn)).1
    exact ⟨p, by rw [hm]; simp⟩

theorem SameConfig.parse {sn : SNode} (h : SameConfig d (.node sn) s k) : parseText d s sn = parseText d k sn := by
  cases h.1 with
  | mk _ hv _ _ _ _ => rw [parseTextAt_eq, parseTextAt_eq] at hv; exact hv

/-- A leaf on both sides. -/
theorem both_leaf (hS : Side d sc S) (hT : Side d sc T) (hc : CompatW ω d sc S T) (hs : s ∈ S.kids)
    (hk : k ∈ T.kids) (hu : uid d sc s = uid d sc k) (hf : d.lookup sc k.tag = .ok f)
    (hn : f.node.ntype = .leaf) {x : Elem}
    (hx : x = k ∨ (x = setOp k "replace" ∧ parseText d s f.node ≠ parseText d k f.node))
    (hch : f.node.info.isKey = true ∨ parseText d s f.node ≠ parseText d k f.node) (hq : Q.plain f s k x) :
    BothOk ω d Q sc f s k x := by
  have hst := tag_of_uid hu
  have hb : SameBody k x := by
    rcases hx with rfl | ⟨rfl, _⟩
    · exact SameBody.refl _
    · exact SameBody.set _ _ _
  have hnm : (x.attrs.map Prod.fst).Nodup := by
    have : (k.attrs.map Prod.fst).Nodup := by rw [hT.attrs hk]; simp
    rcases hx with rfl | ⟨rfl, _⟩
    · exact this
    · exact set_names this
  have hop : opOf x = "merge" ∨ opOf x = "replace" := by
    rcases hx with rfl | ⟨rfl, _⟩
    · exact Or.inl (opOf_bare (hT.attrs hk))
    · exact Or.inr (opOf_setOp _ _)
  have hN := new_self (ω := ω) k hT hk hf
  have hval := hT.level.here'.values k hk f hf (Or.inl hn)
  refine ⟨hb.1.symm, hb.2.1.symm, hb.2.2.1.symm, hnm, (uid_body hb).symm, kidOk_body hb (hT.kid hk hf),
    valid_body hb hnm (hT.sub hk hf).valid, deltaLevel_body hb hN.deep, fun _ => leafValue_body hb hval,
    ?_, ?_, ?_, ?_, ?_, ?_, by rw [hn]; simp, fun _ => hq,
    hch.elim (fun h => Or.inr (Or.inl ⟨h, hn⟩)) (fun h => Or.inl (fun hs => h hs.parse))⟩
  · intro h; rw [hn] at h; cases h
  · intro h; rw [hn] at h; cases h
  · intro _
    refine ⟨hop, ?_⟩
    have hw : Writable d f.node k s.nsmap := by
      cases hc with
      | mk _ _ values _ =>
        have hv := values s hs k hk ((hS.valid.same_iff hT.valid hs hk).1 hu) f hf hn
        rcases hch with hkey | hch
        · by_cases htx : s.text = k.text
          · have hfs : d.lookup sc s.tag = .ok f := by rw [hst]; exact hf
            exact (hT.level.here'.keyLeaf k hk f hf hkey).2.writable (hS.level.here'.keyLeaf s hs f hfs hkey).2 htx hst
          · exact hv (.inl ⟨hkey, htx⟩)
        · exact hv (.inr hch)
    obtain ⟨e, he⟩ := mergeText_writable (dst := s) hval (parse_leaf hT hk hf (Or.inl hn)).2 hw
    refine ⟨e, by rw [← mergeText_body hb]; exact he, ?_⟩
    exact mergeText_value hval (hS.kidNs hs) hst.symm he
  · intro h; rw [hn] at h; cases h
  · rintro (h | h) <;> rw [hn] at h <;> cases h
  · intro _ _ hp
    rcases hx with rfl | ⟨_, hne⟩
    · rfl
    · exact absurd hp hne

/-- A leaf-list entry on both sides. -/
theorem both_leafList (hT : Side d sc T)
    (hk : k ∈ T.kids) (hf : d.lookup sc k.tag = .ok f)
    (hn : f.node.ntype = .leafList) (hou : f.node.userOrdered = true) {x : Elem}
    (hx : x = k ∨ x = setOp k "replace") (hq : Q.plain f s k x) :
    BothOk ω d Q sc f s k x := by
  have hb : SameBody k x := by
    rcases hx with rfl | rfl
    · exact SameBody.refl _
    · exact SameBody.set _ _ _
  have hnm : (x.attrs.map Prod.fst).Nodup := by
    have : (k.attrs.map Prod.fst).Nodup := by rw [hT.attrs hk]; simp
    rcases hx with rfl | rfl
    · exact this
    · exact set_names this
  have hop : opOf x = "merge" ∨ opOf x = "replace" := by
    rcases hx with rfl | rfl
    · exact Or.inl (opOf_bare (hT.attrs hk))
    · exact Or.inr (opOf_setOp _ _)
  have hN := new_self (ω := ω) k hT hk hf
  refine ⟨hb.1.symm, hb.2.1.symm, hb.2.2.1.symm, hnm, (uid_body hb).symm, kidOk_body hb (hT.kid hk hf),
    valid_body hb hnm (hT.sub hk hf).valid, deltaLevel_body hb hN.deep, ?_, ?_, ?_, ?_, fun _ => hop, ?_, ?_,
    by rw [hn]; simp, fun _ => hq, Or.inr (Or.inr ⟨hou, Or.inl hn⟩)⟩
  · intro h; rw [hn] at h; cases h
  · intro h; rw [hn] at h; cases h
  · intro h; rw [hn] at h; cases h
  · intro h; rw [hn] at h; cases h
  · rintro (h | h) <;> rw [hn] at h <;> cases h
  · intro _ h; rw [hn] at h; cases h

theorem same_leafList (hS : Side d sc S) (hT : Side d sc T) (hs : s ∈ S.kids)
    (hk : k ∈ T.kids) (hu : uid d sc s = uid d sc k) (hf : d.lookup sc k.tag = .ok f)
    (hn : f.node.ntype = .leafList) : SameConfig d (.node f.node) s k := by
  have hst := tag_of_uid hu
  have hfs : d.lookup sc s.tag = .ok f := by rw [hst]; exact hf
  have := ((uid_eq_iff hfs (hS.kid hs hfs) (hT.kid hk hf) hst).1 hu).2 f hfs
  simp only [hn] at this
  exact same_of_leaf hst this (hS.attrs hs) (hT.attrs hk) (parse_leaf hS hs hfs (Or.inr hn)).1
    (parse_leaf hT hk hf (Or.inr hn)).1

theorem same_leaf (hS : Side d sc S) (hT : Side d sc T) (hs : s ∈ S.kids)
    (hk : k ∈ T.kids) (hu : uid d sc s = uid d sc k) (hf : d.lookup sc k.tag = .ok f)
    (hn : f.node.ntype = .leaf) (hp : parseText d s f.node = parseText d k f.node) :
    SameConfig d (.node f.node) s k := by
  have hst := tag_of_uid hu
  have hfs : d.lookup sc s.tag = .ok f := by rw [hst]; exact hf
  exact same_of_leaf hst hp (hS.attrs hs) (hT.attrs hk) (parse_leaf hS hs hfs (Or.inl hn)).1
    (parse_leaf hT hk hf (Or.inl hn)).1

/-- What the difference of two subtrees is. -/
structure SubOk (ω : Prop) (d : Device) (q : Scope → Elem → Elem → Elem → Prop) (sc : Scope) (S T D : Elem) : Prop where
  tag : D.tag = T.tag
  nsmap : D.nsmap = T.nsmap
  text : D.text = T.text
  what : (D = setOp T "replace" ∧ ∀ n, sc = .node n → n.isNP = true → S.kids ≠ []) ∨ (D.attrs = [] ∧ Diff ω d sc S T D ∧
    ∀ s ∈ S.kids, ∀ c ∈ T.kids, uid d sc s = uid d sc c → ∀ f, d.lookup sc c.tag = .ok f →
      f.node.info.isKey = true → f.node.ntype = .leaf →
      parseText d s f.node = parseText d c f.node → D.childrenWith c.tag = [c])
  carried : q sc S T D

/-- A list entry that has not changed, with its keys only. -/
theorem diff_keys {sn : SNode} (hs : Side d (.node sn) s) (hk : Side d (.node sn) k)
    (ht : s.tag = k.tag) (hc : CompatW ω d (.node sn) s k) (hsame : SameConfig d (.node sn) s k)
    {q : Scope → Elem → Elem → Elem → Prop} (hQ : q (.node sn) s k (k.setKids (k.kids.filter (isKeyKid d sn)))) :
    SubOk ω d q (.node sn) s k (k.setKids (k.kids.filter (isKeyKid d sn))) := by
  set D := k.setKids (k.kids.filter (isKeyKid d sn)) with hD
  have hDk : D.kids = k.kids.filter (isKeyKid d sn) := rfl
  have hsub : ∀ o ∈ D.kids, o ∈ k.kids := fun o ho => (List.mem_filter.1 (by rw [hDk] at ho; exact ho)).1
  have hDa : D.attrs = [] := hk.bare.here'
  have hinj : ∀ x ∈ k.kids, ∀ y ∈ k.kids, uid d (.node sn) x = uid d (.node sn) y → x = y :=
    fun x hx y hy h => List.inj_on_of_nodup_map hk.valid.indexable.nodup hx hy h
  have hleaf : ∀ o ∈ D.kids, ∀ f, d.lookup (.node sn) o.tag = .ok f → f.node.info.isKey = true ∧
      f.node.ntype = .leaf := by
    intro o ho f hf
    rw [hDk] at ho
    obtain ⟨h1, h2⟩ := List.mem_filter.1 ho
    unfold isKeyKid at h2
    simp only [hf] at h2
    exact ⟨h2, (hk.level.here'.keyLeaf o h1 f hf h2).1⟩
  have hSI : ∀ x ∈ s.kids, ∀ y ∈ k.kids, uid d (.node sn) x = uid d (.node sn) y ↔ SameInstance d (.node sn) x y :=
    fun x hx y hy => hs.valid.same_iff hk.valid hx hy
  have hto : ∀ x ∈ s.kids, ∃ y ∈ k.kids, uid d (.node sn) y = uid d (.node sn) x := by
    intro x hx
    cases hsame.1 with
    | mk _ _ _ kids _ _ =>
      obtain ⟨y, hy, h⟩ := kids x hx
      exact ⟨y, hy, ((hSI x hx y hy).2 h).symm⟩
  have hfrom : ∀ y ∈ k.kids, ∃ x ∈ s.kids, uid d (.node sn) x = uid d (.node sn) y := by
    intro y hy
    cases hsame.2 with
    | mk _ _ _ kids _ _ =>
      obtain ⟨x, hx, h⟩ := kids y hy
      exact ⟨x, hx, (hSI x hx y hy).2 h.symm⟩
  have hN : ∀ o ∈ D.kids, ∀ f, d.lookup (.node sn) o.tag = .ok f → NewOk ω d (.node sn) f o o :=
    fun o ho f hf => new_self o hk (hsub o ho) hf
  have hvD : Valid d (.node sn) D := by
    refine valid_of_nodup (by rw [hDa]; simp) ?_ ?_ ?_
    · intro o ho
      exact hk.valid.shape' o (hsub o ho)
    · rw [hDk]
      exact hk.valid.indexable.nodup.sublist (List.filter_sublist.map _)
    · intro o ho f hf
      exact hk.valid.sub' o (hsub o ho) f hf
  have hlD : Deep d (DeltaLevel d) (.node sn) D := by
    refine ⟨⟨hk.level.here'.nsmap, fun o ho => hk.valid.shape' o (hsub o ho), ?_, ?_⟩, ?_⟩
    · intro o ho f hf hn q hq
      have := (hleaf o ho f hf).2
      rw [hn] at this; cases this
    · intro o ho f hf hn
      exact (hN o ho f hf).value hn
    · intro o ho f hf
      exact (hN o ho f hf).deep
  refine ⟨rfl, rfl, rfl, Or.inr ⟨hDa, .mk ⟨hs.valid, hs.ns, hk.valid, hvD, hlD, hs.bare, hk.bare, ht, ?_,
    fun x hx => hs.cell hx, fun y hy => hk.cell hy, ?_, ?_, ?_, ?_, ?_, ?_, ?_, ?_, ?_, ?_, ?_, ?_⟩ ?_ ?_ ?_ ?_, ?_⟩, hQ⟩
  · cases hsame.1; assumption
  · intro o ho; exact Or.inl ⟨o, hsub o ho, rfl⟩
  · intro x hx habs
    obtain ⟨y, hy, h⟩ := hto x hx
    exact absurd h (habs y hy)
  · intro x hx habs
    obtain ⟨y, hy, h⟩ := hto x hx
    exact absurd h (habs y hy)
  · intro y hy habs
    obtain ⟨x, hx, h⟩ := hfrom y hy
    exact absurd h (habs x hx)
  · intro y hy habs
    obtain ⟨x, hx, h⟩ := hfrom y hy
    exact absurd h (habs x hx)
  · intro x hx y hy o ho hxu hou f hf
    obtain rfl := hinj o (hsub o ho) y hy hou
    obtain ⟨hkey, hn⟩ := hleaf o ho f hf
    refine ⟨fun _ => ?_, ?_, ?_⟩
    · exact (both_leaf (Q := .just q) hs hk hc hx hy hxu hf hn (Or.inl rfl) (Or.inl hkey) trivial).leaf hn
    · intro h; rw [hn] at h; cases h
    · rintro (h | h) <;> rw [hn] at h <;> cases h
  · intro x hx y hy hxu _ f hf
    refine ⟨?_, ?_⟩
    · cases hsame.1 with
      | mk _ _ _ _ sub _ =>
        exact sub x hx y hy ((hSI x hx y hy).1 hxu) f (by rw [tag_of_uid hxu]; exact hf)
    · cases hsame.2 with
      | mk _ _ _ _ sub _ =>
        exact sub y hy x hx ((hSI x hx y hy).1 hxu).symm f hf
  · intro o ho y hy hou f hf _ hn
    obtain rfl := hinj o (hsub o ho) y hy hou
    have := (hleaf o ho f hf).2
    rcases hn with h | h <;> rw [this] at h <;> cases h
  · intro _ t ht'
    exact Ends.same hk.valid.indexable.nodup (targetOf_same hs.valid hk.valid hsame ht')
  · intro t ht'
    exact Or.inr (targetOf_same hs.valid hk.valid hsame ht')
  · rw [hDk]
    exact List.filter_sublist.trans (List.filter_sublist.map _)
  · intro x hx y hy o ho hxu hou
    obtain rfl := hinj o (hsub o ho) y hy hou
    exact ⟨rfl, rfl⟩
  · intro x hx habs
    obtain ⟨y, hy, h⟩ := hto x hx
    exact absurd h (habs y hy)
  · intro y hy habs
    obtain ⟨x, hx, h⟩ := hfrom y hy
    exact absurd h (habs x hx)
  · intro y hy habs
    obtain ⟨x, hx, h⟩ := hfrom y hy
    exact absurd h (habs x hx)
  · intro x hx y hy o ho hxu hou hop f hf hn
    obtain rfl := hinj o (hsub o ho) y hy hou
    have := (hleaf o ho f hf).2
    rcases hn with h | h <;> rw [this] at h <;> cases h
  · intro x hx y hy hxu f hf hkey hn hp
    have hyD : y ∈ D.kids := by
      rw [hDk]
      refine List.mem_filter.2 ⟨hy, ?_⟩
      unfold isKeyKid; simp only [hf]; exact hkey
    have huq : ∀ z ∈ D.kids, z.tag = y.tag → z = y := by
      intro z hz hzt
      exact hinj z (hsub z hz) y hy (uid_leaf (by rw [hzt]; exact hf) hn hzt)
    have hnd : D.kids.Nodup := List.Nodup.of_map _ hvD.indexable.nodup
    unfold Elem.childrenWith
    obtain ⟨l, r, hlr⟩ := List.append_of_mem hyD
    rw [hlr] at hnd huq ⊢
    rw [List.filter_append, List.filter_cons, if_pos (by simp)]
    have h1 : l.filter (fun x => x.tag = y.tag) = [] := by
      rw [List.filter_eq_nil_iff]
      intro x hx
      simp only [decide_eq_true_eq]
      intro ht
      have := huq x (by simp [hx]) ht
      subst this
      exact (List.nodup_append.1 hnd).2.2 x hx x (by simp) rfl
    have h2 : r.filter (fun x => x.tag = y.tag) = [] := by
      rw [List.filter_eq_nil_iff]
      intro x hx
      simp only [decide_eq_true_eq]
      intro ht
      have := huq x (by simp [hx]) ht
      subst this
      exact (List.nodup_cons.1 (List.nodup_append.1 hnd).2.1).1 hx
    rw [h1, h2]; rfl

/-- A container or list entry on both sides. -/
theorem both_tree (hS : Side d sc S) (hT : Side d sc T) (hs : s ∈ S.kids)
    (hk : k ∈ T.kids) (hu : uid d sc s = uid d sc k) (hf : d.lookup sc k.tag = .ok f)
    (hn : f.node.ntype = .container ∨ f.node.ntype = .list) (hfull : Full d f k) (hw : Worth d f s k) {D : Elem}
    (hD : SubOk ω d Q.tree (.node f.node) s k D) : BothOk ω d Q sc f s k D := by
  have hst := tag_of_uid hu
  have hfs : d.lookup sc s.tag = .ok f := by rw [hst]; exact hf
  have hN := new_self (ω := ω) k hT hk hf
  have hkid := hT.kid hk hf
  have hsk := hS.sub hs hfs
  have hkk := hT.sub hk hf
  have hnl : f.node.ntype ≠ .leaf := by rintro h; rcases hn with h' | h' <;> rw [h] at h' <;> cases h'
  have hnll : f.node.ntype ≠ .leafList := by rintro h; rcases hn with h' | h' <;> rw [h] at h' <;> cases h'
  rcases hD.what with ⟨rfl, hne⟩ | ⟨ha, hdiff, hkeys⟩
  · have h := new_op (ω := ω) hT hk hf (s := "replace") (Or.inl rfl) (by simp)
    refine ⟨h.tag, h.nsmap, h.text, h.names, h.uid, h.kid, h.valid, h.deep, h.value, h.keys, ?_,
      fun h => absurd h hnl, fun h => absurd h hnll, fun _ => Or.inr ⟨opOf_setOp _ _, h.copy, ?_, by cases k; rfl⟩,
      fun _ h => absurd h hnl, fun _ => hD.carried, fun h => h.elim (fun h => absurd h hnl) (fun h => absurd h hnll), hw⟩
    · intro hl q hq c hc
      unfold KidOk at hkid
      simp only [hl] at hkid
      obtain ⟨c', hc'⟩ := hkid.2.2.1 q hq
      rw [hc'] at hc
      simp only [List.mem_singleton] at hc
      subst hc
      exact ⟨c, hc', rfl, rfl⟩
    · intro hnp
      exact hne _ rfl hnp
  · have hkey : f.node.ntype = .list → ∀ q ∈ f.node.keys, ∃ c, k.childrenWith q = [c] ∧ D.childrenWith q = [c] := by
      intro hl q hq
      have hkid' := hkid
      unfold KidOk at hkid'
      simp only [hl] at hkid'
      obtain ⟨c, hc⟩ := hkid'.2.2.1 q hq
      have hskid := hS.kid hs hfs
      unfold KidOk at hskid
      simp only [hl] at hskid
      obtain ⟨cs, hcs⟩ := hskid.2.2.1 q hq
      obtain ⟨g, hg, hgl, hgp, hgk⟩ := hT.level.here'.keys k hk f hf hl q hq
      obtain ⟨hcm, hct⟩ := childrenWith_single hc
      obtain ⟨hcsm, hcst⟩ := childrenWith_single hcs
      have hsame := ((uid_eq_iff hfs (hS.kid hs hfs) hkid hst).1 hu).2 f hfs
      simp only [hl] at hsame
      have htx := hsame q hq
      simp only [keyTexts, hc, hcs, List.map_cons, List.map_nil, List.cons.injEq, and_true] at htx
      have hp : parseText d cs g.node = parseText d c g.node := by
        obtain ⟨g', hg', _, hgp', _⟩ := hS.level.here'.keys s hs f hfs hl q hq
        rw [hg] at hg'; cases hg'
        exact parseText_key (by rw [hgl]; decide) (hgp c (by rw [hc]; simp)) (hgp' cs (by rw [hcs]; simp)) htx
          (hcst.trans hct.symm)
      refine ⟨c, hc, ?_⟩
      have := hkeys cs hcsm c hcm (uid_leaf (by rw [hcst]; exact hg) hgl (hcst.trans hct.symm)) g
        (by rw [hct]; exact hg) hgk hgl hp
      rw [hct] at this; exact this
    have hDkid : KidOk d f.node D := by
      unfold KidOk at hkid ⊢
      rcases hn with hn | hn
      · simp only [hn] at hkid ⊢; exact hkid
      · simp only [hn] at hkid ⊢
        refine ⟨by rw [hD.text]; exact hkid.1, hkid.2.1, ?_, hkid.2.2.2⟩
        intro q hq
        obtain ⟨c, _, hc⟩ := hkey hn q hq
        exact ⟨c, hc⟩
    have hDu : uid d sc D = uid d sc k := by
      rw [uid_eq_iff (f := f) (by rw [hD.tag]; exact hf) hDkid hkid hD.tag]
      refine ⟨hD.tag, fun g hg => ?_⟩
      obtain rfl : f = g := Except.ok.inj (hf.symm.trans (by rw [← hD.tag]; exact hg))
      rcases hn with hn | hn
      · simp only [hn]
      · simp only [hn]
        intro q hq
        obtain ⟨c, h1, h2⟩ := hkey hn q hq
        simp [keyTexts, h1, h2]
    refine ⟨hD.tag, hD.nsmap, hD.text, by rw [ha]; simp, hDu, hDkid, hdiff.base'.vD, hdiff.base'.lD,
      fun h => absurd h hnl, ?_, ?_, fun h => absurd h hnl, fun h => absurd h hnll,
      fun _ => Or.inl ⟨opOf_bare ha, ?_, hdiff⟩, fun _ h => absurd h hnl, fun _ => hD.carried,
      fun h => h.elim (fun h => absurd h hnl) (fun h => absurd h hnll), hw⟩
    · intro hl q hq c hc
      obtain ⟨c', h1, h2⟩ := hkey hl q hq
      rw [h2] at hc
      simp only [List.mem_singleton] at hc
      subst hc
      exact opOf_bare (hkk.attrs (childrenWith_single h1).1)
    · intro hl q hq c hc
      obtain ⟨c', h1, h2⟩ := hkey hl q hq
      rw [h1] at hc
      simp only [List.mem_singleton] at hc
      subst hc
      exact ⟨c, h2, rfl, rfl⟩
    · intro hnp
      exact hfull.1 hnp

end

/-- What a child that only the target has is in the delta, if the diff type is not `replace`. -/
def freshKid (d : Device) (opts : Opts) (f : Found) (k : Elem) : Except Err Elem :=
  match opts.create with
  | .merge => .ok k
  | .replace => .ok (setOp k "replace")
  | .create => setCreate d f k

/-- Statements about the parts of a computed delta. -/
structure Carrier where
  /-- nodes that both sides have, by depth -/
  node : Nat → Scope → Elem → Elem → Elem → Prop
  fresh : Found → Elem → Elem → Prop
  mark : Found → Elem → Elem → Prop
  plain : Nat → Found → Elem → Elem → Elem → Prop

/-- The statements about the children of a node at depth `n`. -/
def Carrier.kids (q : Carrier) (n : Nat) : Carried := ⟨q.node (n + 1), q.fresh, q.mark, q.plain n⟩

/-- `q` holds for what a computed delta can be. -/
structure Carry (d : Device) (opts : Opts) (q : Carrier) : Prop where
  whole : ∀ {n : Nat} {sc : Scope} {S T : Elem},
    (opts.replace = .replace ∧ leafListsDiffer d sc T.kids S.kids T.kids = .ok true) ∨
      (opts.diffType = .replace ∧ n = opts.replaceDepth + 1) →
    Side d sc S → Side d sc T → q.node n sc S T (setOp T "replace")
  keys : ∀ {n : Nat} {sn : SNode} {s k : Elem}, (opts.diffType = .replace → n ≤ opts.replaceDepth) →
    Side d (.node sn) s → Side d (.node sn) k →
    SameConfig d (.node sn) s k → q.node n (.node sn) s k (k.setKids (k.kids.filter (isKeyKid d sn)))
  level : ∀ {ω : Prop} {n : Nat} {sc : Scope} {S T : Elem} {φ : Nat → Option Elem} {M : List Elem}
    {obu : List (QName × OrderInfo)} {st st' : List Cell}, (opts.diffType = .replace → n ≤ opts.replaceDepth) →
    (opts.diffType ≠ .replace → opts.replace = .replace → leafListsDiffer d sc T.kids S.kids T.kids = .ok false) →
    Loops ω d (q.kids n) sc S T φ M obu st st' → q.node n sc S T (T.setKids (st'.map Prod.snd))
  new : ∀ {f : Found} {k x : Elem}, (opts.diffType = .replace → x = setOp k "replace") →
    (opts.diffType ≠ .replace → freshKid d opts f k = .ok x) → NoAttrs k → q.fresh f k x
  gone : ∀ {f : Found} {s m : Elem}, deleteMarker d opts f s = .ok m → q.mark f s m
  leaf : ∀ {n : Nat} {f : Found} {s k x : Elem}, ¬ (opts.diffType = .replace ∧ n = opts.replaceDepth) →
    (x = k ∧ (f.node.ntype = .leaf → opts.replace = .replace → parseText d s f.node = parseText d k f.node)) ∨
      (x = setOp k "replace" ∧ opts.replace = .replace ∧ f.node.ntype = .leaf ∧
        parseText d s f.node ≠ parseText d k f.node) → k.attrs = [] → q.plain n f s k x
  replaced : ∀ {n : Nat} {f : Found} {s k x : Elem}, opts.diffType = .replace → n = opts.replaceDepth →
    x = setOp k "replace" ∨ (x = k ∧ f.node.info.isKey = true ∧ f.node.ntype = .leaf) → q.plain n f s k x

/-- `q` holds for what each level of a computed delta can be. -/
structure CarryAll (d : Device) (whole : Prop) (q : Scope → Elem → Elem → Elem → Prop) : Prop where
  whole : ∀ {sc : Scope} {S T : Elem}, whole → Side d sc S → Side d sc T → q sc S T (setOp T "replace")
  keys : ∀ {sn : SNode} {s k : Elem}, Side d (.node sn) s → Side d (.node sn) k →
    SameConfig d (.node sn) s k → q (.node sn) s k (k.setKids (k.kids.filter (isKeyKid d sn)))
  level : ∀ {ω : Prop} {sc : Scope} {S T : Elem} {φ : Nat → Option Elem} {M : List Elem} {obu : List (QName × OrderInfo)}
    {st st' : List Cell}, Loops ω d (.just q) sc S T φ M obu st st' → q sc S T (T.setKids (st'.map Prod.snd))

theorem CarryAll.carry {d : Device} {opts : Opts} {q : Scope → Elem → Elem → Elem → Prop}
    (h : CarryAll d (opts.replace = .replace ∨ opts.diffType = .replace) q) :
    Carry d opts ⟨fun _ => q, fun _ _ _ => True, fun _ _ _ => True, fun _ _ _ _ _ => True⟩ where
  whole hw hS hT := h.whole (hw.imp (fun h => h.1) (fun h => h.1)) hS hT
  keys _ hs hk := h.keys hs hk
  level _ _ hL := h.level hL
  new _ _ _ := trivial
  gone _ := trivial
  leaf _ _ _ := trivial
  replaced _ _ _ := trivial

end NcDiff
