import Verif.Proof.Marker
import Verif.Spec.Shape
/-!
# Computing a delta: children that are new
-/

namespace NcDiff

variable {ω : Prop}

/-- The child `o` of a delta creates `k`. -/
structure NewOk (ω : Prop) (d : Device) (sc : Scope) (f : Found) (k o : Elem) : Prop where
  tag : o.tag = k.tag
  nsmap : o.nsmap = k.nsmap
  text : o.text = k.text
  names : (o.attrs.map Prod.fst).Nodup
  insert : insertOf o = none
  copy : o.delAttrib = k
  uid : uid d sc o = uid d sc k
  kid : KidOk d f.node o
  valid : Valid d (.node f.node) o
  deep : Deep d (DeltaLevel d) (.node f.node) o
  value : f.node.ntype = .leaf → LeafValueOk f.node o
  keys : f.node.ntype = .list → ∀ q ∈ f.node.keys, ∀ c ∈ o.childrenWith q, opOf c = "merge"
  op : opOf o = "merge" ∨ opOf o = "replace" ∨ opOf o = "create"
  cont : opOf o = "merge" → f.node.ntype = .container →
    Diff ω d (.node f.node) (Elem.new o.tag o.nsmap) k o
  list : opOf o = "merge" → f.node.ntype = .list →
    ∀ sk, listSkeleton f.node.keys o = .ok sk → Diff ω d (.node f.node) sk k o
  clean : NoDelete o
  whole : (opOf o ≠ "merge" → o.kids = k.kids) ∧ (opOf o = "create" → f.node.isNP = false)

theorem isDelete_op {o : Elem} : IsDelete o ↔ opOf o = "delete" ∨ opOf o = "remove" := by
  unfold IsDelete HasOp opOf
  cases h : o.get .operation with
  | none => simp
  | some v => cases v <;> simp

theorem noDelete_bare : ∀ {o : Elem}, NoAttrs o → NoDelete o := by
  intro o
  induction o using Elem.ind with
  | h t n a x ks ih =>
    intro h
    refine ⟨?_, fun k hk => ih k hk (h.sub' k hk)⟩
    rw [isDelete_op, opOf_bare h.here']
    decide

/-- The kids of an element, created one by one. -/
abbrev NewKids (ω : Prop) (d : Device) (sc : Scope) (ks os : List Elem) : Prop :=
  List.Forall₂ (fun k o => ∃ g, d.lookup sc k.tag = .ok g ∧ NewOk ω d sc g k o) ks os

section
variable {d : Device} {sc : Scope} {k o : Elem}

theorem newKids_facts (hs : Side d sc k) (hnm : o.nsmap = k.nsmap)
    (hnames : (o.attrs.map Prod.fst).Nodup) (h : NewKids ω d sc k.kids o.kids) :
    Valid d sc o ∧ Deep d (DeltaLevel d) sc o ∧
      k.kids.map (uid d sc) = o.kids.map (uid d sc) := by
  have hm : ∀ x ∈ o.kids, ∃ y ∈ k.kids, ∃ g, d.lookup sc y.tag = .ok g ∧
      NewOk ω d sc g y x := forall₂_mem_right h
  have hmap : k.kids.map (uid d sc) = o.kids.map (uid d sc) := by
    refine forall₂_map_eq h ?_
    rintro y _ x _ ⟨g, _, hx⟩
    exact hx.uid.symm
  have hshape : ∀ x ∈ o.kids, ∃ f, d.lookup sc x.tag = .ok f ∧ KidOk d f.node x := by
    intro x hx
    obtain ⟨k, hk, g, hg, hM⟩ := hm x hx
    exact ⟨g, by rw [hM.tag]; exact hg, hM.kid⟩
  refine ⟨?_, ⟨⟨by rw [hnm]; exact hs.level.here'.nsmap, hshape, ?_, ?_⟩, ?_⟩, hmap⟩
  · refine valid_of_nodup hnames hshape ?_ ?_
    · rw [← hmap]; exact hs.valid.indexable.nodup
    · intro x hx f hf
      obtain ⟨k, hk, g, hg, hM⟩ := hm x hx
      rw [hM.tag, hg] at hf; cases hf
      exact hM.valid
  · intro x hx f hf hn q hq
    obtain ⟨k, hk, g, hg, hM⟩ := hm x hx
    obtain rfl : f = g := Except.ok.inj (hf.symm.trans (by rw [hM.tag]; exact hg))
    obtain ⟨g', h1, h2, h3, _⟩ := hs.level.here'.keys k hk f hg hn q hq
    refine ⟨⟨g', h1, h2, fun c hc => ?_⟩, hM.keys hn q hq⟩
    have h4 := delAttrib_childrenWith x q
    rw [hM.copy] at h4
    exact (h3 c.delAttrib (by rw [h4]; exact List.mem_map_of_mem hc)).congr (delAttrib_text c).symm (delAttrib_tag c).symm
      (delAttrib_nsmap c).symm
  · intro x hx f hf hn
    obtain ⟨k, hk, g, hg, hM⟩ := hm x hx
    rw [hM.tag, hg] at hf; cases hf
    exact hM.value hn
  · intro x hx f hf
    obtain ⟨k, hk, g, hg, hM⟩ := hm x hx
    rw [hM.tag, hg] at hf; cases hf
    exact hM.deep

theorem fresh_value {sn : SNode} (hc : sn.ntype = .container) (hp : sn.info.datatype.plain) :
    parseTextAt d (.node sn) (Elem.new o.tag o.nsmap) = parseTextAt d (.node sn) k := by
  rw [parseTextAt_eq, parseTextAt_eq]
  have : parseText d k sn = .ok none := by
    unfold parseText
    cases k.text with
    | none => rfl
    | some t => cases hd : sn.info.datatype <;> simp_all [DType.plain]
  rw [this]; rfl

/-- A container that is built from nothing. -/
theorem diff_fresh {m : NsMap} (hs : Side d sc k)
    (hval : parseTextAt d sc (Elem.new o.tag m) = parseTextAt d sc k) (hm : NsMapOk m)
    (ht : o.tag = k.tag) (hnm : o.nsmap = k.nsmap)
    (hnames : (o.attrs.map Prod.fst).Nodup) (h : NewKids ω d sc k.kids o.kids) :
    Diff ω d sc (Elem.new o.tag m) k o := by
  obtain ⟨hv, hd, hmap⟩ := newKids_facts hs hnm hnames h
  have hinj : ∀ x ∈ o.kids, ∀ y ∈ o.kids, uid d sc x = uid d sc y → x = y :=
    fun x hx y hy h => List.inj_on_of_nodup_map hv.indexable.nodup hx hy h
  have hof : ∀ y ∈ k.kids, ∀ x ∈ o.kids, uid d sc x = uid d sc y →
      ∀ f, d.lookup sc y.tag = .ok f → NewOk ω d sc f y x := by
    intro y hy x hx hu f hf
    obtain ⟨x', hx', g, hg, hM⟩ := forall₂_mem_left h y hy
    rw [hf] at hg; cases hg
    rw [hinj x hx x' hx' (hu.trans hM.uid.symm)]
    exact hM
  have hk0 : (Elem.new o.tag m).kids = [] := rfl
  refine .mk ⟨valid_childless (by simp [Elem.new]) rfl, ⟨?_, by simp [hk0]⟩, hs.valid, hv, hd,
    ⟨rfl, by simp [hk0]⟩, hs.bare, ht, ?_, by simp [hk0], fun y hy => hs.cell hy, ?_, by simp [hk0],
    by simp [hk0], ?_, ?_, by simp [hk0], by simp [hk0], ?_,
    fun _ t _ => Ends.fresh hs.valid.indexable.nodup hmap.symm (by simp [hk0]), ?_, ?_, by simp [hk0]⟩ (by simp [hk0]) ?_ ?_ (by simp [hk0])
  · exact ⟨hm, by simp [hk0]⟩
  · exact hval
  · intro x hx
    obtain ⟨y, hy, g, hg, hM⟩ := forall₂_mem_right h x hx
    exact Or.inl ⟨y, hy, hM.uid.symm⟩
  · intro y hy _
    obtain ⟨x, hx, g, hg, hM⟩ := forall₂_mem_left h y hy
    exact ⟨x, hx, hM.uid⟩
  · intro y hy _ x hx hu f hf
    have hM := hof y hy x hx hu f hf
    exact ⟨hM.op, fun _ => hM.copy, hM.whole⟩
  · intro x hx y hy hu f hf _ _
    have hM := hof y hy x hx hu f hf
    exact Or.inr (Or.inr ⟨hM.insert, Or.inl (by simp [hk0])⟩)
  · intro t _
    left
    intro y hy _
    obtain ⟨x, hx, g, hg, hM⟩ := forall₂_mem_left h y hy
    exact ⟨x, hx, hM.uid⟩
  · rw [hmap]; exact List.filter_sublist
  · intro y hy _ x hx hu hop f hf hn
    exact (hof y hy x hx hu f hf).cont hop hn
  · intro y hy _ x hx hu hop f hf hn
    exact (hof y hy x hx hu f hf).list hop hn

end

theorem insertOf_bare {e : Elem} (h : e.attrs = []) : insertOf e = none := by
  unfold insertOf Elem.get; rw [h]; rfl

/-- A list entry that is built from its keys. -/
theorem diff_skeleton {d : Device} {sc : Scope} {e k sk : Elem} {f : Found} (hs : Side d sc e) (hk : k ∈ e.kids)
    (hf : d.lookup sc k.tag = .ok f) (hn : f.node.ntype = .list)
    (h : NewKids ω d (.node f.node) k.kids k.kids) (hsk : listSkeleton f.node.keys k = .ok sk) :
    Diff ω d (.node f.node) sk k k := by
  have hkid := hs.kid hk hf
  have hkid' := hkid
  unfold KidOk at hkid'
  simp only [hn] at hkid'
  have hsk' := hs.sub hk hf
  have hL := hs.level.here'
  have hbk : k.attrs = [] := hsk'.bare.here'
  obtain ⟨hv, hd, _⟩ := newKids_facts hsk' rfl (by rw [hbk]; simp) h
  have hinj : ∀ x ∈ k.kids, ∀ y ∈ k.kids, uid d (.node f.node) x = uid d (.node f.node) y → x = y :=
    fun x hx y hy h => List.inj_on_of_nodup_map hv.indexable.nodup hx hy h
  have hself : ∀ y ∈ k.kids, ∀ g, d.lookup (.node f.node) y.tag = .ok g → NewOk ω d (.node f.node) g y y := by
    intro y hy g hg
    obtain ⟨x', hx', g', hg', hM⟩ := forall₂_mem_left h y hy
    rw [hg] at hg'; cases hg'
    rw [hinj x' hx' y hy hM.uid] at hM
    exact hM
  have hkp : KeysPlain d f k := by
    intro _ q hq
    obtain ⟨g, h1, h2, h3, _⟩ := hL.keys k hk f hf hn q hq
    refine ⟨⟨g, h1, h2, h3⟩, ?_⟩
    intro c hc
    have : c ∈ k.kids := by simp [Elem.childrenWith] at hc; exact hc.1
    exact opOf_bare (hsk'.attrs this)
  obtain ⟨s1, s2, s3, s4, _⟩ := listSkeleton_ok hsk
  have hkids : sk.kids = f.node.keys.map (fun q => ((k.find q).getD default).delAttrib) :=
    skeleton_kids hsk hkid'.2.2.1
  have hmem : ∀ x ∈ sk.kids, ∃ q ∈ f.node.keys, x ∈ k.kids ∧ x.tag = q ∧
      ∃ g, d.lookup (.node f.node) x.tag = .ok g ∧ g.node.ntype = .leaf ∧ mergeText d g.node x x = .ok x := by
    intro x hx
    rw [hkids] at hx
    obtain ⟨q, hq, rfl⟩ := List.mem_map.1 hx
    obtain ⟨c, hc⟩ := hkid'.2.2.1 q hq
    obtain ⟨h1, h2⟩ := childrenWith_single hc
    have h3 : ((k.find q).getD default).delAttrib = c := by
      rw [find_childrenWith hc]
      exact noAttrs_delAttrib (hsk'.bare.sub' c h1)
    obtain ⟨g, hg, hgl, hgp, _⟩ := hL.keys k hk f hf hn q hq
    rw [h3]
    have hg' : d.lookup (.node f.node) c.tag = .ok g := by rw [h2]; exact hg
    have hkc := hsk'.kid h1 hg'
    unfold KidOk at hkc
    simp only [hgl] at hkc
    have hko := hgp c (by rw [hc]; simp)
    exact ⟨q, hq, h1, h2, g, hg', hgl, mergeText_key_ok hko hko.honest rfl rfl hkc.2⟩
  have hnd : (sk.kids.map (uid d (.node f.node))).Nodup := by
    have htags : sk.kids.map Elem.tag = f.node.keys := by
      rw [hkids, List.map_map]
      conv_rhs => rw [← List.map_id f.node.keys]
      refine List.map_congr_left ?_
      intro q hq
      obtain ⟨c, hc⟩ := hkid'.2.2.1 q hq
      simp only [Function.comp, id]
      rw [find_childrenWith hc, delAttrib_tag]
      exact (childrenWith_single hc).2
    refine List.Nodup.of_map (f := Prod.fst) ?_
    rw [List.map_map]
    have : (Prod.fst ∘ uid d (.node f.node)) = Elem.tag := by
      funext y; exact uid_tag _ _ _
    rw [this, htags]
    exact hL.keysOnce k hk f hf hn
  obtain ⟨sv, sns, _⟩ := skeleton_valid hf hn hkid hkp hsk'.valid hsk'.ns hsk hnd
  have hleaf : ∀ s ∈ sk.kids, ∀ t g, d.lookup (.node f.node) t = .ok g →
      (g.node.ntype = .leafList ∨ g.node.ntype = .list) → s.tag ≠ t := by
    intro s hs t g hg hgn hst
    obtain ⟨q, hq, h1, h2, g', hg', hgl, _⟩ := hmem s hs
    rw [hst, hg] at hg'; cases hg'
    rcases hgn with h | h <;> rw [hgl] at h <;> cases h
  refine .mk ⟨sv, sns, hsk'.valid, hv, hd, ⟨s3, fun x hx => ?_⟩, hsk'.bare, s1, ?_, ?_,
    fun y hy => hsk'.cell hy, ?_, ?_, ?_, ?_, ?_, ?_, ?_, ?_, ?_, ?_, ?_, ?_⟩ ?_ ?_ ?_ ?_
  · obtain ⟨q, hq, h1, _⟩ := hmem x hx
    exact hsk'.bare.sub' x h1
  · rw [parseTextAt_eq, parseTextAt_eq]
    unfold parseText
    rw [s4, hkid'.1]
  · intro x hx
    obtain ⟨q, hq, h1, _⟩ := hmem x hx
    exact hsk'.cell h1
  · intro x hx; exact Or.inl ⟨x, hx, rfl⟩
  · intro x hx hno
    obtain ⟨q, hq, h1, _⟩ := hmem x hx
    exact absurd rfl (hno x h1)
  · intro x hx hno
    obtain ⟨q, hq, h1, _⟩ := hmem x hx
    exact absurd rfl (hno x h1)
  · intro y hy _; exact ⟨y, hy, rfl⟩
  · intro y hy _ x hx hu g hg
    rw [hinj x hx y hy hu]
    have := hself y hy g hg
    exact ⟨this.op, fun _ => this.copy, this.whole⟩
  · intro s hs y hy x hx h1 h2 g hg
    obtain rfl := hinj x hx y hy h2
    obtain ⟨q, hq, h3, h4, g', hg', hgl, hgp⟩ := hmem s hs
    obtain rfl := hinj s h3 x hx h1
    rw [hg] at hg'; cases hg'
    refine ⟨fun _ => ⟨Or.inl (opOf_bare (hsk'.attrs h3)), _, hgp, rfl⟩, ?_, ?_⟩
    · intro h; rw [hgl] at h; cases h
    · rintro (h | h) <;> rw [hgl] at h <;> cases h
  · intro s hs y hy h1 h2
    exact absurd rfl (h2 y hy)
  · intro x hx y hy hu g hg _ hgn
    obtain rfl := hinj x hx y hy hu
    exact Or.inr (Or.inr ⟨insertOf_bare (hsk'.attrs hx), Or.inl (fun s hs => hleaf s hs _ g hg hgn.symm.symm)⟩)
  · rintro _ t ⟨g, hg, _, hgn⟩
    exact Ends.fresh hsk'.valid.indexable.nodup rfl (fun s hs => hleaf s hs t g hg hgn)
  · exact fun t _ => Or.inl (fun y hy _ => ⟨y, hy, rfl⟩)
  · exact List.filter_sublist
  · intro s hs y hy x hx h1 h2
    obtain rfl := hinj x hx y hy h2
    exact ⟨rfl, rfl⟩
  · intro x hx hno
    obtain ⟨q, hq, h1, _⟩ := hmem x hx
    exact absurd rfl (hno x h1)
  · intro y hy _ x hx hu hop g hg hgn
    obtain rfl := hinj x hx y hy hu
    exact (hself x hx g hg).cont hop hgn
  · intro y hy _ x hx hu hop g hg hgn
    obtain rfl := hinj x hx y hy hu
    exact (hself x hx g hg).list hop hgn
  · intro s hs y hy x hx h1 h2 hop g hg hgn
    obtain ⟨q, hq, h3, h4, g', hg', hgl, hgp⟩ := hmem s hs
    have h5 := tag_of_uid h1
    rw [h5, hg] at hg'; cases hg'
    rcases hgn with h | h <;> rw [hgl] at h <;> cases h

/-- A child that is merged as it is. -/
theorem new_self {d : Device} : ∀ (k : Elem) {sc : Scope} {e : Elem} {f : Found}, Side d sc e →
    k ∈ e.kids → d.lookup sc k.tag = .ok f → NewOk ω d sc f k k := by
  intro k
  induction k using Elem.ind with
  | h t n a x ks ih =>
    intro sc e f hs hk hf
    set k : Elem := .mk t n a x ks with hkdef
    have hsk := hs.sub hk hf
    have hb : k.attrs = [] := hsk.bare.here'
    have hkids : NewKids ω d (.node f.node) k.kids k.kids := by
      refine List.forall₂_same.2 ?_
      intro y hy
      obtain ⟨g, hg, _⟩ := hsk.valid.shape' y hy
      exact ⟨g, hg, ih y hy hsk hy hg⟩
    have hkid := hs.kid hk hf
    obtain ⟨hv, hd, _⟩ := newKids_facts hsk rfl (by rw [hb]; simp) hkids
    refine ⟨rfl, rfl, rfl, by rw [hb]; simp, insertOf_bare hb, noAttrs_delAttrib hsk.bare, rfl, hkid, hv, hd,
      fun h => hs.level.here'.values k hk f hf (Or.inl h), ?_, Or.inl (opOf_bare hb), ?_, ?_,
      noDelete_bare hsk.bare, fun _ => rfl, fun h => absurd ((opOf_bare hb).symm.trans h) (by decide)⟩
    · intro hn q hq c hc
      have : c ∈ k.kids := by simp only [Elem.childrenWith, List.mem_filter] at hc; exact hc.1
      exact opOf_bare (hsk.attrs this)
    · intro _ hn
      unfold KidOk at hkid
      simp only [hn] at hkid
      exact diff_fresh hsk (fresh_value hn hkid) hsk.level.here'.nsmap rfl rfl (by rw [hb]; simp) hkids
    · intro _ hn sk hsk'
      exact diff_skeleton hs hk hf hn hkids hsk'

/-- A child that is created or replaced as a whole. -/
theorem new_op {d : Device} {k : Elem} {sc : Scope} {e : Elem} {f : Found} (hs : Side d sc e)
    (hk : k ∈ e.kids) (hf : d.lookup sc k.tag = .ok f) {s : String} (hop : s = "replace" ∨ s = "create")
    (hnp : s = "create" → f.node.isNP = false) :
    NewOk ω d sc f k (setOp k s) := by
  have h : NewOk ω d sc f k k := new_self k hs hk hf
  have hb : SameBody k (setOp k s) := SameBody.set _ _ _
  have hnm : opOf (setOp k s) ≠ "merge" := by
    rw [opOf_setOp]
    rcases hop with rfl | rfl <;> decide
  refine ⟨rfl, rfl, rfl, set_names h.names, ?_, ?_, (uid_body hb).symm, kidOk_body hb h.kid,
    valid_body hb (set_names h.names) h.valid, deltaLevel_body hb h.deep,
    fun hn => leafValue_body hb (h.value hn), ?_, ?_, fun h => absurd h hnm, fun h => absurd h hnm,
    ⟨by rw [isDelete_op, opOf_setOp]; rcases hop with rfl | rfl <;> decide, by cases h.clean; assumption⟩,
    fun _ => rfl, fun h => hnp (by rwa [opOf_setOp] at h)⟩
  · have := h.insert
    unfold insertOf at this ⊢
    unfold setOp
    rw [get_set]
    simpa using this
  · rw [← delAttrib_body hb]; exact h.copy
  · intro hn q hq c hc
    rw [← childrenWith_body hb] at hc
    exact h.keys hn q hq c hc
  · rw [opOf_setOp]; exact Or.inr hop

theorem setCreateKids_ok {d : Device} {sn : SNode} {dflts : List (List Nat)} {R : Elem → Elem → Prop} :
    ∀ (ks : List Elem), (∀ k ∈ ks, ∃ g, d.lookup (.node sn) k.tag = .ok g ∧ R k k ∧
      ∃ o, setCreate d g k = .ok o ∧ R k o) →
    ∃ os, setCreateKids d sn dflts ks = .ok os ∧ List.Forall₂ R ks os
  | [], _ => ⟨[], rfl, .nil⟩
  | k :: r, h => by
    obtain ⟨g, hg, h1, o, h2, h3⟩ := h k (by simp)
    obtain ⟨os, h4, h5⟩ := setCreateKids_ok (dflts := dflts) r (fun x hx => h x (by simp [hx]))
    rw [setCreateKids]
    by_cases hp : g.path ∈ dflts
    · exact ⟨k :: os, by simp [hg, hp, h4, bind, Except.bind, pure, Except.pure], .cons h1 h5⟩
    · exact ⟨o :: os, by simp [hg, hp, h2, h4, bind, Except.bind, pure, Except.pure], .cons h3 h5⟩

/-- `set_create_operation`. -/
theorem new_create {d : Device} : ∀ (k : Elem) {sc : Scope} {e : Elem} {f : Found}, Side d sc e →
    k ∈ e.kids → d.lookup sc k.tag = .ok f → ∃ o, setCreate d f k = .ok o ∧ NewOk ω d sc f k o := by
  intro k
  induction k using Elem.ind with
  | h t n a x ks ih =>
    intro sc e f hs hk hf
    rw [setCreate]
    by_cases hnp : f.node.isNP = true
    · have hn : f.node.ntype = .container := by
        by_contra h
        rw [notNP h] at hnp; cases hnp
      have hsk := hs.sub hk hf
      obtain ⟨os, h1, h2⟩ := setCreateKids_ok (d := d) (sn := f.node) (dflts := f.node.defaultInUse [])
        (R := fun k o => ∃ g, d.lookup (.node f.node) k.tag = .ok g ∧ NewOk ω d (.node f.node) g k o) ks (by
          intro y hy
          obtain ⟨g, hg, _⟩ := hsk.valid.shape' y hy
          obtain ⟨o, h3, h4⟩ := ih y hy hsk hy hg
          exact ⟨g, hg, ⟨g, hg, new_self y hsk hy hg⟩, o, h3, g, hg, h4⟩)
      have hb : a = [] := hsk.bare.here'
      have hkid := hs.kid hk hf
      have hkid' := hkid
      unfold KidOk at hkid'
      simp only [hn] at hkid'
      have h2' : NewKids ω d (.node f.node) (Elem.mk t n a x ks).kids (Elem.mk t n a x os).kids := h2
      have hnames : ((Elem.mk t n a x os).attrs.map Prod.fst).Nodup := by rw [Elem.attrs_mk, hb]; simp
      obtain ⟨hv, hd, _⟩ := newKids_facts hsk (o := .mk t n a x os) rfl hnames h2'
      have hkid2 : KidOk d f.node (.mk t n a x os) := by
        unfold KidOk; simp only [hn]; exact hkid'
      simp only [hnp, if_true, h1, bind, Except.bind, pure, Except.pure]
      refine ⟨_, rfl, rfl, rfl, rfl, hnames, insertOf_bare hb, ?_, ?_, hkid2, hv, hd, ?_, ?_,
        Or.inl (opOf_bare hb), ?_, ?_, ⟨by rw [isDelete_op, opOf_bare (e := .mk t n a x os) hb]; decide, ?_⟩,
        fun h => absurd (opOf_bare (e := .mk t n a x os) hb) h, fun h => absurd ((opOf_bare (e := .mk t n a x os) hb).symm.trans h) (by decide)⟩
      · rw [Elem.delAttrib, Elem.delAttribList_eq, hb]
        congr 1
        have := forall₂_map_eq (f := id) (g := Elem.delAttrib) h2 (by
          rintro y _ o _ ⟨g, _, hg⟩
          exact hg.copy.symm)
        rw [← this, List.map_id]
      · rw [uid_eq_iff (x := .mk t n a x os) (f := f) hf hkid2 hkid rfl]
        refine ⟨rfl, fun g hg => ?_⟩
        obtain rfl : f = g := Except.ok.inj (hf.symm.trans hg)
        simp only [hn]
      · intro h; rw [hn] at h; cases h
      · intro h; rw [hn] at h; cases h
      · intro _ _
        exact diff_fresh hsk (fresh_value hn hkid') hsk.level.here'.nsmap rfl rfl hnames h2'
      · intro _ h; rw [hn] at h; cases h
      · intro o ho
        obtain ⟨y, _, g, _, hg⟩ := forall₂_mem_right h2 o ho
        exact hg.clean
    · simp only [hnp]
      exact ⟨_, rfl, new_op hs hk hf (Or.inr rfl) fun _ => by simpa using hnp⟩

end NcDiff
