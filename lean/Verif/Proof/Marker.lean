import Verif.Proof.SubParts
/-!
# Computing a delta: delete markers
-/

namespace NcDiff

variable {ω : Prop}

theorem deleteKid_eq (d : Device) (opts : Opts) (ho : opts.delete = .delete) (sn : SNode) (o : Elem) :
    deleteKid d sn o = (do
      let f ← d.lookup (.node sn) o.tag
      deleteMarker d opts f o) := by
  cases o with
  | mk t n a x ks =>
    rw [deleteKid]
    cases hf : d.lookup (.node sn) t with
    | error y => simp [hf, bind, Except.bind]
    | ok f =>
      simp only [Elem.tag_mk, hf, bind, Except.bind]
      unfold deleteMarker
      simp only [ho, PrefDelete.str, Elem.tag_mk, Elem.nsmap_mk, Elem.kids_mk, and_true]
      cases f.node.ntype <;> rfl

/-- The marker says that `o` goes. -/
structure MarkerOk (ω : Prop) (d : Device) (sc : Scope) (f : Found) (o m : Elem) : Prop where
  tag : m.tag = o.tag
  nsmap : m.nsmap = o.nsmap
  uid : uid d sc m = uid d sc o
  kid : KidOk d f.node m
  valid : Valid d (.node f.node) m
  deep : Deep d (DeltaLevel d) (.node f.node) m
  value : f.node.ntype = .leaf → LeafValueOk f.node m
  keys : KeysPlain d f m
  op : ((opOf m = "delete" ∨ opOf m = "remove") ∧ (f.node.isNP = true → o.kids ≠ [])) ∨
    (opOf m = "merge" ∧ f.node.isNP = true ∧ Diff ω d (.node f.node) o (o.setKids []) m)

theorem opOf_setOp (e : Elem) (s : String) : opOf (setOp e s) = s := by
  unfold opOf setOp
  rw [get_set]
  simp

theorem opOf_setText (e : Elem) (t : Option String) : opOf (e.setText t) = opOf e := rfl
theorem opOf_setKids (e : Elem) (t : List Elem) : opOf (e.setKids t) = opOf e := rfl

theorem opOf_bare {e : Elem} (h : e.attrs = []) : opOf e = "merge" := by
  unfold opOf Elem.get; rw [h]; rfl

theorem setOp_new_names (t : QName) (n : NsMap) (s : String) :
    ((setOp (Elem.new t n) s).attrs.map Prod.fst).Nodup := by
  unfold setOp; exact set_names (by simp [Elem.new])

theorem delete_str (x : PrefDelete) : x.str = "delete" ∨ x.str = "remove" := by cases x <;> simp [PrefDelete.str]

theorem valid_childless {d : Device} {sc : Scope} {e : Elem} (ha : (e.attrs.map Prod.fst).Nodup)
    (hk : e.kids = []) : Valid d sc e := by
  refine Valid.mk ha ?_ (by rw [hk]; simp) ?_ <;> rw [hk] <;> simp

theorem deep_childless {d : Device} {sc : Scope} {e : Elem} (hn : NsMapOk e.nsmap) (hk : e.kids = []) :
    Deep d (DeltaLevel d) sc e := by
  refine ⟨⟨hn, ?_, ?_, ?_⟩, ?_⟩ <;> rw [hk] <;> simp

/-- A copy of a key leaf. -/
def keyCopy (q : QName) (c : Elem) : Elem := (Elem.new q c.nsmap).setText c.text

theorem keyCopies_ok {o : Elem} : ∀ (keys : List QName), (∀ q ∈ keys, ∃ c, o.childrenWith q = [c]) →
    ∃ ks, keyCopies keys o = .ok ks ∧
      List.Forall₂ (fun q x => ∃ c, o.childrenWith q = [c] ∧ x = keyCopy q c) keys ks
  | [], _ => ⟨[], rfl, .nil⟩
  | q :: r, h => by
    obtain ⟨ks, h1, h2⟩ := keyCopies_ok r (fun x hx => h x (by simp [hx]))
    obtain ⟨c, hc⟩ := h q (by simp)
    refine ⟨keyCopy q c :: ks, ?_, .cons ⟨c, hc, rfl⟩ h2⟩
    unfold keyCopies at h1 ⊢
    rw [List.mapM_cons, h1, find_childrenWith hc]
    rfl

theorem forall₂_mem_left {α β : Type} {R : α → β → Prop} {l : List α} {l' : List β}
    (h : List.Forall₂ R l l') : ∀ a ∈ l, ∃ b ∈ l', R a b := by
  induction h with
  | nil => simp
  | cons hr _ ih =>
    intro a ha
    rcases List.mem_cons.1 ha with rfl | ha
    · exact ⟨_, by simp, hr⟩
    · obtain ⟨b, hb, h⟩ := ih a ha
      exact ⟨b, by simp [hb], h⟩

theorem forall₂_mem_right {α β : Type} {R : α → β → Prop} {l : List α} {l' : List β}
    (h : List.Forall₂ R l l') : ∀ b ∈ l', ∃ a ∈ l, R a b := by
  induction h with
  | nil => simp
  | cons hr _ ih =>
    intro a ha
    rcases List.mem_cons.1 ha with rfl | ha
    · exact ⟨_, by simp, hr⟩
    · obtain ⟨b, hb, h⟩ := ih a ha
      exact ⟨b, by simp [hb], h⟩

theorem forall₂_map_eq {α β γ : Type} {f : α → γ} {g : β → γ} {R : α → β → Prop} {l : List α} {l' : List β}
    (h : List.Forall₂ R l l') (hR : ∀ a ∈ l, ∀ b ∈ l', R a b → f a = g b) : l.map f = l'.map g := by
  induction h with
  | nil => rfl
  | cons hr _ ih =>
    rw [List.map_cons, List.map_cons, hR _ (by simp) _ (by simp) hr,
      ih (fun a ha b hb => hR a (by simp [ha]) b (by simp [hb]))]

/-- The key copies of an entry, once each. -/
theorem copies_with {o : Elem} : ∀ {keys : List QName} {ks : List Elem}, keys.Nodup →
    List.Forall₂ (fun q x => ∃ c, o.childrenWith q = [c] ∧ x = keyCopy q c) keys ks →
    ∀ q ∈ keys, ∃ c, o.childrenWith q = [c] ∧ ks.filter (fun k => decide (k.tag = q)) = [keyCopy q c]
  | _, _, _, .nil, q, hq => by simp at hq
  | p :: r, x :: ks, hn, .cons ⟨c, hc, hx⟩ h, q, hq => by
    rw [List.nodup_cons] at hn
    have hxt : x.tag = p := by rw [hx]; rfl
    have hnone : ∀ y ∈ ks, y.tag ∈ r := by
      intro y hy
      obtain ⟨a, ha, c', _, rfl⟩ := forall₂_mem_right h y hy
      exact ha
    rw [List.filter_cons, hxt]
    rcases List.mem_cons.1 hq with rfl | hq
    · refine ⟨c, hc, ?_⟩
      rw [List.filter_eq_nil_iff.2 (by
        intro y hy
        simp only [decide_eq_true_eq]
        intro h2
        exact hn.1 (h2 ▸ hnone y hy))]
      simp [hx]
    · have : p ≠ q := by rintro rfl; exact hn.1 hq
      simp only [this, decide_false, Bool.false_eq_true, if_false]
      exact copies_with hn.2 h q hq

theorem deleteKids_ok {d : Device} {sn : SNode} {R : Elem → Elem → Prop} : ∀ (os : List Elem),
    (∀ o ∈ os, ∃ m, deleteKid d sn o = .ok m ∧ R o m) →
    ∃ ms, deleteKids d sn os = .ok ms ∧ List.Forall₂ R os ms
  | [], _ => ⟨[], rfl, .nil⟩
  | o :: r, h => by
    obtain ⟨m, h1, h2⟩ := h o (by simp)
    obtain ⟨ms, h3, h4⟩ := deleteKids_ok r (fun x hx => h x (by simp [hx]))
    refine ⟨m :: ms, ?_, .cons h2 h4⟩
    rw [deleteKids]
    simp [h1, h3, bind, Except.bind, pure, Except.pure]

theorem noAttrs_setKids {e : Elem} (h : NoAttrs e) : NoAttrs (e.setKids []) :=
  ⟨by simpa using h.here', by simp⟩

theorem parseTextAt_setKids {d : Device} {sc : Scope} {e : Elem} {ks : List Elem} :
    parseTextAt d sc (e.setKids ks) = parseTextAt d sc e := by cases e; rfl

/-- The delta that empties `o`. -/
theorem diff_deleted {d : Device} {sn : SNode} {o m : Elem} (ho : Side d (.node sn) o)
    (hmt : m.nsmap = o.nsmap) (ha : m.attrs = [])
    (h : List.Forall₂ (fun k x => ∃ g, d.lookup (.node sn) k.tag = .ok g ∧ MarkerOk ω d (.node sn) g k x)
      o.kids m.kids) : Valid d (.node sn) m ∧ Deep d (DeltaLevel d) (.node sn) m ∧
      Diff ω d (.node sn) o (o.setKids []) m := by
  have hm : ∀ x ∈ m.kids, ∃ k ∈ o.kids, ∃ g, d.lookup (.node sn) k.tag = .ok g ∧
      MarkerOk ω d (.node sn) g k x := forall₂_mem_right h
  have hmap : o.kids.map (uid d (.node sn)) = m.kids.map (uid d (.node sn)) := by
    refine forall₂_map_eq h ?_
    rintro k _ x _ ⟨g, _, hx⟩
    exact hx.uid.symm
  have hshape : ∀ x ∈ m.kids, ∃ f, d.lookup (.node sn) x.tag = .ok f ∧ KidOk d f.node x := by
    intro x hx
    obtain ⟨k, hk, g, hg, hM⟩ := hm x hx
    exact ⟨g, by rw [hM.tag]; exact hg, hM.kid⟩
  have hv : Valid d (.node sn) m := by
    refine valid_of_nodup (by rw [ha]; simp) hshape ?_ ?_
    · rw [← hmap]; exact ho.valid.indexable.nodup
    · intro x hx f hf
      obtain ⟨k, hk, g, hg, hM⟩ := hm x hx
      rw [hM.tag, hg] at hf; cases hf
      exact hM.valid
  have hd : Deep d (DeltaLevel d) (.node sn) m := by
    refine ⟨⟨by rw [hmt]; exact ho.level.here'.nsmap, hshape, ?_, ?_⟩, ?_⟩
    · intro x hx f hf hn q hq
      obtain ⟨k, hk, g, hg, hM⟩ := hm x hx
      obtain rfl : f = g := Except.ok.inj (hf.symm.trans (by rw [hM.tag]; exact hg))
      exact hM.keys hn q hq
    · intro x hx f hf hn
      obtain ⟨k, hk, g, hg, hM⟩ := hm x hx
      rw [hM.tag, hg] at hf; cases hf
      exact hM.value hn
    · intro x hx f hf
      obtain ⟨k, hk, g, hg, hM⟩ := hm x hx
      rw [hM.tag, hg] at hf; cases hf
      exact hM.deep
  refine ⟨hv, hd, ?_⟩
  have hinj : ∀ x ∈ m.kids, ∀ y ∈ m.kids, uid d (.node sn) x = uid d (.node sn) y → x = y :=
    fun x hx y hy h => List.inj_on_of_nodup_map hv.indexable.nodup hx hy h
  have hof : ∀ s ∈ o.kids, ∀ x ∈ m.kids, uid d (.node sn) x = uid d (.node sn) s →
      ∀ f, d.lookup (.node sn) s.tag = .ok f → MarkerOk ω d (.node sn) f s x := by
    intro s hs x hx hu f hf
    obtain ⟨x', hx', g, hg, hM⟩ := forall₂_mem_left h s hs
    rw [hf] at hg; cases hg
    rw [hinj x hx x' hx' (hu.trans hM.uid.symm)]
    exact hM
  refine .mk ⟨ho.valid, ho.ns, ?_, hv, hd, ho.bare, noAttrs_setKids ho.bare, rfl,
    parseTextAt_setKids.symm, fun s hs => ho.cell hs, by simp, ?_, ?_, ?_, by simp, by simp, by simp,
    by simp, by simp, fun _ t _ => by simp [Ends, targetOf, staysOf, addsOf, movesOf], fun t _ => by simp, by simp,
    by simp⟩ ?_ (by simp) (by simp) (by simp)
  · exact valid_childless (by rw [Elem.attrs_setKids, ho.bare.here']; simp) rfl
  · intro x hx
    obtain ⟨k, hk, g, hg, hM⟩ := hm x hx
    exact Or.inr ⟨k, hk, hM.uid.symm⟩
  · intro s hs _
    obtain ⟨x, hx, g, hg, hM⟩ := forall₂_mem_left h s hs
    exact ⟨x, hx, hM.uid⟩
  · intro s hs _ x hx hu f hf
    have hM := hof s hs x hx hu f hf
    rcases hM.op with h | ⟨h1, h2, _⟩
    · exact Or.inl h
    · exact Or.inr ⟨h1, h2⟩
  · intro s hs _ x hx hu hop f hf
    have hM := hof s hs x hx hu f hf
    rcases hM.op with ⟨h | h, _⟩ | ⟨_, _, h⟩
    · rw [hop] at h; exact absurd h (by decide)
    · rw [hop] at h; exact absurd h (by decide)
    · exact h

theorem marker_ok {d : Device} (opts : Opts) : ∀ (o : Elem) {sc : Scope} {e : Elem} {f : Found}, Side d sc e →
    o ∈ e.kids → d.lookup sc o.tag = .ok f → Full d f o →
    ∃ m, deleteMarker d opts f o = .ok m ∧ MarkerOk ω d sc f o m := by
  intro o
  induction o using Elem.ind generalizing opts with
  | h t n a x ks ih =>
    intro sc e f hs ho hf hfull
    set o : Elem := .mk t n a x ks with hodef
    have kid := hs.kid ho hf
    have hns := hs.kidNs ho
    have hL := hs.level.here'
    have same : ∀ m : Elem, m.tag = o.tag → KidOk d f.node m → f.node.ntype ≠ .leafList →
        f.node.ntype ≠ .list → uid d sc m = uid d sc o := by
      intro m hm hk h1 h2
      rw [uid_eq_iff (by rw [hm]; exact hf) hk kid hm]
      refine ⟨hm, fun g hg => ?_⟩
      rw [hm, hf] at hg; cases hg
      cases hn : f.node.ntype <;> simp_all
    have simple : ∀ s : String, s = "delete" ∨ s = "remove" → f.node.ntype = .leaf ∨ f.node.ntype = .container →
        (f.node.isNP = true → o.kids ≠ []) →
        MarkerOk ω d sc f o (setOp (Elem.new o.tag o.nsmap) s) := by
      intro s hop hn hnp
      have hk : KidOk d f.node (setOp (Elem.new o.tag o.nsmap) s) := by
        unfold KidOk at kid ⊢
        rcases hn with hn | hn <;> simp only [hn] at kid ⊢
        · exact ⟨rfl, none, rfl⟩
        · exact kid
      refine ⟨rfl, rfl, same _ rfl hk ?_ ?_, hk, valid_childless (setOp_new_names _ _ _) rfl,
        deep_childless hns rfl, ?_, ?_, Or.inl ⟨by rw [opOf_setOp]; exact hop, hnp⟩⟩
      · rcases hn with hn | hn <;> rw [hn] <;> decide
      · rcases hn with hn | hn <;> rw [hn] <;> decide
      · intro h1
        rcases hL.values o ho f hf (Or.inl h1) with h | ⟨h, _⟩ | ⟨h, _⟩
        · exact Or.inl h
        · exact Or.inr (Or.inl ⟨h, fun t ht => by cases ht⟩)
        · exact Or.inr (Or.inr ⟨h, fun t ht => by cases ht⟩)
      · intro h1
        rcases hn with hn | hn <;> rw [hn] at h1 <;> cases h1
    unfold deleteMarker
    cases hn : f.node.ntype with
    | leaf =>
      have : ¬ (f.node.isNP = true ∧ opts.delete = .delete) := by
        rw [notNP (by rw [hn]; decide)]; simp
      simp only [this, if_false]
      refine ⟨_, rfl, simple _ (delete_str _) (Or.inl hn) ?_⟩
      rw [notNP (by rw [hn]; decide)]; simp
    | leafList =>
      have hv := hL.values o ho f hf (Or.inr hn)
      have kid' := kid
      unfold KidOk at kid'
      simp only [hn] at kid'
      obtain ⟨m, hm⟩ := mergeText_writable (dst := setOp (Elem.new o.tag o.nsmap) opts.delete.str) hv kid'.2
        (hL.own o ho f hf hn)
      have hval := mergeText_value hv (s := setOp (Elem.new o.tag o.nsmap) opts.delete.str) hns rfl hm
      obtain ⟨tx, rfl⟩ := mergeText_ok hm
      refine ⟨_, hm, ?_⟩
      have hk : KidOk d f.node ((setOp (Elem.new o.tag o.nsmap) opts.delete.str).setText tx) := by
        unfold KidOk
        simp only [hn]
        exact ⟨rfl, by rw [hval]; exact kid'.2⟩
      refine ⟨rfl, rfl, ?_, hk, valid_childless (setOp_new_names o.tag o.nsmap opts.delete.str) rfl,
        deep_childless hns rfl, ?_, ?_,
        Or.inl ⟨by rw [opOf_setText, opOf_setOp]; exact delete_str _, ?_⟩⟩
      · rw [uid_eq_iff (x := (setOp (Elem.new o.tag o.nsmap) opts.delete.str).setText tx) (f := f) hf hk kid rfl]
        refine ⟨rfl, fun g hg => ?_⟩
        obtain rfl : f = g := Except.ok.inj (hf.symm.trans hg)
        simp only [hn]
        exact hval
      · intro h; rw [hn] at h; cases h
      · intro h; rw [hn] at h; cases h
      · rw [notNP (by rw [hn]; decide)]; simp
    | list =>
      have kid' := kid
      unfold KidOk at kid'
      simp only [hn] at kid'
      obtain ⟨cs, h1, h2⟩ := keyCopies_ok f.node.keys kid'.2.2.1
      have hw := copies_with (hL.keysOnce o ho f hf hn) h2
      simp only [h1, bind, Except.bind, pure, Except.pure]
      refine ⟨_, rfl, ?_⟩
      set m := (setOp (Elem.new o.tag o.nsmap) opts.delete.str).setKids cs with hm
      have hmk : m.kids = cs := rfl
      have hcw : ∀ q ∈ f.node.keys, ∃ c, o.childrenWith q = [c] ∧ m.childrenWith q = [keyCopy q c] := by
        intro q hq
        obtain ⟨c, hc, h3⟩ := hw q hq
        exact ⟨c, hc, by unfold Elem.childrenWith; rw [hmk]; exact h3⟩
      have hk : KidOk d f.node m := by
        unfold KidOk
        simp only [hn]
        refine ⟨rfl, kid'.2.1, ?_, kid'.2.2.2⟩
        intro q hq
        obtain ⟨c, _, h3⟩ := hcw q hq
        exact ⟨_, h3⟩
      have hcs : ∀ y ∈ cs, ∃ q ∈ f.node.keys, ∃ c, o.childrenWith q = [c] ∧ y = keyCopy q c :=
        forall₂_mem_right h2
      have hleaf : ∀ y ∈ cs, ∃ g, d.lookup (.node f.node) y.tag = .ok g ∧ g.node.ntype = .leaf ∧
          (LeafValueOk g.node y ∧ ∃ t, parseText d y g.node = .ok t) ∧ y.kids = [] ∧ y.attrs = [] ∧ NsMapOk y.nsmap := by
        intro y hy
        obtain ⟨q, hq, c, hc, rfl⟩ := hcs y hy
        obtain ⟨g, hg, hgl, hgp, _⟩ := hL.keys o ho f hf hn q hq
        have hco := childrenWith_single hc
        have hgc : d.lookup (.node f.node) c.tag = .ok g := by rw [hco.2]; exact hg
        refine ⟨g, hg, hgl, ⟨?_, ?_⟩, rfl, rfl, ?_⟩
        · exact (hs.sub ho hf).level.here'.values c hco.1 g hgc (.inl hgl)
        · obtain ⟨g', hg', hk⟩ := (hs.sub ho hf).valid.shape' c hco.1
          rw [hgc] at hg'; cases hg'
          unfold KidOk at hk
          simp only [hgl] at hk
          rw [← hco.2]
          exact hk.2
        · have := (hs.sub ho hf).kidNs hco.1
          exact this
      have htags : cs.map Elem.tag = f.node.keys := by
        have := forall₂_map_eq (f := id) (g := Elem.tag) h2 (by rintro q _ y _ ⟨c, _, rfl⟩; rfl)
        rw [← this, List.map_id]
      have hv : Valid d (.node f.node) m := by
        refine valid_of_nodup (setOp_new_names o.tag o.nsmap opts.delete.str) ?_ ?_ ?_ <;> rw [hmk]
        · intro y hy
          obtain ⟨g, hg, hgl, hgp, hyk, _⟩ := hleaf y hy
          refine ⟨g, hg, ?_⟩
          unfold KidOk
          simp only [hgl]
          exact ⟨hyk, hgp.2⟩
        · have hnd := hL.keysOnce o ho f hf hn
          rw [← htags] at hnd
          refine List.Nodup.of_map (f := Prod.fst) ?_
          rw [List.map_map]
          have : (Prod.fst ∘ uid d (.node f.node)) = Elem.tag := by
            funext y; exact uid_tag _ _ _
          rw [this]; exact hnd
        · intro y hy g hg
          obtain ⟨_, _, _, _, hyk, hya, _⟩ := hleaf y hy
          exact valid_leaf hya hyk
      have hd : Deep d (DeltaLevel d) (.node f.node) m := by
        refine ⟨⟨hns, hv.shape', ?_, ?_⟩, ?_⟩ <;> rw [hmk]
        · intro y hy g hg hgn
          obtain ⟨g', hg', hgl, _⟩ := hleaf y hy
          rw [hg] at hg'; cases hg'
          rw [hgn] at hgl; cases hgl
        · intro y hy g hg hgn
          obtain ⟨g', hg', hgl, hgp, _⟩ := hleaf y hy
          rw [hg] at hg'; cases hg'
          exact hgp.1
        · intro y hy g hg
          obtain ⟨g', hg', hgl, hgp, hyk, _, hyn⟩ := hleaf y hy
          exact deep_childless hyn hyk
      refine ⟨rfl, rfl, ?_, hk, hv, hd, ?_, ?_, Or.inl ⟨by rw [hm, opOf_setKids, opOf_setOp]; exact delete_str _, ?_⟩⟩
      · rw [uid_eq_iff (x := m) (f := f) hf hk kid rfl]
        refine ⟨rfl, fun g hg => ?_⟩
        obtain rfl : f = g := Except.ok.inj (hf.symm.trans hg)
        simp only [hn]
        intro q hq
        obtain ⟨c, hc, h3⟩ := hcw q hq
        unfold keyTexts
        rw [hc, h3]
        rfl
      · intro h; rw [hn] at h; cases h
      · intro _ q hq
        obtain ⟨c0, h4, h3⟩ := hcw q hq
        rw [h3]
        obtain ⟨g, hg, hgl, hgp, _⟩ := hL.keys o ho f hf hn q hq
        refine ⟨⟨g, hg, hgl, ?_⟩, ?_⟩
        · intro c hc
          rw [List.mem_singleton] at hc
          subst hc
          exact (hgp c0 (by rw [h4]; simp)).congr rfl (childrenWith_single h4).2.symm rfl
        · intro c hc
          rw [List.mem_singleton] at hc
          subst hc
          exact opOf_bare rfl
      · rw [notNP (by rw [hn]; decide)]; simp
    | container =>
      by_cases hnp : f.node.isNP = true ∧ opts.delete = .delete
      · simp only [hnp, and_self, if_true]
        have hso := hs.sub ho hf
        obtain ⟨ms, h1, h2⟩ := deleteKids_ok (d := d) (sn := f.node)
          (R := fun k y => ∃ g, d.lookup (.node f.node) k.tag = .ok g ∧ MarkerOk ω d (.node f.node) g k y) o.kids (by
            intro k hk
            obtain ⟨g, hg, _⟩ := hso.valid.shape' k hk
            obtain ⟨m, hm, hM⟩ := ih k hk opts hso hk hg (hfull.2.full hk hg)
            refine ⟨m, ?_, g, hg, hM⟩
            rw [deleteKid_eq d opts hnp.2, hg]
            exact hm)
        simp only [h1, bind, Except.bind, pure, Except.pure]
        refine ⟨_, rfl, ?_⟩
        obtain ⟨hv, hd, hD⟩ := diff_deleted (m := (Elem.new o.tag o.nsmap).setKids ms) hso rfl rfl h2
        have hk : KidOk d f.node ((Elem.new o.tag o.nsmap).setKids ms) := by
          unfold KidOk at kid ⊢
          simp only [hn] at kid ⊢
          exact kid
        refine ⟨rfl, rfl, same _ rfl hk (by rw [hn]; decide) (by rw [hn]; decide), hk, hv, hd, ?_, ?_,
          Or.inr ⟨rfl, hnp.1, hD⟩⟩
        · intro h; rw [hn] at h; cases h
        · intro h; rw [hn] at h; cases h
      · simp only [hnp, if_false]
        exact ⟨_, rfl, simple _ (delete_str _) (Or.inr hn) hfull.1⟩
    | choice => unfold KidOk at kid; simp [hn] at kid
    | case => unfold KidOk at kid; simp [hn] at kid
    | other => unfold KidOk at kid; simp [hn] at kid

end NcDiff
