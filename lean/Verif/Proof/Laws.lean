import Verif.Proof.Compare
/-!
# Laws of inclusion, and inclusion both ways as rearrangement
-/

namespace NcDiff

theorem SameInstance.refl (d : Device) (sc : Scope) (x : Elem) : SameInstance d sc x x := by
  refine ⟨rfl, fun f _ => ?_⟩
  cases f.node.ntype <;> simp

theorem SameInstance.symm {d : Device} {sc : Scope} {x y : Elem} (h : SameInstance d sc x y) :
    SameInstance d sc y x := by
  refine ⟨h.1.symm, fun f hf => ?_⟩
  have := h.2 f (by rw [h.1]; exact hf)
  cases hn : f.node.ntype <;> simp only [hn] at this ⊢
  · exact this.symm
  · exact fun k hk => (this k hk).symm

theorem SameInstance.trans {d : Device} {sc : Scope} {x y z : Elem} (h : SameInstance d sc x y)
    (h' : SameInstance d sc y z) : SameInstance d sc x z := by
  refine ⟨h.1.trans h'.1, fun f hf => ?_⟩
  have h1 := h.2 f hf
  have h2 := h'.2 f (by rw [← h.1]; exact hf)
  cases hn : f.node.ntype <;> simp only [hn] at h1 h2 ⊢
  · exact h1.trans h2
  · exact fun k hk => (h1 k hk).trans (h2 k hk)

theorem pairwise_mem_eq {R : α → α → Prop} (hR : ∀ x y, R x y → R y x) {l : List α}
    (h : l.Pairwise (fun x y => ¬ R x y)) {x y : α} (hx : x ∈ l) (hy : y ∈ l) (hxy : R x y) :
    x = y := by
  induction h with
  | nil => simp at hx
  | cons h1 _ ih =>
    rcases List.mem_cons.1 hx with e | hx' <;> rcases List.mem_cons.1 hy with e' | hy'
    · rw [e, e']
    · subst e; exact absurd hxy (h1 _ hy')
    · subst e'; exact absurd (hR _ _ hxy) (h1 _ hx')
    · exact ih hx' hy'

theorem Valid.eq_of_same {d : Device} {sc : Scope} {e x y : Elem} (h : Valid d sc e)
    (hx : x ∈ e.kids) (hy : y ∈ e.kids) (hxy : SameInstance d sc x y) : x = y :=
  pairwise_mem_eq (fun _ _ => SameInstance.symm) h.unique' hx hy hxy

theorem Incl.refl {d : Device} {sc : Scope} {a : Elem} (h : Valid d sc a) : Incl d sc a a := by
  induction h with
  | @mk sc e h1 h2 h3 h4 ih =>
    refine Incl.mk rfl rfl (fun _ h => h) (fun x hx => ⟨x, hx, .refl ..⟩) ?_ ?_
    · intro x hx y hy hxy f hf
      have := pairwise_mem_eq (fun _ _ => SameInstance.symm) h3 hx hy hxy
      subst this
      exact ih x hx f hf
    · intro x y hB _ _
      exact ⟨x, y, hB, .refl .., .refl ..⟩

theorem Incl.trans {d : Device} {sc : Scope} {a b c : Elem} (h : Incl d sc a b)
    (h' : Incl d sc b c) : Incl d sc a c := by
  induction h generalizing c with
  | @mk sc a b t v at' k s o ih =>
    cases h' with
    | mk t' v' at'' k' s' o' =>
      refine Incl.mk (t.trans t') (v.trans v') (fun p hp => at'' p (at' p hp)) ?_ ?_ ?_
      · intro x hx
        obtain ⟨y, hy, hxy⟩ := k x hx
        obtain ⟨z, hz, hyz⟩ := k' y hy
        exact ⟨z, hz, hxy.trans hyz⟩
      · intro x hx z hz hxz f hf
        obtain ⟨y, hy, hxy⟩ := k x hx
        exact ih x hx y hy hxy f hf (s' y hy z hz (hxy.symm.trans hxz) f (by rw [← hxy.1]; exact hf))
      · intro x y hB ht hU
        obtain ⟨x', y', hB', hx, hy⟩ := o x y hB ht hU
        obtain ⟨x'', y'', hB'', hx', hy'⟩ := o' x' y' hB' (by rw [← hx.1, ← hy.1, ht])
          (by rw [← hx.1]; exact hU)
        exact ⟨x'', y'', hB'', hx.trans hx', hy.trans hy'⟩

theorem SameConfig.refl {d : Device} {sc : Scope} {a : Elem} (h : Valid d sc a) :
    SameConfig d sc a a := ⟨.refl h, .refl h⟩
theorem SameConfig.symm {d : Device} {sc : Scope} {a b : Elem} (h : SameConfig d sc a b) :
    SameConfig d sc b a := ⟨h.2, h.1⟩
theorem SameConfig.trans {d : Device} {sc : Scope} {a b c : Elem} (h : SameConfig d sc a b)
    (h' : SameConfig d sc b c) : SameConfig d sc a c := ⟨h.1.trans h'.1, h'.2.trans h.2⟩

/-! ## The comparison operators of valid configs -/

section ops
variable {d : Device} {a b : Elem}

theorem ValidConfig.readable (h : ValidConfig d a) : Readable d .root a :=
  readable_of_noText h.noText

theorem cfgLe_iff (ha : ValidConfig d a) (hb : ValidConfig d b) :
    ∃ r, cfgLe d a b = .ok r ∧ (r = true ↔ Incl d .root a b) :=
  nodeLe_iff d a .root b ha.valid hb.valid ha.readable hb.readable

theorem andE_ok {x y : Except Err Bool} {p q : Bool} (hx : x = .ok p) (hy : y = .ok q) :
    andE x y = .ok (p && q) := by
  subst hx hy; cases p <;> rfl
theorem orE_ok {x y : Except Err Bool} {p q : Bool} (hx : x = .ok p) (hy : y = .ok q) :
    orE x y = .ok (p || q) := by
  subst hx hy; cases p <;> rfl
theorem notE_ok {x : Except Err Bool} {p : Bool} (hx : x = .ok p) : notE x = .ok (!p) := by
  subst hx; rfl

theorem cfgEq_iff (ha : ValidConfig d a) (hb : ValidConfig d b) :
    ∃ r, cfgEq d a b = .ok r ∧ (r = true ↔ SameConfig d .root a b) := by
  obtain ⟨r, hr, hri⟩ := cfgLe_iff ha hb
  obtain ⟨s, hs, hsi⟩ := cfgLe_iff hb ha
  exact ⟨r && s, andE_ok hr hs, by simp [SameConfig, hri, hsi]⟩

end ops

/-- `==` on subtrees (`sameNode`). -/
theorem sameNode_iff {d : Device} {sn : SNode} {a b : Elem} (va : Valid d (.node sn) a)
    (vb : Valid d (.node sn) b) (ra : Readable d (.node sn) a) (rb : Readable d (.node sn) b) :
    ∃ r, andE (nodeLe d (.node sn) a b) (nodeLe d (.node sn) b a) = .ok r ∧
      (r = true ↔ SameConfig d (.node sn) a b) := by
  obtain ⟨r, hr, hri⟩ := nodeLe_iff d a _ b va vb ra rb
  obtain ⟨s, hs, hsi⟩ := nodeLe_iff d b _ a vb va rb ra
  exact ⟨r && s, andE_ok hr hs, by simp [SameConfig, hri, hsi]⟩

/-! ## Rearrangement -/

theorem Before.mem_left {l : List Elem} {x y : Elem} (h : Before l x y) : x ∈ l :=
  List.Sublist.subset h (by simp)
theorem Before.mem_right {l : List Elem} {x y : Elem} (h : Before l x y) : y ∈ l :=
  List.Sublist.subset h (by simp)

theorem pairwise_before (l : List Elem) : l.Pairwise (Before l) := by
  rw [List.pairwise_iff_getElem]
  intro i j hi hj hij
  exact before_iff.2 ⟨i, j, hij, List.getElem?_eq_getElem hi, List.getElem?_eq_getElem hj⟩

theorem before_asymm {l : List Elem} (hn : l.Nodup) {x y : Elem} (h : Before l x y)
    (h' : Before l y x) : False := by
  obtain ⟨i, j, hij, hi, hj⟩ := before_iff.1 h
  obtain ⟨i', j', hij', hi', hj'⟩ := before_iff.1 h'
  have e1 : i = j' := (List.getElem?_inj (List.getElem?_eq_some_iff.1 hi).1 hn).1 (by rw [hi, hj'])
  have e2 : j = i' := (List.getElem?_inj (List.getElem?_eq_some_iff.1 hj).1 hn).1 (by rw [hj, hi'])
  omega

theorem eq_of_before {l l' : List Elem} (hn : l'.Nodup) (hp : l.Perm l')
    (h : ∀ x y, Before l x y → Before l' x y) : l = l' := by
  refine List.Perm.eq_of_pairwise (le := Before l') ?_ ?_ (pairwise_before l') hp
  · intro a b ha hb h1 h2
    exact (before_asymm hn h1 h2).elim
  · exact (pairwise_before l).imp fun {x y} h' => h x y h'

theorem filter_before {l : List Elem} {p : Elem → Bool} {x y : Elem} :
    Before (l.filter p) x y ↔ Before l x y ∧ p x = true ∧ p y = true := by
  constructor
  · intro h
    exact ⟨List.Sublist.trans h List.filter_sublist,
      (List.mem_filter.1 h.mem_left).2, (List.mem_filter.1 h.mem_right).2⟩
  · rintro ⟨h, hx, hy⟩
    have := List.Sublist.filter p h
    simpa [Before, hx, hy] using this

theorem rearranged_of_same {d : Device} : ∀ (a : Elem) (sc : Scope) (b : Elem), Valid d sc a →
    Valid d sc b → SameConfig d sc a b → Rearranged d sc a b := by
  intro a
  induction a using Elem.ind with
  | h t n at' x ks ih =>
    intro sc b va vb h
    generalize ha : Elem.mk t n at' x ks = a at *
    have hks : a.kids = ks := by rw [← ha]; rfl
    have na := va.indexable.nodup
    have nb := vb.indexable.nodup
    obtain ⟨h1, h2⟩ := h
    cases h1 with
    | mk tag value attrs kids sub order =>
    cases h2 with
    | mk tag2 value2 attrs2 kids2 sub2 order2 =>
    -- the counterpart in `a`
    have hm : ∀ y, ∃ x, y ∈ b.kids → x ∈ a.kids ∧ SameInstance d sc y x := by
      intro y
      by_cases hy : y ∈ b.kids
      · obtain ⟨x, hx, hxy⟩ := kids2 y hy; exact ⟨x, fun _ => ⟨hx, hxy⟩⟩
      · exact ⟨y, fun h => absurd h hy⟩
    choose m hm using hm
    have hu : (b.kids.map m).map (uid d sc) = b.kids.map (uid d sc) := by
      rw [List.map_map, List.map_inj_left]
      intro y hy
      exact (va.same_iff vb (hm y hy).1 hy).2 (hm y hy).2.symm
    have hln : (b.kids.map m).Nodup := List.Nodup.of_map (uid d sc) (by rw [hu]; exact nb)
    have han : a.kids.Nodup := List.Nodup.of_map _ na
    have hperm : (b.kids.map m).Perm a.kids := by
      rw [List.perm_ext_iff_of_nodup hln han]
      intro x
      constructor
      · intro hx
        obtain ⟨y, hy, rfl⟩ := List.mem_map.1 hx
        exact (hm y hy).1
      · intro hx
        obtain ⟨y, hy, hxy⟩ := kids x hx
        have := va.eq_of_same (hm y hy).1 hx ((hm y hy).2.symm.trans hxy.symm)
        rw [← this]
        exact List.mem_map_of_mem hy
    refine Rearranged.mk (b.kids.map m) tag value (fun p => ⟨attrs p, attrs2 p⟩) hperm ?_ ?_ ?_
    · rw [List.map_map, List.map_inj_left]
      intro y hy
      exact (hm y hy).2.1.symm
    · intro i x y f hx hy hf
      rw [List.getElem?_map, hy] at hx
      simp at hx; subst hx
      have hyb := List.mem_of_getElem? hy
      obtain ⟨hma, hs⟩ := hm y hyb
      have hfy : d.lookup sc y.tag = .ok f := by rw [hs.1]; exact hf
      exact ih (m y) (by rw [← hks]; exact hma) _ y (va.sub' _ hma f hf) (vb.sub' _ hyb f hfy)
        ⟨sub _ hma y hyb hs.symm f hf, sub2 y hyb _ hma hs f hfy⟩
    · intro tg hU
      refine eq_of_before (han.filter _) (hperm.filter _) ?_
      intro x y hB
      rw [filter_before] at hB ⊢
      obtain ⟨hB, hx, hy⟩ := hB
      refine ⟨?_, hx, hy⟩
      obtain ⟨i, j, hij, hi, hj⟩ := before_iff.1 hB
      rw [List.getElem?_map, Option.map_eq_some_iff] at hi hj
      obtain ⟨y1, hy1, rfl⟩ := hi
      obtain ⟨y2, hy2, rfl⟩ := hj
      have b1 := List.mem_of_getElem? hy1
      have b2 := List.mem_of_getElem? hy2
      simp only [decide_eq_true_eq] at hx hy
      have ht1 : y1.tag = tg := by rw [(hm y1 b1).2.1]; exact hx
      have ht2 : y2.tag = tg := by rw [(hm y2 b2).2.1]; exact hy
      obtain ⟨x', y', hB', s1, s2⟩ := order2 y1 y2 (before_iff.2 ⟨i, j, hij, hy1, hy2⟩)
        (by rw [ht1, ht2]) (by rw [ht1]; exact hU)
      have e1 := va.eq_of_same hB'.mem_left (hm y1 b1).1 (s1.symm.trans (hm y1 b1).2)
      have e2 := va.eq_of_same hB'.mem_right (hm y2 b2).1 (s2.symm.trans (hm y2 b2).2)
      rw [← e1, ← e2]; exact hB'

theorem same_of_rearranged_kid {d : Device} {sc : Scope} {x y : Elem} {f : Found}
    (hf : d.lookup sc x.tag = .ok f) (kx : KidOk d f.node x) (ky : KidOk d f.node y)
    (hk : f.node.ntype = .list → ∀ q ∈ f.node.keys, ∃ g, d.lookup (.node f.node) q = .ok g ∧
          g.node.ntype = .leaf ∧ g.node.info.datatype.plain)
    (h : Rearranged d (.node f.node) x y) : SameInstance d sc x y := by
  cases h with
  | mk l tag value attrs perm tags sub order =>
  refine ⟨tag, fun g hg => ?_⟩
  rw [hf] at hg; cases hg
  cases hn : f.node.ntype <;> simp only
  · rw [parseTextAt_node, parseTextAt_node] at value; exact value
  · intro q hq
    unfold KidOk at kx ky
    simp only [hn] at kx ky
    obtain ⟨c, hc⟩ := kx.2.2.1 q hq
    obtain ⟨c', hc'⟩ := ky.2.2.1 q hq
    obtain ⟨g, hg, hgl, hgp⟩ := hk hn q hq
    have hcm : c ∈ x.childrenWith q := by rw [hc]; simp
    have hct : c.tag = q := by simpa [Elem.childrenWith] using (List.mem_filter.1 hcm).2
    have hcl : c ∈ l := perm.mem_iff.2 (List.mem_filter.1 hcm).1
    obtain ⟨i, hi⟩ := List.mem_iff_getElem?.1 hcl
    have hti : (y.kids.map Elem.tag)[i]? = some q := by
      rw [← tags, List.getElem?_map, hi]; simp [hct]
    rw [List.getElem?_map, Option.map_eq_some_iff] at hti
    obtain ⟨z, hz, hzt⟩ := hti
    have hzm : z ∈ y.childrenWith q :=
      List.mem_filter.2 ⟨List.mem_of_getElem? hz, by simp [hzt]⟩
    rw [hc'] at hzm
    have hzc : z = c' := by simpa using hzm
    subst hzc
    have := sub i c z g hi hz (by rw [hct]; exact hg)
    cases this with
    | mk _ _ value' =>
      rw [parseTextAt_node, parseTextAt_node, parseText_plain hgp (by rw [hgl]; decide),
        parseText_plain hgp (by rw [hgl]; decide)] at value'
      simp only [Except.ok.injEq] at value'
      simp [keyTexts, hc, hc', value']

theorem same_of_rearranged {d : Device} {sc : Scope} {a b : Elem} (h : Rearranged d sc a b)
    (va : Valid d sc a) (vb : Valid d sc b) (pk : PlainKeys d sc a) : SameConfig d sc a b := by
  induction h with
  | @mk sc a b l tag value attrs perm tags sub order ih =>
    cases pk with
    | mk pkeys psub =>
    have hlen : l.length = b.kids.length := by
      have := congrArg List.length tags; simpa using this
    -- aligned children
    have al : ∀ (i : Nat) x y, l[i]? = some x → b.kids[i]? = some y → SameInstance d sc x y ∧
        ∀ f, d.lookup sc x.tag = .ok f → SameConfig d (.node f.node) x y := by
      intro i x y hx hy
      have hxa : x ∈ a.kids := perm.mem_iff.1 (List.mem_of_getElem? hx)
      have hyb := List.mem_of_getElem? hy
      have ht : x.tag = y.tag := by
        have h1 : (l.map Elem.tag)[i]? = some x.tag := by simp [hx]
        rw [tags] at h1
        simp [hy] at h1; exact h1.symm
      obtain ⟨f, hf, kf⟩ := va.shape' x hxa
      obtain ⟨g, hg, kg⟩ := vb.shape' y hyb
      have : g = f := by rw [← ht, hf] at hg; cases hg; rfl
      subst this
      refine ⟨same_of_rearranged_kid hf kf kg (fun hl => pkeys x hxa g hf hl) (sub i x y g hx hy hf), ?_⟩
      intro f' hf'
      rw [hf] at hf'; cases hf'
      exact ih i x y g hx hy hf (va.sub' x hxa g hf) (vb.sub' y hyb g hg) (psub x hxa g hf)
    have right : ∀ (i : Nat) x, l[i]? = some x → ∃ y, b.kids[i]? = some y := by
      intro i x hx
      have := (List.getElem?_eq_some_iff.1 hx).1
      exact ⟨b.kids[i]'(by omega), List.getElem?_eq_getElem _⟩
    have left : ∀ (i : Nat) y, b.kids[i]? = some y → ∃ x, l[i]? = some x := by
      intro i x hx
      have := (List.getElem?_eq_some_iff.1 hx).1
      exact ⟨l[i]'(by omega), List.getElem?_eq_getElem _⟩
    have hla : ∀ x, x ∈ a.kids ↔ x ∈ l := fun x => perm.mem_iff.symm
    constructor
    · refine Incl.mk tag value (fun p => (attrs p).1) ?_ ?_ ?_
      · intro x hx
        obtain ⟨i, hi⟩ := List.mem_iff_getElem?.1 ((hla x).1 hx)
        obtain ⟨y, hy⟩ := right i x hi
        exact ⟨y, List.mem_of_getElem? hy, (al i x y hi hy).1⟩
      · intro x hx y hy hxy f hf
        obtain ⟨i, hi⟩ := List.mem_iff_getElem?.1 ((hla x).1 hx)
        obtain ⟨y', hy'⟩ := right i x hi
        have e := vb.eq_of_same hy (List.mem_of_getElem? hy') (hxy.symm.trans (al i x y' hi hy').1)
        subst e
        exact ((al i x y hi hy').2 f hf).1
      · intro x y hB ht hU
        have h1 : Before (a.kids.filter (fun z => z.tag = x.tag)) x y :=
          filter_before.2 ⟨hB, by simp, by simp [ht]⟩
        rw [← order x.tag hU] at h1
        obtain ⟨i, j, hij, hi, hj⟩ := before_iff.1 (filter_before.1 h1).1
        obtain ⟨x', hx'⟩ := right i x hi
        obtain ⟨y', hy'⟩ := right j y hj
        exact ⟨x', y', before_iff.2 ⟨i, j, hij, hx', hy'⟩, (al i x x' hi hx').1, (al j y y' hj hy').1⟩
    · refine Incl.mk tag.symm value.symm (fun p => (attrs p).2) ?_ ?_ ?_
      · intro y hy
        obtain ⟨i, hi⟩ := List.mem_iff_getElem?.1 hy
        obtain ⟨x, hx⟩ := left i y hi
        exact ⟨x, (hla x).2 (List.mem_of_getElem? hx), (al i x y hx hi).1.symm⟩
      · intro y hy x hx hxy f hf
        obtain ⟨i, hi⟩ := List.mem_iff_getElem?.1 hy
        obtain ⟨x', hx'⟩ := left i y hi
        have e := va.eq_of_same hx ((hla x').2 (List.mem_of_getElem? hx'))
          (hxy.symm.trans (al i x' y hx' hi).1.symm)
        subst e
        exact ((al i x y hx' hi).2 f (by rw [← hxy.1]; exact hf)).2
      · intro x y hB ht hU
        obtain ⟨i, j, hij, hi, hj⟩ := before_iff.1 hB
        obtain ⟨x', hx'⟩ := left i x hi
        obtain ⟨y', hy'⟩ := left j y hj
        have s1 := (al i x' x hx' hi).1
        have s2 := (al j y' y hy' hj).1
        have hBl : Before (l.filter (fun z => z.tag = x.tag)) x' y' :=
          filter_before.2 ⟨before_iff.2 ⟨i, j, hij, hx', hy'⟩, by simp [s1.1], by simp [s2.1, ht]⟩
        rw [order x.tag hU] at hBl
        exact ⟨x', y', (filter_before.1 hBl).1, s1.symm, s2.symm⟩

end NcDiff
