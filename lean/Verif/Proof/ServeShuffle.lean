import Verif.Proof.ServeOrder
import Verif.Props.Tree
/-!
# The server: deltas in any order
-/

namespace NcDiff.Compile

section
variable {d : Device} {rd : Bool} {sc : Scope} {pl : List Place} {ex : QName → QName → Bool} {p : Place} {o o' y y' : Elem}
  {l : List Elem}

/-! ## Other cases -/

theorem Apart.about {D : List Elem} (h : Apart pl D) (hk : ∀ o ∈ D, ∃ p, placeOf pl o.tag = some p) (y : Elem) :
    (D.filter fun o => aboutIn pl o y).length ≤ 1 := by
  match hf : D.filter fun o => aboutIn pl o y with
  | [] => simp
  | [x] => simp
  | x :: z :: r =>
    have hs : (x :: z :: r).Sublist D := by rw [← hf]; exact List.filter_sublist
    have h1 := (List.pairwise_cons.1 (h.sublist hs)).1 z (by simp)
    have hx := List.mem_filter.1 (show x ∈ D.filter fun o => aboutIn pl o y by rw [hf]; simp)
    have hz := List.mem_filter.1 (show z ∈ D.filter fun o => aboutIn pl o y by rw [hf]; simp)
    obtain ⟨p, hp⟩ := hk x hx.1
    have hxa : Compile.about p x y = true := by
      have := hx.2
      unfold aboutIn at this
      rw [hp] at this
      exact this
    have := about_same hp hxa hz.2
    rw [h1 p hp] at this
    cases this

theorem same_settle {ex : QName → QName → Bool} {pl : List Place} {D : List Elem} (h : Ready ex pl D) :
    ∀ {sc : Scope} {D' m m' : List Elem}, Ground d rd sc pl ex → SameNodes D D' → Lone pl m → SameNodes m m' →
    SameNodes (settle pl ex D m) (settle pl ex D' m') := by
  have hready := h
  induction h with
  | @mk ex pl D apart known once keyed one stays leaf sub ih =>
    intro sc D' m m' hG hD hm hmm
    have hready' := hready.same hD
    have hap' : Apart pl D' ∧ ∀ o ∈ D', ∃ p, placeOf pl o.tag = some p ∧ KeysFree p := by
      cases hready' with
      | mk _ known' once' keyed' _ _ _ _ =>
        exact ⟨once', fun o ho => (known' o ho).imp fun p hp => ⟨hp, keyed' o ho p hp⟩⟩
    rw [settle_eq D m once (fun o ho => (known o ho).imp fun p hp => ⟨hp, keyed o ho p hp⟩),
      settle_eq D' m' hap'.1 hap'.2]
    refine SameNodes.map ?_ ?_
    · refine hmm.filter fun y hy y' hy' hyl => ?_
      rw [Bool.eq_iff_iff, List.all_eq_true, List.all_eq_true]
      constructor
      · intro h o' ho'
        obtain ⟨o, ho, hl⟩ := hD.mem ho'
        rw [← hl.deletes, ← hl.tag, ← hyl.tag]
        exact h o ho
      · intro h o ho
        obtain ⟨o', ho', hl⟩ := hD.symm.mem ho
        rw [← hl.deletes, ← hl.tag, hyl.tag]
        exact h o' ho'
    · intro y hy y' hy' hyl
      have hym := (List.mem_filter.1 hy).1
      have hab : ∀ o ∈ D, ∀ o' ∈ D', Like o o' → aboutIn pl o y = aboutIn pl o' y' := by
        intro o ho o' _ hl
        obtain ⟨p, hp⟩ := known o ho
        unfold aboutIn
        rw [← hl.tag, hp]
        simp only
        by_cases ht : y.tag = o.tag
        · have hpy : placeOf pl y.tag = some p := by rw [ht]; exact hp
          refine about_like hl hyl (fun hl q hq => ?_) fun hl => ?_
          · obtain ⟨c, hc⟩ := one o ho p hp hl q hq
            rw [hc]; simp
          · cases hm with
            | mk _ msub => exact (msub y hym p hpy (.inr hl)).keys (hG.keysFree hpy)
        · have ht' : y'.tag ≠ o'.tag := by rw [← hl.tag, ← hyl.tag]; exact ht
          unfold about
          simp [ht, ht']
      unfold touched
      rcases hD.find (P := fun o => aboutIn pl o y) (Q := fun o => aboutIn pl o y') hab (once.about known y) with
        ⟨h1, h2⟩ | ⟨o, o', h1, h2, h3⟩
      · rw [h1, h2]; exact hyl
      · rw [h1, h2]
        simp only
        have ho := List.mem_of_find?_eq_some h1
        obtain ⟨p, hp⟩ := known o ho
        have hoy : aboutIn pl o y = true := by simpa using List.find?_some h1
        have hty : y.tag = o.tag := by
          unfold aboutIn at hoy
          rw [hp] at hoy
          exact about_tag hoy
        rw [← h3.tag, hp, ← h3.deletes]
        simp only
        cases hd : deletes o with
        | true => exact hyl
        | false =>
          simp only [Bool.false_eq_true, if_false]
          have hs : SameNodes (settle (places p.1 p.2.kids) (rivals p) o.kids y.kids)
              (settle (places p.1 p.2.kids) (rivals p) o'.kids y'.kids) := by
            obtain ⟨sc', hG'⟩ := hG.below hp
            by_cases hn : p.2.info.keyword = "container" ∨ p.2.info.keyword = "list"
            · refine ih o ho p hp hd (sub o ho p hp hd) hG' h3.kids ?_ hyl.kids
              cases hm with
              | mk _ msub => exact msub y hym p (by rw [hty]; exact hp) hn
            · obtain ⟨_, _, hk⟩ := placeOf_some hp
              have h0 := leaf o ho p hp (by
                unfold DataKind at hk
                simp only [List.mem_cons, List.not_mem_nil, or_false] at hk
                rcases hk with hk | hk | hk | hk
                · exact absurd (.inl hk) hn
                · exact .inl hk
                · exact .inr hk
                · exact absurd (.inr hk) hn)
              have h0' := h3.kids
              rw [h0] at h0' ⊢
              rw [h0'.nil_left, settle, settle]
              exact hyl.kids
          refine ⟨?_, ?_, ?_, ?_, ?_⟩
          · rw [Elem.tag_setKids, Elem.tag_setKids]; exact hyl.tag
          · rw [Elem.nsmap_setKids, Elem.nsmap_setKids]; exact hyl.nsmap
          · rw [Elem.attrs_setKids, Elem.attrs_setKids]; exact hyl.attrs
          · rw [Elem.text_setKids, Elem.text_setKids]; exact hyl.text
          · rw [Elem.kids_setKids, Elem.kids_setKids]; exact hs

/-! ## Attributes that say nothing -/

theorem Like.strip (h : Like o o') (hk : SameNodes (stripList o.kids) (stripList o'.kids)) : Like (NcDiff.strip o) (NcDiff.strip o') := by
  refine ⟨by rw [strip_tag, strip_tag]; exact h.tag, by rw [strip_nsmap, strip_nsmap]; exact h.nsmap, ?_,
    by rw [strip_text, strip_text]; exact h.text, by rw [strip_kids, strip_kids, ← stripList_eq, ← stripList_eq]; exact hk⟩
  have := h.attrs
  cases o; cases o'
  simp only [NcDiff.strip, Elem.attrs] at this ⊢
  rw [this]

theorem SameNodes.strip {l l' : List Elem} (h : SameNodes l l') : SameNodes (stripList l) (stripList l') := by
  induction h with
  | nil => exact .nil
  | cons tag nsmap attrs text kids rest ih1 ih2 =>
    have := Like.strip ⟨tag, nsmap, attrs, text, kids⟩ ih1
    rw [stripList, stripList]
    exact .cons this.tag this.nsmap this.attrs this.text this.kids ih2
  | swap x y r => rw [stripList, stripList, stripList, stripList]; exact .swap _ _ _
  | trans _ _ ih1 ih2 => exact .trans ih1 ih2

theorem deletes_strip (o : Elem) : deletes (strip o) = deletes o := by
  unfold deletes
  rw [operation_strip]

theorem about_strip_both (p : Place) (o y : Elem) : about p (strip o) (strip y) = about p o y := by
  rw [about_strip]
  unfold about
  rw [strip_tag, identity_strip]

theorem Ready.strip {D : List Elem} (h : Ready ex pl D) : Ready ex pl (stripList D) := by
  induction h with
  | @mk ex pl D apart known once keyed one stays leaf sub ih =>
    have up : ∀ {o' : Elem}, o' ∈ stripList D → ∃ o ∈ D, o' = NcDiff.strip o := by
      intro o' ho'
      rw [stripList_eq] at ho'
      obtain ⟨o, ho, he⟩ := List.mem_map.1 ho'
      exact ⟨o, ho, he.symm⟩
    refine ⟨fun a' ha' b' hb' => ?_, fun o' ho' => ?_, ?_, fun o' ho' p hp => ?_, fun o' ho' p hp hl q hq => ?_,
      fun o' ho' p hp hd hl c' hc' hcq => ?_, fun o' ho' p hp hl => ?_, fun o' ho' p hp hd => ?_⟩
    · obtain ⟨a, ha, rfl⟩ := up ha'
      obtain ⟨b, hb, rfl⟩ := up hb'
      rw [strip_tag, strip_tag]
      exact apart a ha b hb
    · obtain ⟨o, ho, rfl⟩ := up ho'
      rw [strip_tag]
      exact known o ho
    · rw [stripList_eq]
      unfold Apart
      rw [List.pairwise_map]
      refine List.Pairwise.imp ?_ once
      intro x y hxy p hp
      rw [strip_tag] at hp
      rw [about_strip_both]
      exact hxy p hp
    · obtain ⟨o, ho, rfl⟩ := up ho'
      rw [strip_tag] at hp
      exact keyed o ho p hp
    · obtain ⟨o, ho, rfl⟩ := up ho'
      rw [strip_tag] at hp
      obtain ⟨c, hc⟩ := one o ho p hp hl q hq
      rw [strip_kids, tagged_strip, hc]
      exact ⟨_, rfl⟩
    · obtain ⟨o, ho, rfl⟩ := up ho'
      rw [strip_tag] at hp
      rw [deletes_strip] at hd
      rw [strip_kids] at hc'
      obtain ⟨c, hc, rfl⟩ := List.mem_map.1 hc'
      rw [deletes_strip]
      rw [strip_tag] at hcq
      exact stays o ho p hp hd hl c hc hcq
    · obtain ⟨o, ho, rfl⟩ := up ho'
      rw [strip_tag] at hp
      rw [strip_kids, leaf o ho p hp hl]
      rfl
    · obtain ⟨o, ho, rfl⟩ := up ho'
      rw [strip_tag] at hp
      rw [deletes_strip] at hd
      rw [strip_kids, ← stripList_eq]
      exact ih o ho p hp hd

/-! ## Deltas are ready -/

theorem PlaceFact.ntype_leaf {q : QName} {f : Found} (h : PlaceFact d rd sc p q f) (hl : p.2.info.keyword = "leaf") :
    f.node.ntype = .leaf := by
  obtain ⟨a, hu⟩ := h.understood
  exact hu.leaf.2 hl

theorem PlaceFact.ntype_leafList {q : QName} {f : Found} (h : PlaceFact d rd sc p q f) (hl : p.2.info.keyword = "leaf-list") :
    f.node.ntype = .leafList := by
  obtain ⟨a, hu⟩ := h.understood
  exact hu.leafList.2 hl

theorem ready_of {D : List Elem} (h : Sound ex pl D) : ∀ {sc : Scope} {R : Elem}, R.kids = D → Floor d rd sc pl ex → Valid d sc R →
    Ready ex pl D := by
  induction h with
  | @mk ex pl D apart known once keyed entry sub ih =>
    intro sc R hR hF hv
    have kid : ∀ o ∈ D, ∀ p, placeOf pl o.tag = some p → ∃ f, PlaceFact d rd sc p o.tag f ∧ KidOk d f.node o ∧
        Floor d rd (.node f.node) (places p.1 p.2.kids) (rivals p) := by
      intro o ho p hp
      obtain ⟨f, hf, hF', _⟩ := hF.known hp
      obtain ⟨g, hg, kg⟩ := hv.shape' o (by rw [hR]; exact ho)
      rw [hf.lookup] at hg
      cases hg
      exact ⟨f, hf, kg, hF'⟩
    refine ⟨apart, known, once, keyed, fun o ho p hp hl => ?_, fun o ho p hp hd hl => (entry o ho p hp hd hl).stays,
      fun o ho p hp hl => ?_, fun o ho p hp hd => ?_⟩
    · obtain ⟨f, hf, kf, _⟩ := kid o ho p hp
      exact one_of hf hl kf
    · obtain ⟨f, hf, kf, _⟩ := kid o ho p hp
      unfold KidOk at kf
      rcases hl with hl | hl
      · simp only [hf.ntype_leaf hl] at kf
        exact kf.1
      · simp only [hf.ntype_leafList hl] at kf
        exact kf.1
    · obtain ⟨f, hf, _, hF'⟩ := kid o ho p hp
      exact ih o ho p hp hd rfl hF' (hv.sub' o (by rw [hR]; exact ho) f hf.lookup)

/-! ## The order theorem -/

theorem any_order {D D' a b m r : List Elem} (h : Ready ex pl D) (hG : Ground d rd sc pl ex) (hD : SameNodes D D')
    (hm : Holds pl a m) (hr : serveCases pl ex D m = some r) (hb : Holds pl b r) :
    ∃ r', serveCases pl ex D' m = some r' ∧ Holds pl b r' := by
  rw [serveCases_eq h.sound] at hr
  have hm' := holds_settle D hG.floor hm
  obtain ⟨r', h1, h2⟩ := same_serve h hG hD hm'.lone (same_settle h hG hD hm.lone (SameNodes.refl m)) hr
  refine ⟨r', ?_, hb.same hG h2⟩
  rw [serveCases_eq (h.same hD).sound]
  exact h1

theorem any_order_strip {D D' a b m r : List Elem} (h : Ready ex pl (stripList D)) (hG : Ground d rd sc pl ex) (hD : SameNodes D D')
    (hm : Holds pl a m) (hr : serveCases pl ex D m = some r) (hb : Holds pl b r) :
    ∃ r', serveCases pl ex D' m = some r' ∧ Holds pl b r' := by
  rw [← serveCases_strip] at hr ⊢
  exact any_order h hG hD.strip hm hr hb

/-! ## Reordering -/

theorem like_of_label {x y : Elem} (h : y.label = x.label) (hk : SameNodes x.kids y.kids) : Like x y := by
  unfold Elem.label at h
  injection h with h1 h2 h3 h4
  exact ⟨h1.symm, h2.symm, h3.symm, h4.symm, hk⟩

theorem shuffled_like : ∀ (depth : Nat) {sc : Scope} {x y : Elem}, Shuffled d depth sc x y → Like x y
  | 0, sc, x, y, h => by
    obtain ⟨hl, keys, rest, rest', h1, h2, h3, _⟩ := h
    refine like_of_label hl ?_
    rw [h1, h2]
    exact (SameNodes.refl keys).append (.of_perm h3.symm)
  | n + 1, sc, x, y, h => by
    obtain ⟨hl, hf⟩ := h
    refine like_of_label hl (.of_forall₂ (hf.imp fun a b hab => ?_))
    obtain ⟨sn, _, hs⟩ := hab
    exact shuffled_like n hs

/-! ## Without choices -/

/-- Neither a choice nor a case. -/
def Flat (s : Stmt) : Prop := s.info.keyword ≠ "choice" ∧ s.info.keyword ≠ "case"

theorem plainChoice_of_flat {s : Stmt} (h : Everywhere Flat s) : Everywhere PlainChoice s := by
  induction h with
  | @mk s here sub ih =>
    refine ⟨⟨fun h => absurd h here.1, fun _ c hc => ((sub c hc).here').2, fun h => absurd h here.2⟩, ih⟩

theorem rivals_flat (h : Everywhere Flat p.2) (q q' : QName) : rivals p q q' = false :=
  excludes_none fun _ hs => (Everywhere.kid h hs).here'

theorem single_flat : ∀ (e : Elem) {ex : QName → QName → Bool} {pl : List Place}, (∀ q q', ex q q' = false) →
    (∀ p ∈ pl, Everywhere Flat p.2) → SingleCase ex pl e := by
  intro e
  induction e using Elem.ind with
  | h t n a x ks ih =>
    intro ex pl h1 h2
    refine ⟨fun a _ b _ => h1 _ _, fun k hk p hp _ => ?_⟩
    exact ih k hk (rivals_flat (h2 p hp)) fun p' hp' => (everywhere_places (h2 p hp) p' hp').2

theorem together_flat : ∀ (S : Elem) {sc : Scope} {pl : List Place} {ex : QName → QName → Bool} {T : Elem}, Floor d rd sc pl ex →
    (∀ q q', ex q q' = false) → (∀ p ∈ pl, Everywhere Flat p.2) → Fits d pl S → Fits d pl T → Together d sc S T := by
  intro S
  induction S using Elem.ind with
  | h t n a x ks ih =>
    intro sc pl ex T hF h1 h2 fS fT
    generalize he : Elem.mk t n a x ks = S at *
    have hks : S.kids = ks := by rw [← he]; rfl
    rw [← hks] at ih
    refine ⟨fun a _ b _ f g hf hg => ?_, (oneCase_of_single S hF fS (single_flat S h1 h2)).sub',
      (oneCase_of_single T hF fT (single_flat T h1 h2)).sub', fun s hs k hk hu f hf => ?_⟩
    · rw [hF.tells.apart hf hg]; exact h1 _ _
    · obtain ⟨p, p1, p2, p3⟩ := fS.node' hs
      obtain ⟨f', hf', hF', _⟩ := hF.below p1 p2 p3
      have ht : s.tag = k.tag := tag_of_uid hu
      obtain rfl : f' = f := by
        have := hf'.lookup
        rw [ht, hf] at this
        exact (Except.ok.inj this).symm
      exact ih s hs hF' (rivals_flat (h2 p p1)) (fun p' hp' => (everywhere_places (h2 p p1) p' hp').2) (fS.sub' hs p1 p2)
        (fT.sub' hk p1 (by rw [← ht]; exact p2))

end

/-! ## The delta of two configs -/

/-- What is known about a delta. -/
structure Sent (h : Host) (mods : List Module) (c1 c2 : Elem) (opts : Opts) (δ : Delta) (x : Elem) : Prop where
  delta : newDelta h.device c1 c2 opts = .ok δ
  plain : δ.shuffle = none
  nc : δ.nc h.device = .ok x
  known : Known h.device .root x
  ready : Ready noRivals (topPlaces mods) (stripList x.kids)

theorem ready_addAttr {ex : QName → QName → Bool} {pl : List Place} {D : Elem} (h : Ready ex pl D.kids) (n : Nat) :
    Ready ex pl (stripList (addAttrAtDepth n D).kids) := by
  have h1 := congrArg Elem.kids (strip_addAttr D n)
  rw [strip_kids, strip_kids, ← stripList_eq, ← stripList_eq] at h1
  rw [h1]
  exact h.strip

theorem sent_cases {h : Host} {mods : List Module} {rd : Bool} (hl : Loads h mods) (hp : ProperModules rd mods)
    (hF : Floor h.device rd .root (topPlaces mods) noRivals) {c1 c2 : Elem} (p1 : PlainConfig h.device c1)
    (p2 : PlainConfig h.device c2) (t1 : c1.tag = ncTag "config") (t2 : c2.tag = ncTag "config")
    (f1 : Fits h.device (topPlaces mods) c1) (f2 : Fits h.device (topPlaces mods) c2) (s1 : SingleCase noRivals (topPlaces mods) c1)
    {us : List String} (w1 : Leaves (Declares us) (topPlaces mods) c1) (w2 : Leaves (WithinNs us) (topPlaces mods) c2)
    (s2 : SingleCase noRivals (topPlaces mods) c2) {opts : Opts} (hr : opts.diffType ≠ .replace) (hs : TopSafe opts mods) :
    ∃ δ x, Sent h mods c1 c2 opts δ x ∧ ∀ m, Holds (topPlaces mods) c1.kids m →
      ∃ r, serveCases (topPlaces mods) noRivals x.kids m = some r ∧ Holds (topPlaces mods) c2.kids r := by
  obtain ⟨δ, x, e1, e2, e3⟩ := delta_serveCases hl hp hF p1 p2 t1 t2 f1 f2 s1 w1 w2 s2 hr hs
  refine ⟨δ, x, ?_, e3⟩
  have o1 := oneCase_of_single c1 hF f1 s1
  have o2 := oneCase_of_single c2 hF f2 s2
  obtain ⟨D, hx, hD, hcl, _⟩ := switch_diffW (ω := False) (opts := opts) p1 p2 t1 t2 o1 o2 (switch_of c1 hF f2 w1 w2) hr
    (rootSafe_of hl hp hs)
  obtain rfl := Except.ok.inj ((newDelta_ok p1.valid.valid p2.valid.valid).symm.trans e1)
  have fS := fits_clear (d := h.device) (sc := .root) c1 c2 f1
  have hready := ready_of (sound_diff hD hF fS f2 (clear_together c1 p1.side p2.side o1 o2)) rfl hF hD.base'.vD
  have e2' := e2
  simp only [Delta.nc, hx, bind, Except.bind, pure, Except.pure] at e2'
  obtain rfl := Except.ok.inj e2'
  refine ⟨e1, rfl, e2, ?_, ?_⟩
  · split
    · exact addAttr_known _ hD.base'.vD.allKnown
    · exact hD.base'.vD.allKnown
  · split
    · exact ready_addAttr hready _
    · exact hready.strip

theorem sent_plain {h : Host} {mods : List Module} {rd : Bool} (hl : Loads h mods) (hp : ProperModules rd mods)
    (hc : ∀ m ∈ mods, ∀ s ∈ m.kids, Everywhere (Clear rd) s) {c1 c2 : Elem} (hA : AnyOrder h.device c1 c2)
    (f1 : Fits h.device (topPlaces mods) c1) (f2 : Fits h.device (topPlaces mods) c2) {opts : Opts} (hs : TopSafe opts mods) :
    ∃ δ x, Sent h mods c1 c2 opts δ x ∧ ∀ m, Holds (topPlaces mods) c1.kids m →
      ∃ r, serve (topPlaces mods) x.kids m = some r ∧ Holds (topPlaces mods) c2.kids r := by
  obtain ⟨δ, x, e1, e2, e3⟩ := delta_serve hl hp hc hA f1 f2 hs
  refine ⟨δ, x, ?_, e3⟩
  have flat : ∀ m ∈ mods, ∀ s ∈ m.kids, Everywhere Flat s := fun m hm s hs =>
    everywhere_imp (fun _ h => h.noChoice) (hc m hm s hs)
  have flat' : ∀ p ∈ topPlaces mods, Everywhere Flat p.2 := by
    intro p hpm
    obtain ⟨m, hm, h⟩ := List.mem_flatMap.1 hpm
    obtain ⟨s, hs, rfl⟩ := List.mem_map.1 h
    exact flat m hm s hs
  have hF : Floor h.device rd .root (topPlaces mods) noRivals :=
    floor_root hl hp (regular_of_clear hc) (fun m hm s hs => plainChoice_of_flat (flat m hm s hs))
      (fun m hm s hs => (flat m hm s hs).here')
  obtain ⟨D, hx, _, hdiff⟩ := calcSub_ok (opts := opts) carry_deletes.carry hA.loose (fun _ => hA.src.filled)
  obtain ⟨_, hD⟩ := hdiff (rootSafe_of hl hp hs)
  obtain rfl := Except.ok.inj ((newDelta_ok hA.src.valid.valid hA.dst.valid.valid).symm.trans e1)
  have hready := ready_of (sound_diff hD hF f1 f2 (together_flat c1 hF (fun _ _ => rfl) flat' f1 f2)) rfl hF hD.base'.vD
  have e2' := e2
  simp only [Delta.nc, hx, bind, Except.bind, pure, Except.pure] at e2'
  obtain rfl := Except.ok.inj e2'
  refine ⟨e1, rfl, e2, ?_, ?_⟩
  · split
    · exact addAttr_known _ hD.base'.vD.allKnown
    · exact hD.base'.vD.allKnown
  · split
    · exact ready_addAttr hready _
    · exact hready.strip

/-- A delta with `random_depth` has the same nodes. -/
theorem Sent.random {h : Host} {mods : List Module} {c1 c2 : Elem} {opts : Opts} {δ : Delta} {x : Elem}
    (hs : Sent h mods c1 c2 opts δ x) {rnd : Nat → List Nat} (hr : ∀ n, (rnd n).Perm (List.range n)) (depth : Nat) :
    ∃ δ' y, newDelta h.device c1 c2 opts (some (depth, rnd)) = .ok δ' ∧ δ'.nc h.device = .ok y ∧ SameNodes x.kids y.kids := by
  obtain ⟨y, h1, h2, _⟩ := C18_reorder h.device rnd hr depth δ x hs.plain hs.nc hs.known
  refine ⟨_, y, ?_, h1, (shuffled_like depth h2).kids⟩
  have hd := hs.delta
  unfold newDelta at hd ⊢
  obtain ⟨_, h3, h4⟩ := bind_ok.mp hd
  cases h4
  rw [h3]; rfl

end NcDiff.Compile
