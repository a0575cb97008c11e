import Verif.Proof.Roots
import Verif.Spec.Demo
/-!
# Property C74: no node from nowhere, and the models of configs and deltas
-/

namespace NcDiff

/-! ## No node from nowhere -/

/-- C74: every node of an edit-config is at a place where the source or the target has a node; for any two trees, any schema, any
options and any order. -/
theorem C74_edit_config (d : Device) (δ : Delta) (x : Elem) (h : δ.nc d = .ok x) : PlacesOfEither x δ.src δ.dst :=
  fun p hp => ((places_nc h).2 p hp).symm

/-- C74: so is every node of an edit-config with `replace_xpath`, whatever the XPath selects. -/
theorem C74_xpath (d : Device) (opts : Opts) (sel : Elem → List (List Nat)) (src dst x : Elem)
    (h : calcSubXpath d opts sel dst src = .ok x) : PlacesOfEither x src dst :=
  fun p hp => (places_calcSubXpath h p hp).symm

/-- C74: every node of the sum of a config and a config, or of a config and an edit-config, is at a place where one of them has
a node. -/
theorem C74_sum (d : Device) (c x r : Elem) (hc : c.tag = ncTag "config")
    (h : configAdd d c x = .ok r ∨ configAddElem d c x = .ok r) : PlacesOfEither r c x := by
  rcases h with h | h
  · unfold configAdd at h
    obtain ⟨_, _, h⟩ := bind_ok.1 h
    exact places_addElem hc h
  · exact places_addElem hc h

/-- C74: every node of the sum of a config and a delta is at a place where the config, the source or the target has a node. -/
theorem C74_apply (d : Device) (c r : Elem) (δ : Delta) (hc : c.tag = ncTag "config") (h : configAddDelta d c δ = .ok r) :
    ∀ p, HasPath r p → HasPath c p ∨ HasPath δ.src p ∨ HasPath δ.dst p := by
  unfold configAddDelta at h
  obtain ⟨_, _, h⟩ := bind_ok.1 h
  obtain ⟨x, hx, h⟩ := bind_ok.1 h
  intro p hp
  rcases places_addElem hc h p hp with h | h
  · exact .inl h
  · exact .inr (C74_edit_config d δ x hx p h)

/-- C74: a config has only nodes of the document that it is made of. -/
theorem C74_built (d : Device) (e c : Elem) (validate removeDeprecated : Bool) (he : e.tag = ncTag "config")
    (h : newConfig d e validate removeDeprecated = .ok c) : PlacesOf c e :=
  ((lies_newConfig h).trans (lies_retrieve he)).2

/-- C74: a filtered config has only nodes of the config. -/
theorem C74_filter (d : Device) (c r : Elem) (sel : List (List Nat)) (hc : c.tag = ncTag "config")
    (h : configFilter d c sel = .ok r) : PlacesOf r c := by
  unfold configFilter at h
  obtain ⟨c', h1, h⟩ := bind_ok.1 h
  have hl := (lies_newConfig h1).trans (lies_retrieve hc)
  split at h
  · cases h
    exact placesOf_kids fun k hk => by cases hk
  · split at h
    · cases h; exact hl.2
    · exact ((lies_filter _ h).trans hl).2

/-- C74: the config in a reply has only nodes of the reply. -/
theorem C74_extract (d : Device) (reply c : Elem) (removeDeprecated : Bool) (h : extractConfig d reply removeDeprecated = .ok c)
    (hr : reply.tag = ncTag "rpc-reply") : ∀ p, HasPath c p → p = [] ∨ HasPath reply (ncTag "data" :: p) := by
  unfold extractConfig at h
  obtain ⟨c', h1, h⟩ := bind_ok.1 h
  have hl := (lies_readOnly _ h).trans (lies_newConfig h1)
  intro p hp
  have := hl.2 p hp
  cases this with
  | here => exact .inl rfl
  | @down _ k p hk hq =>
    refine .inr ?_
    have hk' : k ∈ selectPath ["rpc-reply", "data"] reply := by
      have : (retrieveConfig reply).kids = selectPath ["rpc-reply", "data"] reply := by
        unfold retrieveConfig
        show _ ++ _ ++ _ ++ _ ++ _ = _
        simp [selectPath, hr, ncTag]
      rw [← this]; exact hk
    have e : selectPath ["rpc-reply", "data"] reply =
        reply.kids.flatMap fun x => if x.tag = ncTag "data" then x.kids else [] := by
      simp only [selectPath, hr, if_true]
    rw [e, List.mem_flatMap] at hk'
    obtain ⟨x, hx, hk'⟩ := hk'
    split at hk'
    · rename_i ht
      rw [← ht]
      exact .down hx (.down hk' hq)
    · cases hk'

/-! ## Models and roots -/

/-- C74: `models` and `roots` of a config raise nothing exactly if every root belongs to a loaded model; then `models` is the
sorted list of the models of the roots, and `roots` gives the model of each root. -/
theorem C74_models (d : Device) (c : Elem) :
    ((∃ l, configModels d c = .ok l) ↔ KnownRoots d c) ∧ ((∃ l, rootDict d c = .ok l) ↔ KnownRoots d c) ∧
    (∀ l, configModels d c = .ok l → ModelsOf d [c] l) ∧ ∀ l, rootDict d c = .ok l → RootsOf d [c] l :=
  ⟨⟨fun ⟨_, h⟩ => (configModels_spec h).1, configModels_known⟩, ⟨fun ⟨_, h⟩ => (rootDict_spec h).1, rootDict_known⟩,
    fun _ h => (configModels_spec h).2, fun _ h => (rootDict_spec h).2⟩

/-- C74: the same for a delta, with the roots of both configs. -/
theorem C74_delta_models (d : Device) (δ : Delta) :
    ((∃ l, δ.models d = .ok l) ↔ KnownRoots d δ.src ∧ KnownRoots d δ.dst) ∧
    ((∃ l, δ.roots d = .ok l) ↔ KnownRoots d δ.src ∧ KnownRoots d δ.dst) ∧
    (∀ l, δ.models d = .ok l → ModelsOf d [δ.src, δ.dst] l) ∧ ∀ l, δ.roots d = .ok l → RootsOf d [δ.src, δ.dst] l :=
  ⟨⟨fun ⟨_, h⟩ => ⟨(deltaModels_spec h).1, (deltaModels_spec h).2.1⟩, fun h => deltaModels_known h.1 h.2⟩,
    ⟨fun ⟨_, h⟩ => ⟨(deltaRoots_spec h).1, (deltaRoots_spec h).2.1⟩, fun h => deltaRoots_known h.1 h.2⟩,
    fun _ h => (deltaModels_spec h).2.2, fun _ h => (deltaRoots_spec h).2.2⟩

theorem knownRoots_compatible {d : Device} {cs : List Elem} (h : compatible d cs = .ok ()) : ∀ c ∈ cs, KnownRoots d c := by
  unfold compatible at h
  obtain ⟨rs, h1, h2⟩ := bind_ok.1 h
  clear h h2
  induction cs generalizing rs with
  | nil => intro c hc; cases hc
  | cons a l ih =>
    rw [List.mapM_cons] at h1
    obtain ⟨b, h2, h1⟩ := bind_ok.1 h1
    obtain ⟨s, h3, h1⟩ := bind_ok.1 h1
    intro c hc
    rcases List.mem_cons.1 hc with e | hc
    · rw [e]; exact (configRoots_spec h2).1
    · exact ih _ h3 c hc

/-- C74: a delta that can be made has models and roots, and every top node of its edit-config belongs to one of these models and
is one of these roots. -/
theorem C74_covered (d : Device) (src dst : Elem) (opts : Opts) (sh : Option (Nat × (Nat → List Nat))) (δ : Delta)
    (h : newDelta d src dst opts sh = .ok δ) : ∃ l r, δ.models d = .ok l ∧ δ.roots d = .ok r ∧
      ∀ x, δ.nc d = .ok x → ∀ k ∈ x.kids, ∃ m ∈ l, (k.tag, m) ∈ r := by
  unfold newDelta at h
  obtain ⟨_, h1, h⟩ := bind_ok.1 h
  cases h
  have hk := knownRoots_compatible h1
  have k1 := hk src (by simp)
  have k2 := hk dst (by simp)
  obtain ⟨l, hl⟩ := deltaModels_known (δ := ⟨src, dst, opts, sh⟩) k1 k2
  obtain ⟨r, hr⟩ := deltaRoots_known (δ := ⟨src, dst, opts, sh⟩) k1 k2
  refine ⟨l, r, hl, hr, fun x hx k hkx => ?_⟩
  have hpl := C74_edit_config d _ x hx
  obtain ⟨m, hm⟩ := KnownRoots.either k1 k2 hpl k hkx
  have hri := rootIn_either hpl (m := m) ⟨x, by simp, k, hkx, hm⟩
  refine ⟨m, ((deltaModels_spec hl).2.2.2 m).2 hri, ((deltaRoots_spec hr).2.2.2 _ _).2 ⟨?_, hm⟩⟩
  rcases hpl [k.tag] (.down hkx (.here k)) with hp | hp
  · obtain ⟨k', hk', e, _⟩ := hp.inv; exact ⟨src, by simp, k', hk', e⟩
  · obtain ⟨k', hk', e, _⟩ := hp.inv; exact ⟨dst, by simp, k', hk', e⟩

/-- C74: the opposite delta has the same models. -/
theorem C74_neg (d : Device) (δ ε : Delta) (h : δ.neg d = .ok ε) : ε.models d = δ.models d := by
  unfold Delta.neg newDelta at h
  obtain ⟨_, h1, h⟩ := bind_ok.1 h
  cases h
  have hk := knownRoots_compatible h1
  have k1 := hk δ.src (by simp)
  have k2 := hk δ.dst (by simp)
  obtain ⟨l, hl⟩ := deltaModels_known (δ := δ) k1 k2
  obtain ⟨l', hl'⟩ := deltaModels_known (δ := ⟨δ.dst, δ.src, {}, none⟩) k2 k1
  refine hl'.trans (Eq.trans ?_ hl.symm)
  obtain ⟨p, e⟩ := (deltaModels_spec hl).2.2
  obtain ⟨p', e'⟩ := (deltaModels_spec hl').2.2
  refine congrArg _ (pairwise_ext p' p fun m => ?_)
  rw [e, e']
  simp only [RootIn, List.mem_cons, List.not_mem_nil, or_false]
  constructor
  · rintro ⟨c, hc, r⟩; exact ⟨c, hc.symm, r⟩
  · rintro ⟨c, hc, r⟩; exact ⟨c, hc.symm, r⟩

/-- C74: the models of a sum are among those of the summands. -/
theorem C74_sum_models (d : Device) (c1 c2 r : Elem) (hc : c1.tag = ncTag "config") (h : configAdd d c1 c2 = .ok r) :
    ∃ l1 l2 l, configModels d c1 = .ok l1 ∧ configModels d c2 = .ok l2 ∧ configModels d r = .ok l ∧ ∀ m ∈ l, m ∈ l1 ∨ m ∈ l2 := by
  have hp := C74_sum d c1 c2 r hc (.inl h)
  have hk : KnownRoots d c1 ∧ KnownRoots d c2 := by
    unfold configAdd at h
    obtain ⟨_, h1, _⟩ := bind_ok.1 h
    have := knownRoots_compatible h1
    exact ⟨this c1 (by simp), this c2 (by simp)⟩
  obtain ⟨l1, h1⟩ := configModels_known hk.1
  obtain ⟨l2, h2⟩ := configModels_known hk.2
  obtain ⟨l, hl⟩ := configModels_known (KnownRoots.either hk.1 hk.2 hp)
  refine ⟨l1, l2, l, h1, h2, hl, fun m hm => ?_⟩
  obtain ⟨c, hc, k, hk, e⟩ := rootIn_either hp (((configModels_spec hl).2.2 m).1 hm)
  rcases List.mem_cons.1 hc with hc | hc
  · exact .inl (((configModels_spec h1).2.2 m).2 ⟨c, by simp [hc], k, hk, e⟩)
  · exact .inr (((configModels_spec h2).2.2 m).2 ⟨c, hc, k, hk, e⟩)

namespace RootsDemo

open Demo

/-- Two models; the second one has two roots. -/
def dev2 : Device where
  namespaces := [("zz", "z", "urn:z"), ("aa", "a", "urn:a")]
  roots := [(⟨"urn:z", "x"⟩, "zz"), (⟨"urn:a", "y"⟩, "aa"), (⟨"urn:a", "w"⟩, "aa")]
  models := [("zz", [.mk { tag := ⟨"urn:z", "x"⟩, ntype := .leaf } []]),
    ("aa", [.mk { tag := ⟨"urn:a", "y"⟩, ntype := .leaf } [], .mk { tag := ⟨"urn:a", "w"⟩, ntype := .leaf } []])]

def leafE (u n v : String) : Elem := .mk ⟨u, n⟩ [(none, u)] [] (some v) []

def from1 : Elem := emptyConfig.setKids [leafE "urn:z" "x" "1", leafE "urn:a" "w" "5"]
def to2 : Elem := emptyConfig.setKids [leafE "urn:a" "y" "3", leafE "urn:a" "w" "5"]

/-- A delta between configs with two models: its edit-config deletes one root and creates another. -/
example : (newDelta dev2 from1 to2).toOption.isSome = true ∧
    ((Delta.nc dev2 ⟨from1, to2, {}, none⟩).toOption.map fun x => x.kids.map Elem.tag) =
      some [⟨"urn:a", "y"⟩, ⟨"urn:z", "x"⟩] ∧
    (Delta.models dev2 ⟨from1, to2, {}, none⟩).toOption = some ["aa", "zz"] ∧
    (Delta.roots dev2 ⟨from1, to2, {}, none⟩).toOption =
      some [(⟨"urn:z", "x"⟩, "zz"), (⟨"urn:a", "w"⟩, "aa"), (⟨"urn:a", "y"⟩, "aa")] ∧
    (Delta.neg dev2 ⟨from1, to2, {}, none⟩).toOption.isSome = true := by
  decide +kernel

/-- A root that the device does not know. -/
example : (configModels dev2 (emptyConfig.setKids [leafE "urn:q" "x" "1"])).toOption = none := by decide +kernel

/-- The sum of two configs with different models, and a filtered config. -/
example : ((configAdd dev2 from1 to2).toOption.bind fun r => (configModels dev2 r).toOption) = some ["aa", "zz"] ∧
    ((configFilter dev2 from1 [[1]]).toOption.map fun r => r.kids.map Elem.tag) = some [⟨"urn:a", "w"⟩] ∧
    from1.tag = ncTag "config" := by
  decide +kernel

/-- A reply. -/
example : ((extractConfig dev2 (.mk (ncTag "rpc-reply") [] [] none
    [.mk (ncTag "data") [] [] none [leafE "urn:z" "x" "1"]])).toOption.map fun r => r.kids.map Elem.tag) =
      some [⟨"urn:z", "x"⟩] := by
  decide +kernel

end RootsDemo
end NcDiff
