import Verif.Proof.Merge
import Verif.Props.RoundTrip
/-!
# Property C10: merging plain configs
-/

namespace NcDiff

section
variable {d : Device}

theorem Within.root {a b b' : Elem} {sc : Scope} (h : Within d sc a b) (hk : b'.kids = b.kids) : Within d sc a b' := by
  cases h with
  | mk k s => exact .mk (by rw [hk]; exact k) (by rw [hk]; exact s)

theorem HasAll.root {a b b' : Elem} {sc : Scope} (h : HasAll d sc a b) (hk : b'.kids = b.kids) : HasAll d sc a b' := by
  cases h with
  | mk k v s => exact .mk (by rw [hk]; exact k) (by rw [hk]; exact v) (by rw [hk]; exact s)

theorem FromBoth.root {a b r r' : Elem} {sc : Scope} (h : FromBoth d sc a b r) (hk : r'.kids = r.kids) :
    FromBoth d sc a b r' := by
  cases h with
  | mk o l r b => exact .mk (by rw [hk]; exact o) (by rw [hk]; exact l) (by rw [hk]; exact r) (by rw [hk]; exact b)

theorem side_delta {sc : Scope} {c : Elem} (h : Side d sc c) : Deep d (DeltaLevel d) sc c := by
  refine (newKids_facts (ω := True) h rfl (by rw [h.bare.here']; simp) (List.forall₂_same.2 ?_)).2.1
  intro y hy
  obtain ⟨g, hg, _⟩ := h.valid.shape' y hy
  exact ⟨g, hg, new_self y h hy hg⟩

theorem configAdd_eq {c1 c2 : Elem} (h1 : Valid d .root c1) (h2 : Valid d .root c2) :
    configAdd d c1 c2 = configAddElem d c1 c2 := by
  unfold configAdd
  rw [compatible_ok (cs := [c1, c2]) (by
    intro c hc
    simp only [List.mem_cons, List.not_mem_nil, or_false] at hc
    rcases hc with rfl | rfl
    · exact h1.known
    · exact h2.known)]
  rfl

/-- C10: adding a config without edit-config attributes succeeds.  The result has all instances of
both configs, the leaves of `c2` have the values of `c2`, every instance comes from one of the
configs, and what is only in `c1` is unchanged. -/
theorem C10_merge_is_union (d : Device) (c1 c2 : Elem) (h : Mergeable d c1 c2) :
    ∃ r, configAdd d c1 c2 = .ok r ∧ HasAll d .root c2 r ∧ Within d .root c1 r ∧ FromBoth d .root c1 c2 r := by
  have hs : FullSide d .root c2 := ⟨h.other.side, h.other.filled⟩
  obtain ⟨R, hR⟩ := merge_ok c2 hs h.src.valid h.values
  have hdl := side_delta hs.toSide
  have hvR := (nodeAdd_valid d c2 .root c1 R h.src.valid h.ns hs.valid hdl hR).1
  have happ := nodeAdd_applied d c2 .root c1 R h.src.valid h.ns hs.valid hdl hR
  have htr := merge_trimmed c2 hs hvR happ h.trimmed1 h.trimmed2 h.defaults1 h.defaults2
  obtain ⟨e1, _⟩ := nodeAdd_tag hR
  refine ⟨emptyConfig.setKids R.kids, ?_, (merge_inv c2 hs happ).1.root rfl,
    (merge_within c2 hs h.src.valid happ).root rfl, (merge_from c2 hs hvR happ).root rfl⟩
  rw [configAdd_eq h.src.valid hs.valid]
  unfold configAddElem newConfig calcAdd
  rw [hR]
  simp only [bind, Except.bind, pure, Except.pure]
  rw [retrieve_kids (e1.trans h.tag), trim_fixed.2 (by
    have := trim_fixed.1 htr
    simpa using this)]
  rfl

theorem add_equal {c x T R : Elem} (hc : Valid d .root c) (hx : Valid d .root x) (htag : c.tag = ncTag "config")
    (hbare : c.attrs = []) (htext : c.text = none) (hT : ValidConfig d T)
    (hdef : Deep d (DefaultLevel d) .root T) (htrim : trimDefaults d .root T = .ok T)
    (hadd : nodeAdd d x .root c = .ok R) (hR : Valid d .root R) (hs : SameConfig d .root R T) :
    ∃ r, configAdd d c x = .ok r ∧ cfgEq d r T = .ok true := by
  obtain ⟨r, hr, hre, hrv, hrs⟩ := addElem_ok hadd hR htag hbare htext hT.valid hs hdef htrim
  refine ⟨r, by rw [configAdd_eq hc hx]; exact hr, ?_⟩
  obtain ⟨b, hbq, hbi⟩ := cfgEq_iff (a := r) (b := T) ⟨hrv, by rw [hre]; rfl⟩ hT
  rw [hbq, hbi.2 hrs]

/-- C10: `c + c == c`. -/
theorem C10_idempotent (d : Device) (c : Elem) (h : PlainConfig d c) (htag : c.tag = ncTag "config")
    (hval : MergeValues d .root c c) (htrim : trimDefaults d .root c = .ok c)
    (hdef : Deep d (DefaultLevel d) .root c) :
    ∃ r, configAdd d c c = .ok r ∧ cfgEq d r c = .ok true := by
  have hdiff := diff_self (ω := True) c ⟨h.side, h.filled⟩ hval
  obtain ⟨R, hR, hsame⟩ := hdiff.add
  have hb := hdiff.base'
  have hvR := (nodeAdd_valid d c .root c R hb.vS hb.nS hb.vD hb.lD hR).1
  exact add_equal h.valid.valid h.valid.valid htag h.bare.here' h.valid.noText h.valid hdef htrim hR hvR hsame.tight

theorem emptyConfig_valid : ValidConfig d emptyConfig :=
  ⟨.mk (by simp [emptyConfig, Elem.new]) (by simp [emptyConfig, Elem.new]) (by simp [emptyConfig, Elem.new])
    (by simp [emptyConfig, Elem.new]), rfl⟩

/-- C10: `c + empty == c`. -/
theorem C10_empty_right (d : Device) (c : Elem) (h : ValidConfig d c) (hb : c.attrs = [])
    (htag : c.tag = ncTag "config") (htrim : trimDefaults d .root c = .ok c)
    (hdef : Deep d (DefaultLevel d) .root c) :
    ∃ r, configAdd d c emptyConfig = .ok r ∧ cfgEq d r c = .ok true :=
  add_equal h.valid emptyConfig_valid.valid htag hb h.noText h hdef htrim
    (nodeAdd_empty h.valid.indexable rfl) h.valid (.refl h.valid)

/-- C10: `empty + c == c`. -/
theorem C10_empty_left (d : Device) (c : Elem) (h : PlainConfig d c) (htag : c.tag = ncTag "config")
    (htrim : trimDefaults d .root c = .ok c) (hdef : Deep d (DefaultLevel d) .root c) :
    ∃ r, configAdd d emptyConfig c = .ok r ∧ cfgEq d r c = .ok true := by
  have hdiff : Diff True d .root emptyConfig c c := by
    have := diff_fresh (ω := True) (o := c) (m := [(some "nc", ncUrl)]) h.side (by
      unfold parseTextAt; rw [h.valid.noText]; rfl) (by decide) rfl rfl (by rw [h.bare.here']; simp)
      (List.forall₂_same.2 fun y hy => by
        obtain ⟨g, hg, _⟩ := h.side.valid.shape' y hy
        exact ⟨g, hg, new_self y h.side hy hg⟩)
    rwa [htag] at this
  obtain ⟨R, hR, hsame⟩ := hdiff.add
  have hb := hdiff.base'
  have hvR := (nodeAdd_valid d c .root emptyConfig R hb.vS hb.nS hb.vD hb.lD hR).1
  exact add_equal hb.vS h.valid.valid rfl rfl rfl h.valid hdef htrim hR hvR hsame.tight

end

/-! ## The hypotheses can be met -/

mutual
/-- Executable `MergeValues`. -/
def mergeValuesB (d : Device) (sc : Scope) : Elem → Elem → Bool
  | .mk _ _ _ _ ks, T =>
    kidsB d sc T.kids (fun f k => ks.all (fun s => !sameB d sc s k || !(f.node.ntype = .leaf) ||
      writableB d f.node k s.nsmap)) && mergeKidsB d sc T.kids ks
def mergeKidsB (d : Device) (sc : Scope) (T : List Elem) : List Elem → Bool
  | [] => true
  | s :: r =>
    (match d.lookup sc s.tag with
      | .ok f => T.all (fun k => !sameB d sc s k || mergeValuesB d (.node f.node) s k)
      | .error _ => true) && mergeKidsB d sc T r
end

theorem mergeKidsB_mem {d : Device} {sc : Scope} {T : List Elem} : ∀ {ks : List Elem},
    mergeKidsB d sc T ks = true → ∀ s ∈ ks, ∀ f, d.lookup sc s.tag = .ok f → ∀ k ∈ T, SameInstance d sc s k →
      mergeValuesB d (.node f.node) s k = true
  | [], _, s, hs => by simp at hs
  | x :: r, h, s, hs => by
    rw [mergeKidsB, Bool.and_eq_true] at h
    cases hs with
    | head =>
      intro f hf k hk hsm
      have := h.1
      rw [hf] at this
      have := List.all_eq_true.1 this k hk
      rw [(sameB_iff ..).2 hsm] at this
      simpa using this
    | tail _ hs => exact mergeKidsB_mem h.2 s hs

theorem mergeValuesB_sound {d : Device} : ∀ (S : Elem) {sc : Scope} {T : Elem}, mergeValuesB d sc S T = true →
    MergeValues d sc S T := by
  intro S
  induction S using Elem.ind with
  | h t n a x ks ih =>
    intro sc T h
    rw [mergeValuesB, Bool.and_eq_true] at h
    refine .mk ?_ ?_
    · intro s hs k hk hsk f hf hn
      have := List.all_eq_true.1 (kidsB_sound h.1 k hk f hf) s hs
      rw [(sameB_iff ..).2 hsk] at this
      exact writableB_sound (by simpa [hn] using this)
    · intro s hs k hk hsk f hf _
      exact ih s hs (mergeKidsB_mem h.2 s hs f (by rw [hsk.1]; exact hf) k hk hsk)

/-- Executable `LeafDefaults`. -/
def leafDefaultsB (d : Device) (sc : Scope) (e : Elem) : Bool :=
  kidsB d sc e.kids (fun f _ => f.node.info.dflt = none || (f.node.ntype ≠ .leafList &&
    (!(f.node.ntype = .leaf) || decide f.node.info.datatype.plain)))

theorem leafDefaultsB_sound {d : Device} (sc : Scope) (e : Elem) (h : leafDefaultsB d sc e = true) :
    LeafDefaults d sc e := by
  intro k hk f hf hd
  have := kidsB_sound h k hk f hf
  simp only [Bool.or_eq_true, Bool.and_eq_true, decide_eq_true_eq, Bool.not_eq_true', decide_eq_false_iff_not] at this
  rcases this with h | ⟨h1, h2⟩
  · exact absurd h hd
  · exact ⟨h1, fun hn => h2.resolve_left (fun h => h hn)⟩

/-- Executable `Mergeable`. -/
def mergeableB (d : Device) (c1 c2 : Elem) : Bool :=
  plainConfigB d c1 && plainConfigB d c2 && c1.tag = ncTag "config" && mergeValuesB d .root c1 c2 &&
    decide (trimDefaults d .root c1 = .ok c1) && decide (trimDefaults d .root c2 = .ok c2) &&
    deepB d (leafDefaultsB d) .root c1 && deepB d (leafDefaultsB d) .root c2

theorem mergeableB_sound {d : Device} {c1 c2 : Elem} (h : mergeableB d c1 c2 = true) : Mergeable d c1 c2 := by
  simp only [mergeableB, Bool.and_eq_true, decide_eq_true_eq] at h
  obtain ⟨⟨⟨⟨⟨⟨⟨a, b⟩, c⟩, e⟩, f⟩, g⟩, i⟩, j⟩ := h
  have ha := plainConfigB_sound a
  exact ⟨ha.valid, ha.side.ns, ha.bare, plainConfigB_sound b, c, mergeValuesB_sound c1 e, f, g,
    deepB_sound leafDefaultsB_sound c1 .root i, deepB_sound leafDefaultsB_sound c2 .root j⟩

namespace Demo

theorem rt_mergeable : Mergeable dev rt1 rt2 := mergeableB_sound (by decide +kernel)
theorem rt_merge_self : Mergeable dev rt1 rt1 := mergeableB_sound (by decide +kernel)

example : ∃ r, configAdd dev rt1 rt2 = .ok r ∧ HasAll dev .root rt2 r ∧ Within dev .root rt1 r ∧
    FromBoth dev .root rt1 rt2 r :=
  C10_merge_is_union dev rt1 rt2 rt_mergeable

example : ∃ r, configAdd dev rt1 rt1 = .ok r ∧ cfgEq dev r rt1 = .ok true :=
  C10_idempotent dev rt1 rt_transition.src rfl rt_merge_self.values rt_back.trimmed rt_back.defaults

example : ∃ r, configAdd dev rt1 emptyConfig = .ok r ∧ cfgEq dev r rt1 = .ok true :=
  C10_empty_right dev rt1 rt_transition.src.valid rfl rfl rt_back.trimmed rt_back.defaults

example : ∃ r, configAdd dev emptyConfig rt1 = .ok r ∧ cfgEq dev r rt1 = .ok true :=
  C10_empty_left dev rt1 rt_transition.src rfl rt_back.trimmed rt_back.defaults

/-- A device with a leaf-list that has default values. -/
def devD : Device :=
  { namespaces := [("demo", "d", u)], roots := [(q "top", "demo")],
    models := [("demo", [.mk { tag := q "top", ntype := .container }
      [.mk { tag := q "l", ntype := .leafList, dflt := some "a,b" } []]])] }

/-- C10 is false for leaf-lists with default values: values that together are the default values
are trimmed from the sum. -/
theorem C10_false_for_leaf_list_defaults : ∃ c1 c2 r, PlainConfig devD c1 ∧ PlainConfig devD c2 ∧
    trimDefaults devD .root c1 = .ok c1 ∧ trimDefaults devD .root c2 = .ok c2 ∧
    configAdd devD c1 c2 = .ok r ∧ r = emptyConfig ∧ c2 ≠ emptyConfig :=
  ⟨cfg [el "top" [lf "l" "a"]], cfg [el "top" [lf "l" "b"]], emptyConfig, plainConfigB_sound (by decide +kernel),
    plainConfigB_sound (by decide +kernel), by decide +kernel, by decide +kernel, by decide +kernel, rfl,
    by decide +kernel⟩

end Demo

end NcDiff
