import Verif.Proof.StandIn
import Verif.Props.RoundTrip
/-!
# Property C58: a delta can be applied to every config that equals its source
-/

namespace NcDiff

section
variable {d : Device}

theorem Steps.plain {sc : Scope} {T : Elem} (hT : Deep d (PlainLeaves d) sc T) : ∀ {S : Elem}, MergeValues d sc S T := by
  induction hT with
  | mk here sub ih =>
    intro S
    refine .mk ?_ ?_
    · intro s _ k hk _ f hf hn
      have := here k hk f hf hn
      constructor <;> intro hd <;> rw [hd] at this <;> exact this.elim
    · intro s _ k hk _ f hf _
      exact ih k hk f hf

/-- What applying the delta from `c1` to `c2` to a stand-in of `c1` gives is a stand-in of `c2`. -/
theorem stand_in (d : Device) (opts : Opts) (c1 c2 c1' : Elem) (h : Transition d c1 c2) (hll : RootSafe d opts c2)
    (hs : StandIn d c1' c1) (hm : MergeValues d .root c1' c2) :
    ∃ δ r, newDelta d c1 c2 opts = .ok δ ∧ configAddDelta d c1' δ = .ok r ∧ StandIn d r c2 := by
  obtain ⟨D, hx, _, hdiff⟩ := calcSub_ok carry_deletes.carry (h.loose (ω := True)) (fun _ => h.src.filled)
  obtain ⟨_, hdiff⟩ := hdiff hll
  have h1 := h.src.valid.valid
  have h2 := h.dst.valid.valid
  obtain ⟨b, hb, hbi⟩ := cfgEq_iff hs.valid h.src.valid
  have hsame : SameConfig d .root c1' c1 := by
    rw [hs.equal] at hb
    exact hbi.1 (Except.ok.inj hb).symm
  have hd' := hdiff.stand ⟨hs.valid.valid, hs.prefixes, hs.bare, hsame⟩ hm rfl h2 h.dst.bare rfl rfl
  obtain ⟨R, hR, hsR⟩ := hd'.add
  have hb := hd'.base'
  obtain ⟨hvR, hnR⟩ := nodeAdd_valid d D .root c1' R hb.vS hb.nS hb.vD hb.lD hR
  have haR := nodeAdd_noAttrs d D .root c1' R hs.bare hR
  set x := if opts.diffType = .minimumReplace then addAttrAtDepth (opts.replaceDepth + 1) D else D with hxd
  have hadd : calcAdd d c1' x = .ok R := by
    unfold calcAdd
    rw [hxd]
    split
    · rw [nodeAdd_addAttr, hR]
    · exact hR
  obtain ⟨r, hr, hre, hrv, hrs⟩ := addElem_ok hadd hvR hs.tag hs.bare.here' hs.valid.noText h2 hsR.tight
    h.defaults h.trimmed
  have hvr : ValidConfig d r := ⟨hrv, by rw [hre]; rfl⟩
  refine ⟨_, r, newDelta_ok h1 h2, ?_, hvr, ?_, ?_, by rw [hre]; rfl, ?_⟩
  · unfold configAddDelta
    rw [compatible_ok (cs := [c1', c1, c2]) (by
      intro c hc
      simp only [List.mem_cons, List.not_mem_nil, or_false] at hc
      rcases hc with rfl | rfl | rfl
      · exact hs.valid.valid.known
      · exact h1.known
      · exact h2.known)]
    simp only [bind, Except.bind, Delta.nc]
    rw [hx]
    exact hr
  · rw [hre]
    exact .mk rfl (fun k hk => haR.sub' k hk)
  · rw [hre]
    refine .mk ?_ (fun k hk => hnR.sub' k hk)
    exact ⟨show NsMapOk emptyConfig.nsmap by decide, hnR.here'.2⟩
  · obtain ⟨q, hq, hqi⟩ := cfgEq_iff hvr h.dst.valid
    rw [hq, hqi.2 hrs]

/-- C58: the delta from `c1` to `c2` can be applied to every config that equals `c1`, and the result equals
`c2`. -/
theorem C58_equal_source (d : Device) (opts : Opts) (c1 c2 c1' : Elem) (h : Transition d c1 c2)
    (hll : RootSafe d opts c2) (hs : StandIn d c1' c1) (hm : MergeValues d .root c1' c2) :
    ∃ δ r, newDelta d c1 c2 opts = .ok δ ∧ configAddDelta d c1' δ = .ok r ∧ cfgEq d r c2 = .ok true := by
  obtain ⟨δ, r, h1, h2, h3⟩ := stand_in d opts c1 c2 c1' h hll hs hm
  exact ⟨δ, r, h1, h2, h3.equal⟩

/-- C58, histories: deltas between the consecutive configs of a history can be applied one after another, to
any config that equals the first one, and lead to a config that equals the last one. -/
theorem C58_history (d : Device) : ∀ (rest : List (Opts × Elem)) (r c : Elem), StandIn d r c → Steps d c rest →
    ∃ r', applyAll d r c rest = .ok r' ∧ StandIn d r' (finalOf c rest) := by
  intro rest
  induction rest with
  | nil => exact fun r c hs _ => ⟨r, rfl, hs⟩
  | cons p rest ih =>
    obtain ⟨opts, c'⟩ := p
    intro r c hs ⟨h1, h2, h3, h4⟩
    obtain ⟨δ, r1, hδ, hr1, hs1⟩ := stand_in d opts c c' r h1 h2 hs (Steps.plain h3)
    obtain ⟨r', hr', hs'⟩ := ih r1 c' hs1 h4
    refine ⟨r', ?_, hs'⟩
    simp only [applyAll, hδ, hr1, bind, Except.bind]
    exact hr'

/-- C58, undo: applying a delta and then subtracting it leads back to where one started. -/
theorem C58_undo (d : Device) (opts : Opts) (c1 c2 c1' : Elem) (h : Transition d c1 c2) (hb : Transition d c2 c1)
    (hll : RootSafe d opts c2) (hs : StandIn d c1' c1) (p1 : Deep d (PlainLeaves d) .root c1)
    (p2 : Deep d (PlainLeaves d) .root c2) :
    ∃ δ r r', newDelta d c1 c2 opts = .ok δ ∧ configAddDelta d c1' δ = .ok r ∧ configSubDelta d r δ = .ok r' ∧
      cfgEq d r c2 = .ok true ∧ cfgEq d r' c1 = .ok true ∧ cfgEq d r' c1' = .ok true := by
  obtain ⟨δ, r, h1, h2, h3⟩ := stand_in d opts c1 c2 c1' h hll hs (Steps.plain p2)
  obtain ⟨δ', r', h1', h2', h3'⟩ := stand_in d {} c2 c1 r hb (Or.inl rfl) h3 (Steps.plain p1)
  refine ⟨δ, r, r', h1, h2, ?_, h3.equal, h3'.equal, ?_⟩
  · rw [newDelta_ok h.src.valid.valid h.dst.valid.valid] at h1
    obtain rfl := Except.ok.inj h1
    unfold configSubDelta Delta.neg
    simp only [h1', bind, Except.bind]
    exact h2'
  · obtain ⟨a, ha, hai⟩ := cfgEq_iff h3'.valid h.src.valid
    obtain ⟨b, hb, hbi⟩ := cfgEq_iff hs.valid h.src.valid
    obtain ⟨c, hc, hci⟩ := cfgEq_iff h3'.valid hs.valid
    rw [h3'.equal] at ha
    rw [hs.equal] at hb
    have s1 := hai.1 (Except.ok.inj ha).symm
    have s2 := hbi.1 (Except.ok.inj hb).symm
    rw [hc, hci.2 (s1.trans s2.symm)]

end

/-! ## The hypotheses can be met -/

namespace Demo

/-- Executable `PlainLeaves`. -/
def plainLeavesB (d : Device) (sc : Scope) (e : Elem) : Bool :=
  kidsB d sc e.kids (fun f _ => f.node.ntype ≠ .leaf || decide f.node.info.datatype.plain)

theorem plainLeavesB_sound {d : Device} (sc : Scope) (e : Elem) (h : plainLeavesB d sc e = true) :
    PlainLeaves d sc e := by
  intro k hk f hf hn
  have := kidsB_sound h k hk f hf
  simpa [hn] using this

/-- The config `rt1`, written with a prefix and with system-ordered siblings in another order. -/
def rt1' : Elem :=
  let m : NsMap := [(some "p", u)]
  let l := fun (n v : String) => Elem.mk (q n) m [] (some v) []
  let e := fun (n : String) (ks : List Elem) => Elem.mk (q n) m [] none ks
  cfg [e "top" [l "x" "1", e "np" [l "w" "1"], e "rule" [l "act" "deny", l "id" "1"],
    e "rule" [l "id" "2", l "act" "permit"], l "dns" "10.0.0.1", e "rule" [l "id" "4", l "act" "deny"],
    l "dns" "10.0.0.2", e "item" [l "val" "2", l "name" "y"], l "b" "5", e "item" [l "name" "x", l "val" "1"],
    l "tagl" "red", l "a" "1"]]

theorem rt_stand : StandIn dev rt1' rt1 := by
  refine ⟨validConfigB_sound (by decide +kernel), noAttrsB_sound _ (by decide +kernel),
    deepB_sound nsLevelB_sound _ _ (by decide +kernel),
    rfl, by decide +kernel⟩

theorem rt_plain : Deep dev (PlainLeaves dev) .root rt1 ∧ Deep dev (PlainLeaves dev) .root rt2 :=
  ⟨deepB_sound plainLeavesB_sound _ _ (by decide +kernel), deepB_sound plainLeavesB_sound _ _ (by decide +kernel)⟩

theorem rt_safe (opts : Opts) : RootSafe dev opts rt2 ∧ RootSafe dev opts rt1 := by
  constructor <;>
  · refine Or.inr (Or.inr ?_)
    intro k hk f hf
    simp only [rt2, rt1, cfg, Elem.kids, List.mem_singleton] at hk
    subst hk
    have : dev.lookup .root (q "top") = .ok ⟨topS, [0, 0], false⟩ := rfl
    obtain rfl := Except.ok.inj (this.symm.trans hf)
    decide

example (opts : Opts) : ∃ δ r, newDelta dev rt1 rt2 opts = .ok δ ∧ configAddDelta dev rt1' δ = .ok r ∧
    cfgEq dev r rt2 = .ok true :=
  C58_equal_source dev opts rt1 rt2 rt1' rt_transition (rt_safe opts).1 rt_stand (Steps.plain rt_plain.2)

example (opts : Opts) : ∃ δ r r', newDelta dev rt1 rt2 opts = .ok δ ∧ configAddDelta dev rt1' δ = .ok r ∧
    configSubDelta dev r δ = .ok r' ∧ cfgEq dev r rt2 = .ok true ∧ cfgEq dev r' rt1 = .ok true ∧
    cfgEq dev r' rt1' = .ok true :=
  C58_undo dev opts rt1 rt2 rt1' rt_transition rt_back (rt_safe opts).1 rt_stand rt_plain.1 rt_plain.2

/-- There and back, and there again with other preferences. -/
example (o1 o2 o3 : Opts) : ∃ r, applyAll dev rt1' rt1 [(o1, rt2), (o2, rt1), (o3, rt2)] = .ok r ∧
    StandIn dev r rt2 :=
  C58_history dev _ rt1' rt1 rt_stand ⟨rt_transition, (rt_safe o1).1, rt_plain.2, rt_back, (rt_safe o2).2, rt_plain.1,
    rt_transition, (rt_safe o3).1, rt_plain.2, trivial⟩

/-- C58 is false for a config that has more than the source of the delta: what the source does not have stays. -/
theorem C58_false_for_other_source : ∃ c1 c2 c3 δ r, Transition dev c1 c2 ∧ newDelta dev c1 c2 = .ok δ ∧
    ValidConfig dev c3 ∧ cfgLe dev c1 c3 = .ok true ∧ configAddDelta dev c3 δ = .ok r ∧
    cfgLe dev c2 r = .ok true ∧ cfgEq dev r c2 = .ok false :=
  ⟨cfg [el "top" [lf "a" "1"]], cfg [el "top" [lf "a" "2"]], cfg [el "top" [lf "a" "1", lf "b" "5"]], ⟨_, _, {}, none⟩,
    cfg [el "top" [lf "a" "2", lf "b" "5"]], transitionB_sound (by decide +kernel), rfl,
    validConfigB_sound (by decide +kernel), by decide +kernel, by decide +kernel, by decide +kernel, by decide +kernel⟩

end Demo
end NcDiff
