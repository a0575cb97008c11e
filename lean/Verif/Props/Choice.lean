import Verif.Proof.Choice
import Verif.Spec.CheckChoice
import Verif.Props.RoundTrip
/-!
# Property C61: changing the case of a choice

The nodes of the old case are not in the delta: the device removes them when it gets the nodes of
the new case.  `clear` says what the device removes.
-/

namespace NcDiff

variable {d : Device}

/-- The edit-config of the delta clears the other cases and describes how to get from what is left to the target; the
order counts if `ω`. -/
theorem switch_diffW {ω : Prop} {opts : Opts} {c1 c2 : Elem} (h1 : PlainConfig d c1) (h2 : PlainConfig d c2)
    (t1 : c1.tag = ncTag "config") (t2 : c2.tag = ncTag "config") (o1 : Deep d (OneCase d) .root c1)
    (o2 : Deep d (OneCase d) .root c2) (hsw : SwitchW ω d .root c1 c2) (hr : opts.diffType ≠ .replace)
    (hll : RootSafe d opts c2) :
    ∃ D, calcSub d opts c2 c1 =
        .ok (if opts.diffType = .minimumReplace then addAttrAtDepth (opts.replaceDepth + 1) D else D) ∧
      Diff ω d .root (clear d .root c2 c1) c2 D ∧ clear d .root D c1 = clear d .root c2 c1 ∧
      Unmentioned d .root c1 c2 D := by
  have ht : (clear d .root c2 c1).tag = c2.tag := by rw [clear_tag]; exact t1.trans t2.symm
  have hv : parseTextAt d .root (clear d .root c2 c1) = parseTextAt d .root c2 := by
    unfold parseTextAt
    simp only [clear_text, h1.valid.noText, h2.valid.noText]
  have hsc : ∀ n, Scope.root = .node n → n.ntype ≠ .case := by rintro n ⟨⟩
  have hS := clear_side c1 h1.side h2.side o2
  obtain ⟨D, hD, _, hd⟩ := nodeSub_shed (ω := ω) (opts := opts) carry_deletes.carry c2 0 (fun h' => absurd h' hr) h1.side hS
    h2.side ht hv (clear_compat c1 hsc h1.side h2.side o2 hsw h1.filled h2.filled)
    (fun h' => absurd h' hr)
    (clear_sheds c1 hsc h1.side h2.side o1 o2 hsw h1.filled)
  obtain ⟨_, hdiff⟩ := hd (by
    rcases hll with h' | h' | h'
    · exact Or.inl h'
    · exact absurd h'.1 hr
    · exact Or.inr h')
  refine ⟨D, ?_, hdiff, clear_delta c1 h1.side h2.side o1 o2 hdiff, clear_unmentioned c1 h1.side h2.side o1 o2 hdiff⟩
  unfold calcSub
  simp only [if_neg (fun h' : opts.diffType = .replace ∧ opts.replaceDepth = 0 => hr h'.1), hD, bind, Except.bind, pure,
    Except.pure]
  split <;> rfl

/-- See `switch_diffW`. -/
theorem switch_diff {opts : Opts} {c1 c2 : Elem} (h : Switches d c1 c2) (hr : opts.diffType ≠ .replace)
    (hll : RootSafe d opts c2) :
    ∃ D, calcSub d opts c2 c1 =
        .ok (if opts.diffType = .minimumReplace then addAttrAtDepth (opts.replaceDepth + 1) D else D) ∧
      Diff True d .root (clear d .root c2 c1) c2 D ∧ clear d .root D c1 = clear d .root c2 c1 ∧
      Unmentioned d .root c1 c2 D :=
  switch_diffW h.src h.dst h.srcTag h.dstTag h.srcCase h.dstCase h.switch.loose hr hll

/-- C61: a device that removes the nodes of the other cases when it gets the edit-config of the delta from `c1` to
`c2`, as RFC 7950 section 7.9 says, and then applies the edit-config, gets to `c2`.  For all preferences and
for all diff types except "replace". -/
theorem C61_change_case (d : Device) (opts : Opts) (c1 c2 : Elem) (h : Switches d c1 c2) (hr : opts.diffType ≠ .replace)
    (hll : RootSafe d opts c2) :
    ∃ δ x r, newDelta d c1 c2 opts = .ok δ ∧ δ.nc d = .ok x ∧ configAddDelta d (clear d .root x c1) δ = .ok r ∧
      ValidConfig d r ∧ SameConfig d .root r c2 := by
  obtain ⟨D, hx, hdiff, hcl, _⟩ := switch_diff h hr hll
  obtain ⟨R, hR, hsame⟩ := hdiff.add
  have hb := hdiff.base'
  have hvR := (nodeAdd_valid d D .root _ R hb.vS hb.nS hb.vD hb.lD hR).1
  have h1 := h.src.valid.valid
  have h2 := h.dst.valid.valid
  have hS := clear_side c1 h.src.side h.dst.side h.dstCase
  set x := if opts.diffType = .minimumReplace then addAttrAtDepth (opts.replaceDepth + 1) D else D with hxd
  have hclx : clear d .root x c1 = clear d .root c2 c1 := by
    rw [hxd]
    split
    · rw [clear_addAttr, hcl]
    · exact hcl
  have hadd : calcAdd d (clear d .root c2 c1) x = .ok R := by
    unfold calcAdd
    rw [hxd]
    split
    · rw [nodeAdd_addAttr, hR]
    · exact hR
  obtain ⟨r, hr', hre, hrv, hrs⟩ := addElem_ok hadd hvR (by rw [clear_tag]; exact h.srcTag) hS.bare.here'
    (by rw [clear_text]; exact h.src.valid.noText) h2 hsame.tight h.defaults h.trimmed
  refine ⟨_, x, r, newDelta_ok h1 h2, ?_, ?_, ⟨hrv, by rw [hre]; rfl⟩, hrs⟩
  · simp only [Delta.nc, hx, bind, Except.bind, pure, Except.pure]
  · rw [hclx]
    unfold configAddDelta
    rw [compatible_ok (cs := [clear d .root c2 c1, c1, c2]) (by
      intro c hc
      simp only [List.mem_cons, List.not_mem_nil, or_false] at hc
      rcases hc with rfl | rfl | rfl
      · exact hS.valid.known
      · exact h1.known
      · exact h2.known)]
    simp only [bind, Except.bind, Delta.nc]
    rw [hx]
    exact hr'

/-- C61, what the device removes: the same as if it got the whole target.  The delta does not mention any of it. -/
theorem C61_cleared (d : Device) (opts : Opts) (c1 c2 : Elem) (h : Switches d c1 c2) (hr : opts.diffType ≠ .replace)
    (hll : RootSafe d opts c2) :
    ∃ δ x, newDelta d c1 c2 opts = .ok δ ∧ δ.nc d = .ok x ∧ clear d .root x c1 = clear d .root c2 c1 ∧
      Unmentioned d .root c1 c2 x := by
  obtain ⟨D, hx, _, hcl, hun⟩ := switch_diff h hr hll
  refine ⟨_, if opts.diffType = .minimumReplace then addAttrAtDepth (opts.replaceDepth + 1) D else D,
    newDelta_ok h.src.valid.valid h.dst.valid.valid, ?_, ?_, ?_⟩
  · simp only [Delta.nc, hx, bind, Except.bind, pure, Except.pure]
  · split
    · rw [clear_addAttr, hcl]
    · exact hcl
  · split
    · exact unmentioned_strip c1 (strip_addAttr D _).symm hun
    · exact hun

/-! ## Examples -/

open Demo

namespace Choice

def sw1 : Elem := cfg [el "top" [lf "a" "1", item "i" "1", lf "dns" "1", lf "dns" "2", lf "x" "1"]]
def sw2 : Elem := cfg [el "top" [lf "b" "1", item "i" "2", lf "dns" "2", lf "dns" "1", lf "y" "5"]]

theorem sw_switches : Switches dev sw1 sw2 := switchesB_sound (by decide +kernel)

example : ∃ δ x r, newDelta dev sw1 sw2 {} = .ok δ ∧ δ.nc dev = .ok x ∧
    configAddDelta dev (clear dev .root x sw1) δ = .ok r ∧ ValidConfig dev r ∧ SameConfig dev .root r sw2 :=
  C61_change_case dev {} sw1 sw2 sw_switches (by decide) (Or.inl rfl)

/-- What the device removes. -/
example : clear dev .root sw2 sw1 = cfg [el "top" [lf "a" "1", item "i" "1", lf "dns" "1", lf "dns" "2"]] := by
  decide +kernel

/-- Without the device the delta does not reach the target. -/
example : ¬ RoundTrips dev {} sw1 sw2 := not_roundTrips (by decide +kernel)

/-- What C61 says about one pair of configs. -/
def ClearedTrips (d : Device) (opts : Opts) (c1 c2 : Elem) : Prop :=
  ∃ δ x r, newDelta d c1 c2 opts = .ok δ ∧ δ.nc d = .ok x ∧ configAddDelta d (clear d .root x c1) δ = .ok r ∧
    cfgEq d r c2 = .ok true

/-- Executable `ClearedTrips`. -/
def clearedTripsB (d : Device) (opts : Opts) (c1 c2 : Elem) : Bool :=
  match newDelta d c1 c2 opts with
  | .ok δ => match δ.nc d with
    | .ok x => match configAddDelta d (clear d .root x c1) δ with
      | .ok r => cfgEq d r c2 = .ok true
      | .error _ => false
    | .error _ => false
  | .error _ => false

theorem not_clearedTrips {d : Device} {opts : Opts} {c1 c2 : Elem} (h : clearedTripsB d opts c1 c2 = false) :
    ¬ ClearedTrips d opts c1 c2 := by
  rintro ⟨δ, x, r, h1, h2, h3, h4⟩
  simp [clearedTripsB, h1, h2, h3, h4] at h

/-- C61 is false with diff type "replace": the nodes of the old case are deleted although the device has removed
them. -/
theorem C61_false_for_replace : ∃ c1 c2, Switches dev c1 c2 ∧
    ¬ ClearedTrips dev { diffType := .replace, replaceDepth := 1 } c1 c2 :=
  ⟨sw1, sw2, sw_switches, not_clearedTrips (by decide +kernel)⟩

/-- A choice inside a case:
```
container top {
  choice outer {
    case o1 { choice inner { case i1 { leaf x; } case i2 { leaf y; } } }
    case o2 { leaf z; }
  }
}
``` -/
def devN : Device :=
  { namespaces := [("demo", "d", u)], roots := [(q "top", "demo")],
    models := [("demo", [.mk { tag := q "top", ntype := .container }
      [.mk { tag := q "outer", ntype := .choice }
        [.mk { tag := q "o1", ntype := .case }
          [.mk { tag := q "inner", ntype := .choice }
            [.mk { tag := q "i1", ntype := .case } [leafS "x"],
             .mk { tag := q "i2", ntype := .case } [leafS "y"]]],
         .mk { tag := q "o2", ntype := .case } [leafS "z"]]]])] }

/-- C61 is false without its condition on choices inside cases: from `x` to `z` the delta deletes `x`, which the
device removes itself. -/
theorem C61_false_for_nested_choice : ∃ c1 c2, PlainConfig devN c1 ∧ PlainConfig devN c2 ∧
    Deep devN (OneCase devN) .root c1 ∧ Deep devN (OneCase devN) .root c2 ∧ ¬ ClearedTrips devN {} c1 c2 :=
  ⟨cfg [el "top" [lf "x" "1"]], cfg [el "top" [lf "z" "1"]], plainConfigB_sound (by decide +kernel),
    plainConfigB_sound (by decide +kernel), deepB_sound oneCaseB_sound _ .root (by decide +kernel),
    deepB_sound oneCaseB_sound _ .root (by decide +kernel), not_clearedTrips (by decide +kernel)⟩

/-- Inside the inner choice C61 holds. -/
example : Switches devN (cfg [el "top" [lf "x" "1"]]) (cfg [el "top" [lf "y" "1"]]) := switchesB_sound (by decide +kernel)

end Choice

end NcDiff
