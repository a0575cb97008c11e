import Verif.Proof.Prefer
import Verif.Props.RoundTrip
/-!
# Property C40: the preferences are honoured
-/

namespace NcDiff

/-- C40: the operations in the edit-config of a delta are those that the preferences ask for. -/
theorem C40_preferences (d : Device) (opts : Opts) (c1 c2 : Elem) (h : AnyOrder d c1 c2)
    (hr : opts.diffType ≠ .replace) :
    ∃ δ x, newDelta d c1 c2 opts = .ok δ ∧ δ.nc d = .ok x ∧ Prefers d opts .root c1 c2 x := by
  obtain ⟨D, hx, hok, _⟩ := calcSub_ok (carry_prefer hr) h.loose (fun _ => h.src.filled)
  refine ⟨_, _, newDelta_ok h.src.valid.valid h.dst.valid.valid, ?_, strip_prefers hok.carried
    (D' := if opts.diffType = .minimumReplace then addAttrAtDepth (opts.replaceDepth + 1) D else D) ?_⟩
  rotate_left
  · split
    · rw [strip_addAttr]
    · rfl
  simp only [Delta.nc, hx, bind, Except.bind, pure, Except.pure]

/-! ## The hypotheses can be met -/

namespace Demo

example : ∃ δ x, newDelta dev rt1 rt2 { create := .create, replace := .replace, delete := .remove } = .ok δ ∧
    δ.nc dev = .ok x ∧
    Prefers dev { create := .create, replace := .replace, delete := .remove } .root rt1 rt2 x :=
  C40_preferences dev { create := .create, replace := .replace, delete := .remove } rt1 rt2 rt_transition.anyOrder (by decide)

end Demo

end NcDiff
