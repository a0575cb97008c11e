import Verif.Spec.Transition
import Verif.Spec.Merge
/-!
# Specification: configs that a delta can be applied to instead of its source
-/

namespace NcDiff

/-- `c'` equals `c`: it may have other prefixes, and system-ordered siblings in another order. -/
structure StandIn (d : Device) (c' c : Elem) : Prop where
  valid : ValidConfig d c'
  bare : NoAttrs c'
  prefixes : Deep d (NsLevel d) .root c'
  tag : c'.tag = ncTag "config"
  equal : cfgEq d c' c = .ok true

/-- All leaves are of plain types. -/
def PlainLeaves (d : Device) (sc : Scope) (e : Elem) : Prop :=
  ∀ k ∈ e.kids, ∀ f, d.lookup sc k.tag = .ok f → f.node.ntype = .leaf → f.node.info.datatype.plain

/-- The steps of a history of configs: each one is the target of a delta, computed with its own
preferences from the config before it. -/
def Steps (d : Device) : Elem → List (Opts × Elem) → Prop
  | _, [] => True
  | c, (opts, c') :: r =>
    Transition d c c' ∧ RootSafe d opts c' ∧ Deep d (PlainLeaves d) .root c' ∧ Steps d c' r

/-- The last config of a history. -/
def finalOf : Elem → List (Opts × Elem) → Elem
  | c, [] => c
  | _, (_, c') :: r => finalOf c' r

/-- The deltas of the steps are computed and applied one after another, starting with `r`. -/
def applyAll (d : Device) : Elem → Elem → List (Opts × Elem) → Except Err Elem
  | r, _, [] => .ok r
  | r, c, (opts, c') :: rest => do
    let δ ← newDelta d c c' opts
    let r' ← configAddDelta d r δ
    applyAll d r' c' rest

end NcDiff
