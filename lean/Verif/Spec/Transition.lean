import Verif.Spec.RoundTrip
import Verif.Model.Config
/-!
# Specification: pairs of configs between which deltas are computed
-/

namespace NcDiff

/-- Defaults are only given to leaves and leaf-lists of plain types. -/
def DefaultLevel (d : Device) (sc : Scope) (e : Elem) : Prop :=
  ∀ k ∈ e.kids, ∀ f, d.lookup sc k.tag = .ok f → f.node.info.dflt ≠ none →
    f.node.ntype = .leaf ∨ f.node.ntype = .leafList → f.node.info.datatype.plain

/-- Two configs for which `c1 + (c2 - c1) == c2` is claimed. -/
structure Transition (d : Device) (c1 c2 : Elem) : Prop where
  src : PlainConfig d c1
  dst : PlainConfig d c2
  srcTag : c1.tag = ncTag "config"
  dstTag : c2.tag = ncTag "config"
  compat : Compat d .root c1 c2
  /-- defaults of the target are trimmed, as they are in every `Config` -/
  trimmed : trimDefaults d .root c2 = .ok c2
  /-- identityrefs have no defaults -/
  defaults : Deep d (DefaultLevel d) .root c2

/-- The operation `replace` cannot land on the config node itself: replacing is not preferred, or a
replace-type delta starts at the roots, or there are no leaf-lists at the roots of the target. -/
def RootSafe (d : Device) (opts : Opts) (c2 : Elem) : Prop :=
  opts.replace = .merge ∨ (opts.diffType = .replace ∧ opts.replaceDepth = 0) ∨
    (∀ k ∈ c2.kids, ∀ f, d.lookup .root k.tag = .ok f → f.node.ntype ≠ .leafList)

end NcDiff
