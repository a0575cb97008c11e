import Verif.Spec.Transition
/-!
# Specification: merging one plain config into another
-/

namespace NcDiff

/-- The identityrefs of `T` can be written with the prefixes of the leaves of `S` that they
overwrite. -/
inductive MergeValues (d : Device) : Scope → Elem → Elem → Prop
  | mk {sc : Scope} {S T : Elem}
      (values : ∀ s ∈ S.kids, ∀ k ∈ T.kids, SameInstance d sc s k → ∀ f, d.lookup sc k.tag = .ok f →
        f.node.ntype = .leaf → Writable d f.node k s.nsmap)
      (sub : ∀ s ∈ S.kids, ∀ k ∈ T.kids, SameInstance d sc s k → ∀ f, d.lookup sc k.tag = .ok f →
        f.node.ntype = .container ∨ f.node.ntype = .list → MergeValues d (.node f.node) s k) :
      MergeValues d sc S T

/-- Every instance of `a` is in `b`. -/
inductive Within (d : Device) : Scope → Elem → Elem → Prop
  | mk {sc : Scope} {a b : Elem}
      (kids : ∀ x ∈ a.kids, ∃ y ∈ b.kids, SameInstance d sc x y)
      (sub : ∀ x ∈ a.kids, ∀ y ∈ b.kids, SameInstance d sc x y → ∀ f, d.lookup sc x.tag = .ok f →
        Within d (.node f.node) x y) :
      Within d sc a b

/-- Every instance of `a` is in `b`, and the leaves have the values that they have in `a`. -/
inductive HasAll (d : Device) : Scope → Elem → Elem → Prop
  | mk {sc : Scope} {a b : Elem}
      (kids : ∀ x ∈ a.kids, ∃ y ∈ b.kids, SameInstance d sc x y)
      (values : ∀ x ∈ a.kids, ∀ y ∈ b.kids, SameInstance d sc x y → ∀ f, d.lookup sc x.tag = .ok f →
        f.node.ntype = .leaf → parseText d y f.node = parseText d x f.node)
      (sub : ∀ x ∈ a.kids, ∀ y ∈ b.kids, SameInstance d sc x y → ∀ f, d.lookup sc x.tag = .ok f →
        HasAll d (.node f.node) x y) :
      HasAll d sc a b

/-- Every instance of `r` comes from `a` or from `b`; what is only in `a` is as in `a`. -/
inductive FromBoth (d : Device) : Scope → Elem → Elem → Elem → Prop
  | mk {sc : Scope} {a b r : Elem}
      (only : ∀ z ∈ r.kids, (∃ x ∈ a.kids, SameInstance d sc x z) ∨ ∃ y ∈ b.kids, SameInstance d sc y z)
      (left : ∀ z ∈ r.kids, ∀ x ∈ a.kids, SameInstance d sc x z → Absent d sc b.kids x → z = x)
      (right : ∀ z ∈ r.kids, ∀ y ∈ b.kids, SameInstance d sc y z → Absent d sc a.kids y →
        ∀ f, d.lookup sc y.tag = .ok f → Within d (.node f.node) z y)
      (both : ∀ z ∈ r.kids, ∀ x ∈ a.kids, ∀ y ∈ b.kids, SameInstance d sc x z → SameInstance d sc y z →
        ∀ f, d.lookup sc y.tag = .ok f → FromBoth d (.node f.node) x y z) :
      FromBoth d sc a b r

/-- Defaults are only given to leaves of plain types. -/
def LeafDefaults (d : Device) (sc : Scope) (e : Elem) : Prop :=
  ∀ k ∈ e.kids, ∀ f, d.lookup sc k.tag = .ok f → f.node.info.dflt ≠ none →
    f.node.ntype ≠ .leafList ∧ (f.node.ntype = .leaf → f.node.info.datatype.plain)

/-- Two configs for which `c1 + c2` is claimed to be the union. -/
structure Mergeable (d : Device) (c1 c2 : Elem) : Prop where
  src : ValidConfig d c1
  ns : Deep d (NsLevel d) .root c1
  bare : NoAttrs c1
  other : PlainConfig d c2
  tag : c1.tag = ncTag "config"
  values : MergeValues d .root c1 c2
  /-- defaults are trimmed, as they are in every `Config` -/
  trimmed1 : trimDefaults d .root c1 = .ok c1
  trimmed2 : trimDefaults d .root c2 = .ok c2
  defaults1 : Deep d (LeafDefaults d) .root c1
  defaults2 : Deep d (LeafDefaults d) .root c2

end NcDiff
