import Verif.Spec.Transition
/-!
# Specification: differences when the order may not settle

The conditions of `Transition` without the one on the order of user-ordered entries; sameness
without order; and the order condition on its own, at every level that source and target share.
-/

namespace NcDiff

/-- What the source `S` and the target `T` have to satisfy together, whatever the order of their
entries.  See `Compat`. -/
inductive Matched (d : Device) : Scope → Elem → Elem → Prop
  | mk {sc : Scope} {S T : Elem}
      -- the target does not change to another case of a choice
      (choice : ∀ s ∈ S.kids, ∀ k ∈ T.kids, Absent d sc T.kids s → Absent d sc S.kids k →
        ∀ f g, d.lookup sc s.tag = .ok f → d.lookup sc k.tag = .ok g → SameCase f g)
      -- the value of a leaf that changes, or of a key, can be written with the prefixes of the leaf of the source
      (values : ∀ s ∈ S.kids, ∀ k ∈ T.kids, SameInstance d sc s k → ∀ f, d.lookup sc k.tag = .ok f →
        f.node.ntype = .leaf → (f.node.info.isKey = true ∧ s.text ≠ k.text) ∨ parseText d s f.node ≠ parseText d k f.node →
        Writable d f.node k s.nsmap)
      (sub : ∀ s ∈ S.kids, ∀ k ∈ T.kids, SameInstance d sc s k → ∀ f, d.lookup sc k.tag = .ok f →
        f.node.ntype = .container ∨ f.node.ntype = .list → Matched d (.node f.node) s k) :
      Matched d sc S T

/-- Two configs between which a delta is computed, whatever the order of their entries.  See
`Transition`. -/
structure AnyOrder (d : Device) (c1 c2 : Elem) : Prop where
  src : PlainConfig d c1
  dst : PlainConfig d c2
  srcTag : c1.tag = ncTag "config"
  dstTag : c2.tag = ncTag "config"
  matched : Matched d .root c1 c2
  /-- defaults of the target are trimmed, as they are in every `Config` -/
  trimmed : trimDefaults d .root c2 = .ok c2
  /-- identityrefs have no defaults -/
  defaults : Deep d (DefaultLevel d) .root c2

/-- Leaf-lists ordered by the user have no default values. -/
def NoOrderedDefault (d : Device) (sc : Scope) (e : Elem) : Prop :=
  ∀ k ∈ e.kids, ∀ f, d.lookup sc k.tag = .ok f → f.node.ntype = .leafList → f.node.userOrdered = true →
    f.node.info.dflt = none

/-- Moving the entries one after another ends in the order of the target: for the children of `S`
and `T`, and for the children of every container and list entry that both have. -/
inductive AllSettle (d : Device) : Scope → Elem → Elem → Prop
  | mk {sc : Scope} {S T : Elem}
      (order : ∀ t, UserOrdered d sc t → OrderSettles d sc t S.kids T.kids)
      (sub : ∀ s ∈ S.kids, ∀ k ∈ T.kids, SameInstance d sc s k → ∀ f, d.lookup sc k.tag = .ok f →
        f.node.ntype = .container ∨ f.node.ntype = .list → AllSettle d (.node f.node) s k) :
      AllSettle d sc S T

/-- `a` is included in `b`, whatever the order of the children: same tag and value, attributes of
`a` are in `b`, and every child of `a` has a counterpart in `b` in which it is included. -/
inductive InclAnyOrder (d : Device) : Scope → Elem → Elem → Prop
  | mk {sc : Scope} {a b : Elem}
      (tag : a.tag = b.tag)
      (value : parseTextAt d sc a = parseTextAt d sc b)
      (attrs : ∀ p ∈ a.attrs, p ∈ b.attrs)
      (kids : ∀ x ∈ a.kids, ∃ y ∈ b.kids, SameInstance d sc x y)
      (sub : ∀ x ∈ a.kids, ∀ y ∈ b.kids, SameInstance d sc x y →
        ∀ f, d.lookup sc x.tag = .ok f → InclAnyOrder d (.node f.node) x y) :
      InclAnyOrder d sc a b

/-- Two configs are the same but for the order of their children. -/
def SameAnyOrder (d : Device) (sc : Scope) (a b : Elem) : Prop :=
  InclAnyOrder d sc a b ∧ InclAnyOrder d sc b a

end NcDiff
