import Verif.Spec.Delta
import Verif.Spec.Settle
import Verif.Model.NodeSub
/-!
# Specification: what `c2 - c1` must satisfy

Conditions on two configs under which `c1 + (c2 - c1) == c2` holds.
-/

namespace NcDiff

/-- The value of `k` can be written with the prefixes of `m`: there is one for the identity, if it is an
identityref, and for every name, if it is an instance-identifier. -/
def Writable (d : Device) (sn : SNode) (k : Elem) (m : NsMap) : Prop :=
  (sn.info.datatype = .identityref → ∀ t, k.text = some t → ∀ u i,
    IdentityRef.parse d k.nsmap t.toList = .ok (u, i) → ∃ p, (p, u) ∈ m) ∧
  (sn.info.datatype = .instanceId → ∀ t, k.text = some t → ∀ ts, InstId.Readable t.toList ts →
    ∀ u ∈ InstId.used d k.nsmap none ts, ∃ p, (some p, u) ∈ m)

/-- What each node of a config has to satisfy. -/
structure ConfLevel (d : Device) (sc : Scope) (e : Elem) : Prop where
  nsmap : NsMapOk e.nsmap
  /-- the keys of a list are leaves, marked as keys, of plain types or proper identityrefs -/
  keys : ∀ k ∈ e.kids, ∀ f, d.lookup sc k.tag = .ok f → f.node.ntype = .list → ∀ q ∈ f.node.keys,
    ∃ g, d.lookup (.node f.node) q = .ok g ∧ g.node.ntype = .leaf ∧ (∀ c ∈ k.childrenWith q, KeyOk d g.node c) ∧
      g.node.info.isKey = true
  /-- no key is named twice -/
  keysOnce : ∀ k ∈ e.kids, ∀ f, d.lookup sc k.tag = .ok f → f.node.ntype = .list → f.node.keys.Nodup
  /-- only such leaves are marked as keys -/
  keyLeaf : ∀ k ∈ e.kids, ∀ f, d.lookup sc k.tag = .ok f → f.node.info.isKey = true →
    f.node.ntype = .leaf ∧ KeyOk d f.node k
  /-- leaves and leaf-lists are of plain types or proper identityrefs or instance-identifiers -/
  values : ∀ k ∈ e.kids, ∀ f, d.lookup sc k.tag = .ok f →
    f.node.ntype = .leaf ∨ f.node.ntype = .leafList → LeafValueOk f.node k
  /-- containers have no text -/
  noText : ∀ k ∈ e.kids, ∀ f, d.lookup sc k.tag = .ok f → f.node.ntype = .container → k.text = none
  /-- identityrefs and instance-identifiers in leaf-lists use prefixes that are declared -/
  own : ∀ k ∈ e.kids, ∀ f, d.lookup sc k.tag = .ok f → f.node.ntype = .leafList →
    Writable d f.node k k.nsmap
  /-- ordered-by-user leaf-lists are of plain types, and no value is empty -/
  orderedValues : ∀ k ∈ e.kids, ∀ f, d.lookup sc k.tag = .ok f → f.node.userOrdered = true →
    f.node.ntype = .leafList → f.node.info.datatype.plain ∧ k.text ≠ none
  /-- the keys of ordered-by-user lists are not empty and contain no apostrophe -/
  orderedKeys : ∀ k ∈ e.kids, ∀ f, d.lookup sc k.tag = .ok f → f.node.userOrdered = true →
    f.node.ntype = .list → ∀ q ∈ f.node.keys, ∀ c ∈ k.childrenWith q,
      ∃ t, c.text = some t ∧ '\'' ∉ t.toList
  /-- the entries of an ordered-by-user list use the same prefixes for the namespaces of the keys -/
  orderedPrefixes : ∀ a ∈ e.kids, ∀ b ∈ e.kids, a.tag = b.tag → ∀ f, d.lookup sc a.tag = .ok f →
    f.node.userOrdered = true → f.node.ntype = .list → ∀ q ∈ f.node.keys, ∀ c ∈ a.childrenWith q,
      q.ns ≠ "" ∧ ∀ p, (p, q.ns) ∈ c.nsmap → (p, q.ns) ∈ b.nsmap

/-- Non-presence containers are not empty. -/
def FilledLevel (d : Device) (sc : Scope) (e : Elem) : Prop :=
  ∀ k ∈ e.kids, ∀ f, d.lookup sc k.tag = .ok f → f.node.isNP = true → k.kids ≠ []

/-- The two nodes are not in different cases of the same choice. -/
def SameCase (f g : Found) : Prop :=
  f.underCase = true → g.underCase = true → f.path.dropLast.dropLast = g.path.dropLast.dropLast →
    f.path.dropLast = g.path.dropLast

/-- What the source `S` and the target `T` have to satisfy together. -/
inductive Compat (d : Device) : Scope → Elem → Elem → Prop
  | mk {sc : Scope} {S T : Elem}
      -- the target does not change to another case of a choice
      (choice : ∀ s ∈ S.kids, ∀ k ∈ T.kids, Absent d sc T.kids s → Absent d sc S.kids k →
        ∀ f g, d.lookup sc s.tag = .ok f → d.lookup sc k.tag = .ok g → SameCase f g)
      -- moving the entries of ordered-by-user lists and leaf-lists one after another ends in the
      -- order of the target
      (order : ∀ t, UserOrdered d sc t → OrderSettles d sc t S.kids T.kids)
      -- the value of a leaf that changes, or of a key, can be written with the prefixes of the leaf of the source
      (values : ∀ s ∈ S.kids, ∀ k ∈ T.kids, SameInstance d sc s k → ∀ f, d.lookup sc k.tag = .ok f →
        f.node.ntype = .leaf → (f.node.info.isKey = true ∧ s.text ≠ k.text) ∨ parseText d s f.node ≠ parseText d k f.node →
        Writable d f.node k s.nsmap)
      (sub : ∀ s ∈ S.kids, ∀ k ∈ T.kids, SameInstance d sc s k → ∀ f, d.lookup sc k.tag = .ok f →
        f.node.ntype = .container ∨ f.node.ntype = .list → Compat d (.node f.node) s k) :
      Compat d sc S T

/-- A config that differences can be computed for. -/
structure PlainConfig (d : Device) (c : Elem) : Prop where
  valid : ValidConfig d c
  bare : NoAttrs c
  level : Deep d (ConfLevel d) .root c
  filled : Deep d (FilledLevel d) .root c

end NcDiff
