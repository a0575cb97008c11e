import Verif.Spec.Deep
/-!
# Where the keys of list entries are

In the XML encoding of a list entry the keys come first, in the order of the key statement (RFC 7950, section 7.8.5).
-/

namespace NcDiff

/-- The entry begins with all its keys, in the order of the key statement. -/
def KeysFirst (sn : SNode) (e : Elem) : Prop := sn.keys <+: e.kids.map Elem.tag

instance (sn : SNode) (e : Elem) : Decidable (KeysFirst sn e) := by unfold KeysFirst; infer_instance

/-- The list entries among the children begin with their keys. -/
def KeysFirstHere (d : Device) (sc : Scope) (e : Elem) : Prop :=
  ∀ k ∈ e.kids, ∀ f, d.lookup sc k.tag = .ok f → f.node.ntype = .list → KeysFirst f.node k

/-- Every list entry in the tree begins with its keys. -/
def KeysLead (d : Device) : Scope → Elem → Prop := Deep d (KeysFirstHere d)

/-- Every key of the list is among the children of the list in the schema. -/
def KeysDefined (sn : SNode) : Prop := ∀ n ∈ sn.info.keyNames, ∃ c ∈ sn.kids, c.tag.name = n

end NcDiff
