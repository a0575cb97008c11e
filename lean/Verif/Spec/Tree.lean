import Mathlib.Data.List.Forall2
import Verif.Model.Config
/-!
# Specification of operations that only remove or rearrange nodes

A tree is described by the list of its nodes in document order.  Each node comes with the way to it
(position and schema node of every ancestor-or-self below the root) and with its own content.  The
lengths of the ways tell how the nodes are nested, so the list describes the whole tree.
-/

namespace NcDiff

/-- What an element carries besides its children. -/
structure Label where
  tag : QName
  nsmap : NsMap
  attrs : Attrs
  text : Option String

/-- The content of an element without its children. -/
def Elem.label (e : Elem) : Label := ⟨e.tag, e.nsmap, e.attrs, e.text⟩

/-- One step down: the position among the siblings and the schema node (none if there is no such
schema node). -/
abbrev Step := Nat × Option SNode

/-- A node in a tree. -/
structure Occ where
  way : List Step
  label : Label

/-- The schema node of a child. -/
def schemaOf (d : Device) (sc : Scope) (tag : QName) : Option SNode :=
  match d.lookup sc tag with
  | .ok f => some f.node
  | .error _ => none

mutual
/-- All nodes below a node, in document order.  `above` is the way to the node. -/
def below (d : Device) (sc : Scope) (above : List Step) : Elem → List Occ
  | .mk _ _ _ _ ks => belowKids d sc above 0 ks
/-- The nodes of a list of siblings, the first of which has position `i`.  Below a node without
schema node no nodes are listed. -/
def belowKids (d : Device) (sc : Scope) (above : List Step) (i : Nat) : List Elem → List Occ
  | [] => []
  | k :: r =>
    ⟨above ++ [(i, schemaOf d sc k.tag)], k.label⟩ ::
      ((match schemaOf d sc k.tag with
        | some sn => below d (.node sn) (above ++ [(i, some sn)]) k
        | none => []) ++ belowKids d sc above (i + 1) r)
end

/-- All nodes of a config below its root. -/
def occs (d : Device) (c : Elem) : List Occ := below d .root [] c

/-- A node without the positions: its content and the schema nodes on the way to it. -/
def Occ.shape (o : Occ) : Label × List (Option SNode) := (o.label, o.way.map Prod.snd)

/-! ## Read-only nodes -/

/-- The node and all its ancestors are read-write. -/
def ReadWrite (o : Occ) : Prop := ∀ s ∈ o.way, ∀ sn, s.2 = some sn → sn.info.readOnly = false

instance (o : Occ) : Decidable (ReadWrite o) :=
  decidable_of_iff (∀ s ∈ o.way, (match s.2 with | some sn => sn.info.readOnly | none => false) = false) (by
    unfold ReadWrite
    refine forall_congr' fun s => forall_congr' fun _ => ?_
    cases s.2 <;> simp)

/-! ## Filtering -/

/-- The positions on the way to a node. -/
def Occ.pos (o : Occ) : List Nat := o.way.map Prod.fst

/-- The node belongs to a key leaf of a list entry that contains one of the selected nodes. -/
def KeyOfAncestor (sel : List (List Nat)) (w : List Step) : Prop :=
  ∃ pre x y rest, w = pre ++ x :: y :: rest ∧ (∃ sn, x.2 = some sn ∧ sn.ntype = .list) ∧
    (∃ sn, y.2 = some sn ∧ sn.info.isKey = true) ∧ ∃ s ∈ sel, (pre ++ [x]).map Prod.fst <+: s

/-- A node that a filtered config has, if the nodes at positions `sel` are selected: it is inside a
selected node, or it contains one, or it is a key of a list entry that contains one. -/
def Selected (sel : List (List Nat)) (o : Occ) : Prop :=
  (∃ s ∈ sel, s <+: o.pos ∨ o.pos <+: s) ∨ KeyOfAncestor sel o.way

/-! ## Reordering -/

/-- `r` is `e` with the children at one depth rearranged: `depth` levels down, the children of each
node are a permutation of what they were, except that leading list keys stay where they are. -/
def Shuffled (d : Device) : Nat → Scope → Elem → Elem → Prop
  | 0, sc, e, r => r.label = e.label ∧ ∃ keys rest rest', e.kids = keys ++ rest ∧ r.kids = keys ++ rest' ∧
      rest'.Perm rest ∧ (∀ k ∈ keys, ∃ sn, schemaOf d sc k.tag = some sn ∧ sn.info.isKey = true) ∧
      ∀ k ∈ rest.head?, ∃ sn, schemaOf d sc k.tag = some sn ∧ sn.info.isKey = false
  | depth + 1, sc, e, r => r.label = e.label ∧ List.Forall₂ (fun k k' => ∃ sn, schemaOf d sc k.tag = some sn ∧
      Shuffled d depth (.node sn) k k') e.kids r.kids

end NcDiff
