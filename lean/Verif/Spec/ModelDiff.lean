import Verif.Model.Xml
/-!
# Specification of differences between schema trees

Trees are described by the nodes that are found at paths.  Siblings have no order here.
-/

namespace NcDiff.ModelDiff

/-- The node `n` is found below `e` at the path `p` of tags. -/
inductive At : Elem → List QName → Elem → Prop where
  | here {e} : At e [] e
  | down {e k p n} : k ∈ e.kids → At k p n → At e (k.tag :: p) n

/-- There is a node at the path. -/
def Has (e : Elem) (p : List QName) : Prop := ∃ n, At e p n

/-- An attribute is a dictionary entry: same attributes with same values. -/
def SameAttrs (a b : Elem) : Prop := ∀ n, a.get n = b.get n

/-- Two nodes, regardless of their children, are the same. -/
def SameNode (a b : Elem) : Prop := a.tag = b.tag ∧ a.text = b.text ∧ SameAttrs a b

/-- Everything below the first node is below the second one. -/
def Contained (a b : Elem) : Prop := ∀ p n, p ≠ [] → At a p n → ∃ n', At b p n' ∧ SameNode n n'

/-- Two trees have the same nodes at the same paths below their roots. -/
def SameBelow (a b : Elem) : Prop := Contained a b ∧ Contained b a

/-- A schema tree: siblings have different tags, every node below the root has a type, attributes are
dictionaries. -/
structure SchemaTree (e : Elem) : Prop where
  tags : ∀ p n, At e p n → (n.kids.map Elem.tag).Nodup
  typed : ∀ p n, p ≠ [] → At e p n → ∃ v, n.get (.other "type") = some v
  dict : ∀ p n, At e p n → (n.attrs.map Prod.fst).Nodup

/-- The node is a leaf or a leaf-list. -/
def LeafLike (e : Elem) : Prop :=
  e.get (.other "type") = some (.str "leaf") ∨ e.get (.other "type") = some (.str "leaf-list")

/-- Leafs have no children. -/
def BareLeafs (e : Elem) : Prop := ∀ p n, At e p n → LeafLike n → n.kids = []

/-- No node with children in the first tree is a leaf in the second one. -/
def NoneCollapsed (a b : Elem) : Prop :=
  ∀ p n n', At a p n → At b p n' → LeafLike n' → n.kids = []

/-- In a tree of differences, the node at the path carries the mark. -/
def Marked (d : Elem) (p : List QName) (m : String) : Prop :=
  ∃ n, At d p n ∧ n.get (.other "diff") = some (.str m)

/-- In a tree of differences, the node at the path carries no mark. -/
def Unmarked (d : Elem) (p : List QName) : Prop := ∃ n, At d p n ∧ n.get (.other "diff") = none

/-- The node is a container, list, choice or case. -/
def InnerLike (e : Elem) : Prop :=
  ∃ t ∈ ["container", "list", "choice", "case"], e.get (.other "type") = some (.str t)

/-- A schema tree without operations, notifications and `anyxml` nodes. -/
structure DataTree (e : Elem) : Prop where
  schema : SchemaTree e
  bare : BareLeafs e
  kinds : ∀ p n, p ≠ [] → At e p n → InnerLike n ∨ LeafLike n

/-- A leaf at the path `p` is added, deleted or modified. -/
def LeafChange (a b : Elem) (m : String) (p : List QName) : Prop :=
  p ≠ [] ∧
  ((m = "added" ∧ ¬ Has a p ∧ ∃ n, At b p n ∧ LeafLike n) ∨
   (m = "deleted" ∧ ¬ Has b p ∧ ∃ n, At a p n ∧ LeafLike n) ∨
   (m = "modified" ∧ ∃ n n', At a p n ∧ At b p n' ∧ LeafLike n' ∧ ¬ SameNode n n'))

end NcDiff.ModelDiff
