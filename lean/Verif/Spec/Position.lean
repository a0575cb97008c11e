import Verif.Model.Xml
/-!
# Positions of nodes in a tree
-/

namespace NcDiff

/-- The node at a position (the indices of the children on the way from the root). -/
def Elem.at? (e : Elem) : List Nat → Option Elem
  | [] => some e
  | i :: r =>
    match e.kids[i]? with
    | none => none
    | some k => k.at? r

/-- `e'` is `e` with `operation="replace"`, an attribute without a namespace, on the nodes at the positions
`sel`. -/
def MarkedOn (sel : List (List Nat)) (e e' : Elem) : Prop :=
  ∀ p, match e.at? p, e'.at? p with
    | none, none => True
    | some y, some y' => y'.tag = y.tag ∧ y'.nsmap = y.nsmap ∧ y'.text = y.text ∧
        (p ∉ sel → y'.attrs = y.attrs) ∧
        (p ∈ sel → y'.get (.other "operation") = some (.str "replace") ∧
          ∀ n, n ≠ .other "operation" → y'.get n = y.get n)
    | _, _ => False

end NcDiff
