import Verif.Model.NodeSub
/-!
# Marking nodes by XPath

Model of the branch of `NetconfCalculator.sub` for `replace_xpath` (`src/ncdiff/netconf.py` lines
211-214) and of `add_attribute_by_xpath` (lines 286-312).

Simplification: the XPath engine is an arbitrary function from trees to positions of nodes (indices of
children on the way from the root).
-/

namespace NcDiff

/-- The positions below the child with index `i`. -/
def underKid (i : Nat) (sel : List (List Nat)) : List (List Nat) :=
  sel.filterMap fun
    | [] => none
    | j :: r => if j = i then some r else none

mutual
/-- `add_attribute_by_xpath(root, xpath, 'operation', 'replace', namespaces)`, lines 286-312, for the
nodes at the positions `sel`.  The attribute name has no namespace (line 214). -/
def markNode (sel : List (List Nat)) : Elem → Elem
  | .mk t n a x ks =>
    if [] ∈ sel then (Elem.mk t n a x (markKids sel 0 ks)).set (.other "operation") (.str "replace")
    else .mk t n a x (markKids sel 0 ks)
/-- See `markNode`; `i` is the index of the first of the siblings. -/
def markKids (sel : List (List Nat)) : Nat → List Elem → List Elem
  | _, [] => []
  | i, k :: ks => markNode (underKid i sel) k :: markKids sel (i + 1) ks
end

/-- `NetconfCalculator.sub`, lines 202-217, with diff type `minimum-replace` and a `replace_xpath` that
selects the nodes `sel r` of the tree `r`. -/
def calcSubXpath (d : Device) (opts : Opts) (sel : Elem → List (List Nat)) (a b : Elem) : Except Err Elem := do
  let r ← nodeSub d { opts with diffType := .minimumReplace } a .root 0 b
  pure (markNode (sel r) r)

end NcDiff
