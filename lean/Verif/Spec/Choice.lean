import Verif.Spec.Check
import Verif.Spec.RoundTrip
import Verif.Spec.Transition
import Verif.Model.NodeAdd
/-!
# Specification: choices

RFC 7950, section 7.9: the nodes of at most one case of a choice exist at a time, and the creation
of a node of one case removes all nodes of the other cases.  This is done by the device.  ncdiff
relies on it (`src/ncdiff/netconf.py` lines 1118-1121 and 1131-1145).
-/

namespace NcDiff

/-- The schema node at a position below a list of schema nodes. -/
def nodeAt : List SNode → List Nat → Option SNode
  | _, [] => none
  | ks, [i] => ks[i]?
  | ks, i :: j :: p => (ks[i]?).bind (fun n => nodeAt n.kids (j :: p))

/-- Is there a case at this position below `sc`?  At the root the position starts with the number of
the model. -/
def Device.isCase (d : Device) (sc : Scope) (p : List Nat) : Bool :=
  match (match sc with
    | .node s => nodeAt s.kids p
    | .root => match p with
      | [] => none
      | i :: p => (d.models[i]?).bind (fun m => nodeAt m.2 p)) with
  | some n => n.info.ntype = .case
  | none => false

/-- Two positions part at two different cases.  `c` is the part that they share. -/
def partAt (isCase : List Nat → Bool) (c : List Nat) : List Nat → List Nat → Bool
  | i :: p, j :: q => if i = j then partAt isCase (c ++ [i]) p q else isCase (c ++ [i]) && isCase (c ++ [j])
  | _, _ => false

/-- The two schema nodes are in different cases of the same choice, at whatever depth. -/
def apart (d : Device) (sc : Scope) (f g : Found) : Bool := partAt (d.isCase sc) [] f.path g.path

/-- The element of an edit-config does not delete. -/
def puts (x : Elem) : Bool := opOf x ≠ "delete" && opOf x ≠ "remove"

/-- A child of `X` is put into another case than that of `f`. -/
def outcased (d : Device) (sc : Scope) (X : Elem) (f : Found) : Bool :=
  X.kids.any (fun x => puts x && match d.lookup sc x.tag with
    | .ok g => apart d sc f g
    | .error _ => false)

mutual
/-- What a device with content `e` removes when `X` is put: the nodes of the other cases. -/
def clear (d : Device) (sc : Scope) (X : Elem) : Elem → Elem
  | .mk t n a x ks => .mk t n a x (clearKids d sc X ks)
/-- See `clear`. -/
def clearKids (d : Device) (sc : Scope) (X : Elem) : List Elem → List Elem
  | [] => []
  | s :: r =>
    match d.lookup sc s.tag with
    | .error _ => s :: clearKids d sc X r
    | .ok f =>
      if outcased d sc X f then clearKids d sc X r
      else
        match X.kids.find? (fun x => sameB d sc x s) with
        | none => s :: clearKids d sc X r
        | some x => (if puts x then clear d (.node f.node) x s else s) :: clearKids d sc X r
end

/-- No two children are in different cases of a choice. -/
def OneCase (d : Device) (sc : Scope) (e : Elem) : Prop :=
  ∀ a ∈ e.kids, ∀ b ∈ e.kids, ∀ f g, d.lookup sc a.tag = .ok f → d.lookup sc b.tag = .ok g →
    apart d sc f g = false

/-- What the source `S` and the target `T` have to satisfy together if the target may change to
another case of a choice.  See `Compat`. -/
inductive Switch (d : Device) : Scope → Elem → Elem → Prop
  | mk {sc : Scope} {S T : Elem}
      -- where the target changes to another case of a choice, no other choice is in between
      (choice : ∀ s ∈ S.kids, ∀ k ∈ T.kids, Absent d sc T.kids s → Absent d sc S.kids k →
        ∀ f g, d.lookup sc s.tag = .ok f → d.lookup sc k.tag = .ok g → apart d sc f g = true → ¬ SameCase f g)
      (order : ∀ t, UserOrdered d sc t → OrderSettles d sc t S.kids T.kids)
      (values : ∀ s ∈ S.kids, ∀ k ∈ T.kids, SameInstance d sc s k → ∀ f, d.lookup sc k.tag = .ok f →
        f.node.ntype = .leaf → (f.node.info.isKey = true ∧ s.text ≠ k.text) ∨ parseText d s f.node ≠ parseText d k f.node →
        Writable d f.node k s.nsmap)
      (sub : ∀ s ∈ S.kids, ∀ k ∈ T.kids, SameInstance d sc s k → ∀ f, d.lookup sc k.tag = .ok f →
        f.node.ntype = .container ∨ f.node.ntype = .list → Switch d (.node f.node) s k) :
      Switch d sc S T

/-- `X` has no child for what is removed from `R` when `T` is put, at any depth. -/
inductive Unmentioned (d : Device) : Scope → Elem → Elem → Elem → Prop
  | mk {sc : Scope} {R T X : Elem}
      (here : ∀ r ∈ R.kids, ∀ f, d.lookup sc r.tag = .ok f → outcased d sc T f = true → Absent d sc X.kids r)
      (sub : ∀ r ∈ R.kids, ∀ k ∈ T.kids, ∀ x ∈ X.kids, SameInstance d sc r k → SameInstance d sc x k →
        ∀ f, d.lookup sc k.tag = .ok f → Unmentioned d (.node f.node) r k x) :
      Unmentioned d sc R T X

/-- Two configs between which a delta is computed; the target may change to other cases. -/
structure Switches (d : Device) (c1 c2 : Elem) : Prop where
  src : PlainConfig d c1
  dst : PlainConfig d c2
  srcTag : c1.tag = ncTag "config"
  dstTag : c2.tag = ncTag "config"
  /-- each config has at most one case of a choice, as in every valid datastore -/
  srcCase : Deep d (OneCase d) .root c1
  dstCase : Deep d (OneCase d) .root c2
  switch : Switch d .root c1 c2
  /-- defaults of the target are trimmed, as they are in every `Config` -/
  trimmed : trimDefaults d .root c2 = .ok c2
  /-- identityrefs have no defaults -/
  defaults : Deep d (DefaultLevel d) .root c2

end NcDiff
