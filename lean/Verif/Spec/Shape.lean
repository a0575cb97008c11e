import Verif.Spec.RoundTrip
import Mathlib.Data.List.Forall2
/-!
# Specification: what a computed delta looks like
-/

namespace NcDiff

/-- The node carries the edit-config operation `s`. -/
def HasOp (o : Elem) (s : String) : Prop := o.get .operation = some (.str s)

/-- The node is marked for deletion. -/
def IsDelete (o : Elem) : Prop := HasOp o "delete" ∨ HasOp o "remove"

instance (o : Elem) : Decidable (IsDelete o) := by unfold IsDelete HasOp; infer_instance

/-- Neither the node nor anything below is marked for deletion. -/
inductive NoDelete : Elem → Prop
  | mk {o : Elem} (here : ¬ IsDelete o) (sub : ∀ k ∈ o.kids, NoDelete k) : NoDelete o

/-! ## Deletions -/

/-- `m` asks for the removal of `s` (a node with schema node `sn`): it is marked, or `sn` is a
non-presence container and `m` asks for the removal of everything in it, and of nothing else. -/
inductive Erased (d : Device) : SNode → Elem → Elem → Prop
  | marked {sn : SNode} {s m : Elem} (h : IsDelete m) : Erased d sn s m
  | inside {sn : SNode} {s m : Elem} (np : sn.isNP = true)
      (all : ∀ x ∈ s.kids, ∃ y ∈ m.kids, SameInstance d (.node sn) x y)
      (sub : ∀ x ∈ s.kids, ∀ y ∈ m.kids, SameInstance d (.node sn) x y →
        ∀ f, d.lookup (.node sn) x.tag = .ok f → Erased d f.node x y)
      (only : ∀ y ∈ m.kids, ∃ x ∈ s.kids, SameInstance d (.node sn) x y) : Erased d sn s m

/-- The delta `D` from `S` to `T` deletes exactly what is in `S` and not in `T`.  With `whole`, a
node may be replaced as a whole instead. -/
inductive DeletesMissing (d : Device) (whole : Prop) : Scope → Elem → Elem → Elem → Prop
  | replaced {sc : Scope} {S T D : Elem} (hw : whole) (h : HasOp D "replace") (copy : D.delAttrib = T)
      (no : NoDelete D) : DeletesMissing d whole sc S T D
  | level {sc : Scope} {S T D : Elem}
      -- a node that is marked is in `S` and not in `T`
      (marked : ∀ o ∈ D.kids, IsDelete o → ∃ s ∈ S.kids, SameInstance d sc s o ∧ Absent d sc T.kids s)
      -- what is in `S` and not in `T` is deleted
      (gone : ∀ s ∈ S.kids, Absent d sc T.kids s → ∃ m ∈ D.kids, SameInstance d sc s m ∧
        ∀ f, d.lookup sc s.tag = .ok f → Erased d f.node s m)
      -- what is only in `T` is in the delta, with nothing marked inside
      (new : ∀ k ∈ T.kids, Absent d sc S.kids k → ∃ o ∈ D.kids, SameInstance d sc k o ∧ o.delAttrib = k ∧ NoDelete o)
      -- the same holds inside what is in both
      (both : ∀ s ∈ S.kids, ∀ k ∈ T.kids, SameInstance d sc s k → ∀ o ∈ D.kids, SameInstance d sc k o →
        ∀ f, d.lookup sc k.tag = .ok f → f.node.ntype = .container ∨ f.node.ntype = .list →
          DeletesMissing d whole (.node f.node) s k o)
      -- nothing else is in the delta
      (only : ∀ o ∈ D.kids, (∃ k ∈ T.kids, SameInstance d sc k o) ∨ (∃ s ∈ S.kids, SameInstance d sc s o)) :
      DeletesMissing d whole sc S T D

/-! ## Order -/

/-- A name in a `key` attribute, read with the prefixes `m`, is `q`. -/
def Denotes (m : NsMap) : KeyId → QName → Prop
  | .brace q', q => q' = q
  | .bare n, q => n = q.name ∧ (m.url none).getD "" = q.ns
  | .prefixed p n, q => n = q.name ∧ m.url (some p) = some q.ns

/-- The `value` or `key` attribute of `o` names the entry `p`: it is the value of `p`, or it gives
all keys of `p`. -/
def NamesEntry (sn : SNode) (o p : Elem) : Prop :=
  match sn.ntype with
  | .leafList => ∃ v, o.get .value = some (.str v) ∧ p.text = some v
  | .list => ∃ ps, o.get .key = some (.pred ps) ∧
      List.Forall₂ (fun q x => Denotes o.nsmap x.1 q ∧ ∃ c, p.childrenWith q = [c] ∧ c.text = some x.2) sn.keys ps
  | _ => False

/-- The children of `T` with tag `t`. -/
def siblings (T : Elem) (t : QName) : List Elem := T.kids.filter (fun k => k.tag = t)

/-- The attributes of `o` give the position of `k` among its siblings in `T`. -/
def Placed (sn : SNode) (T : Elem) (o k : Elem) : Prop :=
  (o.get .insert = some (.str "first") ∧ ∃ r, siblings T k.tag = k :: r) ∨
  (o.get .insert = some (.str "after") ∧ ∃ p l r, siblings T k.tag = l ++ p :: k :: r ∧ NamesEntry sn o p)

/-- The delta `D` from `S` to `T` gives the order of all entries of ordered-by-user lists and
leaf-lists, at every level that it goes through.  With `whole`, a node may be replaced as a whole
instead. -/
inductive OrderMarked (d : Device) (whole : Prop) : Scope → Elem → Elem → Elem → Prop
  | replaced {sc : Scope} {S T D : Elem} (hw : whole) (h : HasOp D "replace") (copy : D.delAttrib = T) :
      OrderMarked d whole sc S T D
  -- an entry that has not changed: only its keys are in the delta
  | same {sc : Scope} {S T D : Elem} (h : SameConfig d sc S T)
      (keys : ∀ o ∈ D.kids, o.delAttrib ∈ T.kids ∧ ¬ IsDelete o ∧ ∃ f, d.lookup sc o.tag = .ok f ∧ f.node.info.isKey = true ∧
        f.node.ntype = .leaf) : OrderMarked d whole sc S T D
  | level {sc : Scope} {S T D : Elem}
      (entries : ∀ t f, d.lookup sc t = .ok f → f.node.userOrdered = true →
        f.node.ntype = .leafList ∨ f.node.ntype = .list →
        List.Forall₂ (fun k o => SameInstance d sc k o ∧ Placed f.node T o k) (siblings T t)
          (D.kids.filter (fun o => o.tag = t ∧ ¬ IsDelete o)))
      (both : ∀ s ∈ S.kids, ∀ k ∈ T.kids, SameInstance d sc s k → ∀ o ∈ D.kids, SameInstance d sc k o →
        ∀ f, d.lookup sc k.tag = .ok f → f.node.ntype = .container ∨ f.node.ntype = .list →
          OrderMarked d whole (.node f.node) s k o) : OrderMarked d whole sc S T D

end NcDiff
