import Verif.Spec.Shape
/-!
# Specification: the preferences for creating, replacing and deleting
-/

namespace NcDiff

/-- The node carries no edit-config operation. -/
def NoOp (o : Elem) : Prop := o.get .operation = none

/-- Neither the node nor anything below carries an edit-config operation. -/
inductive NoOps : Elem → Prop
  | mk {o : Elem} (here : NoOp o) (sub : ∀ k ∈ o.kids, NoOps k) : NoOps o

/-- The node carries the operation `s`, and nothing below carries one. -/
def OnlyOp (o : Elem) (s : String) : Prop := HasOp o s ∧ ∀ k ∈ o.kids, NoOps k

/-! ## Creating -/

/-- The schema node at `path` below `sn` exists with a default value, or belongs to the default case of
a choice, even if the config does not say so. -/
inductive DefaultAt : SNode → List Nat → Prop
  | leaf {sn c : SNode} {i : Nat} (hc : sn.kids[i]? = some c) (hn : c.ntype = .leaf ∨ c.ntype = .leafList)
      (hd : c.info.dflt.isSome = true) : DefaultAt sn [i]
  -- the default case: the first one with the name
  | case {sn c k : SNode} {i j : Nat} {v : String} (hc : sn.kids[i]? = some c) (hn : c.ntype = .choice)
      (hd : c.info.dflt = some v) (hk : c.kids[j]? = some k) (ht : k.tag = ⟨c.tag.ns, v⟩)
      (first : ∀ l < j, ∀ k', c.kids[l]? = some k' → k'.tag ≠ ⟨c.tag.ns, v⟩) : DefaultAt sn [i, j]
  | inCase {sn c k : SNode} {i j : Nat} {v : String} {path : List Nat} (hc : sn.kids[i]? = some c)
      (hn : c.ntype = .choice) (hd : c.info.dflt = some v) (hk : c.kids[j]? = some k) (ht : k.tag = ⟨c.tag.ns, v⟩)
      (first : ∀ l < j, ∀ k', c.kids[l]? = some k' → k'.tag ≠ ⟨c.tag.ns, v⟩) (h : DefaultAt k path) :
      DefaultAt sn (i :: j :: path)
  | inside {sn c : SNode} {i : Nat} {path : List Nat} (hc : sn.kids[i]? = some c) (hn : c.isNP = true)
      (h : DefaultAt c path) : DefaultAt sn (i :: path)

/-- A new node `o` with preference `create`: it is created; but a non-presence container always exists, so
everything in it is created instead, except what exists by default. -/
inductive CreatedAs (d : Device) : SNode → Elem → Prop
  | node {sn : SNode} {o : Elem} (h : sn.isNP = false) (op : OnlyOp o "create") : CreatedAs d sn o
  | inside {sn : SNode} {o : Elem} (h : sn.isNP = true) (op : NoOp o)
      (dflt : ∀ c ∈ o.kids, ∀ f, d.lookup (.node sn) c.tag = .ok f → DefaultAt sn f.path → NoOps c)
      (sub : ∀ c ∈ o.kids, ∀ f, d.lookup (.node sn) c.tag = .ok f → ¬ DefaultAt sn f.path → CreatedAs d f.node c) :
      CreatedAs d sn o

/-- How a node `o` of the delta that only the target has is marked. -/
def NewAs (d : Device) : PrefCreate → SNode → Elem → Prop
  | .merge, _, o => NoOps o
  | .replace, _, o => OnlyOp o "replace"
  | .create, sn, o => CreatedAs d sn o

/-! ## Deleting -/

/-- A node `m` with operation `delete`: it is deleted; but for a non-presence container everything in it is
deleted instead. -/
inductive DeletedAs (d : Device) : SNode → Elem → Prop
  | node {sn : SNode} {m : Elem} (h : sn.isNP = false) (op : OnlyOp m "delete") : DeletedAs d sn m
  | inside {sn : SNode} {m : Elem} (h : sn.isNP = true) (op : NoOp m)
      (sub : ∀ c ∈ m.kids, ∀ f, d.lookup (.node sn) c.tag = .ok f → DeletedAs d f.node c) : DeletedAs d sn m

/-- How a node `m` of the delta that only the source has is marked. -/
def GoneAs (d : Device) : PrefDelete → SNode → Elem → Prop
  | .delete, sn, m => DeletedAs d sn m
  | .remove, _, m => OnlyOp m "remove"

/-! ## Replacing -/

/-- The values of the leaf-list `t` in `e`. -/
def valuesOf (d : Device) (sn : SNode) (e : Elem) (t : QName) : List (Except Err (Option String)) :=
  (siblings e t).map (fun c => parseText d c sn)

/-- Both nodes have a leaf-list, but with different values; or in a different order if that matters. -/
def LeafListsDiffer (d : Device) (sc : Scope) (S T : Elem) : Prop :=
  ∃ t f, d.lookup sc t = .ok f ∧ f.node.ntype = .leafList ∧ siblings S t ≠ [] ∧ siblings T t ≠ [] ∧
    (f.node.userOrdered = true → valuesOf d f.node S t ≠ valuesOf d f.node T t) ∧
    (f.node.userOrdered = false → ¬ ∀ v, v ∈ valuesOf d f.node S t ↔ v ∈ valuesOf d f.node T t)

/-! ## All preferences -/

/-- The operations in the delta `D` from `S` to `T` are those that the preferences ask for. -/
inductive Prefers (d : Device) (opts : Opts) : Scope → Elem → Elem → Elem → Prop
  | whole {sc : Scope} {S T D : Elem} (h : opts.replace = .replace) (hd : LeafListsDiffer d sc S T)
      (op : OnlyOp D "replace") : Prefers d opts sc S T D
  -- an entry that has not changed
  | same {sc : Scope} {S T D : Elem} (h : SameConfig d sc S T) (op : NoOps D) : Prefers d opts sc S T D
  | level {sc : Scope} {S T D : Elem} (h : ¬ (opts.replace = .replace ∧ LeafListsDiffer d sc S T)) (op : NoOp D)
      (new : ∀ k ∈ T.kids, Absent d sc S.kids k → ∀ o ∈ D.kids, SameInstance d sc k o →
        ∀ f, d.lookup sc k.tag = .ok f → NewAs d opts.create f.node o)
      (gone : ∀ s ∈ S.kids, Absent d sc T.kids s → ∀ o ∈ D.kids, SameInstance d sc s o →
        ∀ f, d.lookup sc s.tag = .ok f → GoneAs d opts.delete f.node o)
      (leaf : ∀ s ∈ S.kids, ∀ k ∈ T.kids, SameInstance d sc s k → ∀ o ∈ D.kids, SameInstance d sc k o →
        ∀ f, d.lookup sc k.tag = .ok f → f.node.ntype = .leaf ∨ f.node.ntype = .leafList →
        (f.node.ntype = .leaf ∧ parseText d s f.node ≠ parseText d k f.node ∧ opts.replace = .replace →
          HasOp o "replace") ∧
        (¬ (f.node.ntype = .leaf ∧ parseText d s f.node ≠ parseText d k f.node ∧ opts.replace = .replace) → NoOp o))
      (both : ∀ s ∈ S.kids, ∀ k ∈ T.kids, SameInstance d sc s k → ∀ o ∈ D.kids, SameInstance d sc k o →
        ∀ f, d.lookup sc k.tag = .ok f → f.node.ntype = .container ∨ f.node.ntype = .list →
          Prefers d opts (.node f.node) s k o) : Prefers d opts sc S T D

end NcDiff
