import Verif.Spec.Shape
/-!
# Specification: a delta says nothing about what has not changed
-/

namespace NcDiff

/-- A node that is written even if it has not changed: a key of a list, which tells which entry is
meant, or an entry of an ordered-by-user list or leaf-list, which is written with its position. -/
def Repeated (f : Found) : Prop :=
  (f.node.info.isKey = true ∧ f.node.ntype = .leaf) ∨
  (f.node.userOrdered = true ∧ (f.node.ntype = .leafList ∨ f.node.ntype = .list))

/-- The delta `D` from `S` to `T` is about changes only.  With `whole`, a node may be replaced as a
whole. -/
inductive OnlyChanges (d : Device) (whole : Prop) : Scope → Elem → Elem → Elem → Prop
  | replaced {sc : Scope} {S T D : Elem} (hw : whole) (h : HasOp D "replace") (copy : D.delAttrib = T) :
      OnlyChanges d whole sc S T D
  -- nothing has changed: only keys are in the delta
  | same {sc : Scope} {S T D : Elem} (h : SameConfig d sc S T)
      (keys : ∀ o ∈ D.kids, o.delAttrib ∈ T.kids ∧ ¬ IsDelete o ∧ ∃ f, d.lookup sc o.tag = .ok f ∧ f.node.info.isKey = true ∧
        f.node.ntype = .leaf) : OnlyChanges d whole sc S T D
  | level {sc : Scope} {S T D : Elem}
      -- of what is in both, exactly what has changed is in the delta, and what is repeated
      (mentioned : ∀ s ∈ S.kids, ∀ k ∈ T.kids, SameInstance d sc s k → ∀ f, d.lookup sc k.tag = .ok f →
        ((∃ o ∈ D.kids, SameInstance d sc k o) ↔ ¬ SameConfig d (.node f.node) s k ∨ Repeated f))
      -- the same holds inside what is in both and in the delta
      (both : ∀ s ∈ S.kids, ∀ k ∈ T.kids, SameInstance d sc s k → ∀ o ∈ D.kids, SameInstance d sc k o →
        ∀ f, d.lookup sc k.tag = .ok f → f.node.ntype = .container ∨ f.node.ntype = .list →
          OnlyChanges d whole (.node f.node) s k o) : OnlyChanges d whole sc S T D

end NcDiff
