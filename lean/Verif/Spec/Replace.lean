import Verif.Spec.Shape
/-!
# Specification: deltas of type `replace` and `minimum-replace`
-/

namespace NcDiff

/-- `o` asks for the removal of a child of `S` that `T` does not have. -/
def Removes (d : Device) (sc : Scope) (S T o : Elem) : Prop :=
  ∃ s ∈ S.kids, SameInstance d sc s o ∧ Absent d sc T.kids s ∧
    ∀ f, d.lookup sc s.tag = .ok f → Erased d f.node s o

/-- `o` asks for a child of `T` to be written as a whole. -/
def Rewrites (T o : Elem) : Prop := HasOp o "replace" ∧ o.delAttrib ∈ T.kids

/-- `o` is a key leaf of `T`. -/
def KeyOf (d : Device) (sc : Scope) (T o : Elem) : Prop :=
  o.delAttrib ∈ T.kids ∧ ∃ f, d.lookup sc o.tag = .ok f ∧ f.node.info.isKey = true ∧ f.node.ntype = .leaf

/-- What differs between the children of `S` and `T` is in `D`. -/
def Complete (d : Device) (sc : Scope) (S T D : Elem) : Prop :=
  (∀ s ∈ S.kids, Absent d sc T.kids s → ∃ o ∈ D.kids, SameInstance d sc s o) ∧
  ∀ k ∈ T.kids, (∃ o ∈ D.kids, SameInstance d sc k o) ∨
    ∃ s ∈ S.kids, SameInstance d sc s k ∧ ∀ f, d.lookup sc k.tag = .ok f → SameConfig d (.node f.node) s k

/-- The delta `D` from `S` to `T` gives every change as a removal or by writing whole subtrees: `n`
levels below `D`, or higher up for what is only in `T`.  With `whole`, a node may be replaced as a whole
higher up. -/
inductive ReplacesAt (d : Device) (whole : Prop) : Nat → Scope → Elem → Elem → Elem → Prop
  | replaced {n : Nat} {sc : Scope} {S T D : Elem} (hw : whole) (h : HasOp D "replace") (copy : D.delAttrib = T) :
      ReplacesAt d whole n sc S T D
  -- an entry that has not changed, in the delta because of its position
  | same {n : Nat} {sc : Scope} {S T D : Elem} (h : SameConfig d sc S T) (keys : ∀ o ∈ D.kids, KeyOf d sc T o) :
      ReplacesAt d whole n sc S T D
  -- the depth at which subtrees are replaced
  | last {sc : Scope} {S T D : Elem} (all : Complete d sc S T D)
      (kids : ∀ o ∈ D.kids, Removes d sc S T o ∨ Rewrites T o ∨ KeyOf d sc T o) :
      ReplacesAt d whole 0 sc S T D
  | above {n : Nat} {sc : Scope} {S T D : Elem} (all : Complete d sc S T D)
      (kids : ∀ o ∈ D.kids, Removes d sc S T o ∨ Rewrites T o ∨
        ∃ s ∈ S.kids, ∃ k ∈ T.kids, SameInstance d sc s k ∧ SameInstance d sc k o ∧
          ∀ f, d.lookup sc k.tag = .ok f → f.node.ntype = .leaf ∨ f.node.ntype = .leafList → o.delAttrib = k)
      (both : ∀ s ∈ S.kids, ∀ k ∈ T.kids, SameInstance d sc s k → ∀ o ∈ D.kids, SameInstance d sc k o →
        ∀ f, d.lookup sc k.tag = .ok f → f.node.ntype = .container ∨ f.node.ntype = .list →
          ReplacesAt d whole n (.node f.node) s k o) : ReplacesAt d whole (n + 1) sc S T D

/-- The subtrees that `D` writes as a whole are in `r` exactly as in `T`, and what `D` deletes is not in
`r`; likewise further down, as far as `D` and `r` go and at most `n` levels. -/
inductive Imposed (d : Device) : Nat → Scope → Elem → Elem → Elem → Prop
  | mk {n : Nat} {sc : Scope} {T D r : Elem}
      (gone : ∀ o ∈ D.kids, IsDelete o → Absent d sc r.kids o)
      (written : ∀ o ∈ D.kids, HasOp o "replace" → ∃ k ∈ T.kids, ∃ e, SameInstance d sc k o ∧
        OnceAs d sc r.kids o e ∧ ∀ f, d.lookup sc o.tag = .ok f →
          (f.node.ntype = .container ∨ f.node.ntype = .list → e = k) ∧
          (f.node.ntype = .leaf → parseText d e f.node = parseText d k f.node))
      (below : ∀ m, n = m + 1 → ∀ k ∈ T.kids, ∀ o ∈ D.kids, SameInstance d sc k o → opOf o = "merge" →
        ∀ f, d.lookup sc o.tag = .ok f → f.node.ntype = .container ∨ f.node.ntype = .list →
        ∀ e ∈ r.kids, SameInstance d sc e o → Imposed d m (.node f.node) k o e) : Imposed d n sc T D r

/-- `e'` is `e` with `operation="replace"`, an attribute without a namespace, on the nodes `n` levels
below. -/
def MarkedAt : Nat → Elem → Elem → Prop
  | 0, e, e' => e'.tag = e.tag ∧ e'.nsmap = e.nsmap ∧ e'.text = e.text ∧ e'.kids = e.kids ∧
      e'.get (.other "operation") = some (.str "replace") ∧ ∀ n, n ≠ .other "operation" → e'.get n = e.get n
  | n + 1, e, e' => e'.tag = e.tag ∧ e'.nsmap = e.nsmap ∧ e'.text = e.text ∧ e'.attrs = e.attrs ∧
      List.Forall₂ (MarkedAt n) e.kids e'.kids

end NcDiff
