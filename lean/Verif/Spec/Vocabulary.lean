import Verif.Spec.Prefer
/-!
# Specification: which operations occur in an edit-config
-/

namespace NcDiff

/-- The attribute `operation` of the node and of all nodes below is one of those that `A` allows. -/
inductive OpsIn (A : Option AVal → Prop) : Elem → Prop
  | mk {o : Elem} (here : A (o.get .operation)) (sub : ∀ k ∈ o.kids, OpsIn A k) : OpsIn A o

/-- The operations that the options speak of: nothing (which is `merge`), the preferred operation for deleting,
`replace` if one of the options says so, and `create` if that is the preferred operation for creating and the type of
the delta is not `replace`. -/
def Opts.Allows (opts : Opts) (a : Option AVal) : Prop :=
  a = none ∨ a = some (.str opts.delete.str) ∨
  ((opts.create = .replace ∨ opts.replace = .replace ∨ opts.diffType = .replace) ∧ a = some (.str "replace")) ∨
  (opts.create = .create ∧ opts.diffType ≠ .replace ∧ a = some (.str "create"))

end NcDiff
