import Verif.Model.Identity
import Mathlib.Data.List.Forall2
/-!
# Specification: identities that are derived from a base
-/

namespace NcDiff.Identity

/-- What a compiler has done so far: the modules it has compiled, each with the modules that pyang
had loaded at that time. -/
abbrev History := List (String × List Stmt)

/-- The compiler after that. -/
def after (h : History) : Compiler := h.foldl (fun c x => compile c x.1 x.2) new

/-- What YANG says that a base refers to: a prefix refers to the module that it stands for, a name
without prefix to the module in which the statement is. -/
def meaning (m : Stmt) : Base → Option Id
  | (some p, n) => (m.prefixes.lookup p).map (fun mod => (mod, n))
  | (none, n) => some (m.name, n)

/-- All identities in the order in which the compiler sees them, with what they are derived from:
`none` is an identity without base, `some none` one with an unknown base. -/
def seen (h : History) : List (Id × Option (Option Id)) :=
  h.flatMap (fun x => x.2.flatMap (fun m =>
    m.identities.map (fun i => ((m.name, i.name), i.base.map (meaning m)))))

/-- The identities that are directly derived from `x`, in the order in which the compiler sees
them. -/
def derived (x : Id) (l : List (Id × Option (Option Id))) : List Id :=
  (l.filter (fun y => y.2 = some (some x))).map Prod.fst

/-- `x` is an identity without base, and the compiler sees it before all that are derived from it. -/
def RootFirst (x : Id) (l : List (Id × Option (Option Id))) : Prop :=
  ∃ l1 l2, l = l1 ++ (x, none) :: l2 ∧ derived x l1 = []

/-- Only the module that is compiled has identities whose base is written without prefix. -/
def OwnBases (h : History) : Prop :=
  ∀ t ms, (t, ms) ∈ h → ∀ m ∈ ms, ∀ i ∈ m.identities, ∀ n, i.base = some (none, n) → m.name = t

/-- `v` is an identity in the notation `prefix:name`, where the prefix is the one that the module of
the identity declares. -/
def Written (h : History) (v : String) (x : Id) : Prop :=
  ∃ t ms, (t, ms) ∈ h ∧ ∃ m ∈ ms, m.name = x.1 ∧ v = m.pfx ++ ":" ++ x.2

end NcDiff.Identity
