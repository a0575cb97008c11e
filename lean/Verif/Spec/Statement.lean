import Verif.Model.Statement
import Verif.Spec.Compile
import Verif.Spec.XPath
/-!
# Specification: which statement belongs to a node
-/

namespace NcDiff.Statement

open Compile

/-- The statement at the end of a chain of statements that have the names of the path. -/
def StatementAt (ns : List (String × String)) (kids : List Stmt) (path : List QName) (s : Stmt) : Prop :=
  ∃ c, Chain kids c ∧ c.getLast? = some s ∧ List.Forall₂ (Named ns) path c

/-- The module is in the context, validated, and no revision of it is later. -/
def Newest (ms : Modules) (name : String) (m : Module) : Prop :=
  ∃ a b rev, ms = a ++ ((name, rev), m) :: b ∧ m.validated = true ∧
    (∀ e ∈ a, e.1.1 = name → e.1.2 < rev) ∧ (∀ e ∈ b, e.1.1 = name → ¬ rev < e.1.2)

/-- The device and the statements of a module agree: the names are identifiers, the namespaces of the device are unique,
siblings have different names, and the module of each statement is known to the device by the prefix that it has in
pyang and the namespace that it has in the compiler. -/
structure Agree (d : Device) (ns : List (String × String)) (kids : List Stmt) : Prop where
  unique : UniqueNamespaces d
  idents : ModuleIdents d
  names : ∀ c s, Chain kids c → c.getLast? = some s → Ident s.info.arg.toList
  known : ∀ c s, Chain kids c → c.getLast? = some s →
    ∃ e ∈ d.namespaces, e.2.1 = s.info.modulePrefix ∧ ns.lookup s.info.module = some e.2.2
  top : DistinctNames ns kids
  below : ∀ c s, Chain kids c → c.getLast? = some s → DistinctNames ns s.kids

/-- The tags of a path are identifiers of modules that the device knows. -/
def PathKnown (d : Device) (path : List QName) : Prop :=
  ∀ q ∈ path, Ident q.name.toList ∧ ∃ m ∈ d.namespaces, m.2.2 = q.ns

/-- Above the node at a position there is a list entry with a key, or a leaf-list. -/
inductive EntryAbove (d : Device) : Scope → Elem → List Nat → Prop
  | entry {sc e i r k f q} : e.kids[i]? = some k → r ≠ [] → d.lookup sc k.tag = .ok f → f.node.ntype = .list →
      q ∈ f.node.keys → (∃ x, k.find q = some x) → EntryAbove d sc e (i :: r)
  | value {sc e i r k f} : e.kids[i]? = some k → r ≠ [] → d.lookup sc k.tag = .ok f → f.node.ntype = .leafList →
      EntryAbove d sc e (i :: r)
  | deeper {sc e i r k f} : e.kids[i]? = some k → d.lookup sc k.tag = .ok f → EntryAbove d (.node f.node) k r →
      EntryAbove d sc e (i :: r)

/-- A loaded model has the root. -/
def HasRoot (q : QName) (m : String × Elem) : Prop := ∃ k ∈ m.2.kids, k.tag = q

end NcDiff.Statement
