import Verif.Model.Store
/-!
# Specification: histories of model loads and schema look-ups
-/

namespace NcDiff

/-- The store after some history of `load_model` and `get_schema_node` calls, in which no two
models of different names ever had a root in common. -/
inductive Reachable : Store → Prop where
  | start : Reachable {}
  | load {s s' : Store} {name : String} {tree : List SNode} : Reachable s →
      (∀ m ∈ s.models, m.name ≠ name → ∀ r ∈ m.tree.map SNode.tag, r ∉ tree.map SNode.tag) →
      s.load name tree = .ok s' → Reachable s'
  | get {s : Store} (path : List QName) : Reachable s → Reachable (s.get path).2

/-- The store after any history of `load_model` and `get_schema_node` calls. -/
inductive AnyHistory : Store → Prop where
  | start : AnyHistory {}
  | load {s s' : Store} {name : String} {tree : List SNode} : AnyHistory s →
      s.load name tree = .ok s' → AnyHistory s'
  | get {s : Store} (path : List QName) : AnyHistory s → AnyHistory (s.get path).2

/-- The same loaded models with nothing cached. -/
def Store.withoutCache (s : Store) : Store := { s with nodes := [] }

/-- The device of the other parts of the model that has the loaded models of the store. -/
def Store.device (s : Store) (namespaces : List (String × String × String)) : Device where
  namespaces := namespaces
  roots := s.models.reverse.flatMap fun m => m.tree.map fun t => (t.tag, m.name)
  models := s.models.map fun m => (m.name, m.tree)

/-- Look-up of a whole path (innermost tag first), one step of `Device.lookup` after the
other. -/
def Device.locate (d : Device) : List QName → Except Err SNode
  | [] => .error .indexError
  | tag :: up =>
    if up = [] then (d.lookup .root tag).map Found.node
    else
      match d.locate up with
      | .error e => .error e
      | .ok s => (d.lookup (.node s) tag).map Found.node

end NcDiff
