import Verif.Model.Schema
/-!
# Loaded models and the schema node cache

Model of `ModelDevice.load_model` (from the point where the compiled model is at hand,
`src/ncdiff/manager.py` lines 329-336), `roots` (lines 218-223) and `get_schema_node` with its
cache `self.nodes` (lines 530-630).

A schema node object is identified by the `Model` object it belongs to and by its position in
that model's tree.
-/

namespace NcDiff

/-- A `Model` object (`src/ncdiff/model.py` lines 90-110).  `id` stands for its identity: loading
the same model again gives a different object. -/
structure Loaded where
  id : Nat
  name : String
  tree : List SNode
  deriving Repr, Inhabited

/-- `Model.roots`, `src/ncdiff/model.py` lines 108-110. -/
def Loaded.roots (m : Loaded) : List QName := m.tree.map SNode.tag

/-- A schema node object: model object, position, and the node found there. -/
structure SRef where
  model : Nat
  path : List Nat
  node : SNode
  deriving Repr, Inhabited

/-- `self.models` (in dictionary order) and `self.nodes`.  A key of `nodes` is the path of a
config node, innermost tag first; the code joins the tags with spaces, which is injective since
tags have none.  `next` numbers `Model` objects. -/
structure Store where
  models : List Loaded := []
  nodes : List (List QName × SRef) := []
  next : Nat := 0
  deriving Repr, Inhabited

namespace Store

/-- `self.roots.get(tag)`, `src/ncdiff/manager.py` lines 218-223: the last loaded model with that
root wins. -/
def rootModel (s : Store) (r : QName) : Option Loaded :=
  s.models.reverse.find? (fun m => r ∈ m.roots)

/-- `self.models[m.name] = m`: an existing name keeps its position. -/
def setModel (m : Loaded) : List Loaded → List Loaded
  | [] => [m]
  | x :: r => if x.name = m.name then m :: r else x :: setModel m r

/-- The dictionary comprehension of lines 330-331: entries whose root belongs to the model are
dropped; `self.roots[…]` may raise `KeyError`. -/
def dropEntries (s : Store) (name : String) :
    List (List QName × SRef) → Except Err (List (List QName × SRef))
  | [] => .ok []
  | e :: r => do
    let r ← dropEntries s name r
    match s.rootModel (e.1.getLastD default) with
    | none => .error .keyError
    | some m => if m.name = name then pure r else pure (e :: r)

/-- `load_model`, lines 329-336, for a compiled model. -/
def load (s : Store) (name : String) (tree : List SNode) : Except Err Store :=
  if name ∈ s.models.map Loaded.name then do
    let nodes ← s.dropEntries name s.nodes
    pure { models := setModel ⟨s.next, name, tree⟩ s.models, nodes, next := s.next + 1 }
  else
    .ok { models := setModel ⟨s.next, name, tree⟩ s.models, nodes := s.nodes, next := s.next + 1 }

/-- `get_child`, lines 567-583, below a node that is a data node or the root of a model tree. -/
def getChild (kids : List SNode) (tag : QName) : Except Err Found :=
  match dataNodes tag [] false 0 kids with
  | [] => .error .configError
  | [f] => .ok f
  | _ => .error .modelError

/-- `self.nodes[path] = child; return child`. -/
def remember (s : Store) (path : List QName) (r : SRef) : Except Err SRef × Store :=
  (.ok r, { s with nodes := (path, r) :: s.nodes })

/-- `get_schema_node`, lines 530-630, for a config node with the given path (innermost tag
first, without the `config` root).  It returns the result and the store with the extended
cache. -/
def get (s : Store) : List QName → Except Err SRef × Store
  | [] => (.error .indexError, s)
  | tag :: up =>
    match s.nodes.lookup (tag :: up) with
    | some r => (.ok r, s)
    | none =>
      if up = [] then
        match s.rootModel tag with
        | none => (.error .modelMissing, s)
        | some m =>
          match getChild m.tree tag with
          | .error e => (.error e, s)
          | .ok f => s.remember [tag] ⟨m.id, f.path, f.node⟩
      else
        match s.get up with
        | (.error e, s') => (.error e, s')
        | (.ok p, s') =>
          match getChild p.node.kids tag with
          | .error e => (.error e, s')
          | .ok f => s'.remember (tag :: up) ⟨p.model, p.path ++ f.path, f.node⟩

end Store
end NcDiff
