import Verif.Model.Xml
/-!
# Schema trees and schema look-up

Model of the compiled schema trees and of `ModelDevice.get_schema_node`
(`src/ncdiff/manager.py` lines 530-630), `Composer.keys` (`src/ncdiff/composer.py` lines 146-167)
and `ModelDevice.default_in_use` (`src/ncdiff/manager.py` lines 743-819).

A schema tree is an arbitrary input here.  How the compiler (`src/ncdiff/model.py`) makes trees of
the statements of a module is in `Model/Compile.lean`; C65 joins the two.
-/

namespace NcDiff

/-- Attribute `type` of a schema node. -/
inductive NType where
  | leaf | leafList | container | list | choice | case | other
  deriving DecidableEq, Repr, Inhabited

/-- Attribute `datatype` of a schema node, as far as `_parse_text` looks at it
(`src/ncdiff/calculator.py` lines 405-417). -/
inductive DType where
  | none | identityref | instanceId | other
  deriving DecidableEq, Repr, Inhabited

/-- Attribute `status`. -/
inductive SStatus where
  | current | deprecated | obsolete
  deriving DecidableEq, Repr, Inhabited

/-- The attributes of a schema node. -/
structure SInfo where
  tag : QName
  ntype : NType
  /-- `ordered-by == 'user'` -/
  userOrdered : Bool := false
  /-- `presence == 'true'` -/
  presence : Bool := false
  /-- attribute `is_key` present -/
  isKey : Bool := false
  /-- attribute `key`, split at spaces and stripped of prefixes -/
  keyNames : List String := []
  /-- attribute `default` -/
  dflt : Option String := Option.none
  datatype : DType := .none
  /-- `access == 'read-only'` -/
  readOnly : Bool := false
  status : SStatus := .current
  deriving DecidableEq, Repr, Inhabited

/-- A schema node with its children in document order. -/
inductive SNode where
  | mk (info : SInfo) (kids : List SNode)
  deriving Repr, Inhabited

namespace SNode
def info : SNode → SInfo | .mk i _ => i
def kids : SNode → List SNode | .mk _ k => k
@[simp] theorem info_mk (i k) : (SNode.mk i k).info = i := rfl
@[simp] theorem kids_mk (i k) : (SNode.mk i k).kids = k := rfl
def tag (s : SNode) : QName := s.info.tag
def ntype (s : SNode) : NType := s.info.ntype
def userOrdered (s : SNode) : Bool := s.info.userOrdered

/-- A non-presence container: `type == 'container' and presence != 'true'`. -/
def isNP (s : SNode) : Bool := s.info.ntype = .container && !s.info.presence

/-- `Composer.keys`, `src/ncdiff/composer.py` lines 146-167: for every name in the key statement
the tag of the first schema child with that local name; names without such a child are
dropped. -/
def keys (s : SNode) : List QName :=
  if s.info.ntype = .list then
    s.info.keyNames.filterMap fun n => (s.kids.find? (fun c => c.tag.name = n)).map SNode.tag
  else []
end SNode

/-- A schema node found below a scope: the node, and its position.  `path` lists child indices
from the scope to the node (through choices and cases), at the root preceded by the index of the
model; it stands for the Python object identity of the schema node. -/
structure Found where
  node : SNode
  path : List Nat
  /-- `s_node.getparent().get('type') == 'case'`; the paths `path.dropLast` (the case) and
  `path.dropLast.dropLast` (the choice) then stand for the identities of case and choice. -/
  underCase : Bool
  deriving Repr, Inhabited

mutual
/-- `get_child` / `is_parent` of `get_schema_node`, `src/ncdiff/manager.py` lines 567-597: the
nodes below a parent that have the tag, are neither choice nor case, and are separated from the
parent by choices and cases only.  `i` is the index of the first node of the list below its
parent, `pre` the reversed path of the parent and `inCase` whether that parent is a case. -/
def dataNodes (tag : QName) (pre : List Nat) (inCase : Bool) : Nat → List SNode → List Found
  | _, [] => []
  | i, s :: r => dataNode tag pre inCase i s ++ dataNodes tag pre inCase (i + 1) r
/-- See `dataNodes`. -/
def dataNode (tag : QName) (pre : List Nat) (inCase : Bool) (i : Nat) : SNode → List Found
  | .mk info kids =>
    if info.ntype = .choice then dataNodes tag (i :: pre) false 0 kids
    else if info.ntype = .case then dataNodes tag (i :: pre) true 0 kids
    else if info.tag = tag then [⟨.mk info kids, (i :: pre).reverse, inCase⟩] else []
end

/-- A device: `namespaces` (`src/ncdiff/manager.py` lines 116-129) as (name, prefix, url),
`roots` (tag of a root to model name, lines 219-223) and the loaded models' trees. -/
structure Device where
  namespaces : List (String × String × String)
  roots : List (QName × String)
  models : List (String × List SNode)
  deriving Repr, Inhabited

/-- Position in the schema that the path of a config node determines: the config root, or a
schema node. -/
inductive Scope where
  | root
  | node (s : SNode)
  deriving Repr, Inhabited

/-- `get_schema_node(child)` for a child with tag `tag` of a config node whose own schema
position is `sc` (`src/ncdiff/manager.py` lines 530-630).  The path cache `self.nodes` is
modelled separately.  A choice or a case as a direct root is treated like below a container. -/
def Device.lookup (d : Device) (sc : Scope) (tag : QName) : Except Err Found :=
  match sc with
  | .node s =>
    match dataNodes tag [] (s.info.ntype = .case) 0 s.kids with
    | [] => .error .configError
    | [f] => .ok f
    | _ => .error .modelError
  | .root =>
    match d.roots.lookup tag with
    | none => .error .modelMissing
    | some m =>
      match d.models.lookup m with
      | none => .error .keyError
      | some tree =>
        match dataNodes tag [d.models.findIdx (fun p => p.1 = m)] false 0 tree with
        | [] => .error .configError
        | [f] => .ok f
        | _ => .error .modelError

mutual
/-- `default_in_use`, `src/ncdiff/manager.py` lines 743-819, as paths relative to the given
node.  Simplification: the default case of a choice is looked up by local name in the namespace
of the choice (the code goes through `convert_tag`, which does that when the name has no
prefix). -/
def SNode.defaultInUse (pre : List Nat) : SNode → List (List Nat)
  | .mk _ kids => defaultInUseList pre 0 kids
/-- See `defaultInUse`. -/
def defaultInUseList (pre : List Nat) : Nat → List SNode → List (List Nat)
  | _, [] => []
  | i, .mk info ks :: r =>
    (if (info.ntype = .leaf ∨ info.ntype = .leafList) ∧ info.dflt.isSome then [pre ++ [i]]
     else if info.ntype = .choice ∧ info.dflt.isSome then
       defaultCase (pre ++ [i]) ⟨info.tag.ns, info.dflt.getD ""⟩ 0 ks
     else if info.ntype = .container ∧ !info.presence then
       SNode.defaultInUse (pre ++ [i]) (.mk info ks)
     else []) ++ defaultInUseList pre (i + 1) r
/-- `child.find(tag)` of the default case of a choice (line 808) and the recursive call on
it. -/
def defaultCase (pre : List Nat) (tag : QName) : Nat → List SNode → List (List Nat)
  | _, [] => []
  | i, s :: r =>
    if s.info.tag = tag then (pre ++ [i]) :: SNode.defaultInUse (pre ++ [i]) s
    else defaultCase pre tag (i + 1) r
end

end NcDiff
