import Verif.Model.XPath
import Verif.Model.Compile
/-!
# The statement of a node

Model of `ModelDevice.get_statement` (`src/ncdiff/manager.py` lines 703-741), `get_model_name` (lines 632-658) with
`Composer.model_name` (`src/ncdiff/composer.py` lines 103-122), `Composer.get_xpath` for schema nodes (lines 169-226), and
`CompilerContext.get_statement`, `get_child` and `_get_latest_revision` (`src/ncdiff/model.py` lines 559-614).

Simplifications: statements are those of `Model/Compile.lean`; a statement without children has an empty `i_children`; the
call without an XPath, which the device does not make, is left out.
-/

namespace NcDiff.Statement

open Compile

/-- A module in the context: `i_prefix`, `i_is_validated`, `i_children`. -/
structure Module where
  pfx : String
  validated : Bool
  kids : List Stmt

/-- `context.modules`: the key is name and revision. -/
abbrev Modules := List ((String × String) × Module)

/-- `_get_latest_revision`, `src/ncdiff/model.py` lines 559-566. -/
def latestRevision (ms : Modules) (name : String) : Option String :=
  ms.foldl (fun latest e =>
    if e.1.1 = name then
      match latest with
      | none => some e.1.2
      | some l => if l < e.1.2 then some e.1.2 else some l
    else latest) none

/-- `get_child`, lines 600-614. -/
def getChild (rootPrefix : String) (kids : List Stmt) (id : List Char) : Option Stmt :=
  match splitOn ':' id with
  | p :: n :: _ => kids.find? fun c => c.info.arg.toList = n ∧ c.info.modulePrefix.toList = p
  | [n] => kids.find? fun c => c.info.arg.toList = n ∧ c.info.modulePrefix = rootPrefix
  | [] => none

/-- The loop of lines 594-598; there is at least one name. -/
def follow (rootPrefix : String) (kids : List Stmt) : List (List Char) → Option Stmt
  | [] => none
  | [n] => getChild rootPrefix kids n
  | n :: r =>
    match getChild rootPrefix kids n with
    | none => none
    | some s => follow rootPrefix s.kids r

/-- `CompilerContext.get_statement`, lines 568-598. -/
def contextStatement (ms : Modules) (name : String) (xpath : List Char) : Option Stmt :=
  match latestRevision ms name with
  | none => none
  | some rev =>
    match ms.lookup (name, rev) with
    | none => none
    | some m =>
      if m.validated then
        match splitOn '/' xpath with
        | [] :: [] :: _ => none
        | [] :: n :: r => follow m.pfx m.kids (n :: r)
        | _ => none
      else none

/-- `Composer.model_name`, `src/ncdiff/composer.py` lines 103-122, of a node with the given path. -/
def modelName (d : Device) : List QName → Except Err String
  | [] => .error .indexError
  | q :: _ =>
    match d.roots.lookup q with
    | some m => .ok m
    | none => .error .modelMissing

/-- `convert` of `Composer.get_xpath`, lines 193-219, for a schema node: there are no predicates. -/
def schemaXpath (d : Device) (ty : TagNotation) : String → List QName → Except Err (List Char)
  | _, [] => .ok []
  | dflt, q :: r => do
    let p ← convertTag d dflt q.clark .lxmlEtree ty
    let rest ← schemaXpath d ty p.1 r
    pure (['/'] ++ p.2 ++ rest)

/-- `get_statement(node)`, `src/ncdiff/manager.py` lines 703-741, of the schema node at a path of tags. -/
def ofSchemaNode (d : Device) (ms : Modules) (path : List QName) : Except Err (Option Stmt) := do
  let m ← modelName d path
  let x ← schemaXpath d .lxmlXpath "" path
  pure (contextStatement ms m x)

/-- `Composer.path` of a config node, `src/ncdiff/composer.py` lines 98-101: the tags on the way to the position. -/
def tagsTo : Elem → List Nat → List QName
  | _, [] => []
  | e, i :: r =>
    match e.kids[i]? with
    | none => []
    | some k => k.tag :: tagsTo k r

/-- `get_statement(node)` of the config node at a position. -/
def ofConfigNode (d : Device) (ms : Modules) (cfg : Elem) (pos : List Nat) : Except Err (Option Stmt) := do
  let m ← modelName d (tagsTo cfg pos)
  let x ← getXpath d .lxmlXpath false cfg pos
  pure (contextStatement ms m x)

end NcDiff.Statement
