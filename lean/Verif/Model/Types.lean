import Verif.Model.Compile
import Verif.Model.Identity
/-!
# Types of leaves

Model of `type_values` and `type_union_values` (`src/ncdiff/model.py` lines 1275-1300) and of what `set_leaf_datatype_value` (lines
1233-1273) takes from a `type` statement.
-/

namespace NcDiff.Types
open Compile

/-- A `type` statement without the statements it refers to. -/
structure TInfo where
  arg : String
  /-- `i_module.i_modulename`: the module that the statement is written in -/
  module : String := ""
  /-- `i_is_derived`: pyang has found restrictions in the statement -/
  restricted : Bool := false
  /-- arguments of the `enum` statements -/
  enums : List String := []
  path : Option String := none
  /-- argument of the first `base` statement -/
  base : Option String := none
  deriving DecidableEq, Repr

/-- A `type` statement: `i_typedef.search_one('type')` if there is a typedef, which always has a type, and the `type` statements of
a union. -/
inductive TypeS where
  | mk (info : TInfo) (typedef : Option TypeS) (members : List TypeS)

namespace TypeS
def info : TypeS → TInfo | .mk i _ _ => i
def typedef : TypeS → Option TypeS | .mk _ t _ => t
def members : TypeS → List TypeS | .mk _ _ m => m
end TypeS

/-- What `type_identityref_values` finds in a module for the argument of a `base` statement, before it is joined (see
`Model/Identity.lean`). -/
abbrev Known := String → String → Except Err (List String)

mutual
/-- `type_values`, lines 1275-1292. -/
def typeValues (known : Known) : TypeS → Except Err String
  | .mk i td ms =>
    match td with
    | some t => if i.restricted = false then typeValues known t else ownValues known i (unionValues known ms)
    | none => ownValues known i (unionValues known ms)
/-- `type_union_values`, lines 1294-1300: the texts that are not empty. -/
def unionValues (known : Known) : List TypeS → Except Err (List String)
  | [] => .ok []
  | t :: r =>
    match typeValues known t with
    | .error e => .error e
    | .ok v =>
      match unionValues known r with
      | .error e => .error e
      | .ok vs => .ok (if v = "" then vs else v :: vs)
/-- Lines 1283-1292; the texts of the types of a union are given. -/
def ownValues (known : Known) (i : TInfo) (union : Except Err (List String)) : Except Err String :=
  if i.arg = "boolean" then .ok "true|false"
  else if i.arg = "union" then union.map (joinWith "|")
  else if i.arg = "enumeration" then .ok (joinWith "|" i.enums)
  else if i.arg = "identityref" then
    match i.base with
    | none => .ok ""
    | some b => (known i.module b).map (joinWith "|")
  else .ok ""
end

/-- The `type` statement as `Model/Compile.lean` takes it. -/
def TypeS.stmt (known : Known) (t : TypeS) : Except Err TypeStmt :=
  (typeValues known t).map fun v =>
    { arg := t.info.arg, path := t.info.path, base := t.info.base, values := v, members := t.members.map fun m => m.info.arg }

/-- `base_idn.arg.split(':')`, lines 1306-1316.  Simplification: an argument has at most one colon. -/
def baseOf (b : String) : Identity.Base :=
  match splitColon b.toList with
  | none => (none, b)
  | some (p, n) => (some (String.ofList p), String.ofList n)

/-- `type_identityref_values`, lines 1302-1325, in a compiler that has seen the modules `ms`, for a `type` statement in a module. -/
def fromCompiler (c : Identity.Compiler) (ms : List Identity.Stmt) : Known := fun m b =>
  match ms.find? fun x => x.name = m with
  | none => .error .attributeError
  | some x =>
    match Identity.values c x (baseOf b) with
    | none => .error .keyError
    | some l => .ok l

end NcDiff.Types
