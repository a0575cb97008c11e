import Verif.Model.Compat
/-!
# From statements to schema trees

Model of `ModelCompiler.compile` after pyang has validated the modules (`src/ncdiff/model.py` lines 1063-1129, without the
table of identities, see `Model/Identity.lean`), `depict_a_schema_node` (lines 1131-1213), `set_access` (lines 1215-1231) and
`set_leaf_datatype_value` (lines 1233-1273), and of `Model.__init__` (lines 90-103) and `Model.convert_tree` (lines 473-491).

A statement is what pyang leaves: keyword, argument, module, substatements, and the expanded children `i_children`.
Not modelled: statements whose keyword belongs to an extension (line 1221), Tail-f annotations (lines 1180-1197), which are attributes that nothing reads, and the files in which compiled trees are kept.
-/

namespace NcDiff.Compile

/-- A `type` statement: argument, the arguments of its `path` and `base` statements, the text that `type_values` gives
for it (see `Model/Types.lean`), and the types of a union. -/
structure TypeStmt where
  arg : String
  path : Option String := none
  base : Option String := none
  values : String := ""
  members : List String := []
  deriving DecidableEq, Repr

/-- A statement without its children. -/
structure Info where
  keyword : String
  arg : String
  /-- `i_module.i_modulename` -/
  module : String
  /-- `i_module.i_prefix` -/
  modulePrefix : String := ""
  /-- `hasattr(statement, 'i_config') and statement.i_config` -/
  config : Bool := false
  /-- `hasattr(child, 'i_is_key')` -/
  isKey : Bool := false
  /-- keyword and argument of the substatements -/
  subs : List (String × String) := []
  /-- the first `type` substatement -/
  type : Option TypeStmt := none
  /-- arguments of the `if-feature` statements of `i_augment` -/
  augmented : List String := []
  deriving DecidableEq, Repr

/-- A statement with `i_children`. -/
inductive Stmt where
  | mk (info : Info) (kids : List Stmt)
  deriving Repr

namespace Stmt
def info : Stmt → Info | .mk i _ => i
def kids : Stmt → List Stmt | .mk _ k => k
@[simp] theorem info_mk (i k) : (Stmt.mk i k).info = i := rfl
@[simp] theorem kids_mk (i k) : (Stmt.mk i k).kids = k := rfl
end Stmt

/-- `statement.search(keyword)`: the arguments. -/
def Info.search (i : Info) (k : String) : List String := (i.subs.filter fun p => p.1 = k).map Prod.snd

/-- `statement.search_one(keyword)`: the argument. -/
def Info.searchOne (i : Info) (k : String) : Option String := (i.search k).head?

/-- `set_access`, lines 1215-1231.  Keywords of extensions, which pyang gives as pairs, are not modelled. -/
def accessOf (mode : Option String) (i : Info) : String :=
  if mode = some "input" ∨ mode = some "rpc" ∨ i.keyword = "rpc" then "write"
  else if mode = some "output" ∨ mode = some "notification" ∨ i.keyword = "notification" then "read-only"
  else if i.config then "read-write" else "read-only"

/-- `s.split(c)`. -/
def splitOn (c : Char) : List Char → List (List Char)
  | [] => [[]]
  | x :: r =>
    if x = c then [] :: splitOn c r
    else
      match splitOn c r with
      | [] => [[x]]
      | p :: ps => (x :: p) :: ps

/-- `name.split(':', 1)` if there is a colon. -/
def splitColon : List Char → Option (List Char × List Char)
  | [] => none
  | x :: r =>
    if x = ':' then some ([], r)
    else (splitColon r).map fun p => (x :: p.1, p.2)

/-- The loop over the names of a path, lines 1246-1255; the first argument is `curprefix`. -/
def compactNames (cur : List Char) : List (List Char) → List (List Char)
  | [] => []
  | n :: r =>
    match splitColon n with
    | none => n :: compactNames cur r
    | some (p, m) => if p = cur then m :: compactNames cur r else (p ++ ':' :: m) :: compactNames p r

/-- `sep.join(l)`. -/
def joinWith (sep : String) : List String → String
  | [] => ""
  | [s] => s
  | s :: r => s ++ sep ++ joinWith sep r

/-- The text of attribute `datatype`, lines 1238-1264. -/
def datatypeText (pfx : String) (t : TypeStmt) : Except Err String :=
  if t.arg = "leafref" then
    match t.path with
    | some p =>
      .ok ("-> " ++ joinWith "/" ((compactNames pfx.toList (splitOn '/' p.toList)).map String.ofList))
    | none => .ok t.arg
  else if t.arg = "identityref" then
    match t.base with
    | some b => .ok (t.arg ++ ":" ++ b)
    | none => .error .attributeError
  else .ok t.arg

/-- An attribute if there is a value. -/
def optAttr (n : AName) : Option String → Attrs
  | some s => [(n, .str s)]
  | none => []

/-- An attribute under a condition. -/
def attrIf (c : Bool) (n : AName) (v : String) : Attrs := if c then [(n, .str v)] else []

/-- The attributes that `set_leaf_datatype_value` sets, lines 1233-1273. -/
def datatypeAttrs (i : Info) : Except Err Attrs :=
  match i.type with
  | none => .ok []
  | some t => do
    let dt ← datatypeText i.modulePrefix t
    pure ([(.other "datatype", .str dt)] ++ attrIf (t.values ≠ "") (.other "values") t.values ++
      attrIf (t.arg = "union") (.other "unionmembertypes") (joinWith "|" t.members))

/-- The attributes that depend on the keyword, lines 1144-1178. -/
def kindAttrs (i : Info) : Except Err Attrs :=
  if i.keyword = "list" then
    .ok (optAttr .key (i.searchOne "key") ++
      attrIf (i.searchOne "ordered-by" = some "user") (.other "ordered-by") "user")
  else if i.keyword = "container" then
    .ok (attrIf (i.searchOne "presence").isSome (.other "presence") "true")
  else if i.keyword = "choice" then
    .ok (attrIf (i.searchOne "mandatory" = some "true") (.other "mandatory") "true" ++
      attrIf (i.search "case" ≠ []) (.other "values") (joinWith "|" (i.search "case")))
  else if i.keyword = "leaf" ∨ i.keyword = "leaf-list" then do
    let dt ← datatypeAttrs i
    pure (dt ++ attrIf (i.searchOne "mandatory" = some "true" || i.isKey) (.other "mandatory") "true" ++
      attrIf i.isKey (.other "is_key") "true" ++
      attrIf (i.keyword = "leaf-list" && i.searchOne "ordered-by" = some "user") (.other "ordered-by") "user")
  else .ok []

/-- The names of features, lines 1199-1204. -/
def featureNames (i : Info) : List String :=
  i.search "if-feature" ++ i.augmented.filter fun f => !(i.search "if-feature").contains f

/-- All attributes of a schema node, lines 1136-1206. -/
def attrsOf (mode : Option String) (i : Info) : Except Err Attrs := do
  let kind ← kindAttrs i
  pure ([(.other "access", .str (accessOf mode i)), (.other "type", .str i.keyword)] ++
    attrIf (i.searchOne "status" = some "deprecated" || i.searchOne "status" = some "obsolete") (.other "status")
      ((i.searchOne "status").getD "") ++
    attrIf (i.search "default" ≠ []) (.other "default") (joinWith "," (i.search "default")) ++ kind ++
    attrIf (featureNames i ≠ []) (.other "if-feature") (joinWith " " (featureNames i)))

/-- The mode for a child, lines 1209-1213. -/
def modeBelow (mode : Option String) (kid : Info) : Option String :=
  if mode = some "rpc" ∧ (kid.keyword = "input" ∨ kid.keyword = "output") then some kid.keyword else mode

mutual
/-- `depict_a_schema_node`, lines 1131-1213; `ns` is `module_namespaces`. -/
def depict (ns : List (String × String)) (mode : Option String) : Stmt → Except Err Elem
  | .mk i ks =>
    match ns.lookup i.module with
    | none => .error .keyError
    | some url => do
      let a ← attrsOf mode i
      let sub ← depictKids ns mode ks
      pure (.mk ⟨url, i.arg⟩ [] a none sub)
/-- The loop over `i_children`, lines 1208-1213. -/
def depictKids (ns : List (String × String)) (mode : Option String) : List Stmt → Except Err (List Elem)
  | [] => .ok []
  | k :: r => do
    let e ← depict ns (modeBelow mode k.info) k
    let es ← depictKids ns mode r
    pure (e :: es)
end

/-- One of the three loops over the children of the module, lines 1117-1125. -/
def depictTop (ns : List (String × String)) (mode : Option String) : List Stmt → Except Err (List Elem)
  | [] => .ok []
  | k :: r => do
    let e ← depict ns mode k
    let es ← depictTop ns mode r
    pure (e :: es)

/-- `statements.data_definition_keywords` of pyang. -/
def dataKeywords : List String :=
  ["container", "leaf", "leaf-list", "list", "case", "choice", "anyxml", "anydata", "uses", "augment"]

/-- `compile`, lines 1063-1129, and `Model.__init__`, which removes the `namespace` nodes again: the attribute `tree`
of the model.  `kids` is `vm.i_children`, `pfx` the argument of the `prefix` statement; a submodule has none. -/
def compileTree (ns : List (String × String)) (name : String) (pfx : Option String) (kids : List Stmt) :
    Except Err Elem :=
  match pfx with
  | none => .error .valueError
  | some p => do
    let data ← depictTop ns none (kids.filter fun k => dataKeywords.contains k.info.keyword)
    let rpcs ← depictTop ns (some "rpc") (kids.filter fun k => k.info.keyword = "rpc")
    let notes ← depictTop ns (some "notification") (kids.filter fun k => k.info.keyword = "notification")
    pure (.mk ⟨"", name⟩ [] [(.other "type", .str "module"), (.other "prefix", .str p)] none (data ++ rpcs ++ notes))

/-! ## Filters of requests -/

/-- The operations for which `execute` builds a filter. -/
inductive Request where
  | get | getConfig
  deriving DecidableEq, Repr

/-- `get_access_type`, `src/ncdiff/manager.py` lines 383-386. -/
def accessType (h : Host) (m : String) (root : QName) : Except Err (Option String) :=
  match h.models.lookup m with
  | none => .error .modelMissing
  | some t =>
    match t.childrenWith root with
    | [] => .error .indexError
    | n :: _ => .ok (strAttr n (.other "access"))

/-- The conditions of the list comprehensions, lines 403-406 and 417-419. -/
def wanted (r : Request) (a : Option String) : Bool :=
  match r with
  | .get => a = some "read-write" || a = some "read-only"
  | .getConfig => a = some "read-write"

/-- `ModelDevice.roots` as a dictionary in its order, `src/ncdiff/manager.py` lines 218-223. -/
def Host.rootDict (h : Host) : List (QName × String) :=
  dictOf (h.models.flatMap fun m => m.2.kids.map fun k => (k.tag, m.1))

/-- The list comprehension over the roots. -/
def pickRoots (h : Host) (r : Request) (ms : List String) : List (QName × String) → Except Err (List QName)
  | [] => .ok []
  | (q, m) :: rest => do
    let more ← pickRoots h r ms rest
    if ms.contains m then do
      let a ← accessType h m q
      pure (if wanted r a then q :: more else more)
    else pure more

/-- The children of the `filter` element that `execute` sends for `get` and `get_config` with argument `models`,
`src/ncdiff/manager.py` lines 350-381 and 397-424. -/
def requestFilter (h : Host) (r : Request) (ms : List String) : Except Err (List QName) :=
  if ms.any (fun m => (h.models.lookup m).isNone) then .error .modelMissing
  else do
    let roots ← pickRoots h r ms (Host.rootDict h)
    if roots.isEmpty then .error .valueError else pure roots

end NcDiff.Compile
