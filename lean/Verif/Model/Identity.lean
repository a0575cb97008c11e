/-!
# The values that a compiled schema offers for an identityref

Model of the part of `ModelCompiler.compile` that collects identities (`src/ncdiff/model.py` lines
1079-1115) and of `type_identityref_values` (lines 1302-1325).

Simplifications: a text such as `module:name` is a pair, since identifiers have no colon; what
`validate_context` leaves in `self.context.modules` is given as a list of modules in the order of
that dictionary; submodules are left out (line 1080).  `i_prefixes` is a given map from prefixes to
modules.
-/

namespace NcDiff.Identity

/-- An identity: the module that defines it and its name. -/
abbrev Id := String × String

/-- The argument of a `base` statement: prefix, if any, and name. -/
abbrev Base := Option String × String

/-- An `identity` statement. -/
structure Ident where
  name : String
  base : Option Base
  deriving DecidableEq, Repr

/-- A module that pyang has loaded. -/
structure Stmt where
  name : String
  pfx : String
  /-- `i_prefixes` -/
  prefixes : List (String × String)
  /-- `i_identities` -/
  identities : List Ident
  deriving Repr

/-- Keys of `identity_deps`: `module:name`, or only `name` if the prefix is unknown. -/
abbrev Key := Option String × String

/-- `self.identity_deps`. -/
abbrev Deps := Key → Option (List Id)

/-- What a `ModelCompiler` remembers: `module_prefixes` and `identity_deps`. -/
structure Compiler where
  prefixes : String → Option String
  deps : Deps

/-- `__init__`, lines 943-945. -/
def new : Compiler := ⟨fun _ => none, fun _ => none⟩

/-- `d[k] = v`. -/
def put (d : Deps) (k : Key) (v : List Id) : Deps := fun x => if x = k then some v else d x

/-- `d.setdefault(k, [])`. -/
def setDefault (d : Deps) (k : Key) : Deps :=
  match d k with
  | none => put d k []
  | some _ => d

/-- `b_idn`, lines 1104-1111; `target` is the module that is being compiled. -/
def baseKey (target : String) (m : Stmt) : Base → Key
  | (some p, n) =>
    match m.prefixes.lookup p with
    | none => (none, n)
    | some mod => (some mod, n)
  | (none, n) => (some target, n)

/-- The body of the loop over identities, lines 1096-1115. -/
def addIdent (target : String) (m : Stmt) (d : Deps) (i : Ident) : Deps :=
  match i.base with
  | none => setDefault d (some m.name, i.name)
  | some b =>
    match d (baseKey target m b) with
    | none => setDefault d (baseKey target m b)
    | some l => put d (baseKey target m b) (l ++ [(m.name, i.name)])

/-- The body of the loop over modules, lines 1079-1115. -/
def addModule (target : String) (c : Compiler) (m : Stmt) : Compiler :=
  { prefixes := fun x => if x = m.name then some m.pfx else c.prefixes x
    deps := m.identities.foldl (addIdent target m) c.deps }

/-- `compile(target)` when the context has the modules `ms` and there is no cached schema. -/
def compile (c : Compiler) (target : String) (ms : List Stmt) : Compiler :=
  ms.foldl (addModule target) c

/-- `values` of lines 1303-1319 for an identityref in module `m`. -/
def listed (c : Compiler) (m : Stmt) : Base → List Id
  | (some p, n) =>
    match m.prefixes.lookup p with
    | none => []
    | some mod => (c.deps (some mod, n)).getD []
  | (none, n) => (c.deps (some m.name, n)).getD []

/-- `type_identityref_values`, lines 1302-1325, before the values are joined with `|`; `none` is a
`KeyError`. -/
def values (c : Compiler) (m : Stmt) (b : Base) : Option (List String) :=
  (listed c m b).mapM (fun v => (c.prefixes v.1).map (fun p => p ++ ":" ++ v.2))

end NcDiff.Identity
