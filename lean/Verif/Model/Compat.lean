import Verif.Model.Config
import Verif.Model.ModelDiff
import Verif.Model.Tags
/-!
# Configs of two devices

Model of class `ConfigCompatibility`, `src/ncdiff/config.py` lines 853-961, which is asked before configs are
added (line 111) and before a delta is made (line 715).  Two devices may hold different versions of the same
model, so a device is described here by the schema trees as `ModelCompiler.compile` returns them, and `Host.device`
gives the tables that the rest of the model works with.
-/

namespace NcDiff

/-- A string attribute of a schema node. -/
def strAttr (e : Elem) (n : AName) : Option String :=
  match e.get n with
  | some (.str s) => some s
  | _ => none

/-- `s.split(' ')`. -/
def splitSpace : List Char → List (List Char)
  | [] => [[]]
  | c :: r =>
    if c = ' ' then [] :: splitSpace r
    else
      match splitSpace r with
      | [] => [[c]]
      | p :: ps => (c :: p) :: ps

/-- `split_tag(n, Tag.JSON_PREFIX)[1]`, `src/ncdiff/composer.py` lines 13-18, with the pattern `^(.+):(.+)$` of line
43: a dot is not a line feed, and `$` is also before a line feed at the end. -/
def keyLocal (n : List Char) : List Char :=
  let b := if n.getLast? = some '\n' then n.dropLast else n
  if '\n' ∈ b then n else match splitLastAt ':' b with | some (_, r) => r | none => n

/-- The parts of `re.split(' +', s)` that are not empty. -/
def keyParts (s : List Char) : List (List Char) := (splitSpace s).filter (· ≠ [])

/-- The names in a key statement, `src/ncdiff/composer.py` lines 159-163: `re.split(' +', keys)`, and
`split_tag(i, Tag.JSON_PREFIX)[1]` of each.  Simplification: empty names, which leading and trailing spaces give,
are left out here; no node has an empty name. -/
def keyNamesOf (s : String) : List String := (keyParts s.toList).map fun n => String.ofList (keyLocal n)

/-- Attribute `type`. -/
def ntypeOf : Option String → NType
  | some "leaf" => .leaf
  | some "leaf-list" => .leafList
  | some "container" => .container
  | some "list" => .list
  | some "choice" => .choice
  | some "case" => .case
  | _ => .other

/-- Attribute `datatype`, as `src/ncdiff/calculator.py` lines 405-410 and 470-476 look at it. -/
def dtypeOf : Option String → DType
  | none => .none
  | some s =>
    if s.toList.take 11 = "identityref".toList then .identityref
    else if s = "instance-identifier" then .instanceId else .other

/-- The attributes of a schema node that the code asks for, see `SInfo`. -/
def infoOf (e : Elem) : SInfo where
  tag := e.tag
  ntype := ntypeOf (strAttr e (.other "type"))
  userOrdered := strAttr e (.other "ordered-by") = some "user"
  presence := strAttr e (.other "presence") = some "true"
  isKey := (strAttr e (.other "is_key")).isSome
  keyNames := match strAttr e .key with | some s => keyNamesOf s | none => []
  dflt := strAttr e (.other "default")
  datatype := dtypeOf (strAttr e (.other "datatype"))
  readOnly := strAttr e (.other "access") = some "read-only"
  status :=
    if strAttr e (.other "status") = some "obsolete" then .obsolete
    else if strAttr e (.other "status") = some "deprecated" then .deprecated else .current

mutual
/-- A schema node as the code reads it. -/
def SNode.ofElem : Elem → SNode
  | .mk t n a x ks => .mk (infoOf (.mk t n a x ks)) (ofElems ks)
/-- See `SNode.ofElem`. -/
def ofElems : List Elem → List SNode
  | [] => []
  | k :: r => SNode.ofElem k :: ofElems r
end

/-- A device object: `id` is the identity of the object, `namespaces` the property of `src/ncdiff/manager.py`
lines 116-129, `loadable` the property `models_loadable` (lines 131-212), `models` the dictionary of the loaded
models (lines 218-223 and 335) as name and `Model.tree`. -/
structure Host where
  id : Nat
  namespaces : List Entry
  loadable : List String
  models : List (String × Elem)
  deriving Repr, Inhabited

/-- The tables of the device: `ModelDevice.roots`, `src/ncdiff/manager.py` lines 218-223, lets the last model
win that has a root; the list is reversed since `Device.roots` is looked up from its head. -/
def Host.device (h : Host) : Device where
  namespaces := h.namespaces
  roots := h.models.reverse.flatMap fun m => m.2.kids.map fun k => (k.tag, m.1)
  models := h.models.map fun m => (m.1, ofElems m.2.kids)

/-- `[i for i in device.namespaces if i[0] == model][0]`, `src/ncdiff/config.py` lines 934-937 and 946-949:
prefix and URL. -/
def Host.row (h : Host) (m : String) : Except Err (String × String) :=
  match h.namespaces.lookup m with
  | some r => .ok r
  | none => .error .indexError

/-- The loop of `namespaces_compatible`, `src/ncdiff/config.py` lines 933-956. -/
def checkRows (h1 h2 : Host) : List String → Except Err Unit
  | [] => .ok ()
  | m :: ms => do
    let r1 ← h1.row m
    let r2 ← h2.row m
    if r1.1 ≠ r2.1 then .error .modelIncompatible
    else if r1.2 ≠ r2.2 then .error .modelIncompatible
    else checkRows h1 h2 ms

/-- `namespaces_compatible`, `src/ncdiff/config.py` lines 918-957. -/
def namespacesCompatible (h1 h2 : Host) (ms : List String) : Except Err Unit :=
  if h1.id = h2.id then .ok ()
  else if ms.any (fun m => !h1.loadable.contains m) then .error .modelMissing
  else if ms.any (fun m => !h2.loadable.contains m) then .error .modelMissing
  else checkRows h1 h2 ms

/-- `ModelDiff(self.config1.device.models[model], self.config2.device.models[model])`, `src/ncdiff/config.py` lines
906-907; one device has one object for a model. -/
def treeDiff (h1 h2 : Host) (t1 t2 : Elem) : Except Err Elem :=
  if h1.id = h2.id then .ok (ModelDiff.modelDiffSame t1) else ModelDiff.modelDiff t1 t2

/-- The loop of `models_compatible`, `src/ncdiff/config.py` lines 905-914. -/
def checkTrees (h1 h2 : Host) : List String → Except Err Unit
  | [] => .ok ()
  | m :: ms =>
    match h1.models.lookup m, h2.models.lookup m with
    | some t1, some t2 => do
      let diff ← treeDiff h1 h2 t1 t2
      if ModelDiff.truthy diff then .error .modelIncompatible else checkTrees h1 h2 ms
    | _, _ => .error .keyError

/-- `models_compatible`, `src/ncdiff/config.py` lines 890-915. -/
def modelsCompatible (h1 h2 : Host) (ms : List String) : Except Err Unit :=
  if ms.any (fun m => (h1.models.lookup m).isNone) then .error .modelMissing
  else if ms.any (fun m => (h2.models.lookup m).isNone) then .error .modelMissing
  else checkTrees h1 h2 ms

/-- `ConfigCompatibility(config1, config2).is_compatible`, `src/ncdiff/config.py` lines 886-961.  The properties
never return `False`, so the result is unit.  Simplification: `models` is not sorted and may have duplicates;
that only decides which of several models a message names. -/
def isCompatible (h1 : Host) (c1 : Elem) (h2 : Host) (c2 : Elem) : Except Err Unit := do
  let r1 ← configRoots h1.device c1
  let r2 ← configRoots h2.device c2
  namespacesCompatible h1 h2 ((r1 ++ r2).map Prod.snd)
  modelsCompatible h1 h2 ((r1 ++ r2).map Prod.snd)

/-- `config1 + config2` of two devices, `src/ncdiff/config.py` lines 110-117: computed with the device of
the first. -/
def hostAdd (h1 : Host) (c1 : Elem) (h2 : Host) (c2 : Elem) : Except Err Elem := do
  isCompatible h1 c1 h2 c2
  configAddElem h1.device c1 c2

/-- `ConfigDelta(config_src, config_dst)` of two devices, `src/ncdiff/config.py` lines 650-719: the property `nc` is
computed with the device of `config_src`. -/
def hostDelta (h1 : Host) (src : Elem) (h2 : Host) (dst : Elem) (opts : Opts := {}) : Except Err Delta := do
  isCompatible h1 src h2 dst
  pure { src := src, dst := dst, opts := opts }

/-- `config + delta`, `src/ncdiff/config.py` lines 118-122, where the config and `config_src` of the delta are of one
device and `config_dst` is of another.  The device of a delta is that of `config_src` (lines 717-719), so nothing
but the presence of the models on that device is checked again. -/
def hostAddDelta (h1 : Host) (c : Elem) (h2 : Host) (δ : Delta) : Except Err Elem := do
  let r ← configRoots h1.device c
  let r1 ← configRoots h1.device δ.src
  let r2 ← configRoots h2.device δ.dst
  modelsCompatible h1 h1 ((r ++ r1 ++ r2).map Prod.snd)
  let x ← δ.nc h1.device
  configAddElem h1.device c x

/-- `config1 == config2` of two devices, `src/ncdiff/config.py` lines 164-170: nothing is checked, the device of
the first is used. -/
def hostEq (h1 : Host) (c1 : Elem) (_h2 : Host) (c2 : Elem) : Except Err Bool := cfgEq h1.device c1 c2

/-- `config1 <= config2` of two devices, `src/ncdiff/config.py` lines 149-155, likewise. -/
def hostLe (h1 : Host) (c1 : Elem) (_h2 : Host) (c2 : Elem) : Except Err Bool := cfgLe h1.device c1 c2

end NcDiff
