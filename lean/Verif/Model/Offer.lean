import Verif.Model.Compat
/-!
# What a device offers

Model of the properties `namespaces`, `models_loadable` and `models_loaded` of `ModelDevice` and of the checks in `load_model`
(`src/ncdiff/manager.py` lines 99-100, 116-216 and 225-328).

The answers of the device are inputs: `none` if `super().execute` raises.  The paths of the queries are absolute; a reply is
given by its root element.  Simplifications: an argument of `load_model` that is the name of a file is not modelled, and what
the compiler makes of a module is an input; log messages are left out.
-/

namespace NcDiff.Offer

/-- A reply of the device, lines 155-158: the attribute `ok` and the document of `data`. -/
structure Reply where
  ok : Bool
  root : Elem
  deriving DecidableEq

/-- The elements at the end of a path of children. -/
def select : List QName → Elem → List Elem
  | [], e => [e]
  | q :: r, e => (e.kids.filter fun k => k.tag = q).flatMap (select r)

/-- `reply.data.xpath(p)` for an absolute path without predicates. -/
def query (path : List QName) (root : Elem) : List Elem :=
  match path with
  | [] => []
  | q :: r => if root.tag = q then select r root else []

def nc : String := "urn:ietf:params:xml:ns:netconf:base:1.0"

/-- `NC_MONITORING`, line 136. -/
def ncm : String := "urn:ietf:params:xml:ns:yang:ietf-netconf-monitoring"

/-- `YANG_LIB`, line 137, which is used as a namespace in line 180. -/
def yangLib : String := "urn:ietf:params:netconf:capability:yang-library"

/-- `YANG_LIB_1_0`, line 138. -/
def yangLib10 : String := "urn:ietf:params:netconf:capability:yang-library:1.0"

/-- Lines 158-159. -/
def monitoringPath : List QName :=
  [⟨nc, "rpc-reply"⟩, ⟨nc, "data"⟩, ⟨ncm, "netconf-state"⟩, ⟨ncm, "schemas"⟩, ⟨ncm, "schema"⟩, ⟨ncm, "identifier"⟩]

/-- Lines 181-182. -/
def libraryPath : List QName :=
  [⟨nc, "rpc-reply"⟩, ⟨nc, "data"⟩, ⟨yangLib, "modules-state"⟩, ⟨yangLib, "module"⟩, ⟨yangLib, "name"⟩]

/-- Insertion into a sorted list. -/
def insertText (a : String) : List String → List String
  | [] => [a]
  | b :: r => if b < a then b :: insertText a r else a :: b :: r

/-- `sorted(l)`. -/
def sortTexts : List String → List String
  | [] => []
  | a :: r => insertText a (sortTexts r)

/-- `sorted([n.text for n in l])`.  A text may be `None`, which cannot be compared: then more than one element raises
`TypeError`. -/
def sortedTexts (l : List Elem) : Option (List (Option String)) :=
  if l.length ≤ 1 then some (l.map Elem.text)
  else if l.all fun e => e.text.isSome then some ((sortTexts (l.filterMap Elem.text)).map some)
  else none

/-- `[c for c in self.server_capabilities if c[:len(p)] == p]` is not empty, lines 154-155 and 178-179. -/
def supports (caps : List String) (p : String) : Bool := caps.any fun c => p.toList.isPrefixOf c.toList

/-- One source, lines 160-173 and 183-196: the names, if the request does not raise, the reply is good and the names can be
sorted. -/
def source (caps : List String) (capability : String) (path : List QName) (answer : Option Reply) :
    Option (List (Option String)) :=
  if supports caps capability then
    match answer with
    | none => none
    | some r => if r.ok then sortedTexts (query path r.root) else none
  else none

/-- `[a-zA-Z0-9-]`. -/
def moduleChar (c : Char) : Bool := c.isAlpha || c.isDigit || c = '-'

/-- The group of `re.search(r'module=([a-zA-Z0-9-]+)\&{0,1}', capability)`, lines 200-205. -/
def searchModule : List Char → Option (List Char)
  | [] => none
  | c :: r =>
    match "module=".toList.isPrefixOf (c :: r), ((c :: r).drop 7).takeWhile moduleChar with
    | true, x :: n => some (x :: n)
    | _, _ => searchModule r

/-- The third source, lines 200-207. -/
def fromCapabilities (caps : List String) : List (Option String) :=
  (sortTexts (caps.filterMap fun c => (searchModule c.toList).map String.ofList)).map some

/-- The value that `models_loadable` has if nothing is remembered, lines 153-208. -/
def loadable (caps : List String) (monitoring library : Option Reply) : List (Option String) :=
  match source caps ncm monitoringPath monitoring with
  | some l => l
  | none =>
    match source caps yangLib10 libraryPath library with
    | some l => l
    | none => fromCapabilities caps

/-- `m.findtext('namespace')`: an element without text gives the empty string. -/
def findNamespace (m : Elem) : Option String :=
  (m.kids.find? fun k => k.tag = ⟨"", "namespace"⟩).map fun k => k.text.getD ""

/-- The loop of lines 121-128 over the modules of `dependencies`. -/
def namespaceRows (dependencies : Elem) : List (Option String × String × Option String) :=
  (dependencies.kids.filter fun k => k.tag = ⟨"", "module"⟩).filterMap fun m =>
    (strAttr m (.other "prefix")).map fun p => (strAttr m (.other "id"), p, findNamespace m)

/-- The attributes of a device object, lines 102-106; the compiler is given by `compiler.context.dependencies`.  `sent` counts
the requests of `models_loadable`. -/
structure Session where
  caps : List String
  compiler : Option Elem := none
  loadable : Option (List (Option String)) := none
  namespaces : Option (List (Option String × String × Option String)) := none
  models : List String := []
  sent : Nat := 0

/-- The property `models_loadable`, lines 131-208. -/
def readLoadable (s : Session) (monitoring library : Option Reply) : List (Option String) × Session :=
  match s.loadable with
  | some l => (l, s)
  | none =>
    let l := loadable s.caps monitoring library
    let first := supports s.caps ncm
    let second := (source s.caps ncm monitoringPath monitoring).isNone && supports s.caps yangLib10
    (l, { s with loadable := some l, sent := s.sent + first.toNat + second.toNat })

/-- The property `namespaces`, lines 116-129. -/
def readNamespaces (s : Session) : Except Err (List (Option String × String × Option String)) × Session :=
  match s.compiler with
  | none => (.error .valueError, s)
  | some d =>
    match s.namespaces with
    | some l => (.ok l, s)
    | none => (.ok (namespaceRows d), { s with namespaces := some (namespaceRows d) })

/-- `scan_models`, lines 271-274; the compiler of the folder is given. -/
def scan (s : Session) (dependencies : Elem) : Session := { s with compiler := some dependencies }

/-- `load_model`, lines 310-336, for an argument that is no file; `compiled` is the name of the model that the compiler makes of
it, or the error. -/
def loadModel (s : Session) (monitoring library : Option Reply) (name : String) (compiled : Except Err String) :
    Except Err String × Session :=
  let r := readLoadable s monitoring library
  if some name ∈ r.1 then
    match r.2.compiler with
    | none => (.error .valueError, r.2)
    | some _ =>
      match compiled with
      | .error e => (.error e, r.2)
      | .ok n => (.ok n, { r.2 with models := if n ∈ r.2.models then r.2.models else r.2.models ++ [n] })
  else (.error .valueError, r.2)

/-- The property `models_loaded`, lines 210-212. -/
def modelsLoaded (s : Session) : List String := sortTexts s.models

end NcDiff.Offer
