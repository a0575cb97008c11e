import Verif.Model.Schema
/-!
# Sending an edit-config

Model of `ModelDevice.execute` for edit-config (`src/ncdiff/manager.py` lines 424-434) and of the
parts of `src/ncdiff/__init__.py` that replace methods of ncclient: `_append` (lines 99-116),
`EditConfig.request` (lines 122-155) and `RPC._wrap` (lines 158-164).

Functions of ncclient that are called here and that are not part of the repository are taken as
follows: `new_ele` and `sub_ele` make elements in the netconf namespace; `datastore_or_url` makes an
element with one child, which is named after the datastore or is `url` with a text when `://` is in
the name; `validated_element` fails unless it gets an element with one of the given tags (a text is
parsed, which is not modelled); `_assert` fails unless the device has the capability.
-/

namespace NcDiff.Send

/-- Exceptions of this part: a wrong call in Python, not an XML element, a wrong tag, a capability
that the device does not have. -/
inductive Fault where
  | typeError | notXml | wrongTag | missing (capability : String)
  deriving DecidableEq, Repr

/-- The netconf namespace. -/
def ncUrl : String := "urn:ietf:params:xml:ns:netconf:base:1.0"

def nc (name : String) : QName := ⟨ncUrl, name⟩

/-! ## `_append` -/

/-- The prefixes in scope of a sub-element that is made with `nsmap=own` below an element with
`outer` in scope. -/
def scope (own outer : NsMap) : NsMap :=
  own ++ outer.filter (fun p => (own.lookup p.1).isNone)

mutual
/-- `_append` (lines 99-116): the new child, given the prefixes in scope of the element it is appended
to.  Tails are not copied (the model has no tails). -/
def recreate (outer : NsMap) : Elem → Elem
  | .mk t n a x ks => .mk t (scope n outer) a x (recreateKids (scope n outer) ks)
/-- The loop of lines 100-108. -/
def recreateKids (outer : NsMap) : List Elem → List Elem
  | [] => []
  | e :: r => recreate outer e :: recreateKids outer r
end

/-! ## `execute` -/

/-- An argument for the config: a `Config` instance, a `ConfigDelta` instance (with its `nc`), an
element. -/
inductive Given where
  | config (ele : Elem)
  | delta (nc : Elem)
  | elem (e : Elem)

/-- Arguments of `edit_config`: positional (config and, after the format, target) and keyword
arguments; and the format, which is the second positional argument. -/
structure Call where
  config : Option Given := none
  format : String := "xml"
  target : Option String := none
  kwConfig : Option Given := none
  kwTarget : Option String := none
  errorOption : Option String := none
  testOption : Option String := none
  defaultOperation : Option String := none

def candidateCap : String := "urn:ietf:params:netconf:capability:candidate:1.0"
def runningCap : String := "urn:ietf:params:netconf:capability:writable-running:1.0"

/-- Lines 425-428: only a positional `Config` instance is replaced by its element. -/
def unwrap : Given → Given
  | .config e => .elem e
  | g => g

/-- Lines 424-434. -/
def prepare (has : String → Bool) (c : Call) : Call :=
  { c with
    config := c.config.map unwrap
    kwTarget := if c.kwTarget.isNone ∧ has candidateCap = false ∧ has runningCap = true then some "running"
      else c.kwTarget }

/-! ## `request` -/

/-- The binding of an argument that may be given by position or by keyword. -/
def bindArg (pos kw : Option α) (dflt : Option α) : Except Fault α :=
  match pos, kw, dflt with
  | some _, some _, _ => .error .typeError
  | some a, none, _ => .ok a
  | none, some a, _ => .ok a
  | none, none, some a => .ok a
  | none, none, none => .error .typeError

/-- `validated_element(config, ("config", qualify("config")))`. -/
def validated : Given → Except Fault Elem
  | .elem e => if e.tag = ⟨"", "config"⟩ ∨ e.tag = nc "config" then .ok e else .error .wrongTag
  | _ => .error .notXml

/-- `self._assert(capability)`. -/
def require (has : String → Bool) (capability : String) : Except Fault Unit :=
  if has capability then .ok () else .error (.missing capability)

/-- Whether `://` is in a text. -/
def hasScheme : List Char → Bool
  | [] => false
  | c :: r => "://".toList.isPrefixOf (c :: r) || hasScheme r

/-- `datastore_or_url("target", target, self._assert)`, with the prefixes in scope. -/
def targetElem (has : String → Bool) (ns : NsMap) (target : String) : Except Fault Elem := do
  if hasScheme target.toList then
    require has ":url"
    pure (.mk (nc "target") ns [] none [.mk (nc "url") ns [] (some target) []])
  else pure (.mk (nc "target") ns [] none [.mk (nc target) ns [] none []])

/-- `sub_ele(node, name).text = text`, if there is one. -/
def option (ns : NsMap) (name : String) : Option String → List Elem
  | none => []
  | some s => [.mk (nc name) ns [] (some s) []]

/-- The capabilities that the options require, lines 135-141. -/
def checkOptions (has : String → Bool) (c : Call) : Except Fault Unit := do
  if c.errorOption = some "rollback-on-error" then require has ":rollback-on-error"
  if c.testOption.isSome then require has ":validate"

/-- Lines 148-153: the config.  With the format `text` an element is assigned to a text, which fails (a
config that is a text is not modelled); with any other format nothing is sent. -/
def content (ns : NsMap) (format : String) (given : Given) : Except Fault (List Elem) :=
  if format = "xml" then
    match validated given with
    | .ok e => .ok [recreate ns e]
    | .error f => .error f
  else if format = "text" then .error .typeError
  else .ok []

/-- `EditConfig.request`, lines 122-155; `ns` is in scope of the elements that ncclient makes. -/
def request (has : String → Bool) (ns : NsMap) (c : Call) : Except Fault Elem := do
  let given ← bindArg c.config c.kwConfig none
  let target ← bindArg c.target c.kwTarget (some "candidate")
  let t ← targetElem has ns target
  checkOptions has c
  let es ← content ns c.format given
  pure (.mk (nc "edit-config") ns [] none
    (t :: (option ns "error-option" c.errorOption ++ option ns "test-option" c.testOption ++
      option ns "default-operation" c.defaultOperation ++ es)))

/-- `RPC._wrap`, lines 158-164: the message; `outer` is the prefix map of the device handler. -/
def wrap (outer : NsMap) (id : String) (e : Elem) : Elem :=
  .mk (nc "rpc") outer [(.other "message-id", .str id)] none [recreate outer e]

/-- `edit_config(...)`: the message that is sent. -/
def editConfig (has : String → Bool) (ns outer : NsMap) (id : String) (c : Call) : Except Fault Elem := do
  let e ← request has ns (prepare has c)
  pure (wrap outer id e)

end NcDiff.Send
