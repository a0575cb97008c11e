import Verif.Model.Compat
import Verif.Model.Compile
import Verif.Model.XPath
/-!
# Printing models and their differences

Model of `Model.__init__`, `__str__`, `emit_tree`, `emit_children`, `get_width`, `get_depth_str`, `get_flags_str`,
`get_name_str`, `get_datatype_str`, `prefix_to_url`, `url_to_prefix`, `remove_model_prefix` and `convert_tree`
(`src/ncdiff/model.py` lines 89-490), and of `ModelDiff.emit_children`, `get_name_str` and `get_diff_str` (lines
1449-1548).

Simplifications: a tree has no comments; the attributes of a schema node are strings; the cache `self.width` is left out,
since the width of a node does not change while it is printed; `math.ceil` of a quotient by 3.0 is taken as exact.
-/

namespace NcDiff.Show

open Compile

/-! ## Models -/

/-- `d[k] = v` of a dictionary, as a list in the order of insertion. -/
def dictSet [DecidableEq α] (d : List (α × β)) (k : α) (v : β) : List (α × β) :=
  if d.any (fun e => e.1 = k) then d.map (fun e => if e.1 = k then (k, v) else e) else d ++ [(k, v)]

/-- `{k: v for k, v in l}`. -/
def dictOf [DecidableEq α] (l : List (α × β)) : List (α × β) := l.foldl (fun d e => dictSet d e.1 e.2) []

/-- The attributes of `Model`, lines 95-107: the name is the tag of the tree. -/
structure Model where
  tree : Elem
  prefixes : List (String × Option String)
  pfx : String
  url : Option String
  deriving DecidableEq

/-- `self.urls`, line 104. -/
def Model.urls (m : Model) : List (Option String × String) := dictOf (m.prefixes.map fun e => (e.2, e.1))

/-- The dictionary of line 101; `c.attrib['prefix']` may fail. -/
def namespaceRows : List Elem → Except Err (List (String × Option String))
  | [] => .ok []
  | c :: r =>
    match strAttr c (.other "prefix") with
    | none => .error .keyError
    | some p => do
      let l ← namespaceRows r
      pure ((p, c.text) :: l)

/-- `Model.__init__`, lines 94-107, with `convert_tree`, lines 473-490. -/
def ofTree (t : Elem) : Except Err Model := do
  let rows ← namespaceRows (t.childrenWith ⟨"", "namespace"⟩)
  match strAttr t (.other "prefix") with
  | none => .error .keyError
  | some p =>
    match (dictOf rows).lookup p with
    | none => .error .keyError
    | some u =>
      pure
        { tree := .mk t.tag t.nsmap t.attrs t.text (t.kids.filter fun k => k.tag ≠ ⟨"", "namespace"⟩)
          prefixes := dictOf rows
          pfx := p
          url := u }

/-! ## Names -/

/-- `url_to_prefix`, lines 418-442, of a tag.  (The regular expression splits `{namespace}tagname` at the last `}`, which is
not in a name.) -/
def urlToPrefix (m : Model) (q : QName) : Except Err (List Char) :=
  if q.ns = "" then .ok q.name.toList
  else
    match m.urls.lookup (some q.ns) with
    | none => .error .keyError
    | some p => .ok (p.toList ++ ':' :: q.name.toList)

/-- A match of `^<prefix>:(.+)$`, line 465.  The prefix is put into the regular expression as it is; of the characters that
a YANG identifier may have, only the dot is special there. -/
def afterPrefix : List Char → List Char → Option (List Char)
  | [], ':' :: c :: r => some (c :: r)
  | [], _ => none
  | '.' :: p, _ :: s => afterPrefix p s
  | c :: p, x :: s => if c = x then afterPrefix p s else none
  | _ :: _, [] => none

/-- `remove_model_prefix`, lines 444-471. -/
def removeModelPrefix (m : Model) (id : List Char) : List Char := (afterPrefix m.pfx.toList id).getD id

/-- `'{' + url + '}' + name`, where the URL may be `None`. -/
def braced (u : Option String) (n : List Char) : Except Err (List Char) :=
  match u with
  | none => .error .typeError
  | some u => .ok ('{' :: u.toList ++ '}' :: n)

/-- `prefix_to_url`, lines 392-416. -/
def prefixToUrl (m : Model) (id : List Char) : Except Err (List Char) :=
  match splitOn ':' id with
  | p :: n :: _ =>
    match m.prefixes.lookup (String.ofList p) with
    | none => .error .keyError
    | some u => braced u n
  | _ => braced m.url id

/-! ## Nodes -/

/-- The attribute `type`. -/
def typ (e : Elem) : Option String := strAttr e (.other "type")

/-- `get_flags_str`, lines 272-305. -/
def flagsStr (e : Elem) : String :=
  match typ e, strAttr e (.other "access") with
  | some "rpc", _ => "-x"
  | some "action", _ => "-x"
  | some "notification", _ => "-n"
  | _, none => ""
  | _, some "write" => "-w"
  | _, some "read-write" => "rw"
  | _, some "read-only" => "ro"
  | _, some _ => "--"

/-- `element.get('mandatory') == 'true'`. -/
def mandatory (e : Elem) : Bool := strAttr e (.other "mandatory") = some "true"

/-- The cases of `get_name_str`, lines 327-356, for a node of a type. -/
def dressed (e : Elem) (t : String) (name : List Char) : List Char :=
  let flags := (flagsStr e).toList
  if t = "choice" then
    if mandatory e then flags ++ " (".toList ++ name ++ ")".toList else flags ++ " (".toList ++ name ++ ")?".toList
  else if t = "case" then ":(".toList ++ name ++ ")".toList
  else if t = "container" then flags ++ " ".toList ++ name
  else if t = "leaf" ∨ t = "anyxml" ∨ t = "anydata" then
    if mandatory e then flags ++ " ".toList ++ name else flags ++ " ".toList ++ name ++ "?".toList
  else if t = "list" then
    match strAttr e .key with
    | some k => flags ++ " ".toList ++ name ++ "* [".toList ++ k.toList ++ "]".toList
    | none => flags ++ " ".toList ++ name ++ "*".toList
  else if t = "leaf-list" then flags ++ " ".toList ++ name ++ "*".toList
  else flags ++ " ".toList ++ name

/-- `len(self.get_name_str(element))` and the string, lines 307-356.  Without a type the result is `None`, which has no
length. -/
def nameStr (m : Model) (e : Elem) : Except Err (List Char) := do
  let id ← urlToPrefix m e.tag
  match typ e with
  | none => .error .typeError
  | some t => pure (dressed e t (removeModelPrefix m id))

/-- What is printed after the name, as a function of the blanks: lines 178-182 and `get_datatype_str`, lines 358-390. -/
def datatypeStr (e : Elem) : Option (List Char → List Char) :=
  let feature := match strAttr e (.other "if-feature") with
    | some f => " {".toList ++ f.toList ++ "}?".toList
    | none => []
  match typ e, strAttr e (.other "datatype"), strAttr e (.other "if-feature") with
  | some "anyxml", _, _ => some fun sp => sp ++ "<anyxml>".toList ++ feature
  | some "anydata", _, _ => some fun sp => sp ++ "<anydata>".toList ++ feature
  | _, some d, _ => some fun sp => sp ++ d.toList ++ feature
  | _, none, some _ => some fun _ => feature
  | _, none, none => none

/-! ## Lines -/

/-- What is printed of a node: the name, and what follows it. -/
structure Printer where
  name : Elem → Except Err (List Char)
  tail : Elem → Option (List Char → List Char)

/-- The length of the longest name, lines 208-213. -/
def longest (p : Printer) : List Elem → Except Err Nat
  | [] => .ok 0
  | k :: r => do
    let n ← p.name k
    let w ← longest p r
    pure (max n.length w)

/-- `get_width`, lines 190-218, of a node, given all children of its parent. -/
def width (p : Printer) (sibs : List Elem) : Except Err Nat := do
  let w ← longest p sibs
  pure ((w + 3 + 2) / 3 * 3)

/-- The end of a line, lines 173-183: name and type. -/
def label (p : Printer) (sibs : List Elem) (e : Elem) : Except Err (List Char) := do
  let n ← p.name e
  match p.tail e with
  | none => pure n
  | some f => do
    let w ← width p sibs
    pure (n ++ f (List.replicate (w - n.length) ' '))

/-- `is_type`, lines 160-168; also the filter of `following_siblings`, lines 241-253. -/
def isType (ty : String) (e : Elem) : Bool :=
  if ty = "rpc" ∨ ty = "notification" then typ e = some ty
  else ¬ (typ e = some "rpc" ∨ typ e = some "notification")

/-- The loop of lines 257-267, given the following siblings of each ancestor from the `i`-th on. -/
def rails (ty : String) : Nat → List (List Elem) → List Char
  | _, [] => []
  | i, f :: r =>
    (if i = 1 then
      if (f.filter (isType ty)).isEmpty then "   ".toList else "|  ".toList
    else if f.isEmpty then "   ".toList else "|  ".toList) ++ rails ty (i + 1) r

/-- `get_depth_str`, lines 220-270, of a node, given the following siblings of each ancestor, beginning with the tree. -/
def depthStr (ty : String) (anc : List (List Elem)) : List Char := ' ' :: rails ty 0 anc ++ "+--".toList

mutual
/-- The loop `for i in root.iter()` of lines 172-187, for a node with the following siblings `fol` among `sibs`. -/
def emitNode (p : Printer) (ty : String) (anc : List (List Elem)) (sibs fol : List Elem) :
    Elem → Except Err (List (List Char))
  | .mk t n a x ks => do
    let l ← label p sibs (.mk t n a x ks)
    let r ← emitKids p ty (anc ++ [fol]) ks ks
    pure ((depthStr ty anc ++ l) :: r)
/-- The children, in document order. -/
def emitKids (p : Printer) (ty : String) (anc : List (List Elem)) (sibs : List Elem) :
    List Elem → Except Err (List (List Char))
  | [] => .ok []
  | k :: r => do
    let a ← emitNode p ty anc sibs r k
    let b ← emitKids p ty anc sibs r
    pure (a ++ b)
end

/-- `emit_children`, lines 142-188: the roots of a type. -/
def emitRoots (p : Printer) (ty : String) (sibs : List Elem) : List Elem → Except Err (List (List Char))
  | [] => .ok []
  | k :: r =>
    if isType ty k then do
      let a ← emitNode p ty [[]] sibs r k
      let b ← emitRoots p ty sibs r
      pure (a ++ b)
    else emitRoots p ty sibs r

def emitChildren (p : Printer) (ty : String) (tree : Elem) : Except Err (List (List Char)) :=
  emitRoots p ty tree.kids tree.kids

/-- A part with a title, if it is not empty, lines 132-138. -/
def titled (title : String) (ls : List (List Char)) : List (List Char) :=
  if ls.isEmpty then [] else [] :: title.toList :: ls

/-- The lines of `emit_tree`, lines 112-139. -/
def emitLines (p : Printer) (tree : Elem) : Except Err (List (List Char)) := do
  let data ← emitChildren p "other" tree
  let rpcs ← emitChildren p "rpc" tree
  let notes ← emitChildren p "notification" tree
  pure (("module: ".toList ++ tree.tag.clark) :: (data ++ titled "  rpcs:" rpcs ++ titled "  notifications:" notes))

/-- `'\n'.join(lines)`. -/
def joined : List (List Char) → List Char
  | [] => []
  | [a] => a
  | a :: r => a ++ '\n' :: joined r

/-- `emit_tree`, line 140. -/
def emitTree (p : Printer) (tree : Elem) : Except Err (List Char) := (emitLines p tree).map joined

/-- `str(model)`. -/
def Model.printer (m : Model) : Printer := ⟨nameStr m, datatypeStr⟩

/-- `Model.__str__`, lines 109-110. -/
def Model.str (m : Model) : Except Err (List Char) := emitTree m.printer m.tree

/-- `ModelDiff.emit_children` with `get_name_str` and `get_diff_str`, lines 1449-1548. -/
def diffPrinter (m1 m2 : Model) : Printer where
  name e := if strAttr e (.other "diff") = some "added" then nameStr m2 e else nameStr m1 e
  tail e := (strAttr e (.other "diff")).map fun d sp => sp ++ d.toList

end NcDiff.Show
