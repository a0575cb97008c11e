import Verif.Model.Compile
import Verif.Spec.Compat
import Mathlib.Data.List.Forall2
/-!
# Specification of compiled schema trees and of the filters of requests
-/

namespace NcDiff.Compile

/-- A chain of statements, each a child of the one before; the first is in the list. -/
inductive Chain : List Stmt → List Stmt → Prop where
  | one {l s} : s ∈ l → Chain l [s]
  | more {l s c} : s ∈ l → Chain s.kids c → Chain l (s :: c)

/-- The statements of a module that are put into its tree: data definitions, operations, notifications. -/
def InTree (s : Stmt) : Prop :=
  s.info.keyword ∈ ["container", "leaf", "leaf-list", "list", "case", "choice", "anyxml", "anydata", "uses", "augment",
    "rpc", "notification"]

/-- A chain that starts at such a statement. -/
def TreeChain (kids c : List Stmt) : Prop := Chain kids c ∧ ∃ s r, c = s :: r ∧ InTree s

/-- The tag is the namespace of the module of the statement, and its argument. -/
def Named (ns : List (String × String)) (q : QName) (s : Stmt) : Prop :=
  ns.lookup s.info.module = some q.ns ∧ q.name = s.info.arg

/-- The first substatement with a keyword has this argument. -/
def Info.Says (i : Info) (k v : String) : Prop := ∃ a b, i.subs = a ++ (k, v) :: b ∧ ∀ w, (k, w) ∉ a

/-- A statement for a leaf or a leaf-list. -/
def Info.LeafLike (i : Info) : Prop := i.keyword = "leaf" ∨ i.keyword = "leaf-list"

/-- Operations and notifications are at the top only, and an operation has an input and an output only. -/
structure Operations (kids : List Stmt) : Prop where
  top : ∀ s c, Chain kids (s :: c) → ∀ t ∈ c, t.info.keyword ≠ "rpc" ∧ t.info.keyword ≠ "notification"
  parts : ∀ s ∈ kids, s.info.keyword = "rpc" →
    ∀ t ∈ s.kids, t.info.keyword = "input" ∨ t.info.keyword = "output"

/-- The access to the node at the end of a chain: the input of an operation can be written, its output and
notifications can be read, and otherwise it depends on the statement `config`. -/
def chainAccess : List Stmt → String
  | [] => ""
  | s :: c =>
    if s.info.keyword = "rpc" then
      match c with
      | [] => "write"
      | t :: _ => if t.info.keyword = "output" then "read-only" else "write"
    else if s.info.keyword = "notification" then "read-only"
    else if ((s :: c).getLast (by simp)).info.config then "read-write" else "read-only"

/-- The arguments of the `default` statements, in order. -/
def Info.defaults (i : Info) : List String :=
  i.subs.filterMap fun p => if p.1 = "default" then some p.2 else none

/-- The names of a path, each with its prefix, where a name without a prefix has that of the name before it; the first
argument is the prefix before the first name. -/
def carry (cur : List Char) : List (List Char) → List (List Char × List Char)
  | [] => []
  | n :: r =>
    match n.idxOf? ':' with
    | none => (cur, n) :: carry cur r
    | some k => (n.take k, n.drop (k + 1)) :: carry (n.take k) r

/-- The same for a path as text. -/
def carryPath (cur : String) (p : String) : List (List Char × List Char) := carry cur.toList (splitOn '/' p.toList)

/-- What a schema node says about its statement. -/
structure Describes (ns : List (String × String)) (s : Stmt) (e : Elem) : Prop where
  tag : Named ns e.tag s
  kids : List.Forall₂ (fun k t => Named ns k.tag t) e.kids s.kids
  type : strAttr e (.other "type") = some s.info.keyword
  status : ∀ v, strAttr e (.other "status") = some v ↔
    (v = "deprecated" ∨ v = "obsolete") ∧ s.info.Says "status" v
  dflt : strAttr e (.other "default") = none ↔ ∀ v, ("default", v) ∉ s.info.subs
  key : ∀ v, strAttr e .key = some v ↔ s.info.keyword = "list" ∧ s.info.Says "key" v
  ordered : strAttr e (.other "ordered-by") = some "user" ↔
    (s.info.keyword = "list" ∨ s.info.keyword = "leaf-list") ∧ s.info.Says "ordered-by" "user"
  presence : strAttr e (.other "presence") = some "true" ↔
    s.info.keyword = "container" ∧ ∃ v, s.info.Says "presence" v
  isKey : (strAttr e (.other "is_key")).isSome ↔ s.info.LeafLike ∧ s.info.isKey = true
  mandatory : strAttr e (.other "mandatory") = some "true" ↔
    (s.info.LeafLike ∨ s.info.keyword = "choice") ∧ s.info.Says "mandatory" "true" ∨
      s.info.LeafLike ∧ s.info.isKey = true
  /-- a single default value is kept -/
  single : ∀ v, s.info.defaults = [v] → strAttr e (.other "default") = some v
  /-- several default values are read back unless there is a comma in one -/
  several : ∀ w, strAttr e (.other "default") = some w →
    (defaultValues w = s.info.defaults.map some ↔ ∀ v ∈ s.info.defaults, ',' ∉ v.toList)
  /-- values are read as identities if the name of the type begins so -/
  identity : dtypeOf (strAttr e (.other "datatype")) = .identityref ↔
    s.info.LeafLike ∧ ∃ t, s.info.type = some t ∧ t.arg.toList.take 11 = "identityref".toList
  instance_ : dtypeOf (strAttr e (.other "datatype")) = .instanceId ↔
    s.info.LeafLike ∧ ∃ t, s.info.type = some t ∧ t.arg = "instance-identifier"
  /-- the features are those of the statement and of the augment that it comes from -/
  features : ∃ l, strAttr e (.other "if-feature") = (if l = [] then none else some (joinWith " " l)) ∧
    (∀ f, f ∈ l ↔ ("if-feature", f) ∈ s.info.subs ∨ f ∈ s.info.augmented) ∧
    ((s.info.subs.filter fun p => p.1 = "if-feature").Nodup → s.info.augmented.Nodup → l.Nodup)
  /-- the path of a leafref is the same when it is read with prefixes carried over -/
  leafref : ∀ t p, s.info.LeafLike → s.info.type = some t → t.arg = "leafref" → t.path = some p →
    (∀ n ∈ splitOn '/' p.toList, n.count ':' ≤ 1) → ∃ w, strAttr e (.other "datatype") = some ("-> " ++ w) ∧
      carryPath s.info.modulePrefix w = carryPath s.info.modulePrefix p
  /-- the values of a leaf are those of its type, see C57 -/
  values : ∀ t, s.info.LeafLike → s.info.type = some t →
    strAttr e (.other "values") = if t.values = "" then none else some t.values
  /-- the names of the types of a union -/
  members : ∀ t, s.info.LeafLike → s.info.type = some t →
    strAttr e (.other "unionmembertypes") = if t.arg = "union" then some (joinWith "|" t.members) else none
  /-- the cases of a choice, without those that have no statement of their own -/
  cases : ∃ l, s.info.keyword = "choice" → (∀ c, c ∈ l ↔ ("case", c) ∈ s.info.subs) ∧
    strAttr e (.other "values") = if l = [] then none else some (joinWith "|" l)

/-- A name in a key statement, with or without a prefix. -/
def keyName : Option String × String → String
  | (none, n) => n
  | (some p, n) => p ++ ":" ++ n

/-- White space in a module, RFC 7950 section 14, rule `sep`. -/
def White (c : Char) : Prop := c ∈ [' ', '\t', '\n', '\r']

/-- A name without white space and colons. -/
def PlainName (s : String) : Prop := s ≠ "" ∧ (∀ c ∈ s.toList, ¬ White c) ∧ ':' ∉ s.toList

/-- The text consists of the names, with any number of spaces before and after, and at least one between two names. -/
inductive Spelled : List Char → List (Option String × String) → Prop
  | nil {a : List Char} (spaces : ∀ c ∈ a, c = ' ') : Spelled a []
  | cons {a b : List Char} {x : Option String × String} {l : List (Option String × String)}
      (spaces : ∀ c ∈ a, c = ' ') (name : PlainName x.2) (pfx : ∀ p ∈ x.1, PlainName p)
      (apart : ∀ c ∈ b.head?, c = ' ') (rest : Spelled b l) : Spelled (a ++ (keyName x).toList ++ b) (x :: l)

/-- The argument of a key statement is made of the names, which are separated by spaces. -/
def KeysSpelled (v : String) (l : List (Option String × String)) : Prop := Spelled v.toList l

/-- What the library takes from a schema node with the given access. -/
structure Understood (ns : List (String × String)) (s : Stmt) (access : String) (i : SInfo) : Prop where
  tag : Named ns i.tag s
  leaf : i.ntype = .leaf ↔ s.info.keyword = "leaf"
  leafList : i.ntype = .leafList ↔ s.info.keyword = "leaf-list"
  container : i.ntype = .container ↔ s.info.keyword = "container"
  list : i.ntype = .list ↔ s.info.keyword = "list"
  choice : i.ntype = .choice ↔ s.info.keyword = "choice"
  case : i.ntype = .case ↔ s.info.keyword = "case"
  userOrdered : i.userOrdered = true ↔
    (s.info.keyword = "list" ∨ s.info.keyword = "leaf-list") ∧ s.info.Says "ordered-by" "user"
  presence : i.presence = true ↔ s.info.keyword = "container" ∧ ∃ v, s.info.Says "presence" v
  isKey : i.isKey = true ↔ s.info.LeafLike ∧ s.info.isKey = true
  keys : ∀ v l, s.info.keyword = "list" → s.info.Says "key" v → KeysSpelled v l → i.keyNames = l.map Prod.snd
  noKeys : (s.info.keyword ≠ "list" ∨ ∀ v, ¬ s.info.Says "key" v) → i.keyNames = []
  dflt : ∀ v, s.info.defaults = [v] → i.dflt = some v
  noDflt : i.dflt = none ↔ s.info.defaults = []
  several : ∀ w, i.dflt = some w →
    (defaultValues w = s.info.defaults.map some ↔ ∀ v ∈ s.info.defaults, ',' ∉ v.toList)
  identity : i.datatype = .identityref ↔
    s.info.LeafLike ∧ ∃ t, s.info.type = some t ∧ t.arg.toList.take 11 = "identityref".toList
  instance_ : i.datatype = .instanceId ↔
    s.info.LeafLike ∧ ∃ t, s.info.type = some t ∧ t.arg = "instance-identifier"
  readOnly : i.readOnly = true ↔ access = "read-only"
  obsolete : i.status = .obsolete ↔ s.info.Says "status" "obsolete"
  deprecated : i.status = .deprecated ↔ s.info.Says "status" "deprecated"

/-- What is needed to compile a statement: the namespace of its module is known, and a leaf with type `identityref`
has a base. -/
def Compilable (ns : List (String × String)) (s : Stmt) : Prop :=
  (∃ u, ns.lookup s.info.module = some u) ∧
  ∀ t, s.info.LeafLike → s.info.type = some t → t.arg = "identityref" → ∃ b, t.base = some b

/-- Two siblings have different names or are of different namespaces. -/
def DistinctNames (ns : List (String × String)) (l : List Stmt) : Prop :=
  l.Pairwise fun a b => ¬ (a.info.arg = b.info.arg ∧ ns.lookup a.info.module = ns.lookup b.info.module)

/-- The request asks for a root of a loaded model with one of these kinds of access. -/
def AskedFor (h : Host) (ms : List String) (access : List String) (r : QName) : Prop :=
  ∃ m ∈ ms, ∃ t, (m, t) ∈ h.models ∧ ∃ k ∈ t.kids, k.tag = r ∧ ∃ a ∈ access, strAttr k (.other "access") = some a

/-- The kinds of access that a request is for. -/
def accessFor : Request → List String
  | .get => ["read-write", "read-only"]
  | .getConfig => ["read-write"]

end NcDiff.Compile
