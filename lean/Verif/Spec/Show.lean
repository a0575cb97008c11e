import Verif.Model.Show
import Verif.Spec.XPath
import Verif.Spec.ModelDiff
import Mathlib.Data.List.Forall2
/-!
# Specification: printed models

A tree of texts is drawn with rails; what the text of a node tells is defined by reading it from left to right, without the
functions that write it.
-/

namespace NcDiff.Show

open ModelDiff

/-! ## Drawings -/

/-- A tree of texts. -/
inductive LTree where
  | node (text : List Char) (kids : List LTree)

mutual
/-- A drawing of trees: a rail leads from a node to its next sibling. -/
def draw (pre : List Char) : List LTree → List (List Char)
  | [] => []
  | t :: r => drawTree pre r.isEmpty t ++ draw pre r
def drawTree (pre : List Char) (last : Bool) : LTree → List (List Char)
  | .node l ks => (pre ++ "+--".toList ++ l) :: draw (pre ++ (if last then "   " else "|  ").toList) ks
end

/-- A part of the text with a title. -/
def part (title : String) : List LTree → List (List Char)
  | [] => []
  | t :: ts => [] :: title.toList :: draw "    ".toList (t :: ts)

/-- The lines of a module: data nodes, operations, notifications. -/
def page (name : List Char) (data rpcs notes : List LTree) : List (List Char) :=
  ("module: ".toList ++ name) :: (draw "    ".toList data ++ part "  rpcs:" rpcs ++ part "  notifications:" notes)

mutual
/-- Each node has a text, in the order of the document.  The number is the same for all children of a node. -/
inductive Depicts (R : Nat → Elem → List Char → Prop) : Nat → Elem → LTree → Prop
  | mk {col c e l ts} : R col e l → Forest R c e.kids ts → Depicts R col e (.node l ts)
/-- The trees depict the nodes of a list. -/
inductive Forest (R : Nat → Elem → List Char → Prop) : Nat → List Elem → List LTree → Prop
  | nil {c} : Forest R c [] []
  | cons {c e t es ts} : Depicts R c e t → Forest R c es ts → Forest R c (e :: es) (t :: ts)
end

/-- The roots of a module in the three parts. -/
def isRpc (e : Elem) : Bool := strAttr e (.other "type") = some "rpc"
def isNote (e : Elem) : Bool := strAttr e (.other "type") = some "notification"
def dataNodes (l : List Elem) : List Elem := l.filter fun e => ¬ isRpc e ∧ ¬ isNote e
def rpcNodes (l : List Elem) : List Elem := l.filter fun e => isRpc e
def noteNodes (l : List Elem) : List Elem := l.filter fun e => isNote e

/-! ## Reading a text -/

/-- What the text of a node tells. -/
structure Reading where
  sign : List Char
  paren : Bool
  name : List Char
  mark : Option Char
  key : Option (List Char)
  type : Option (List Char)
  feature : Option (List Char)
  deriving DecidableEq, Repr

/-- The characters of a name with a prefix. -/
def nameChar (c : Char) : Bool := c.isAlpha || c.isDigit || c = '_' || c = '-' || c = '.' || c = ':'

/-- Everything up to the first occurrence of a character, and everything after it. -/
def cut (c : Char) (s : List Char) : List Char × List Char := (s.takeWhile (· ≠ c), (s.dropWhile (· ≠ c)).drop 1)

/-- Blanks at both ends removed; `none` if nothing is left. -/
def trimmedText (s : List Char) : Option (List Char) :=
  match ((s.dropWhile (· = ' ')).reverse.dropWhile (· = ' ')).reverse with
  | [] => none
  | t => some t

/-- The end of a text: type and feature. -/
def readEnd (s : List Char) : Option (List Char) × Option (List Char) :=
  (trimmedText (s.takeWhile (· ≠ '{')),
    match s.dropWhile (· ≠ '{') with
    | [] => none
    | _ :: r => some (cut '}' r).1)

/-- Key, type and feature. -/
def readKey (s : List Char) : Option (List Char) × (Option (List Char) × Option (List Char)) :=
  match s with
  | ' ' :: '[' :: r => (some (cut ']' r).1, readEnd (cut ']' r).2)
  | r => (none, readEnd r)

/-- The mark after the name, and the rest. -/
def readMark (s : List Char) : Option Char × (Option (List Char) × (Option (List Char) × Option (List Char))) :=
  match s with
  | '?' :: r => (some '?', readKey r)
  | '*' :: r => (some '*', readKey r)
  | r => (none, readKey r)

/-- The name and what follows it. -/
def readName (sign : List Char) (paren : Bool) (s : List Char) : Reading :=
  let r := readMark (if paren then (s.dropWhile nameChar).drop 1 else s.dropWhile nameChar)
  ⟨sign, paren, s.takeWhile nameChar, r.1, r.2.1, r.2.2.1, r.2.2.2⟩

/-- The name, which may be in parentheses. -/
def readParen (sign : List Char) (s : List Char) : Reading :=
  match s with
  | '(' :: r => readName sign true r
  | r => readName sign false r

/-- A text, read from left to right. -/
def read (s : List Char) : Reading :=
  match s with
  | ':' :: r => readParen [':'] r
  | r => readParen (cut ' ' r).1 (cut ' ' r).2

/-! ## What a node is -/

/-- The sign for the access to a node. -/
def signOf (e : Elem) : List Char :=
  let t := strAttr e (.other "type")
  let a := strAttr e (.other "access")
  if t = some "case" then [':']
  else if t = some "rpc" ∨ t = some "action" then "-x".toList
  else if t = some "notification" then "-n".toList
  else if a = none then []
  else if a = some "write" then "-w".toList
  else if a = some "read-write" then "rw".toList
  else if a = some "read-only" then "ro".toList
  else "--".toList

/-- Lists have a star; leaves and choices that are not mandatory a question mark. -/
def markOf (e : Elem) : Option Char :=
  let t := strAttr e (.other "type")
  if t = some "list" ∨ t = some "leaf-list" then some '*'
  else if (t = some "leaf" ∨ t = some "anyxml" ∨ t = some "anydata" ∨ t = some "choice") ∧
      strAttr e (.other "mandatory") ≠ some "true" then some '?'
  else none

/-- The key of a list. -/
def keyOf (e : Elem) : Option (List Char) :=
  if strAttr e (.other "type") = some "list" then (strAttr e .key).map String.toList else none

/-- The type of values. -/
def typeOfValue (e : Elem) : Option (List Char) :=
  if strAttr e (.other "type") = some "anyxml" then some "<anyxml>".toList
  else if strAttr e (.other "type") = some "anydata" then some "<anydata>".toList
  else (strAttr e (.other "datatype")).map String.toList

/-- The name of a node is shown with the prefix of its namespace, or without if this is the prefix of the module. -/
def NameShown (m : Model) (q : QName) (name : List Char) : Prop :=
  ∃ p, (p, some q.ns) ∈ m.prefixes ∧
    ((p = m.pfx ∧ name = q.name.toList) ∨ (p ≠ m.pfx ∧ name = p.toList ++ ':' :: q.name.toList))

/-- The text tells what the node is, and the type of values is in the column. -/
def Tells (m : Model) (col : Nat) (e : Elem) (l : List Char) : Prop :=
  (∃ name, NameShown m e.tag name ∧ read l =
    ⟨signOf e, strAttr e (.other "type") = some "choice" ∨ strAttr e (.other "type") = some "case", name, markOf e, keyOf e,
      typeOfValue e, (strAttr e (.other "if-feature")).map String.toList⟩) ∧
  ∀ v, typeOfValue e = some v → ∃ a b, l = a ++ "   ".toList ++ v ++ b ∧ a.length + 3 = col

/-- Name and sign are the same, but the difference is shown instead of the type. -/
def TellsDiff (m1 m2 : Model) (col : Nat) (e : Elem) (l : List Char) : Prop :=
  (∃ name, NameShown (if strAttr e (.other "diff") = some "added" then m2 else m1) e.tag name ∧ read l =
    ⟨signOf e, strAttr e (.other "type") = some "choice" ∨ strAttr e (.other "type") = some "case", name, markOf e, keyOf e,
      (strAttr e (.other "diff")).map String.toList, none⟩) ∧
  ∀ v, strAttr e (.other "diff") = some v → ∃ a b, l = a ++ "   ".toList ++ v.toList ++ b ∧ a.length + 3 = col

/-- Two nodes have the same sign, name, mark, key, type and feature. -/
structure SameShown (m1 m2 : Model) (e f : Elem) : Prop where
  sign : signOf e = signOf f
  name : ∃ n, NameShown m1 e.tag n ∧ NameShown m2 f.tag n
  mark : markOf e = markOf f
  key : keyOf e = keyOf f
  type : typeOfValue e = typeOfValue f
  feature : strAttr e (.other "if-feature") = strAttr f (.other "if-feature")

mutual
/-- Two nodes are related, and so are their children one by one. -/
inductive Twins (S : Elem → Elem → Prop) : Elem → Elem → Prop
  | mk {e f} : S e f → TwinsAll S e.kids f.kids → Twins S e f
/-- See `Twins`. -/
inductive TwinsAll (S : Elem → Elem → Prop) : List Elem → List Elem → Prop
  | nil : TwinsAll S [] []
  | cons {e f es fs} : Twins S e f → TwinsAll S es fs → TwinsAll S (e :: es) (f :: fs)
end

/-- The prefix that the `namespace` children of a tree declare, `none` for other children. -/
def declares (p : String) (k : Elem) : Bool := k.tag = ⟨"", "namespace"⟩ ∧ strAttr k (.other "prefix") = some p

/-- The namespace of a tag is declared by the model. -/
def KnownNs (m : Model) (ns : String) : Prop := ns = "" ∨ ∃ p, (p, some ns) ∈ m.prefixes

/-! ## Which nodes can be read -/

/-- A text without line breaks that does not begin or end with a blank, and does not contain the character. -/
def Solid (c : Char) (v : List Char) : Prop :=
  v ≠ [] ∧ v.head? ≠ some ' ' ∧ v.getLast? ≠ some ' ' ∧ '\n' ∉ v ∧ c ∉ v

/-- A node whose name is an identifier in a namespace, and with attributes that do not contain the characters which end
them. -/
structure Readable (e : Elem) : Prop where
  ident : Ident e.tag.name.toList
  ns : e.tag.ns ≠ ""
  key : ∀ k, strAttr e .key = some k → ']' ∉ k.toList ∧ '\n' ∉ k.toList
  type : ∀ v, strAttr e (.other "datatype") = some v → Solid '{' v.toList
  diff : ∀ v, strAttr e (.other "diff") = some v → Solid '{' v.toList
  feature : ∀ f, strAttr e (.other "if-feature") = some f → '}' ∉ f.toList ∧ '\n' ∉ f.toList

/-- All nodes below the tree can be read. -/
def AllReadable (t : Elem) : Prop := ∀ path e, path ≠ [] → At t path e → Readable e

/-- The prefixes of a model are identifiers, and its own has no dot. -/
structure PlainPrefixes (m : Model) : Prop where
  ident : ∀ p u, (p, u) ∈ m.prefixes → Ident p.toList
  own : '.' ∉ m.pfx.toList

end NcDiff.Show
