import Verif.Spec.Tags
import Verif.Spec.Deep
import Verif.Spec.Position
import Verif.Model.XPath
/-!
# Specification: what an XPath expression selects

The part of XPath 1.0 that location paths of child steps with predicates need: `/name[...]/name...`,
where a predicate is a disjunction of comparisons of a child or of `text()` with a literal, of two
literals, or of a literal alone.  An expression is read character by character, as an XPath processor
does; nothing here refers to the way ncdiff writes one.
-/

namespace NcDiff.XPath

/-! ## Reading an expression -/

/-- Lexical tokens. -/
inductive Tok where
  | slash | dot | lbr | rbr | lpar | rpar | eq
  | lit (s : List Char)
  | name (s : List Char)
  deriving DecidableEq, Repr

/-- A character a name can begin with. -/
def nameStart (c : Char) : Bool := c.isAlpha || c == '_' || 127 < c.toNat

/-- A character of a name that may have a prefix. -/
def nameChar (c : Char) : Bool := nameStart c || c.isDigit || c == '-' || c == '.' || c == ':'

/-- Where the tokenizer is: between tokens, inside a name, inside a literal (with the quote that ends
it); what has been read of the token is kept in reverse. -/
inductive Mode where
  | between
  | inName (acc : List Char)
  | inLit (quote : Char) (acc : List Char)

/-- A character between tokens: the token it is, if it is one, and how to go on. -/
def first (c : Char) : Option (List Tok × Mode) :=
  if c = ' ' ∨ c = '\t' ∨ c = '\n' ∨ c = '\r' then some ([], .between)
  else if c = '/' then some ([.slash], .between)
  else if c = '.' then some ([.dot], .between)
  else if c = '[' then some ([.lbr], .between)
  else if c = ']' then some ([.rbr], .between)
  else if c = '(' then some ([.lpar], .between)
  else if c = ')' then some ([.rpar], .between)
  else if c = '=' then some ([.eq], .between)
  else if c = '"' ∨ c = '\'' then some ([], .inLit c [])
  else if nameStart c then some ([], .inName [c])
  else none

/-- The tokens of a text. -/
def tokens : Mode → List Char → Option (List Tok)
  | .between, [] => some []
  | .inName a, [] => some [.name a.reverse]
  | .inLit _ _, [] => none
  | .between, c :: r =>
    match first c with
    | some (ts, m) => (tokens m r).map (ts ++ ·)
    | none => none
  | .inName a, c :: r =>
    if nameChar c then tokens (.inName (c :: a)) r
    else
      match first c with
      | some (ts, m) => (tokens m r).map (.name a.reverse :: ts ++ ·)
      | none => none
  | .inLit q a, c :: r =>
    if c = q then (tokens .between r).map (.lit a.reverse :: ·) else tokens (.inLit q (c :: a)) r

/-- A condition: a child, or the text, is equal to a literal; a literal; two literals are equal.
`α` is what stands for names. -/
inductive Cond (α : Type) where
  | child (n : α) (l : List Char)
  | text (l : List Char)
  | literal (l : List Char)
  | same (a b : List Char)
  deriving DecidableEq, Repr

/-- A step: a name and predicates; a predicate is a disjunction of conditions. -/
structure LStep (α : Type) where
  name : α
  preds : List (List (Cond α))
  deriving DecidableEq, Repr

mutual
/-- Steps; those read so far are in reverse. -/
def steps (done : List (LStep (List Char))) : List Tok → Option (List (LStep (List Char)))
  | [] => some done.reverse
  | .slash :: .name n :: r => steps (⟨n, []⟩ :: done) r
  | .lbr :: r =>
    match done with
    | [] => none
    | s :: done => cond done s [] r
  | _ => none
/-- A condition of a predicate of step `s`; those read so far are in reverse. -/
def cond (done : List (LStep (List Char))) (s : LStep (List Char)) (cs : List (Cond (List Char))) :
    List Tok → Option (List (LStep (List Char)))
  | .name n :: .eq :: .lit l :: r => next done s (.child n l :: cs) r
  | .name n :: .lpar :: .rpar :: .eq :: .lit l :: r =>
    if n = ['t', 'e', 'x', 't'] then next done s (.text l :: cs) r else none
  | .lit a :: .eq :: .lit b :: r => next done s (.same a b :: cs) r
  | .lit a :: r => next done s (.literal a :: cs) r
  | _ => none
/-- What follows a condition: the end of the predicate, or `or` and another condition. -/
def next (done : List (LStep (List Char))) (s : LStep (List Char)) (cs : List (Cond (List Char))) :
    List Tok → Option (List (LStep (List Char)))
  | .rbr :: r => steps (⟨s.name, s.preds ++ [cs.reverse]⟩ :: done) r
  | .name n :: r => if n = ['o', 'r'] then cond done s cs r else none
  | _ => none
end

/-- A location path: whether it is absolute, and its steps. -/
def parse : List Tok → Option (Bool × List (LStep (List Char)))
  | .dot :: r => (steps [] r).map (false, ·)
  | .slash :: r => (steps [] (.slash :: r)).map (true, ·)
  | _ => none

/-! ## Names -/

/-- How names are read: the table of prefixes (or of module names), and whether a name without prefix
belongs to the namespace of the step before it (as in JSON and YANG) or to none (as in XPath). -/
structure Reader where
  table : List (String × String)
  inherit : Bool

/-- Prefix and local part. -/
def splitName (n : List Char) : Option (Option String × String) :=
  match n.dropWhile (· ≠ ':') with
  | [] => some (none, String.ofList n)
  | _ :: l =>
    if n.takeWhile (· ≠ ':') = [] ∨ l = [] ∨ ':' ∈ l then none
    else some (some (String.ofList (n.takeWhile (· ≠ ':'))), String.ofList l)

/-- The tag a name stands for; an unknown prefix is an error. -/
def Reader.tag (rd : Reader) (inForce : String) (n : List Char) : Option QName :=
  match splitName n with
  | none => none
  | some (some p, l) => (rd.table.lookup p).map (⟨·, l⟩)
  | some (none, l) => some ⟨if rd.inherit then inForce else "", l⟩

def Reader.cond (rd : Reader) (inForce : String) : Cond (List Char) → Option (Cond QName)
  | .child n l => (rd.tag inForce n).map (.child · l)
  | .text l => some (.text l)
  | .literal l => some (.literal l)
  | .same a b => some (.same a b)

/-- The steps with tags for names. -/
def Reader.steps (rd : Reader) : String → List (LStep (List Char)) → Option (List (LStep QName))
  | _, [] => some []
  | inForce, s :: r =>
    match rd.tag inForce s.name with
    | none => none
    | some t =>
      match s.preds.mapM (fun cs => cs.mapM (rd.cond t.ns)), rd.steps t.ns r with
      | some ps, some ss => some (⟨t, ps⟩ :: ss)
      | _, _ => none

/-! ## Evaluation -/

/-- Whether a condition holds at a node.  A child is compared by its string value; a node without text
has no text node. -/
def Cond.holds (e : Elem) : Cond QName → Bool
  | .child t l => e.kids.any fun k => k.tag = t ∧ k.itertext = String.ofList l
  | .text l => e.text = some (String.ofList l) ∧ l ≠ []
  | .literal l => l ≠ []
  | .same a b => a = b

/-- Whether a child is selected by a step. -/
def LStep.selects (s : LStep QName) (e : Elem) : Bool :=
  e.tag = s.name ∧ s.preds.all fun cs => cs.any (Cond.holds e)

/-- The positions, below `e`, of the nodes that the steps lead to from `e`. -/
def select : List (LStep QName) → Elem → List (List Nat)
  | [], _ => [[]]
  | s :: r, e => e.kids.zipIdx.flatMap fun p =>
    if s.selects p.1 then (select r p.1).map (p.2 :: ·) else []

/-- The document whose root element is `cfg`. -/
def document (cfg : Elem) : Elem := .mk ⟨"", ""⟩ [] [] none [cfg]

/-- The value of an expression, evaluated at the root element `cfg` of a document: the positions in
the document of the nodes selected (the root element is at `[0]`), or an error. -/
def eval (rd : Reader) (cfg : Elem) (s : List Char) : Option (List (List Nat)) :=
  match tokens .between s with
  | none => none
  | some ts =>
    match parse ts with
    | none => none
    | some (abs, ls) =>
      match rd.steps "" ls with
      | none => none
      | some ss => some (if abs then select ss (document cfg) else (select ss cfg).map (0 :: ·))

end XPath

/-! ## Hypotheses of the theorems -/

/-- A YANG identifier. -/
def Ident (n : List Char) : Prop :=
  (∃ c r, n = c :: r ∧ (c.isAlpha ∨ c = '_')) ∧
    ∀ c ∈ n, c.isAlpha ∨ c.isDigit ∨ c = '_' ∨ c = '-' ∨ c = '.'

/-- The modules of the device have identifiers for names and prefixes. -/
def ModuleIdents (d : Device) : Prop :=
  ∀ e ∈ d.namespaces, Ident e.1.toList ∧ Ident e.2.1.toList

/-- The children's names are identifiers of modules the device knows. -/
def PathNames (d : Device) (_ : Scope) (e : Elem) : Prop :=
  ∀ k ∈ e.kids, Ident k.tag.name.toList ∧ ∃ m ∈ d.namespaces, m.2.2 = k.tag.ns

/-- Values that can be written between double quotes: the entries of leaf-lists have a value of a plain
type which is not empty, the keys of list entries have a text, and none contains a double quote. -/
def Quotable (d : Device) (sc : Scope) (e : Elem) : Prop :=
  ∀ k ∈ e.kids, ∀ f, d.lookup sc k.tag = .ok f →
    (f.node.ntype = .leafList → f.node.info.datatype.plain ∧
      ∃ t, k.text = some t ∧ t ≠ "" ∧ '"' ∉ t.toList) ∧
    (f.node.ntype = .list → ∀ q ∈ f.node.keys, ∀ c ∈ k.childrenWith q,
      ∃ t, c.text = some t ∧ '"' ∉ t.toList)

/-- A config whose nodes can be referred to by paths: the namespaces are unique, the names are
identifiers, the config is valid, list keys are leaves of plain types, and values can be quoted. -/
structure Referable (d : Device) (cfg : Elem) : Prop where
  namespaces : UniqueNamespaces d
  idents : ModuleIdents d
  valid : ValidConfig d cfg
  plain : PlainKeys d .root cfg
  names : Deep d (PathNames d) .root cfg
  quotable : Deep d (Quotable d) .root cfg

/-- The four notations in which a path can be read back step by step. -/
def PathNotation (ty : TagNotation) : Prop :=
  ty = .xpath ∨ ty = .lxmlXpath ∨ ty = .jsonName ∨ ty = .jsonPrefix

/-- How a path in a notation is to be read: `Tag.LXML_XPATH` as XPath, in the others a name without
prefix inherits the namespace. -/
def readerOf (d : Device) (ty : TagNotation) : XPath.Reader :=
  ⟨d.namespaces.map fun e => (nsPart ty.field e, e.2.2), ty.omission ≠ .never⟩

end NcDiff
