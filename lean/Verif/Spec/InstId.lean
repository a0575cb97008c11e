import Verif.Model.Ref
/-!
# Specification: instance-identifier values

RFC 7950 section 9.13.2, RFC 7951 section 6.11.
-/

namespace NcDiff

/-- The prefix `p` stands for the namespace `u`: it is declared where the value stands, or it is not
and is the name of a module with that namespace. -/
inductive PrefixMeans (d : Device) (m : NsMap) (p : List Char) (u : String) : Prop where
  | declared : (some (String.ofList p), u) ∈ m → PrefixMeans d m p u
  | module (x : String) : (∀ v, (some (String.ofList p), v) ∉ m) →
      (String.ofList p, x, u) ∈ d.namespaces → PrefixMeans d m p u

/-- The namespace belongs to exactly one module. -/
def KnownUrl (d : Device) (u : String) : Prop :=
  ∃ n, d.namespaces.filter (fun n => n.2.2 = u) = [n]

namespace InstId

/-- A name with or without a prefix. -/
structure Name where
  pfx : Option (List Char)
  loc : List Char
  deriving DecidableEq

/-- The name as it is written. -/
def Name.text (n : Name) : List Char :=
  match n.pfx with
  | some p => p ++ ':' :: n.loc
  | none => n.loc

/-- A part of an instance-identifier: `/name`, `[name='literal']` or `[.='literal']`.  `quote` is
the quotation mark. -/
inductive Tok where
  | step (n : Name)
  | key (n : Name) (quote : Char) (lit : List Char)
  | self (quote : Char) (lit : List Char)
  deriving DecidableEq

/-- The part as it is written. -/
def Tok.text : Tok → List Char
  | .step n => '/' :: n.text
  | .key n q c => '[' :: (n.text ++ '=' :: q :: (c ++ [q, ']']))
  | .self q c => '[' :: '.' :: '=' :: q :: (c ++ [q, ']'])

/-- An instance-identifier as it is written. -/
def render (ts : List Tok) : List Char := ts.flatMap Tok.text

/-- Characters that names do not have. -/
def reserved : List Char := ['/', '[', ']', '=', ':', '\'', '"']

/-- Names are not empty and have no reserved characters. -/
def Name.Ok (n : Name) : Prop :=
  n.loc ≠ [] ∧ (∀ c ∈ n.loc, c ∉ reserved) ∧ ∀ p, n.pfx = some p → p ≠ [] ∧ ∀ c ∈ p, c ∉ reserved

/-- A literal: quotation marks are single or double, and the one used is not inside. -/
def LitOk (q : Char) (c : List Char) : Prop := (q = '\'' ∨ q = '"') ∧ q ∉ c

/-- A part as XPath allows it, with the restriction that names of steps have no dot and names of
keys are not just a dot. -/
def Tok.Ok : Tok → Prop
  | .step n => n.Ok ∧ '.' ∉ n.text
  | .key n q c => n.Ok ∧ n.text ≠ ['.'] ∧ LitOk q c
  | .self q c => LitOk q c

/-- What a part means: namespaces instead of prefixes and values instead of literals. -/
inductive Abs where
  | step (u : String) (loc : List Char)
  | key (u : String) (loc : List Char) (value : List Char)
  | self (value : List Char)
  deriving DecidableEq

/-- A name means the local name in the namespace `u`, if names without a prefix are in `dflt`. -/
def NameMeans (d : Device) (m : NsMap) (dflt : Option String) (n : Name) (u : String) : Prop :=
  match n.pfx with
  | some p => PrefixMeans d m p u
  | none => dflt = some u

/-- What an instance-identifier means.  Names without a prefix are in the namespace of the last
step. -/
inductive Means (d : Device) (m : NsMap) : Option String → List Tok → List Abs → Prop where
  | nil {dflt} : Means d m dflt [] []
  | step {dflt n u ts as} : NameMeans d m dflt n u → Means d m (some u) ts as →
      Means d m dflt (.step n :: ts) (.step u n.loc :: as)
  | key {dflt n u q c ts as} : NameMeans d m dflt n u → Means d m dflt ts as →
      Means d m dflt (.key n q c :: ts) (.key u n.loc c :: as)
  | self {dflt q c ts as} : Means d m dflt ts as →
      Means d m dflt (.self q c :: ts) (.self c :: as)

/-- No literal in double quotes has an apostrophe in it. -/
def NoApostrophe (ts : List Tok) : Prop :=
  ∀ t ∈ ts, match t with
    | .step _ => True
    | .key _ q c => q = '"' → '\'' ∉ c
    | .self q c => q = '"' → '\'' ∉ c

/-- The namespaces of a meaning. -/
def urls : List Abs → List String
  | [] => []
  | .step u _ :: r => u :: urls r
  | .key u _ _ :: r => u :: urls r
  | .self _ :: r => urls r

/-- The prefixes with which a value is written when no target node is given: none are declared, so
that prefixes are names of modules. -/
def target (to : Option NsMap) : NsMap := to.getD []

/-- The namespace can be written: it belongs to one module, or the target node has a prefix for
it. -/
def Writable (d : Device) (to : Option NsMap) (u : String) : Prop :=
  match to with
  | none => KnownUrl d u
  | some m => ∃ p, (some p, u) ∈ m

/-- The prefixes with which a value is written are not empty and have neither reserved characters
nor dots. -/
def PrefixesOk (d : Device) (to : Option NsMap) : Prop :=
  ∀ p u, PrefixMeans d (target to) p u → p ≠ [] ∧ ∀ c ∈ p, c ∉ reserved ∧ c ≠ '.'

/-- The namespace of a name where the prefixes `m` are declared and names without a prefix are in
`dflt`.  A prefix that is not declared is the name of a module. -/
def nameUrl (d : Device) (m : NsMap) (dflt : Option String) (n : Name) : Option String :=
  match n.pfx with
  | none => dflt
  | some p =>
    match m.url (some (String.ofList p)) with
    | some u => some u
    | none => nameToUrl d (String.ofList p)

/-- The namespaces of the names of an instance-identifier. -/
def used (d : Device) (m : NsMap) : Option String → List Tok → List String
  | _, [] => []
  | dflt, .step n :: r => (nameUrl d m dflt n).toList ++ used d m (nameUrl d m dflt n) r
  | dflt, .key n _ _ :: r => (nameUrl d m dflt n).toList ++ used d m dflt r
  | dflt, .self _ _ :: r => used d m dflt r

/-- The text is an instance-identifier. -/
def Readable (s : List Char) (ts : List Tok) : Prop :=
  s = render ts ∧ ts ≠ [] ∧ (∀ t ∈ ts, t.Ok) ∧ NoApostrophe ts

/-! ## Doubled quotation marks

XPath 1.0, which RFC 7950 refers to, has no way to write a quotation mark inside a literal that stands in the same
quotation marks.  XPath 2.0 (3.1.1) has: it is written twice. -/

/-- A value between quotation marks `q`: these are written twice. -/
def doubled (q : Char) : List Char → List Char
  | [] => []
  | x :: c => if x = q then q :: q :: doubled q c else x :: doubled q c

/-- The part as it is written in XPath 2.0. -/
def Tok.text2 : Tok → List Char
  | .step n => '/' :: n.text
  | .key n q c => '[' :: (n.text ++ '=' :: q :: (doubled q c ++ [q, ']']))
  | .self q c => '[' :: '.' :: '=' :: q :: (doubled q c ++ [q, ']'])

/-- An instance-identifier as it is written in XPath 2.0. -/
def render2 (ts : List Tok) : List Char := ts.flatMap Tok.text2

/-- A literal: quotation marks are single or double, and the value does not end with the one used. -/
def LitOk2 (q : Char) (c : List Char) : Prop := (q = '\'' ∨ q = '"') ∧ c.getLast? ≠ some q

/-- `Tok.Ok` with these literals. -/
def Tok.Ok2 : Tok → Prop
  | .step n => n.Ok ∧ '.' ∉ n.text
  | .key n q c => n.Ok ∧ n.text ≠ ['.'] ∧ LitOk2 q c
  | .self q c => LitOk2 q c

end InstId
end NcDiff
