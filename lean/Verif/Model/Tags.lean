import Verif.Model.Ref
/-!
# Notations of tags and prefix tables

Model of `ModelDevice.convert_tag`, `convert_ns` and `_get_ns` (`src/ncdiff/manager.py` lines
821-1009) and of the constants of class `Tag` (`src/ncdiff/composer.py` lines 22-48).

Simplification: the regular expressions are modelled for strings without a newline.
-/

namespace NcDiff

/-- A row of `namespaces` (`src/ncdiff/manager.py` lines 116-129): name, prefix, URL. -/
abbrev Entry := String × String × String

/-- `Tag.NAME`, `Tag.PREFIX`, `Tag.NAMESPACE`, `src/ncdiff/composer.py` lines 28-30. -/
inductive NsField where
  | name | prefix | url
  deriving DecidableEq, Repr

/-- `i[src[0]]`: a column of `namespaces`. -/
def nsPart : NsField → Entry → String
  | .name, e => e.1
  | .prefix, e => e.2.1
  | .url, e => e.2.2

/-- `Tag.NO_OMIT` and its siblings, `src/ncdiff/composer.py` lines 37-39. -/
inductive Omit where
  | never | byInheritance | byModule
  deriving DecidableEq, Repr

/-- `Tag.BRACE` and `Tag.COLON`, `src/ncdiff/composer.py` lines 41-44. -/
inductive Style where
  | brace | colon
  deriving DecidableEq, Repr

/-- A notation: a triple of class `Tag`. -/
structure TagNotation where
  field : NsField
  omission : Omit
  style : Style
  deriving DecidableEq, Repr

namespace TagNotation
/-- `src/ncdiff/composer.py` lines 46-51. -/
def ytool : TagNotation := ⟨.prefix, .byModule, .colon⟩
/-- See `ytool`. -/
def xpath : TagNotation := ⟨.prefix, .byInheritance, .colon⟩
/-- See `ytool`. -/
def lxmlXpath : TagNotation := ⟨.prefix, .never, .colon⟩
/-- See `ytool`. -/
def lxmlEtree : TagNotation := ⟨.url, .never, .brace⟩
/-- See `ytool`. -/
def jsonName : TagNotation := ⟨.name, .byInheritance, .colon⟩
/-- See `ytool`. -/
def jsonPrefix : TagNotation := ⟨.prefix, .byInheritance, .colon⟩
end TagNotation

/-- `^(.+)X(.+)$` for a one-character `X`: split at the last `X` that has something before and
something after it. -/
def splitLastAt (sep : Char) : List Char → Option (List Char × List Char)
  | [] => none
  | c :: r =>
    match splitLastAt sep r with
    | some (a, b) => some (c :: a, b)
    | none =>
      match r with
      | s :: x :: y => if s = sep then some ([c], x :: y) else none
      | _ => none

/-- `re.search(src[2][0], tag)`, patterns of `src/ncdiff/composer.py` lines 42 and 44. -/
def Style.split : Style → List Char → Option (List Char × List Char)
  | .colon, s => splitLastAt ':' s
  | .brace, '{' :: s => splitLastAt '}' s
  | .brace, _ => none

/-- `dst[2][1].format(ns, name)`. -/
def Style.render : Style → String → List Char → List Char
  | .colon, ns, n => ns.toList ++ ':' :: n
  | .brace, ns, n => '{' :: (ns.toList ++ '}' :: n)

/-- `[('', v, k) for k, v in special_prefixes.items()]`, `src/ncdiff/manager.py` line 905. -/
def specialEntries : List Entry := specialUrls.map fun p => ("", p.2, p.1)

/-- `possible_part1` of `convert_tag`, `src/ncdiff/manager.py` lines 868-876. -/
def possiblePart1 (d : Device) : NsField → List String
  | .name => d.namespaces.map (nsPart .name)
  | f => d.namespaces.map (nsPart f) ++ specialEntries.map (nsPart f)

/-- `split_tag` of `convert_tag`, lines 878-888. -/
def splitTag (d : Device) (src : TagNotation) (tag : List Char) :
    Except Err (String × List Char) :=
  match src.style.split tag with
  | some (p, n) =>
    if String.ofList p ∈ possiblePart1 d src.field then .ok (String.ofList p, n)
    else .error .valueError
  | none => .ok ("", tag)

/-- `format_tag` of `convert_tag`, lines 890-894. -/
def formatTag (dst : TagNotation) (ns : String) (name : List Char) : List Char :=
  if ns = "" then name else dst.style.render ns name

/-- `convert` of `convert_tag`, lines 896-912. -/
def convertPart (d : Device) (src dst : NsField) (ns : String) : Except Err String :=
  match d.namespaces.filter (fun e => nsPart src e = ns) with
  | [e] => .ok (nsPart dst e)
  | _ :: _ :: _ => .error .modelError
  | [] =>
    if src ≠ .name ∧ dst ≠ .name then
      match specialEntries.filter (fun e => nsPart src e = ns) with
      | [e] => .ok (nsPart dst e)
      | _ => .error .valueError
    else .error .valueError

/-- The last part of `convert_tag`, lines 921-934. -/
def writeTag (d : Device) (dflt : String) (src dst : TagNotation) (ns : String)
    (name : List Char) : Except Err (String × List Char) :=
  if dst.omission ≠ .never ∧ dflt = ns then .ok (ns, formatTag dst "" name)
  else do
    let p ← convertPart d src.field dst.field ns
    pure (ns, formatTag dst p name)

/-- `ModelDevice.convert_tag`, lines 821-934: the namespace (in the source notation) and the
converted tag. -/
def convertTag (d : Device) (dflt : String) (tag : List Char) (src dst : TagNotation) :
    Except Err (String × List Char) := do
  let p ← splitTag d src tag
  if src.omission = .never ∧ p.1 = "" then .error .valueError
  else if p.1 = "" then writeTag d dflt src dst dflt p.2
  else writeTag d dflt src dst p.1 p.2

/-- `ModelDevice.convert_ns`, lines 936-970. -/
def convertNs (d : Device) (ns : String) (src dst : NsField) : Except Err String :=
  match d.namespaces.filter (fun e => nsPart src e = ns) with
  | [e] => .ok (nsPart dst e)
  | _ => .error .valueError

/-! ## Prefix tables -/

/-- `get_prefix` of `_get_ns`, `src/ncdiff/manager.py` lines 989-995. -/
def getPrefix (d : Device) (url : String) : Option String :=
  match specialUrls.lookup url with
  | some p => some p
  | none => (d.namespaces.find? (fun e => url = nsPart .url e)).map (nsPart .prefix)

/-- Decimal digits of a number, most significant first; `fuel` bounds the number of digits. -/
def digitsAux : Nat → Nat → List Char → List Char
  | 0, _, acc => acc
  | fuel + 1, n, acc =>
    if n < 10 then Char.ofNat (48 + n) :: acc
    else digitsAux fuel (n / 10) (Char.ofNat (48 + n % 10) :: acc)

/-- `'ns{:02d}'.format(i)`, line 1007. -/
def genPrefix (i : Nat) : String :=
  String.ofList ('n' :: 's' :: (if i < 10 then ['0'] else []) ++ digitsAux (i + 1) i [])

/-- `ret` of `_get_ns`, lines 1001-1008: every URL with its prefix, URLs without one numbered
from `i`. -/
def assignPrefixes (d : Device) : Nat → List String → List (String × String)
  | _, [] => []
  | i, u :: r =>
    match getPrefix d u with
    | some p => (p, u) :: assignPrefixes d i r
    | none => (genPrefix i, u) :: assignPrefixes d (i + 1) r

/-- Dictionary update: an existing key keeps its position. -/
def dictSet [DecidableEq α] (k : α) (v : β) : List (α × β) → List (α × β)
  | [] => [(k, v)]
  | p :: r => if p.1 = k then (k, v) :: r else p :: dictSet k v r

/-- A dictionary built from pairs: a later pair replaces an earlier one with the same key. -/
def dictOf [DecidableEq α] (ps : List (α × β)) : List (α × β) :=
  ps.foldl (fun acc p => dictSet p.1 p.2 acc) []

mutual
/-- `urls` of `_get_ns`, lines 997-1000: all URLs declared at any node, with repetitions. -/
def Elem.nsUrls : Elem → List String
  | .mk _ n _ _ ks => n.map Prod.snd ++ nsUrlsList ks
/-- See `Elem.nsUrls`. -/
def nsUrlsList : List Elem → List String
  | [] => []
  | k :: ks => k.nsUrls ++ nsUrlsList ks
end

/-- `_get_ns`, lines 972-1009.  `urls` is the set of declared URLs in the order in which Python
happens to iterate over it. -/
def getNs (d : Device) (urls : List String) : List (String × String) :=
  dictOf (assignPrefixes d 0 urls)

end NcDiff
