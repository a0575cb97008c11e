import Mathlib.Data.List.Basic
/-!
# Specification: regular expressions

What `re.search` of Python finds, for the expressions that occur in ncdiff: characters and classes of characters,
repeated or not, groups, alternatives, and the two anchors.  Python tries the ways in which an expression can match in a
fixed order and takes the first: a repetition takes as many characters as possible first, an alternative its left side
first, and a search the leftmost place first.  `ends` is the list of all ways in that order.

`\d` and `\S` are Unicode classes in Python; `\d` is modelled for the digits 0 to 9 only.
-/

namespace NcDiff.Regex

abbrev Text := List Char

/-- White space, as in `str.isspace` and `\s`. -/
def space (c : Char) : Bool :=
  c = ' ' || (9 ≤ c.toNat && c.toNat ≤ 13) || (28 ≤ c.toNat && c.toNat ≤ 31) || c.toNat = 0x85 ||
  c.toNat = 0xa0 || c.toNat = 0x1680 || (0x2000 ≤ c.toNat && c.toNat ≤ 0x200a) || c.toNat = 0x2028 ||
  c.toNat = 0x2029 || c.toNat = 0x202f || c.toNat = 0x205f || c.toNat = 0x3000

/-- A class of characters: `c`, `.`, `\S`, `\d`, `[a-z...]`. -/
inductive Cls where
  | one (c : Char)
  | dot
  | nonspace
  | digit
  | set (ranges : List (Char × Char))
  deriving DecidableEq, Repr

def Cls.has : Cls → Char → Bool
  | .one a, c => c = a
  | .dot, c => c ≠ '\n'
  | .nonspace, c => !space c
  | .digit, c => '0'.toNat ≤ c.toNat && c.toNat ≤ '9'.toNat
  | .set l, c => l.any fun r => r.1.toNat ≤ c.toNat && c.toNat ≤ r.2.toNat

/-- Regular expressions: one character, `c*`, `c+`, `c{0,1}`, `^`, `$`, `(r)`, nothing, one after the other, `a|b`. -/
inductive Re where
  | chr (k : Cls)
  | many (k : Cls)
  | some (k : Cls)
  | opt (k : Cls)
  | bos
  | eos
  | group (r : Re)
  | empty
  | seq (a b : Re)
  | alt (a b : Re)
  deriving DecidableEq, Repr

/-- How many characters of a class the text starts with. -/
def run (k : Cls) (s : Text) : Nat := (s.takeWhile k.has).length

/-- All ways to match at place `i`, where the rest of the text is `s`: the number of characters and the groups. -/
def ends : Re → Nat → Text → List (Nat × List Text)
  | .chr k, _, s => match s with
    | c :: _ => if k.has c then [(1, [])] else []
    | [] => []
  | .many k, _, s => (List.range (run k s + 1)).reverse.map fun n => (n, [])
  | .some k, _, s => (List.range (run k s)).reverse.map fun n => (n + 1, [])
  | .opt k, _, s => match s with
    | c :: _ => if k.has c then [(1, []), (0, [])] else [(0, [])]
    | [] => [(0, [])]
  | .bos, i, _ => if i = 0 then [(0, [])] else []
  | .eos, _, s => if s = [] ∨ s = ['\n'] then [(0, [])] else []
  | .group r, i, s => (ends r i s).map fun e => (e.1, s.take e.1 :: e.2)
  | .empty, _, _ => [(0, [])]
  | .seq a b, i, s => (ends a i s).flatMap fun e =>
      (ends b (i + e.1) (s.drop e.1)).map fun e' => (e.1 + e'.1, e.2 ++ e'.2)
  | .alt a b, i, s => ends a i s ++ ends b i s

/-- The first match at place `i` or later: the matched text and the groups. -/
def findFrom (r : Re) : Nat → Text → Option (Text × List Text)
  | i, [] => (ends r i []).head?.map fun e => ([], e.2)
  | i, c :: s => match (ends r i (c :: s)).head? with
    | .some e => .some ((c :: s).take e.1, e.2)
    | none => findFrom r (i + 1) s

/-! ## Syntax -/

/-- What is between `[` and `]`. -/
def parseSet : Text → Option (List (Char × Char) × Text)
  | [] => none
  | ']' :: r => .some ([], r)
  | a :: '-' :: ']' :: r => .some ([(a, a), ('-', '-')], r)
  | a :: '-' :: b :: r => (parseSet r).map fun x => ((a, b) :: x.1, x.2)
  | a :: r => (parseSet r).map fun x => ((a, a) :: x.1, x.2)

/-- A character or class, with what follows it. -/
def parseCls : Text → Option (Cls × Text)
  | [] => none
  | '\\' :: 'S' :: r => .some (.nonspace, r)
  | '\\' :: 'd' :: r => .some (.digit, r)
  | '\\' :: c :: r => .some (.one c, r)
  | '.' :: r => .some (.dot, r)
  | '[' :: r => (parseSet r).map fun x => (.set x.1, x.2)
  | c :: r => .some (.one c, r)

/-- Repetition. -/
def parseRep (k : Cls) : Text → Re × Text
  | '*' :: r => (.many k, r)
  | '+' :: r => (.some k, r)
  | '{' :: '0' :: ',' :: '1' :: '}' :: r => (.opt k, r)
  | r => (.chr k, r)

mutual
/-- Alternatives, up to the end or a closing parenthesis.  The first argument bounds the number of steps. -/
def parseAlt : Nat → Text → Option (Re × Text)
  | 0, _ => none
  | n + 1, s =>
    match parseSeq n s with
    | none => none
    | .some (a, '|' :: r) => (parseAlt n r).map fun x => (.alt a x.1, x.2)
    | .some (a, r) => .some (a, r)
/-- One after the other. -/
def parseSeq : Nat → Text → Option (Re × Text)
  | 0, _ => none
  | _ + 1, [] => .some (.empty, [])
  | _ + 1, ')' :: r => .some (.empty, ')' :: r)
  | _ + 1, '|' :: r => .some (.empty, '|' :: r)
  | n + 1, '^' :: r => (parseSeq n r).map fun x => (.seq .bos x.1, x.2)
  | n + 1, '$' :: r => (parseSeq n r).map fun x => (.seq .eos x.1, x.2)
  | n + 1, '(' :: r =>
    match parseAlt n r with
    | .some (g, ')' :: r) => (parseSeq n r).map fun x => (.seq (.group g) x.1, x.2)
    | _ => none
  | n + 1, s =>
    match parseCls s with
    | none => none
    | .some (k, r) =>
      let (a, r) := parseRep k r
      (parseSeq n r).map fun x => (.seq a x.1, x.2)
end

/-- `re.compile`. -/
def compile (p : String) : Option Re :=
  match parseAlt (2 * p.length + 2) p.toList with
  | .some (r, []) => .some r
  | _ => none

/-- `re.search(p, s)`: `group(0)` and the other groups. -/
def search (p : String) (s : Text) : Option (Text × List Text) := (compile p).bind fun r => findFrom r 0 s

end NcDiff.Regex
