import Verif.Spec.Regex
/-!
# Specification: `str.splitlines`, `str.replace` and `str.strip`

As in the documentation of Python.
-/

namespace NcDiff.PyText

abbrev Text := List Char

/-- The boundaries of lines that are one character: line feed, line tabulation, form feed, carriage return, file, group
and record separator, next line, line and paragraph separator. -/
def boundaries : List Char :=
  [10, 11, 12, 13, 28, 29, 30, 0x85, 0x2028, 0x2029].map Char.ofNat

/-- The lines of a text. -/
inductive Lines : Text → List Text → Prop where
  | none : Lines [] []
  /-- the last line has no boundary; it is not empty -/
  | last {l : Text} (ne : l ≠ []) (one : ∀ c ∈ l, c ∉ boundaries) : Lines l [l]
  | line {l r : Text} {ls : List Text} (b : Char) (one : ∀ c ∈ l, c ∉ boundaries) (hb : b ∈ boundaries)
      (crlf : b = '\r' → ∀ t, r ≠ '\n' :: t) (rest : Lines r ls) : Lines (l ++ b :: r) (l :: ls)
  /-- carriage return and line feed are one boundary -/
  | crlf {l r : Text} {ls : List Text} (one : ∀ c ∈ l, c ∉ boundaries) (rest : Lines r ls) :
      Lines (l ++ '\r' :: '\n' :: r) (l :: ls)

/-- `r` is `s` with all occurrences of `old` replaced, from left to right, where occurrences do not overlap and what is
put in is not searched. -/
inductive Replaced (old new : Text) : Text → Text → Prop where
  | none {s : Text} (no : ¬ old <:+: s) : Replaced old new s s
  | first {a b r : Text} (leftmost : ∀ a' b', a ++ old ++ b = a' ++ old ++ b' → a.length ≤ a'.length)
      (rest : Replaced old new b r) : Replaced old new (a ++ old ++ b) (a ++ new ++ r)

/-- `r` is `s` after the replacements of the pairs, one pair after the other. -/
inductive ReplacedAll : List (Text × Text) → Text → Text → Prop where
  | nil {s : Text} : ReplacedAll [] s s
  | cons {old new s m r : Text} {ps : List (Text × Text)} (first : Replaced old new s m) (rest : ReplacedAll ps m r) :
      ReplacedAll ((old, new) :: ps) s r

/-- `r` is `s` without white space at the left (if `left`) and at the right (if `right`). -/
def Stripped (left right : Bool) (s r : Text) : Prop :=
  ∃ a b, s = a ++ r ++ b ∧ (∀ c ∈ a ++ b, Regex.space c = true) ∧ (left = false → a = []) ∧ (right = false → b = []) ∧
    (left = true → ∀ c, r.head? = some c → Regex.space c = false) ∧
    (right = true → ∀ c, r.getLast? = some c → Regex.space c = false)

end NcDiff.PyText
