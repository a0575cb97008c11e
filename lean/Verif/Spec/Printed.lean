import Verif.Spec.Paste
/-!
# Specification: reading a printed running-config diff

How a person reads the text: the first character of a line is its mark, two blanks of indentation are
one level, and a line belongs to the section of the nearest line above it that is one level up.
-/

namespace NcDiff.Running

/-- The marks that appear in a printed diff. -/
def readMark : Char → Option Info
  | ' ' => some .ctx
  | '+' => some .add
  | '-' => some .del
  | _ => none

/-- Mark, depth and command of a printed line: a mark, a blank, two blanks for every level, the
command. -/
def readLine : Str → Option (Info × Nat × Str)
  | c :: ' ' :: r =>
    match readMark c with
    | some m =>
      if (r.takeWhile (· = ' ')).length % 2 = 0 then
        some (m, (r.takeWhile (· = ' ')).length / 2, r.dropWhile (· = ' '))
      else none
    | none => none
  | _ => none

/-- The path of every line; the first argument is the path of the line above. -/
def follow : Path → List (Info × Nat × Str) → List (Info × Path)
  | _, [] => []
  | p, (m, n, k) :: r => (m, p.take n ++ [k]) :: follow (p.take n ++ [k]) r

/-- The marked paths that one reads from the lines of a printed diff. -/
def reading (ls : List Str) : List (Info × Path) := follow [] (ls.filterMap readLine)

/-- The mark of a line in a section with a mark: in a removed or added section, everything is. -/
def markIn (m i : Info) : Info := if m = .ctx then i else m

mutual
/-- The lines of a diff from top to bottom, with mark and depth. -/
def entries (m : Info) (n : Nat) : List Item → List (Info × Nat × Str)
  | [] => []
  | a :: r => itemEntries m n a ++ entries m n r
def itemEntries (m : Info) (n : Nat) : Item → List (Info × Nat × Str)
  | .mk k s i => (markIn m i, n, k) :: subEntries (markIn m i) (n + 1) s
def subEntries (m : Info) (n : Nat) : Option (List Item) → List (Info × Nat × Str)
  | none => []
  | some l => entries m n l
end

end NcDiff.Running
