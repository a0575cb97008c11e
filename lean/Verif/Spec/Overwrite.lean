import Verif.Model.RunningConfig
/-!
# Commands that overwrite one another

A command such as `description x` replaces the one before.  `heads` are the parts of a command by which this is
recognized.
-/

namespace NcDiff.Running

/-- Of the commands with the same head, the last one. -/
def keepLast (heads : Str → List Str) : List Str → List Str
  | [] => []
  | a :: r => if ∃ h ∈ heads a, ∃ b ∈ r, h ∈ heads b then keepLast heads r else a :: keepLast heads r

/-- Each head in `hs` removes one negation, the first ones that begin with `no` and the head. -/
def spend (hs : List Str) : List Str → List Str
  | [] => []
  | n :: r =>
    match hs.find? (fun h => ("no ".toList ++ h).isPrefixOf (lstrip n)) with
    | some h => spend (hs.erase h) r
    | none => n :: spend hs r

/-- What the expressions of the table find in a command. -/
def found (t : Tables) (s : Str) : List Str := t.overwritable.filterMap fun f => f s

/-- The expressions of the table are apart for these commands: no two expressions find the same, and what is found in
one command is not the beginning of something else that is found. -/
structure Apart (t : Tables) (l : List Str) : Prop where
  apart : t.overwritable.Pairwise fun f g => ∀ a ∈ l, ∀ b ∈ l, ∀ m n, f a = some m → g b = some n → strip m ≠ strip n
  exclusive : ∀ a ∈ l, ∀ b ∈ l, ∀ m ∈ found t a, ∀ n ∈ found t b, lstrip m <+: lstrip n → lstrip m = lstrip n

end NcDiff.Running
