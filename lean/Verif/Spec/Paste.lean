import Verif.Spec.Render
import Verif.Spec.Running
import Verif.Spec.Overwrite
/-!
# Specification: typing commands into a device

A device has a tree of lines.  It is described by the set of paths of lines that are configured: a
line, preceded by the lines of the sections it is in.
-/

namespace NcDiff.Running

abbrev Path := List Str

/-- The configured lines. -/
abbrev State := Path → Prop

/-- The lines of a config. -/
def hasPath : List Item → Path → Prop
  | _, [] => False
  | l, [k] => ∃ i ∈ l, i.key = k
  | l, k :: p => ∃ i ∈ l, i.key = k ∧ ∃ s, i.sub = some s ∧ hasPath s p

/-- What a device knows of its commands. -/
structure Device where
  /-- Lines of a section that replace one another, such as two descriptions. -/
  same : Str → Str → Prop
  /-- A negation that removes a line without repeating all of it, such as `no ip address`. -/
  short : Str → Str → Prop
  /-- Commands that are in force unless they are negated, such as `ip routing`.  Of these the config shows the negation. -/
  on : Str → Prop

/-- The command `c` removes the line `k`. -/
def Device.removes (dev : Device) (c k : Str) : Prop := c = "no ".toList ++ k ∨ dev.short c k

/-- The command `c` replaces the other line `k`. -/
def Device.replaces (dev : Device) (c k : Str) : Prop := k ≠ c ∧ dev.same c k

/-- After the command `c` the line `k` is no longer there. -/
def Device.clears (dev : Device) (c k : Str) : Prop :=
  if "no ".toList.isPrefixOf c then dev.removes c k else dev.replaces c k ∨ k = "no ".toList ++ c

/-- After the command `c` it is itself a line of the config. -/
def Device.shows (dev : Device) (c : Str) : Prop :=
  if "no ".toList.isPrefixOf c then dev.on (c.drop 3) else ¬ dev.on c

mutual
/-- Typing commands one after the other. -/
def typeAll (dev : Device) : List Item → State → State
  | [], st => st
  | a :: r, st => typeAll dev r (typeItem dev a st)
/-- Typing one command.  `no X` removes the line `X`, or those it is short for, and everything below, and is shown if `X`
is in force otherwise; any other command `X` configures `X` in place of `no X` and the lines it replaces, and is not shown
if it is in force anyway; commands below `X` act on the section `X`. -/
def typeItem (dev : Device) : Item → State → State
  | .mk k s _, st => typeSub dev k s st
def typeSub (dev : Device) (k : Str) : Option (List Item) → State → State
  | none, st => fun p => (st p ∧ ∀ k' q, p = k' :: q → ¬ dev.clears k k') ∨ (p = [k] ∧ dev.shows k)
  | some l, st => fun p =>
    match p with
    | [] => st []
    | k' :: q => if k' = k then q = [] ∨ typeAll dev l (fun q => st (k :: q)) q else st (k' :: q)
end

/-- Two lines in which an expression for commands that overwrite one another finds the same. -/
def sameHead (t : Tables) (a b : Str) : Prop := ∃ m ∈ found t a, ∃ n ∈ found t b, strip m = strip n

/-- The device for which the tables are made: commands that overwrite one another do so, and short negations remove the
lines they are short for.  Any commands may be in force unless they are negated. -/
def deviceOf (t : Tables) (on : Str → Prop) : Device where
  on := on
  same := sameHead t
  short c k := ∃ s ∈ t.shortNo, strip s = c ∧ s <+: "no ".toList ++ k

/-- The negation of a line. -/
def negation (t : Tables) (k : Str) : Str :=
  match t.shortNo.find? (fun s => s.isPrefixOf ("no ".toList ++ k)) with
  | some s => strip s
  | none => "no ".toList ++ k

/-- The command that undoes a line. -/
def undo (t : Tables) (k : Str) : Str := if "no ".toList.isPrefixOf k then k.drop 3 else negation t k

/-- A line that is not itself a negation and does not start with a diff mark, and whose sub-section cannot be taken for a
part of it. -/
structure PasteLine (t : Tables) (k : Str) : Prop where
  good : GoodLine t k
  noGood : GoodLine t (negation t k)
  mark : ∀ r, k ≠ '-' :: r ∧ k ≠ '+' :: r
  positive : ¬ "no ".toList <+: k
  negative : "no ".toList <+: negation t k
  short : ∀ s ∈ t.shortNo, ¬ s <+: k
  keep : ∀ rx ∈ t.overwritable, rx k = none → ∀ r, rx (k ++ '\n' :: r) = none
  blank : ∀ m ∈ found t k, lstrip m = strip m ++ [' ']
  alone : ∀ r ∈ t.sibling, r k = false

/-- A line `no X`, where `X` is in force otherwise.  Neither is short for something or overwrites something. -/
structure ToggleLine (t : Tables) (on : Str → Prop) (k : Str) : Prop where
  good : GoodLine t k
  bare : GoodLine t (k.drop 3)
  negative : "no ".toList <+: k
  positive : ¬ "no ".toList <+: k.drop 3
  on : on (k.drop 3)
  mark : ∀ r, k.drop 3 ≠ '-' :: r ∧ k.drop 3 ≠ '+' :: r
  short : ∀ s ∈ t.shortNo, strip s ≠ k ∧ strip s ≠ "no ".toList ++ k ∧ ¬ s <+: k ∧ ¬ s <+: k.drop 3 ∧ ¬ s <+: "no ".toList ++ k
  plain : found t k = [] ∧ found t (k.drop 3) = []
  free : ∀ a, PasteLine t a → ∀ m ∈ found t a, ¬ lstrip m <+: k.drop 3
  alone : ∀ r ∈ t.sibling, r k = false

/-- A line of a config: a command that is not in force otherwise, or the negation of one that is. -/
inductive DeviceLine (t : Tables) (on : Str → Prop) (k : Str) : Prop
  | line : PasteLine t k → ¬ on k → ¬ on ((negation t k).drop 3) → DeviceLine t on k
  | toggle : ToggleLine t on k → DeviceLine t on k

/-- The expressions for commands that overwrite one another are apart: no two find the same, nothing that is found is the
proper beginning of something that is found, and a command with the same beginning has the same head. -/
structure HeadsOk (t : Tables) : Prop where
  apart : t.overwritable.Pairwise fun f g => ∀ a b, PasteLine t a → PasteLine t b → ∀ m n, f a = some m → g b = some n →
    strip m ≠ strip n
  exclusive : ∀ a b, PasteLine t a → PasteLine t b → ∀ m ∈ found t a, ∀ n ∈ found t b, lstrip m <+: lstrip n →
    lstrip m = lstrip n
  known : ∀ a b, PasteLine t a → PasteLine t b → ∀ m ∈ found t a, "no ".toList ++ lstrip m <+: negation t b →
    ∃ n ∈ found t b, strip m = strip n

/-- The sub-section, empty if there is none. -/
def Item.inner (i : Item) : List Item := i.sub.getD []

/-- The line is marked as added or removed. -/
def Item.marked (i : Item) : Bool := i.info = .add || i.info = .del

/-- The command for an added or removed line. -/
def Item.command (t : Tables) (i : Item) : Str :=
  if i.info = .add then i.key else undo t i.key

/-- In no section of a diff is a command the start of another one, neither of the negations nor of the other commands; and
no removed line is the start of an added line that does not replace it. -/
inductive PrefixFree (t : Tables) : List Item → Prop
  | mk {d} : (∀ i ∈ d, ∀ j ∈ d, i.marked → j.marked →
        "no ".toList.isPrefixOf (i.command t) = "no ".toList.isPrefixOf (j.command t) →
        i.command t <+: j.command t → i.command t = j.command t) →
      (∀ i ∈ d, ∀ j ∈ d, i.info = .del → j.info = .add → i.key <+: j.key → i.key = j.key ∨ sameHead t j.key i.key) →
      (∀ i ∈ d, i.info = .ctx → ∀ s, i.sub = some s → PrefixFree t s) → PrefixFree t d

/-- In no section do two lines replace one another or does the negation of one line remove another one; and lines that
replace others or are negations have no sub-section. -/
inductive Single (t : Tables) (on : Str → Prop) : List Item → Prop
  | mk {l} : (∀ i ∈ l, ∀ j ∈ l, sameHead t i.key j.key → i.key = j.key) →
      (∀ i ∈ l, ∀ j ∈ l, (deviceOf t on).removes (negation t i.key) j.key → i.key = j.key) →
      (∀ i ∈ l, found t i.key ≠ [] ∨ "no ".toList <+: i.key → i.sub = none) →
      (∀ i ∈ l, ∀ s, i.sub = some s → Single t on s) → Single t on l

/-- A property of all lines. -/
inductive AllLines (P : Str → Prop) : List Item → Prop
  | mk {l} : (∀ i ∈ l, P i.key) → (∀ i ∈ l, ∀ s, i.sub = some s → AllLines P s) → AllLines P l

/-- Two configs without repeated lines, in which lines that exclude one another are not together. -/
structure PasteOk (t : Tables) (on : Str → Prop) (l1 l2 : List Item) : Prop where
  good1 : GoodText t l1
  good2 : GoodText t l2
  lines1 : AllLines (DeviceLine t on) l1
  lines2 : AllLines (DeviceLine t on) l2
  distinct1 : Distinct l1
  distinct2 : Distinct l2
  single1 : Single t on l1
  single2 : Single t on l2
  heads : HeadsOk t

end NcDiff.Running
