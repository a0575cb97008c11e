import Verif.Model.RunningConfig
/-!
# Specification: rendering nested lines as text
-/

namespace NcDiff.Running

mutual
/-- The lines of a section at depth `n`: two blanks for every level. -/
def textLines (n : Nat) : List Item → List Str
  | [] => []
  | a :: r => itemLines n a ++ textLines n r
def itemLines (n : Nat) : Item → List Str
  | .mk k s _ => (List.replicate (2 * n) ' ' ++ k) :: subLines n s
def subLines (n : Nat) : Option (List Item) → List Str
  | none => []
  | some l => textLines (n + 1) l
end

/-- Lines as a text: a line feed after each. -/
def unlines (ls : List Str) : Str := ls.flatMap (fun l => l ++ ['\n'])

/-- A line that a device prints for a command: not blank at either end, one line, not a comment, not
one of the two headers, not one of the commands whose sub-commands have no indentation. -/
structure GoodLine (t : Tables) (k : Str) : Prop where
  first : ∃ c r, k = c :: r ∧ isSpace c = false ∧ c ≠ '!' ∧ c ≠ '%'
  last : rstrip k = k
  oneLine : ∀ c ∈ k, isBreak c = false
  header : ¬ "Building configuration".toList <+: k ∧ ¬ "Current configuration".toList <+: k
  indented : ∀ r ∈ t.missingIndent, r k = false

/-- A parsed config: good lines without marks, no empty sections. -/
inductive GoodText (t : Tables) : List Item → Prop
  | nil : GoodText t []
  | leaf {k l} : GoodLine t k → GoodText t l → GoodText t (.mk k none .ctx :: l)
  | node {k s l} : GoodLine t k → s ≠ [] → GoodText t s → GoodText t l →
      GoodText t (.mk k (some s) .ctx :: l)

end NcDiff.Running
