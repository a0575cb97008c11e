import Verif.Model.RunningConfig
/-!
# Specification: which lines of a text are commands
-/

namespace NcDiff.Running

mutual
/-- All commands in the order in which they are printed. -/
def allCommands : List Item → List Str
  | [] => []
  | a :: r => itemCommands a ++ allCommands r
def itemCommands : Item → List Str
  | .mk k s _ => k :: subCommands s
def subCommands : Option (List Item) → List Str
  | none => []
  | some l => allCommands l
end

/-- The command of a line: without the blanks before and the white space after it. -/
def command (l : Str) : Str := rstrip (l.dropWhile (· = ' '))

/-- Only white space. -/
def Blank (l : Str) : Prop := ∀ c ∈ l, isSpace c = true

/-- The first character that is not a blank is `!` or `%`. -/
def Remark (l : Str) : Prop := (l.dropWhile (· = ' ')).head? = some '!' ∨ (l.dropWhile (· = ' ')).head? = some '%'

/-- A heading that devices print, with something after it. -/
def Heading (l : Str) : Prop :=
  ("Building configuration".toList <+: l ∧ 22 < (strip l).length) ∨ ("Current configuration".toList <+: l ∧ 21 < (strip l).length)

/-- The line begins with a blank. -/
def StartsBlank (l : Str) : Prop := l.head? = some ' '

instance (l : Str) : Decidable (Blank l) := by unfold Blank; infer_instance
instance (l : Str) : Decidable (Remark l) := by unfold Remark; infer_instance
instance (l : Str) : Decidable (Heading l) := by unfold Heading; infer_instance
instance (l : Str) : Decidable (StartsBlank l) := by unfold StartsBlank; infer_instance

/-- A line with a command. -/
def Meant (l : Str) : Prop := ¬ Blank l ∧ ¬ Remark l

instance (l : Str) : Decidable (Meant l) := by unfold Meant; infer_instance

/-- The commands that are heard.  `under`: there is a line without blanks before it that this line can belong to; `block`: this is
one of the sections whose lines are not indented and that end with `!`.  An indented line that can belong to nothing is not heard. -/
def heard (t : Tables) : Bool → Bool → List Str → List Str
  | _, _, [] => []
  | under, block, l :: r =>
    if Heading l ∨ Blank l then heard t under block r
    else if block = true ∧ rstrip l = ['!'] then heard t false false r
    else if Remark l then heard t under block r
    else if StartsBlank l then
      if under = true then command l :: heard t under block r else heard t under block r
    else command l :: heard t true (block || t.missingIndent.any (fun x => x l)) r

end NcDiff.Running
