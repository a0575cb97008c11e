import Verif.Spec.Lines
/-!
# Specification: what in the text of a running-config does not count
-/

namespace NcDiff.Running

/-- A line that never counts: a heading, a line of white space, or a remark; a line with nothing but `!` is not meant here, because it can
end a section whose lines are not indented. -/
def Idle (l : Str) : Prop := Heading l ∨ Blank l ∨ (Remark l ∧ rstrip l ≠ ['!'])

/-- A line that does not count if there is no section whose lines are not indented. -/
def Silent (l : Str) : Prop := Heading l ∨ Blank l ∨ Remark l

instance (l : Str) : Decidable (Idle l) := by unfold Idle; infer_instance
instance (l : Str) : Decidable (Silent l) := by unfold Silent; infer_instance

/-- The lines of a text that can count. -/
def busyLines (s : Str) : List Str := (splitLines s).filter fun l => decide ¬ Idle l

/-- The lines of a text without headings, white space and remarks. -/
def spokenLines (s : Str) : List Str := (splitLines s).filter fun l => decide ¬ Silent l

/-- The text begins no section whose lines are not indented. -/
def NoBlocks (t : Tables) (s : Str) : Prop := ∀ l ∈ spokenLines s, ¬ StartsBlank l → t.missingIndent.any (fun r => r l) = false

/-- White space at the end of the line does not decide whether it begins a section whose lines are not indented, however the line is indented. -/
def Steady (t : Tables) (l : Str) : Prop :=
  ∀ x : Str, x.dropWhile (· = ' ') = l.dropWhile (· = ' ') → t.missingIndent.any (fun r => r (rstrip x)) = t.missingIndent.any (fun r => r x)

end NcDiff.Running
