import Verif.Spec.Yang
/-!
# Names in key statements
-/

namespace NcDiff.Compile

/-- `n` stands in the text: on either side there is the end of the text, or a character that separates names. -/
def StandsIn (sep : Char → Prop) (n v : List Char) : Prop :=
  ∃ a b, v = a ++ n ++ b ∧ (∀ c ∈ a.getLast?, sep c) ∧ ∀ c ∈ b.head?, sep c

/-- The key statement names the leaf: RFC 7950, section 7.8.2, where names are separated by white space. -/
def NamesKey (v n : String) : Prop := StandsIn White n.toList v.toList

end NcDiff.Compile
