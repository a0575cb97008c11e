import Verif.Model.Types
/-!
# Which values a type offers

The values that can be listed for a leaf: `true` and `false`, the names of an enumeration, the identities below a base, and for a
union those of its types.  A type that only gives another name to a type has the values of that type.
-/

namespace NcDiff.Types

/-- The statement gives another name to a type and restricts nothing. -/
def Renames (i : TInfo) (td : Option TypeS) (t : TypeS) : Prop := td = some t ∧ i.restricted = false

/-- `v` is a value that can be listed for the type. -/
inductive Offers (known : Known) : TypeS → String → Prop
  | typedef {i td ms t v} : Renames i td t → Offers known t v → Offers known (.mk i td ms) v
  | boolean {i td ms v} : (∀ t, ¬ Renames i td t) → i.arg = "boolean" → v ∈ ["true", "false"] → Offers known (.mk i td ms) v
  | enum {i td ms v} : (∀ t, ¬ Renames i td t) → i.arg = "enumeration" → v ∈ i.enums → Offers known (.mk i td ms) v
  | member {i td ms v m} : (∀ t, ¬ Renames i td t) → i.arg = "union" → m ∈ ms → Offers known m v →
      Offers known (.mk i td ms) v
  | identity {i td ms v b l} : (∀ t, ¬ Renames i td t) → i.arg = "identityref" → i.base = some b →
      known i.module b = .ok l → v ∈ l → Offers known (.mk i td ms) v

/-- No value is empty or has the character that separates values. -/
def Separable (known : Known) (t : TypeS) : Prop := ∀ v, Offers known t v → v ≠ "" ∧ '|' ∉ v.toList

/-- Listing the values of the type needs the identities below a base that cannot be found out. -/
inductive Unknown (known : Known) : TypeS → Err → Prop
  | typedef {i td ms t x} : Renames i td t → Unknown known t x → Unknown known (.mk i td ms) x
  | member {i td ms m x} : (∀ t, ¬ Renames i td t) → i.arg = "union" → m ∈ ms → Unknown known m x →
      Unknown known (.mk i td ms) x
  | identity {i td ms b x} : (∀ t, ¬ Renames i td t) → i.arg = "identityref" → i.base = some b →
      known i.module b = .error x → Unknown known (.mk i td ms) x

/-- How the argument of a `base` statement is written: a name, or a prefix, a colon and a name. -/
inductive BaseText : String → Identity.Base → Prop
  | plain {n : String} : ':' ∉ n.toList → BaseText n (none, n)
  | pre {p n : String} : ':' ∉ p.toList → BaseText (p ++ ":" ++ n) (some p, n)

end NcDiff.Types
