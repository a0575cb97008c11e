import Verif.Spec.Lines
/-!
# Specification: commands that look like children but are siblings
-/

namespace NcDiff.Running

/-- No command that matches has a child that matches, at any depth. -/
inductive Flat (rx : Str → Bool) : List Item → Prop
  | nil : Flat rx []
  | cons {k : Str} {s : Option (List Item)} {i : Info} {r : List Item} :
      (∀ l, s = some l → Flat rx l) → (rx k = true → ∀ l, s = some l → l ≠ [] ∧ ∀ c ∈ l, rx c.key = false) →
      Flat rx r → Flat rx (.mk k s i :: r)

/-- A section, or no section if there is nothing in it. -/
def sectionOf (l : List Item) : Option (List Item) := if l = [] then none else some l

mutual
/-- What is meant: each matching child of a matching command becomes its next sibling, at all depths. -/
def hoistList (rx : Str → Bool) : List Item → List Item
  | [] => []
  | a :: r => hoistItem rx a ++ hoistList rx r
def hoistItem (rx : Str → Bool) : Item → List Item
  | .mk k none i => [.mk k none i]
  | .mk k (some s) i =>
    if rx k then
      .mk k (sectionOf ((hoistList rx s).filter fun c => !rx c.key)) i :: (hoistList rx s).filter fun c => rx c.key
    else [.mk k (some (hoistList rx s)) i]
end

/-- In each section there is at most one command that has siblings among its children, and these siblings and what comes after the command
are flat.  This is how devices print the commands in question: all further siblings are below the first one. -/
inductive OneNest (rx : Str → Bool) : List Item → Prop
  | nil : OneNest rx []
  | leaf {k : Str} {i : Info} {r : List Item} : OneNest rx r → OneNest rx (.mk k none i :: r)
  | plain {k : Str} {s : List Item} {i : Info} {r : List Item} : rx k = false → OneNest rx s → OneNest rx r →
      OneNest rx (.mk k (some s) i :: r)
  | nest {k : Str} {s : List Item} {i : Info} {r : List Item} : rx k = true → Flat rx (s.filter fun c => rx c.key) →
      OneNest rx (s.filter fun c => !rx c.key) → Flat rx r → OneNest rx (.mk k (some s) i :: r)
  | alone {k : Str} {s : List Item} {i : Info} {r : List Item} : rx k = true → (∀ c ∈ s, rx c.key = false) → OneNest rx s →
      OneNest rx r → OneNest rx (.mk k (some s) i :: r)

end NcDiff.Running
