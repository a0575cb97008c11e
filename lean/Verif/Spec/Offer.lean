import Verif.Model.Offer
import Verif.Spec.ModelDiff
import Mathlib.Data.List.Forall2
/-!
# Specification: what a device offers
-/

namespace NcDiff.Offer

open ModelDiff (At)

/-- A capability begins with the text. -/
def Advertised (caps : List String) (p : String) : Prop := ∃ c ∈ caps, p.toList <+: c.toList

/-- The texts of a reply at a path from the root, `none` for an element without text. -/
def TextAt (root : Elem) (path : List QName) (x : Option String) : Prop :=
  ∃ q p, path = q :: p ∧ root.tag = q ∧ ∃ n, At root p n ∧ n.text = x

/-- The names of RFC 6022: `/netconf-state/schemas/schema/identifier`. -/
def Schema (r : Elem) (x : Option String) : Prop :=
  TextAt r [⟨"urn:ietf:params:xml:ns:netconf:base:1.0", "rpc-reply"⟩, ⟨"urn:ietf:params:xml:ns:netconf:base:1.0", "data"⟩,
    ⟨"urn:ietf:params:xml:ns:yang:ietf-netconf-monitoring", "netconf-state"⟩,
    ⟨"urn:ietf:params:xml:ns:yang:ietf-netconf-monitoring", "schemas"⟩,
    ⟨"urn:ietf:params:xml:ns:yang:ietf-netconf-monitoring", "schema"⟩,
    ⟨"urn:ietf:params:xml:ns:yang:ietf-netconf-monitoring", "identifier"⟩] x

/-- The names of RFC 7895: `/modules-state/module/name`. -/
def LibraryModule (r : Elem) (x : Option String) : Prop :=
  TextAt r [⟨"urn:ietf:params:xml:ns:netconf:base:1.0", "rpc-reply"⟩, ⟨"urn:ietf:params:xml:ns:netconf:base:1.0", "data"⟩,
    ⟨"urn:ietf:params:xml:ns:yang:ietf-yang-library", "modules-state"⟩,
    ⟨"urn:ietf:params:xml:ns:yang:ietf-yang-library", "module"⟩,
    ⟨"urn:ietf:params:xml:ns:yang:ietf-yang-library", "name"⟩] x

/-- Letters, digits and hyphens. -/
def Plain (c : Char) : Prop := c.isAlpha = true ∨ c.isDigit = true ∨ c = '-'

/-- The word after the first `module=` that is followed by one: as long as possible. -/
def ModuleParameter (c n : List Char) : Prop :=
  ∃ pre rest, c = pre ++ "module=".toList ++ n ++ rest ∧ n ≠ [] ∧ (∀ x ∈ n, Plain x) ∧ (∀ x ∈ rest.head?, ¬ Plain x) ∧
    ∀ pre' x rest', c = pre' ++ "module=".toList ++ x :: rest' → Plain x → pre.length ≤ pre'.length

/-- Each text is not greater than the following ones. -/
def Ascending : List String → Prop
  | [] => True
  | a :: r => (∀ b ∈ r, ¬ b < a) ∧ Ascending r

/-- Sorted names: those of the set, and no `None`. -/
def NamesOf (l : List (Option String)) (P : String → Prop) : Prop :=
  ∃ r, l = r.map some ∧ Ascending r ∧ ∀ x, x ∈ r ↔ P x

/-- A good reply in which all names are given. -/
def Good (answer : Option Reply) (N : Elem → Option String → Prop) (root : Elem) : Prop :=
  answer = some ⟨true, root⟩ ∧ ¬ N root none

/-- A row of `namespaces` for a module. -/
def Row (m : Elem) (row : Option String × String × Option String) : Prop :=
  strAttr m (.other "id") = row.1 ∧ strAttr m (.other "prefix") = some row.2.1 ∧
    ((row.2.2 = none ∧ ∀ k ∈ m.kids, k.tag ≠ ⟨"", "namespace"⟩) ∨
      ∃ a k b, m.kids = a ++ k :: b ∧ (∀ x ∈ a, x.tag ≠ ⟨"", "namespace"⟩) ∧ k.tag = ⟨"", "namespace"⟩ ∧
        row.2.2 = some (k.text.getD ""))

/-- A module with a prefix (a submodule has none). -/
def hasPrefix (m : Elem) : Bool := m.tag = ⟨"", "module"⟩ ∧ strAttr m (.other "prefix") ≠ none

/-- What happens to a device object. -/
inductive Event where
  | loadable (monitoring library : Option Reply)
  | namespaces
  | scan (dependencies : Elem)
  | load (monitoring library : Option Reply) (name : String) (compiled : Except Err String)

/-- The object after an event. -/
def Event.run (s : Session) : Event → Session
  | .loadable m l => (readLoadable s m l).2
  | .namespaces => (readNamespaces s).2
  | .scan d => Offer.scan s d
  | .load m l n c => (loadModel s m l n c).2

/-- The object after a history. -/
def after (s : Session) (h : List Event) : Session := h.foldl Event.run s

/-- The compiler after a history. -/
def lastScan (h : List Event) : Option Elem := h.foldl (fun c e => match e with | .scan d => some d | _ => c) none

end NcDiff.Offer
