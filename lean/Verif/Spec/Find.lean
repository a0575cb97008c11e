import Verif.Model.Find
import Verif.Spec.NodeReport
import Verif.Spec.Tags
import Verif.Model.Statement
/-!
# Specification of searching in replies and configs
-/

namespace NcDiff.Find

/-- An engine that evaluates location paths as `Spec/XPath.lean` says. -/
def pathEngine : Engine := fun t ps s =>
  match XPath.eval ⟨ps, false⟩ t s with
  | none => .error .syntaxError
  | some l => .ok l

/-- An absolute path: `/prefix:name/prefix:name`. -/
def rootPathOf (l : List (String × String)) : List Char := l.flatMap fun p => '/' :: (p.1.toList ++ ':' :: p.2.toList)

/-- The names of a path with the prefixes of a table stand for the tags. -/
def Means (table : List (String × String)) (l : List (String × String)) (path : List QName) : Prop :=
  List.Forall₂ (fun p q => (p.1, q.ns) ∈ table ∧ p.2 = q.name) l path

/-- The set of the URLs that are declared in the document, in any order. -/
structure UrlsOf (e : Elem) (urls : List String) : Prop where
  all : ∀ u, u ∈ urls ↔ Declared u e
  nodup : urls.Nodup

/-- A document as a parser gives it: each node is in a namespace that is declared there, and its name is an identifier. -/
structure Parsed (e : Elem) : Prop where
  declared : ∀ x, NodeOf x e → ∃ p, (p, x.tag.ns) ∈ x.nsmap
  names : ∀ x, NodeOf x e → Ident x.tag.name.toList

/-- The prefixes of modules are identifiers. -/
def PrefixIdents (d : Device) : Prop := ∀ m ∈ d.namespaces, Ident m.2.1.toList

end NcDiff.Find
