import Mathlib.Data.List.Forall2
import Verif.Model.NodeReport
import Verif.Spec.ModelDiff
import Verif.Spec.XPath
import Verif.Spec.Position
/-!
# Specification of comparing one node of two models
-/

namespace NcDiff.Report

/-- What a user wants to know of a node. -/
structure Facts where
  tag : List Char
  text : Option String
  attrs : List (String × String)

def factsOf (e : Elem) : Facts := ⟨e.tag.clark, e.text, e.attrs.map fun p => (attrName p.1, attrText p.2)⟩

/-- Everything fits on one line, and the names of attributes have no blanks. -/
structure OneLine (e : Elem) : Prop where
  tag : '\n' ∉ e.tag.clark
  text : ∀ t, e.text = some t → '\n' ∉ t.toList
  attrs : ∀ p ∈ e.attrs, '\n' ∉ (attrName p.1).toList ∧ ' ' ∉ (attrName p.1).toList ∧ '\n' ∉ (attrText p.2).toList

/-- An engine that evaluates location paths as `Spec/XPath.lean` says.  A prefix for `None` is refused. -/
def pathEngine : Engine := fun t ps s =>
  if ps.any (fun p => p.2.isNone) then .error .typeError
  else
    match XPath.eval ⟨ps.filterMap fun p => p.2.map (p.1, ·), false⟩ t s with
    | none => .error .syntaxError
    | some l => .ok (l.filterMap (XPath.document t).at?)

/-- A path as a user writes it: `./prefix:name/prefix:name`. -/
def pathOf (l : List (String × String)) : List Char := '.' :: l.flatMap fun p => '/' :: (p.1.toList ++ ':' :: p.2.toList)

/-- The URLs of a model are known, and each prefix has one entry, as in every dictionary. -/
structure Prefixed (m : Show.Model) : Prop where
  urls : ∀ e ∈ m.prefixes, e.2 ≠ none
  dict : (m.prefixes.map Prod.fst).Nodup

/-- What a prefix stands for: what the second model says, or what the first says if the second does not have it. -/
def StandsFor (m1 m2 : Show.Model) (p u : String) : Prop :=
  (p, some u) ∈ m2.prefixes ∨ ((p, some u) ∈ m1.prefixes ∧ p ∉ m2.prefixes.map Prod.fst)

/-- The path in names is the path in tags. -/
def Means (m1 m2 : Show.Model) (l : List (String × String)) (path : List QName) : Prop :=
  List.Forall₂ (fun p q => StandsFor m1 m2 p.1 q.ns ∧ p.2 = q.name) l path

/-- No prefix has different URLs in the two models. -/
def NoClash (m1 m2 : Show.Model) : Prop := ∀ p u v, (p, u) ∈ m1.prefixes → (p, v) ∈ m2.prefixes → u = v

end NcDiff.Report
