import Verif.Model.Config
/-!
# Specification: nodes of configs and edit-configs, and the models they belong to
-/

namespace NcDiff

/-- Some node is reached from the node `e` by children with the tags `p`. -/
inductive HasPath : Elem → List QName → Prop
  | here (e : Elem) : HasPath e []
  | down {e k : Elem} {p : List QName} (hk : k ∈ e.kids) (h : HasPath k p) : HasPath e (k.tag :: p)

/-- All nodes of `r` are at places where `a` has a node. -/
def PlacesOf (r a : Elem) : Prop := ∀ p, HasPath r p → HasPath a p

/-- All nodes of `r` are at places where `a` or `b` has a node. -/
def PlacesOfEither (r a b : Elem) : Prop := ∀ p, HasPath r p → HasPath a p ∨ HasPath b p

/-- A root of one of the configs belongs to the model `m`. -/
def RootIn (d : Device) (cs : List Elem) (m : String) : Prop := ∃ c ∈ cs, ∃ k ∈ c.kids, d.roots.lookup k.tag = some m

/-- `l` lists the models of the configs: sorted, and each of them once. -/
def ModelsOf (d : Device) (cs : List Elem) (l : List String) : Prop :=
  l.Pairwise (· < ·) ∧ ∀ m, m ∈ l ↔ RootIn d cs m

/-- The dictionary `l` gives each tag of a root of the configs its model, and has no other key. -/
def RootsOf (d : Device) (cs : List Elem) (l : List (QName × String)) : Prop :=
  (l.map Prod.fst).Nodup ∧ ∀ t m, (t, m) ∈ l ↔ (∃ c ∈ cs, ∃ k ∈ c.kids, k.tag = t) ∧ d.roots.lookup t = some m

/-- Every root of the config belongs to a model that is loaded. -/
def KnownRoots (d : Device) (c : Elem) : Prop := ∀ k ∈ c.kids, ∃ m, d.roots.lookup k.tag = some m

end NcDiff
