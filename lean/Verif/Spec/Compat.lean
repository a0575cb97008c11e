import Verif.Model.Compat
import Verif.Spec.Deep
import Verif.Spec.ModelDiff
/-!
# Specification of configs of two devices
-/

namespace NcDiff

/-- The loaded models: one tree for a name, named so, and each a schema tree. -/
structure WellLoaded (h : Host) : Prop where
  names : (h.models.map Prod.fst).Nodup
  named : ∀ m t, (m, t) ∈ h.models → t.tag = ⟨"", m⟩
  schema : ∀ m t, (m, t) ∈ h.models → ModelDiff.SchemaTree t

/-- No two loaded models have a root in common. -/
def OwnRoots (h : Host) : Prop :=
  ∀ m t m' t', (m, t) ∈ h.models → (m', t') ∈ h.models →
    ∀ k ∈ t.kids, ∀ k' ∈ t'.kids, k.tag = k'.tag → m = m'

/-- The model has a root that is in the config. -/
def UsesModel (h : Host) (c : Elem) (m : String) : Prop :=
  ∃ t, (m, t) ∈ h.models ∧ ∃ r ∈ t.kids, ∃ k ∈ c.kids, k.tag = r.tag

/-- Every root of the config belongs to a loaded model. -/
def RootsLoaded (h : Host) (c : Elem) : Prop :=
  ∀ k ∈ c.kids, ∃ m t, (m, t) ∈ h.models ∧ ∃ r ∈ t.kids, r.tag = k.tag

/-- The model has the same prefix and the same URL on both devices. -/
def SameRow (h1 h2 : Host) (m : String) : Prop :=
  ∃ r, h1.namespaces.lookup m = some r ∧ h2.namespaces.lookup m = some r

/-- The model is loaded. -/
def HasModel (h : Host) (m : String) : Prop := ∃ t, (m, t) ∈ h.models

/-- The model is the same on both devices: same nodes at the same paths. -/
def SameModel (h1 h2 : Host) (m : String) : Prop :=
  ∃ t1 t2, (m, t1) ∈ h1.models ∧ (m, t2) ∈ h2.models ∧ ModelDiff.SameBelow t1 t2

/-- At the children of a node, with the schema of the first device: a name in the key statement of a list belongs
to one of its children only, and both devices read the value alike. -/
def ReadAlike (d1 d2 : Device) (sc : Scope) (e : Elem) : Prop :=
  ∀ k ∈ e.kids, ∀ f, d1.lookup sc k.tag = .ok f →
    (∀ n ∈ f.node.info.keyNames, ∀ c ∈ f.node.kids, ∀ c' ∈ f.node.kids,
      c.tag.name = n → c'.tag.name = n → c.tag = c'.tag) ∧
    parseText d1 k f.node = parseText d2 k f.node

end NcDiff
