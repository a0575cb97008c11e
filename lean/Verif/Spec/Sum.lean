import Verif.Spec.Config
import Verif.Model.NodeAdd
/-!
# Specification of sums
-/

namespace NcDiff

/-- No node of the tree carries an XML attribute. -/
inductive NoAttrs : Elem → Prop
  | mk {e : Elem} (here : e.attrs = []) (sub : ∀ k ∈ e.kids, NoAttrs k) : NoAttrs e

/-- Well-shaped at every level: every child has a schema node and the right shape (`KidOk`).
Unlike `Valid`, attributes and duplicates are not restricted. -/
inductive Shaped (d : Device) : Scope → Elem → Prop
  | mk {sc : Scope} {e : Elem}
      (shape : ∀ k ∈ e.kids, ∃ f, d.lookup sc k.tag = .ok f ∧ KidOk d f.node k)
      (sub : ∀ k ∈ e.kids, ∀ f, d.lookup sc k.tag = .ok f → Shaped d (.node f.node) k) :
      Shaped d sc e

/-- The instance is mentioned among the children of the delta. -/
def Mentioned (d : Device) (sc : Scope) (delta : Elem) (k : Elem) : Prop :=
  ∃ o ∈ delta.kids, SameInstance d sc k o

open Classical in
/-- Applying `delta` to `src` gave `res` and touched only what the delta mentions: the unmentioned
children of `src` are, in their order, still among the children of `res`; and each child that the
delta mentions for merging has a result (`sub`) that is again framed, and that is a child of `res`
unless it became an empty non-presence container. -/
inductive Framed (d : Device) : Scope → Elem → Elem → Elem → Prop
  | mk {sc : Scope} {delta src res : Elem} (sub : Elem → Elem)
      (keep : (src.kids.filter (fun k => ¬ Mentioned d sc delta k)).Sublist res.kids)
      (deep : ∀ s ∈ src.kids, ∀ o ∈ delta.kids, SameInstance d sc s o → opOf o = "merge" →
        ∀ f, d.lookup sc s.tag = .ok f → f.node.ntype = .container ∨ f.node.ntype = .list →
        Framed d (.node f.node) o s (sub s))
      (place : ∀ s ∈ src.kids, ∀ o ∈ delta.kids, SameInstance d sc s o → opOf o = "merge" →
        ∀ f, d.lookup sc s.tag = .ok f → f.node.ntype = .container ∨ f.node.ntype = .list →
        sub s ∈ res.kids ∨ (f.node.isNP = true ∧ (sub s).kids = [])) :
      Framed d sc delta src res

end NcDiff
