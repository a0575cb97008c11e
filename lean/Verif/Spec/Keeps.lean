import Verif.Spec.Cases
import Verif.Spec.Minimal
/-!
# A NETCONF server keeps what an edit-config is not about

A server knows more models than the library has loaded, and holds data of them: at the top, and inside the nodes of the
loaded models, which they augment.
-/

namespace NcDiff.Compile

/-- One of the nodes `D` of an edit-config is about the node `y` of the server, or removes it because `y` is of another
case of a choice. -/
def concerned (ex : QName → QName → Bool) (pl : List Place) (D : List Elem) (y : Elem) : Bool :=
  D.any fun o =>
    (match placeOf pl o.tag with
      | some p => about p o y
      | none => false) || (!deletes o && ex o.tag y.tag)

/-- A server that had `m`, got the nodes `D` and now has `r` has kept everything else: the nodes that `D` is not about are
the same as before, in the same order; a node that is merged is still there, and the same is true of its children. -/
inductive Keeps : (QName → QName → Bool) → List Place → List Elem → List Elem → List Elem → Prop
  | mk {ex : QName → QName → Bool} {pl : List Place} {D m r : List Elem}
      (beside : (r.filter fun y => !concerned ex pl D y) = m.filter fun y => !concerned ex pl D y)
      (stays : ∀ o ∈ D, ∀ p, placeOf pl o.tag = some p → p.2.info.keyword = "container" ∨ p.2.info.keyword = "list" →
        operation o = "merge" → ∀ y ∈ m, about p o y = true → ∃ y' ∈ r, about p o y' = true)
      (inside : ∀ o ∈ D, ∀ p, placeOf pl o.tag = some p → p.2.info.keyword = "container" ∨ p.2.info.keyword = "list" →
        operation o = "merge" → ∀ y ∈ m, about p o y = true → ∀ y' ∈ r, about p o y' = true →
          Keeps (rivals p) (places p.1 p.2.kids) o.kids y.kids y'.kids) : Keeps ex pl D m r

/-- The models of a server, `pl'`, contain the models that the library has loaded, `pl`: the statements of the loaded
models are there, the keys of a list are the same, and no case is added to a choice of a loaded model. Besides these
statements there may be others, at any depth. -/
inductive Richer : List Place → List Place → Prop
  | mk {pl pl' : List Place}
      (has : ∀ t p, placeOf pl t = some p → ∃ p', placeOf pl' t = some p' ∧ p'.2.info = p.2.info ∧ keyNames p' = keyNames p ∧
        ∀ q c, placeOf (places p.1 p.2.kids) q = some c → ∀ q', rivals p' q q' = rivals p q q')
      (sub : ∀ t p p', placeOf pl t = some p → placeOf pl' t = some p' →
        Richer (places p.1 p.2.kids) (places p'.1 p'.2.kids)) : Richer pl pl'

/-- Where the configs `S` and `T` are the same, a server that had `m` and now has `r` has exactly what it had, at every
level; and so it has of what is not in the loaded models.  Only entries of ordered-by-user lists may have moved, and what
identifies an entry is written again. -/
inductive Undisturbed (d : Device) : Scope → List Place → Elem → Elem → List Elem → List Elem → Prop
  | mk {sc : Scope} {pl : List Place} {S T : Elem} {m r : List Elem}
      (strangers : (r.filter fun y => (placeOf pl y.tag).isNone) = m.filter fun y => (placeOf pl y.tag).isNone)
      (same : ∀ s ∈ S.kids, ∀ k ∈ T.kids, SameInstance d sc s k → ∀ f, d.lookup sc k.tag = .ok f →
        SameConfig d (.node f.node) s k → ¬ Repeated f →
        ∀ p, placeOf pl s.tag = some p → ∀ y ∈ m, about p s y = true → y ∈ r)
      (stays : ∀ s ∈ S.kids, ∀ k ∈ T.kids, SameInstance d sc s k →
        ∀ p, placeOf pl s.tag = some p → p.2.info.keyword = "container" ∨ p.2.info.keyword = "list" →
        ∀ y ∈ m, about p s y = true → ∃ y' ∈ r, about p s y' = true)
      (inside : ∀ s ∈ S.kids, ∀ k ∈ T.kids, SameInstance d sc s k → ∀ f, d.lookup sc k.tag = .ok f →
        ∀ p, placeOf pl s.tag = some p → p.2.info.keyword = "container" ∨ p.2.info.keyword = "list" →
        ∀ y ∈ m, about p s y = true → ∀ y' ∈ r, about p s y' = true →
          Undisturbed d (.node f.node) (places p.1 p.2.kids) s k y.kids y'.kids) : Undisturbed d sc pl S T m r

end NcDiff.Compile
