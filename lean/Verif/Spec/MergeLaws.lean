import Verif.Spec.Yang
import Verif.Spec.Merge
/-!
# Specification: configs that are added again and again
-/

namespace NcDiff

/-- The leaves that are in both have the same value in both. -/
inductive Agree (d : Device) : Scope → Elem → Elem → Prop
  | mk {sc : Scope} {a b : Elem}
      (values : ∀ x ∈ a.kids, ∀ y ∈ b.kids, SameInstance d sc x y → ∀ f, d.lookup sc x.tag = .ok f →
        f.node.ntype = .leaf → parseText d y f.node = parseText d x f.node)
      (sub : ∀ x ∈ a.kids, ∀ y ∈ b.kids, SameInstance d sc x y → ∀ f, d.lookup sc x.tag = .ok f →
        Agree d (.node f.node) x y) :
      Agree d sc a b

namespace Compile

/-- A statement of a plain type that is not ordered by the user, and no leaf-list with defaults. -/
def Additive (s : Stmt) : Prop :=
  PlainType s ∧ ¬ s.info.Says "ordered-by" "user" ∧ (s.info.keyword = "leaf-list" → s.info.defaults = [])

/-- The modules have only such statements. -/
def AdditiveModules (mods : List Module) : Prop := ∀ m ∈ mods, ∀ s ∈ m.kids, Everywhere Additive s

/-- Configs of documents, and sums of such configs. -/
inductive SumOf (h : Host) (mods : List Module) (rd : Bool) : Elem → Prop
  | doc {x : Elem} {l : List Elem} {v : Bool} {c : Elem} : Document h mods x l → newConfig h.device x v rd = .ok c →
      SumOf h mods rd c
  | add {a b r : Elem} : SumOf h mods rd a → SumOf h mods rd b → configAdd h.device a b = .ok r → SumOf h mods rd r

end Compile
end NcDiff
