import Verif.Spec.Config
/-!
# A condition at every node of a tree
-/

namespace NcDiff

/-- `P` holds at the node and, at their schema positions, at all its descendants. -/
inductive Deep (d : Device) (P : Scope → Elem → Prop) : Scope → Elem → Prop
  | mk {sc : Scope} {e : Elem} (here : P sc e)
      (sub : ∀ k ∈ e.kids, ∀ f, d.lookup sc k.tag = .ok f → Deep d P (.node f.node) k) :
      Deep d P sc e

theorem Deep.here' {d : Device} {P : Scope → Elem → Prop} {sc : Scope} {e : Elem} (h : Deep d P sc e) :
    P sc e := by cases h; assumption

theorem Deep.sub' {d : Device} {P : Scope → Elem → Prop} {sc : Scope} {e : Elem} (h : Deep d P sc e) :
    ∀ k ∈ e.kids, ∀ f, d.lookup sc k.tag = .ok f → Deep d P (.node f.node) k := by cases h; assumption

theorem Deep.imp {d : Device} {P Q : Scope → Elem → Prop} (hPQ : ∀ sc e, P sc e → Q sc e)
    {sc : Scope} {e : Elem} (h : Deep d P sc e) : Deep d Q sc e := by
  induction h with
  | mk here _ ih => exact ⟨hPQ _ _ here, ih⟩

theorem Deep.and {d : Device} {P Q : Scope → Elem → Prop} {sc : Scope} {e : Elem}
    (h : Deep d P sc e) (h' : Deep d Q sc e) : Deep d (fun sc e => P sc e ∧ Q sc e) sc e := by
  induction h with
  | mk here _ ih => exact ⟨⟨here, h'.here'⟩, fun k hk f hf => ih k hk f hf (h'.sub' k hk f hf)⟩

mutual
/-- Executable `Deep`, for examples. -/
def deepB (d : Device) (p : Scope → Elem → Bool) (sc : Scope) : Elem → Bool
  | .mk t n a x ks => p sc (.mk t n a x ks) && deepKidsB d p sc ks
def deepKidsB (d : Device) (p : Scope → Elem → Bool) (sc : Scope) : List Elem → Bool
  | [] => true
  | k :: r =>
    (match d.lookup sc k.tag with
    | .ok f => deepB d p (.node f.node) k
    | .error _ => true) && deepKidsB d p sc r
end

theorem deepKidsB_mem {d : Device} {p : Scope → Elem → Bool} {sc : Scope} : ∀ {ks : List Elem},
    deepKidsB d p sc ks = true → ∀ k ∈ ks, ∀ f, d.lookup sc k.tag = .ok f →
      deepB d p (.node f.node) k = true
  | [], _, k, hk, _, _ => by simp at hk
  | x :: r, h, k, hk, f, hf => by
    rw [deepKidsB, Bool.and_eq_true] at h
    cases hk with
    | head => simpa [hf] using h.1
    | tail _ hk => exact deepKidsB_mem h.2 k hk f hf

theorem deepB_sound {d : Device} {p : Scope → Elem → Bool} {P : Scope → Elem → Prop}
    (hp : ∀ sc e, p sc e = true → P sc e) : ∀ (e : Elem) (sc : Scope), deepB d p sc e = true →
    Deep d P sc e := by
  intro e
  induction e using Elem.ind with
  | h t n a x ks ih =>
    intro sc h
    rw [deepB, Bool.and_eq_true] at h
    exact ⟨hp _ _ h.1, fun k hk f hf => ih k hk _ (deepKidsB_mem h.2 k hk f hf)⟩

end NcDiff
