import Verif.Proof.Frame
import Verif.Spec.Check
import Verif.Spec.Deep
import Verif.Spec.Demo
/-!
# Properties C09, C11: what a sum leaves alone
-/

namespace NcDiff

/-! ## C09 -/

/-- C09: whatever the delta and the config are, if the sum is computed, the children that the delta
does not mention are all there, unchanged and in their order, and the same holds inside every
child that the delta mentions for merging. -/
theorem C09_unmentioned_untouched (d : Device) (c delta r : Elem) (hc : Shaped d .root c)
    (hd : Shaped d .root delta) (h : calcAdd d c delta = .ok r) : Framed d .root delta c r :=
  nodeAdd_framed d delta .root c r hc hd h

/-! ## C11 -/

/-- C11: the sum of a config without attributes and any delta has no attributes at any node. -/
theorem C11_sum_has_no_attributes (d : Device) (c delta r : Elem) (hc : NoAttrs c)
    (h : calcAdd d c delta = .ok r) : NoAttrs r :=
  nodeAdd_noAttrs d delta .root c r hc h

/-! ## The hypotheses can be met -/

theorem Valid.shaped {d : Device} {sc : Scope} {e : Elem} (h : Valid d sc e) : Shaped d sc e := by
  induction h with
  | mk _ shape _ _ ih => exact ⟨shape, ih⟩

mutual
/-- Executable `NoAttrs`, for examples. -/
def noAttrsB : Elem → Bool
  | .mk _ _ a _ ks => a.isEmpty && noAttrsListB ks
def noAttrsListB : List Elem → Bool
  | [] => true
  | k :: r => noAttrsB k && noAttrsListB r
end

theorem noAttrsListB_mem : ∀ {ks : List Elem}, noAttrsListB ks = true → ∀ k ∈ ks, noAttrsB k = true
  | [], _, k, hk => by simp at hk
  | x :: r, h, k, hk => by
    rw [noAttrsListB, Bool.and_eq_true] at h
    cases hk with
    | head => exact h.1
    | tail _ hk => exact noAttrsListB_mem h.2 k hk

theorem noAttrsB_sound : ∀ e : Elem, noAttrsB e = true → NoAttrs e := by
  intro e
  induction e using Elem.ind with
  | h t n a x ks ih =>
    intro h
    rw [noAttrsB, Bool.and_eq_true, List.isEmpty_iff] at h
    exact ⟨h.1, fun k hk => ih k hk (noAttrsListB_mem h.2 k hk)⟩

namespace Demo

/-- A config and a delta with all kinds of operations. -/
def sum1 : Elem := cfg [el "top" [lf "a" "1", item "x" "1", item "y" "2", rule "1" "p", rule "2" "d",
  lf "dns" "8", lf "dns" "9", lf "tagl" "t", el "np" [lf "w" "5"]]]
def sum2 : Elem := cfg [el "top" [setOp (lf "a" "1") "delete", setOp (item "z" "1") "create",
  el "item" [lf "name" "x", setOp (lf "val" "7") "replace"],
  ((setOp (rule "3" "q") "merge").set .insert (.str "after")).set .key (.pred [(.bare "id", "1")]),
  setOp (lf "dns" "9") "remove", el "np" [setOp (lf "w" "5") "delete"], lf "b" "7"]]

theorem sum1_valid : ValidConfig dev sum1 := validConfigB_sound (by decide +kernel)
theorem sum2_valid : ValidConfig dev sum2 := validConfigB_sound (by decide +kernel)

/-- What the sum is. -/
theorem sum_eq : calcAdd dev sum1 sum2 = .ok (cfg [el "top" [
    item "x" "7", item "y" "2", item "z" "1", rule "1" "p", rule "3" "q", rule "2" "d",
    lf "dns" "8", lf "tagl" "t", lf "b" "7"]]) := by decide +kernel

example : Framed dev .root sum2 sum1 (cfg [el "top" [
    item "x" "7", item "y" "2", item "z" "1", rule "1" "p", rule "3" "q", rule "2" "d",
    lf "dns" "8", lf "tagl" "t", lf "b" "7"]]) :=
  C09_unmentioned_untouched dev sum1 sum2 _ sum1_valid.valid.shaped sum2_valid.valid.shaped sum_eq

example : ∀ r, calcAdd dev sum1 sum2 = .ok r → NoAttrs r := fun r h =>
  C11_sum_has_no_attributes dev sum1 sum2 r (noAttrsB_sound _ (by decide +kernel)) h

end Demo

end NcDiff
