import Verif.Proof.Replace
import Verif.Proof.ReplaceXpath
import Verif.Props.RoundTrip
/-!
# Property C39: deltas of type `replace` and `minimum-replace`
-/

namespace NcDiff

/-- C39, shape: with diff type `replace` every change in the edit-config is a removal or a whole subtree to
be written, at the given depth or above. -/
theorem C39_replace_shape (d : Device) (opts : Opts) (c1 c2 : Elem) (h : AnyOrder d c1 c2)
    (hr : opts.diffType = .replace) :
    ∃ δ x, newDelta d c1 c2 opts = .ok δ ∧ δ.nc d = .ok x ∧
      ReplacesAt d (opts.replace = .replace) opts.replaceDepth .root c1 c2 x := by
  obtain ⟨D, hx, hok, _⟩ := calcSub_ok (carry_replace hr) h.loose (fun _ => h.src.filled)
  rw [if_neg (by rw [hr]; decide)] at hx
  refine ⟨_, _, newDelta_ok h.src.valid.valid h.dst.valid.valid, ?_, hok.carried.1 (Nat.zero_le _)⟩
  simp only [Delta.nc, hx, bind, Except.bind, pure, Except.pure]

/-- C39, effect: whatever config `c` that edit-config is applied to, its subtrees are then in the result
exactly as in the target, and what it removes is not. -/
theorem C39_replace_effect (d : Device) (opts : Opts) (c1 c2 : Elem) (h : AnyOrder d c1 c2)
    (hr : opts.diffType = .replace) (hll : RootSafe d opts c2) :
    ∃ δ x, newDelta d c1 c2 opts = .ok δ ∧ δ.nc d = .ok x ∧
      ∀ c r, GoodConfig d c → calcAdd d c x = .ok r → Imposed d opts.replaceDepth .root c2 x r := by
  obtain ⟨D, hx, hok, hdiff⟩ := calcSub_ok (carry_replace hr) h.loose (fun _ => h.src.filled)
  obtain ⟨hat, hdiff⟩ := hdiff hll
  rw [if_neg (by rw [hr]; decide)] at hx
  refine ⟨_, D, newDelta_ok h.src.valid.valid h.dst.valid.valid, ?_, ?_⟩
  · simp only [Delta.nc, hx, bind, Except.bind, pure, Except.pure]
  · intro c r hc hadd
    have hrep := hok.carried.1 (Nat.zero_le _)
    refine imposed hrep ?_ hdiff (C08_operations_applied d c D r hc ⟨hdiff.base'.vD, hdiff.base'.lD⟩ hadd)
    rw [hasOp_replace, opOf_bare hat]; decide

section
variable (d : Device) (opts : Opts)

theorem body_minimumReplace (sc : Scope) (n : Nat) (T : Elem) (ks : List (Elem × SubFn)) (S : Elem) :
    nodeSubBody d { opts with diffType := .minimumReplace } sc n T ks S =
      nodeSubBody d { opts with diffType := .minimum } sc n T ks S := by
  have h1 : subOnlySelf d sc { opts with diffType := .minimumReplace } =
      subOnlySelf d sc { opts with diffType := .minimum } := by
    have h0 : deleteMarker d { opts with diffType := .minimumReplace } =
        deleteMarker d { opts with diffType := .minimum } := rfl
    funext s p
    simp only [subOnlySelf, h0, reduceCtorEq, if_false]
  have h2 : subOnlyOther d sc { opts with diffType := .minimumReplace } =
      subOnlyOther d sc { opts with diffType := .minimum } := rfl
  have h3 : subBoth d sc { opts with diffType := .minimumReplace } n =
      subBoth d sc { opts with diffType := .minimum } n := by
    have : subInner d { opts with diffType := .minimumReplace } =
        subInner d { opts with diffType := .minimum } := by
      funext sn depth p o
      simp [subInner]
    unfold subBoth
    simp only [this]
  unfold nodeSubBody
  rw [h1, h2, h3]

theorem nodeSub_minimumReplace (T : Elem) : ∀ (sc : Scope) (n : Nat) (S : Elem),
    nodeSub d { opts with diffType := .minimumReplace } T sc n S =
      nodeSub d { opts with diffType := .minimum } T sc n S := by
  induction T using Elem.ind with
  | h t m a x ks ih =>
    intro sc n S
    rw [nodeSub_eq, nodeSub_eq, body_minimumReplace]
    congr 1
    refine List.map_congr_left (fun k hk => ?_)
    simp only [ih k hk]

end

/-- C39, `minimum-replace`: the edit-config is that of type `minimum` with an attribute `operation` that is
not in the namespace of NETCONF on the nodes at the given depth. -/
theorem C39_minimum_replace (d : Device) (opts : Opts) (c1 c2 : Elem) (h : AnyOrder d c1 c2) :
    ∃ δ δ' x x', newDelta d c1 c2 { opts with diffType := .minimum } = .ok δ ∧
      newDelta d c1 c2 { opts with diffType := .minimumReplace } = .ok δ' ∧
      δ.nc d = .ok x ∧ δ'.nc d = .ok x' ∧ MarkedAt (opts.replaceDepth + 1) x x' ∧
      ∀ c, calcAdd d c x' = calcAdd d c x := by
  obtain ⟨D, hx, _⟩ := calcSub_ok (opts := { opts with diffType := .minimum }) carry_deletes.carry h.loose (fun _ => h.src.filled)
  have hx' : calcSub d { opts with diffType := .minimumReplace } c2 c1 = .ok (addAttrAtDepth (opts.replaceDepth + 1) D) := by
    unfold calcSub at hx ⊢
    simp only [reduceCtorEq, false_and, if_false] at hx ⊢
    rw [nodeSub_minimumReplace]
    cases hc : nodeSub d { opts with diffType := .minimum } c2 .root 0 c1 with
    | error e => rw [hc] at hx; cases hx
    | ok y => rw [hc] at hx; cases hx; rfl
  rw [if_neg (by simp)] at hx
  refine ⟨_, _, D, _, newDelta_ok h.src.valid.valid h.dst.valid.valid, newDelta_ok h.src.valid.valid h.dst.valid.valid,
    ?_, ?_, addAttr_marked _ _, ?_⟩
  · simp only [Delta.nc, hx, bind, Except.bind, pure, Except.pure]
  · simp only [Delta.nc, hx', bind, Except.bind, pure, Except.pure]
  · intro c; exact nodeAdd_addAttr ..

/-- C39, `replace_xpath`: whatever nodes the XPath selects, the edit-config is that of type `minimum` with an
attribute `operation` that is not in the namespace of NETCONF on these nodes, and it has the same effect. -/
theorem C39_replace_xpath (d : Device) (opts : Opts) (c1 c2 : Elem) (h : AnyOrder d c1 c2)
    (sel : Elem → List (List Nat)) :
    ∃ δ x x', newDelta d c1 c2 { opts with diffType := .minimum } = .ok δ ∧ δ.nc d = .ok x ∧
      calcSubXpath d opts sel c2 c1 = .ok x' ∧ MarkedOn (sel x) x x' ∧
      ∀ c, calcAdd d c x' = calcAdd d c x := by
  obtain ⟨D, hx, _⟩ := calcSub_ok (opts := { opts with diffType := .minimum }) carry_deletes.carry h.loose (fun _ => h.src.filled)
  rw [if_neg (by simp)] at hx
  have hx' : calcSubXpath d opts sel c2 c1 = .ok (markNode (sel D) D) := by
    unfold calcSub at hx
    unfold calcSubXpath
    simp only [reduceCtorEq, false_and, if_false] at hx
    rw [nodeSub_minimumReplace]
    cases hc : nodeSub d { opts with diffType := .minimum } c2 .root 0 c1 with
    | error e => rw [hc] at hx; cases hx
    | ok y => rw [hc] at hx; cases hx; rfl
  refine ⟨_, D, _, newDelta_ok h.src.valid.valid h.dst.valid.valid, ?_, hx', ?_, ?_⟩
  · simp only [Delta.nc, hx, bind, Except.bind, pure, Except.pure]
  · exact fun p => markNode_marked p (sel D) D
  · intro c; exact nodeAdd_markNode ..

/-! ## The hypotheses can be met -/

namespace Demo

example : ∃ δ x, newDelta dev rt1 rt2 { diffType := .replace, replaceDepth := 1 } = .ok δ ∧ δ.nc dev = .ok x ∧
    ReplacesAt dev (PrefReplace.merge = .replace) 1 .root rt1 rt2 x :=
  C39_replace_shape dev { diffType := .replace, replaceDepth := 1 } rt1 rt2 rt_transition.anyOrder rfl

example : ∃ δ x, newDelta dev rt1 rt2 { diffType := .replace, replaceDepth := 1 } = .ok δ ∧ δ.nc dev = .ok x ∧
    ∀ c r, GoodConfig dev c → calcAdd dev c x = .ok r → Imposed dev 1 .root rt2 x r :=
  C39_replace_effect dev { diffType := .replace, replaceDepth := 1 } rt1 rt2 rt_transition.anyOrder rfl (Or.inl rfl)

example : ∃ δ δ' x x', newDelta dev rt1 rt2 { diffType := .minimum } = .ok δ ∧
    newDelta dev rt1 rt2 { diffType := .minimumReplace } = .ok δ' ∧ δ.nc dev = .ok x ∧ δ'.nc dev = .ok x' ∧
    MarkedAt 1 x x' ∧ ∀ c, calcAdd dev c x' = calcAdd dev c x :=
  C39_minimum_replace dev {} rt1 rt2 rt_transition.anyOrder

example : ∃ δ x x', newDelta dev rt1 rt2 { diffType := .minimum } = .ok δ ∧ δ.nc dev = .ok x ∧
    calcSubXpath dev {} (fun _ => [[0]]) rt2 rt1 = .ok x' ∧ MarkedOn [[0]] x x' ∧
    ∀ c, calcAdd dev c x' = calcAdd dev c x :=
  C39_replace_xpath dev {} rt1 rt2 rt_transition.anyOrder (fun _ => [[0]])

end Demo

end NcDiff
