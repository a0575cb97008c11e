import Verif.Proof.Trim
import Verif.Spec.Check
import Verif.Spec.Demo
/-!
# Property C16: trimming default values
-/

namespace NcDiff

/-- C16: trimming succeeds when every node has a schema node; it removes exactly the nodes
that say nothing but defaults, keeps everything else in order, and doing it twice is doing it
once. -/
theorem C16_trim_sound_idempotent (d : Device) (c : Elem) (hk : Known d .root c) :
    ∃ c', trimDefaults d .root c = .ok c' ∧ TrimmedTo d .root c c' ∧ trimDefaults d .root c' = .ok c' := by
  obtain ⟨c', h⟩ := trim_ok c hk
  exact ⟨c', h, (trim_spec c h).1, (trim_spec c h).2.1⟩

/-- A leaf that the schema gives no default is never removed by itself; in particular a list key
without a default stays as long as its entry. -/
theorem C16_no_default_stays (d : Device) (sn : SNode) (all : List Elem) (k : Elem)
    (hn : sn.ntype = .leaf) (hd : sn.info.dflt = none) : ¬ Default d sn all k := by
  intro h
  cases h with
  | leaf v _ h2 _ => rw [hd] at h2; cases h2
  | leafList v h1 _ _ => rw [hn] at h1; cases h1
  | emptied h1 _ =>
    rcases h1 with h1 | h1
    · unfold SNode.isNP at h1
      rw [show sn.info.ntype = .leaf from hn] at h1; simp at h1
    · rw [hn] at h1; cases h1

/-- Executable `Known`. -/
def knownB (d : Device) : Scope → Elem → Bool :=
  deepB d (fun sc e => e.kids.all (fun k => isOk (d.lookup sc k.tag)))

theorem knownB_sound {d : Device} {sc : Scope} {e : Elem} (h : knownB d sc e = true) : Known d sc e :=
  deepB_sound (fun sc e h k hk => isOk_iff.1 (List.all_eq_true.1 h k hk)) e sc h

namespace Demo

/-- Leaf `b` has its default value, and `np` has nothing else than an empty container. -/
def trim1 : Elem := cfg [el "top" [lf "a" "1", lf "b" "0", el "np" [], item "x" "1", el "pc" []]]

example : ∃ c', trimDefaults dev .root trim1 = .ok c' ∧ TrimmedTo dev .root trim1 c' ∧
    trimDefaults dev .root c' = .ok c' :=
  C16_trim_sound_idempotent dev trim1 (knownB_sound (by decide +kernel))

example : trimDefaults dev .root trim1 = .ok (cfg [el "top" [lf "a" "1", item "x" "1", el "pc" []]]) := by
  decide +kernel

example : ¬ Default dev (leafS "name" (isKey := true)) [] (lf "name" "x") :=
  C16_no_default_stays dev _ _ _ rfl rfl

/-- C16 is false without "the key has no default": an entry loses its key, and the result is no
longer a valid config. -/
theorem C16_false_for_keys_with_default :
    ∃ c c', ValidConfig dev c ∧ trimDefaults dev .root c = .ok c' ∧ ¬ ValidConfig dev c' := by
  refine ⟨cfg [el "top" [el "dk" [lf "k" "0", lf "v" "1"]]], cfg [el "top" [el "dk" [lf "v" "1"]]],
    validConfigB_sound (by decide +kernel), by decide +kernel, ?_⟩
  intro h
  cases h.valid with
  | mk _ _ _ sub =>
    have := sub _ (by simp [cfg]; rfl) ⟨topS, [0, 0], false⟩ rfl
    cases this with
    | mk _ shape _ _ =>
      obtain ⟨f, hf, hk⟩ := shape (el "dk" [lf "v" "1"]) (by simp [el])
      have hf' : dev.lookup (.node topS) (q "dk") = .ok ⟨topS.kids[9], [9], false⟩ := rfl
      obtain rfl := Except.ok.inj (hf'.symm.trans hf)
      obtain ⟨_, _, hkeys, _⟩ := (hk : _ ∧ _ ∧ _ ∧ _)
      obtain ⟨c, hc⟩ := hkeys (q "k") (by decide +kernel)
      have hno : (el "dk" [lf "v" "1"]).childrenWith (q "k") = [] := by decide +kernel
      rw [hno] at hc; cases hc

end Demo
end NcDiff
