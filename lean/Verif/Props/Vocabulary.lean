import Verif.Proof.Vocabulary
import Verif.Props.Prefer
/-!
# Property C40: which operations occur at all
-/

namespace NcDiff

/-- C40: an operation that the options do not speak of does not occur anywhere in an edit-config, for any two trees, any
schema, any type of delta and any order; only the target must not carry attributes (no config does, see C07). -/
theorem C40_vocabulary (d : Device) (δ : Delta) (x : Elem) (hd : NoAttrs δ.dst) (h : δ.nc d = .ok x) :
    OpsIn δ.opts.Allows x :=
  operations_nc (opts := δ.opts) (fun {_} ho => ho ▸ lets_allows _) rfl (operations_noAttrs (lets_allows _).none hd) h

/-- C40: with the default options `delete` is the only operation. -/
theorem C40_vocabulary_default (d : Device) (δ : Delta) (x : Elem) (ho : δ.opts = {}) (hd : NoAttrs δ.dst) (h : δ.nc d = .ok x) :
    OpsIn (fun a => a = none ∨ a = some (.str "delete")) x := by
  refine (C40_vocabulary d δ x hd h).imp fun a ha => ?_
  rw [ho] at ha
  rcases ha with h | h | ⟨h, _⟩ | ⟨h, _⟩
  · exact .inl h
  · exact .inr h
  · rcases h with h | h | h <;> cases h
  · cases h

namespace Demo

example : ∃ x, (newDelta dev rt1 rt2 { create := .create, delete := .remove } >>= fun δ => δ.nc dev) = .ok x ∧
    OpsIn (Opts.Allows { create := .create, delete := .remove }) x := by
  refine ⟨(newDelta dev rt1 rt2 { create := .create, delete := .remove } >>= fun δ => δ.nc dev).toOption.getD default,
    by decide +kernel, C40_vocabulary dev ⟨rt1, rt2, { create := .create, delete := .remove }, none⟩ _ ?_ (by decide +kernel)⟩
  exact rt_transition.dst.bare

end Demo
end NcDiff
