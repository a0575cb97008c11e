import Verif.Spec.Loose
import Verif.Spec.CheckTransition
/-!
# Executable checks of the hypotheses without order

Only used to show that concrete configs meet the hypotheses of the theorems.
-/

namespace NcDiff

/-- Executable condition of `Matched` at one level. -/
def matchedHereB (d : Device) (sc : Scope) (S T : List Elem) : Bool :=
  kidsB d sc S (fun f s => kidsB d sc T (fun g k => !absentB d sc T s || !absentB d sc S k || sameCaseB f g)) &&
  kidsB d sc T (fun f k => S.all (fun s => !sameB d sc s k || !(f.node.ntype = .leaf) ||
    ((!f.node.info.isKey || s.text = k.text) && parseText d s f.node = parseText d k f.node) || writableB d f.node k s.nsmap))

mutual
/-- Executable `Matched`. -/
def matchedB (d : Device) (sc : Scope) : Elem → Elem → Bool
  | .mk _ _ _ _ ks, T => matchedHereB d sc ks T.kids && matchedKidsB d sc T.kids ks
def matchedKidsB (d : Device) (sc : Scope) (T : List Elem) : List Elem → Bool
  | [] => true
  | s :: r =>
    (match d.lookup sc s.tag with
      | .ok f => T.all (fun k => !sameB d sc s k || matchedB d (.node f.node) s k)
      | .error _ => true) && matchedKidsB d sc T r
end

theorem matchedKidsB_mem {d : Device} {sc : Scope} {T : List Elem} : ∀ {ks : List Elem},
    matchedKidsB d sc T ks = true → ∀ s ∈ ks, ∀ f, d.lookup sc s.tag = .ok f → ∀ k ∈ T, SameInstance d sc s k →
      matchedB d (.node f.node) s k = true
  | [], _, s, hs => by simp at hs
  | x :: r, h, s, hs => by
    rw [matchedKidsB, Bool.and_eq_true] at h
    cases hs with
    | head =>
      intro f hf k hk hsm
      have := h.1
      rw [hf] at this
      have := List.all_eq_true.1 this k hk
      rw [(sameB_iff ..).2 hsm] at this
      simpa using this
    | tail _ hs => exact matchedKidsB_mem h.2 s hs

theorem matchedB_sound {d : Device} : ∀ (S : Elem) {sc : Scope} {T : Elem}, matchedB d sc S T = true →
    Matched d sc S T := by
  intro S
  induction S using Elem.ind with
  | h t n a x ks ih =>
    intro sc T h
    rw [matchedB, Bool.and_eq_true] at h
    obtain ⟨h1, h2⟩ := h
    simp only [matchedHereB, Bool.and_eq_true] at h1
    obtain ⟨hc, hv⟩ := h1
    refine .mk ?_ ?_ ?_
    · intro s hs k hk ha hb f g hf hg
      have := kidsB_sound (kidsB_sound hc s hs f hf) k hk g hg
      rw [absentB_iff.2 ha, (absentB_iff (ks := ks)).2 hb] at this
      exact sameCaseB_sound (by simpa using this)
    · intro s hs k hk h f hf hn hne
      have := List.all_eq_true.1 (kidsB_sound hv k hk f hf) s hs
      rw [(sameB_iff ..).2 h] at this
      refine writableB_sound ?_
      rcases hne with hne | hne <;> simpa [hn, hne] using this
    · intro s hs k hk h f hf _
      exact ih s hs (matchedKidsB_mem h2 s hs f (by rw [h.1]; exact hf) k hk h)

/-- Executable `AnyOrder`. -/
def anyOrderB (d : Device) (c1 c2 : Elem) : Bool :=
  plainConfigB d c1 && plainConfigB d c2 && c1.tag = ncTag "config" && c2.tag = ncTag "config" &&
    matchedB d .root c1 c2 && decide (trimDefaults d .root c2 = .ok c2) && deepB d (defaultLevelB d) .root c2

theorem anyOrderB_sound {d : Device} {c1 c2 : Elem} (h : anyOrderB d c1 c2 = true) : AnyOrder d c1 c2 := by
  simp only [anyOrderB, Bool.and_eq_true, decide_eq_true_eq] at h
  obtain ⟨⟨⟨⟨⟨⟨a, b⟩, c⟩, e⟩, f⟩, g⟩, i⟩ := h
  exact ⟨plainConfigB_sound a, plainConfigB_sound b, c, e, matchedB_sound c1 f, g,
    deepB_sound defaultLevelB_sound c2 .root i⟩

/-- Executable `NoOrderedDefault`. -/
def noOrderedDefaultB (d : Device) (sc : Scope) (e : Elem) : Bool :=
  kidsB d sc e.kids (fun f _ => !(f.node.ntype = .leafList) || !f.node.userOrdered || f.node.info.dflt = none)

theorem noOrderedDefaultB_sound {d : Device} (sc : Scope) (e : Elem) (h : noOrderedDefaultB d sc e = true) :
    NoOrderedDefault d sc e := by
  intro k hk f hf hn hu
  have := kidsB_sound h k hk f hf
  simpa [hn, hu] using this

end NcDiff
