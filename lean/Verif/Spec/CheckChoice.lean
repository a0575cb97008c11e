import Verif.Spec.Choice
import Verif.Spec.CheckTransition
/-!
# Executable form of the conditions of a change between cases
-/

namespace NcDiff

variable {d : Device}

/-- Executable `OneCase`. -/
def oneCaseB (d : Device) (sc : Scope) (e : Elem) : Bool :=
  kidsB d sc e.kids (fun f _ => kidsB d sc e.kids (fun g _ => !apart d sc f g))

theorem oneCaseB_sound (sc : Scope) (e : Elem) (h : oneCaseB d sc e = true) : OneCase d sc e := by
  intro a ha b hb f g hf hg
  simpa using kidsB_sound (kidsB_sound h a ha f hf) b hb g hg

/-- Executable condition of `Switch` at one level. -/
def switchHereB (d : Device) (sc : Scope) (S T : List Elem) : Bool :=
  kidsB d sc S (fun f s => kidsB d sc T (fun g k => !absentB d sc T s || !absentB d sc S k || !apart d sc f g ||
    !sameCaseB f g)) &&
  kidsB d sc S (fun f x => !(f.node.userOrdered ∧ (f.node.ntype = .leafList ∨ f.node.ntype = .list)) ||
    settlesB d sc x.tag S T) &&
  kidsB d sc T (fun f k => S.all (fun s => !sameB d sc s k || !(f.node.ntype = .leaf) ||
    ((!f.node.info.isKey || s.text = k.text) && parseText d s f.node = parseText d k f.node) || writableB d f.node k s.nsmap))

mutual
/-- Executable `Switch`. -/
def switchB (d : Device) (sc : Scope) : Elem → Elem → Bool
  | .mk _ _ _ _ ks, T => switchHereB d sc ks T.kids && switchKidsB d sc T.kids ks
def switchKidsB (d : Device) (sc : Scope) (T : List Elem) : List Elem → Bool
  | [] => true
  | s :: r =>
    (match d.lookup sc s.tag with
      | .ok f => T.all (fun k => !sameB d sc s k || switchB d (.node f.node) s k)
      | .error _ => true) && switchKidsB d sc T r
end

theorem switchKidsB_mem {sc : Scope} {T : List Elem} : ∀ {ks : List Elem},
    switchKidsB d sc T ks = true → ∀ s ∈ ks, ∀ f, d.lookup sc s.tag = .ok f → ∀ k ∈ T, SameInstance d sc s k →
      switchB d (.node f.node) s k = true
  | [], _, s, hs => by simp at hs
  | x :: r, h, s, hs => by
    rw [switchKidsB, Bool.and_eq_true] at h
    cases hs with
    | head =>
      intro f hf k hk hsm
      have := h.1
      rw [hf] at this
      have := List.all_eq_true.1 this k hk
      rw [(sameB_iff ..).2 hsm] at this
      simpa using this
    | tail _ hs => exact switchKidsB_mem h.2 s hs

theorem sameCaseB_complete {f g : Found} (h : SameCase f g) : sameCaseB f g = true := by
  unfold sameCaseB
  cases h1 : f.underCase <;> cases h2 : g.underCase <;> simp
  by_cases h3 : f.path.dropLast.dropLast = g.path.dropLast.dropLast
  · exact Or.inr (h h1 h2 h3)
  · exact Or.inl h3

theorem switchB_sound : ∀ (S : Elem) {sc : Scope} {T : Elem}, switchB d sc S T = true → Switch d sc S T := by
  intro S
  induction S using Elem.ind with
  | h t n a x ks ih =>
    intro sc T h
    rw [switchB, Bool.and_eq_true] at h
    obtain ⟨h1, h2⟩ := h
    simp only [switchHereB, Bool.and_eq_true] at h1
    obtain ⟨⟨hc, ho⟩, hv⟩ := h1
    refine .mk ?_ ?_ ?_ ?_
    · intro s hs k hk ha hb f g hf hg hap hsame
      have := kidsB_sound (kidsB_sound hc s hs f hf) k hk g hg
      rw [absentB_iff.2 ha, (absentB_iff (ks := ks)).2 hb, hap, sameCaseB_complete hsame] at this
      simp at this
    · intro t ht
      by_cases hex : ∃ s ∈ ks, s.tag = t
      · obtain ⟨s, hs, rfl⟩ := hex
        obtain ⟨f, hf, hu1, hu2⟩ := ht
        have := kidsB_sound ho s hs f hf
        simp only [Bool.or_eq_true, Bool.not_eq_true', decide_eq_false_iff_not] at this
        exact settlesB_sound (this.resolve_left (fun hn => hn ⟨hu1, hu2⟩))
      · exact settles_absent (fun s hs he => hex ⟨s, hs, he⟩)
    · intro s hs k hk h f hf hn hne
      have := List.all_eq_true.1 (kidsB_sound hv k hk f hf) s hs
      rw [(sameB_iff ..).2 h] at this
      refine writableB_sound ?_
      rcases hne with hne | hne <;> simpa [hn, hne] using this
    · intro s hs k hk h f hf _
      exact ih s hs (switchKidsB_mem h2 s hs f (by rw [h.1]; exact hf) k hk h)

/-- Executable `Switches`. -/
def switchesB (d : Device) (c1 c2 : Elem) : Bool :=
  plainConfigB d c1 && plainConfigB d c2 && c1.tag = ncTag "config" && c2.tag = ncTag "config" &&
    deepB d (oneCaseB d) .root c1 && deepB d (oneCaseB d) .root c2 &&
    switchB d .root c1 c2 && decide (trimDefaults d .root c2 = .ok c2) && deepB d (defaultLevelB d) .root c2

theorem switchesB_sound {c1 c2 : Elem} (h : switchesB d c1 c2 = true) : Switches d c1 c2 := by
  simp only [switchesB, Bool.and_eq_true, decide_eq_true_eq] at h
  obtain ⟨⟨⟨⟨⟨⟨⟨⟨a, b⟩, c⟩, e⟩, o1⟩, o2⟩, f⟩, g⟩, i⟩ := h
  exact ⟨plainConfigB_sound a, plainConfigB_sound b, c, e, deepB_sound oneCaseB_sound c1 .root o1,
    deepB_sound oneCaseB_sound c2 .root o2, switchB_sound c1 f, g, deepB_sound defaultLevelB_sound c2 .root i⟩

end NcDiff
