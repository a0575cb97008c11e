import Verif.Proof.Exact
import Verif.Props.RoundTrip
import Verif.Spec.CheckLoose
/-!
# Property C60: which reorderings a delta brings about
-/

namespace NcDiff

/-- The sum, with what is known about the edit-config that led to it. -/
theorem any_order (d : Device) {q : Carrier} (opts : Opts) (c1 c2 : Elem) (hq : Carry d opts q) (h : AnyOrder d c1 c2)
    (hd : Deep d (NoOrderedDefault d) .root c2) (hll : RootSafe d opts c2) :
    ∃ δ r D R, newDelta d c1 c2 opts = .ok δ ∧ configAddDelta d c1 δ = .ok r ∧ ValidConfig d r ∧
      SameW False d .root r c2 ∧ Diff False d .root c1 c2 D ∧ q.node 0 .root c1 c2 D ∧ nodeAdd d D .root c1 = .ok R ∧
      (SameConfig d .root r c2 → SameConfig d .root R c2) := by
  obtain ⟨D, hx, hok, hdiff⟩ := calcSub_ok hq h.loose (fun _ => h.src.filled)
  obtain ⟨_, hdiff⟩ := hdiff hll
  obtain ⟨R, hR, hsame⟩ := hdiff.add
  have hb := hdiff.base'
  have hvR := (nodeAdd_valid d D .root c1 R hb.vS hb.nS hb.vD hb.lD hR).1
  have h1 := h.src.valid.valid
  have h2 := h.dst.valid.valid
  set x := if opts.diffType = .minimumReplace then addAttrAtDepth (opts.replaceDepth + 1) D else D with hxd
  have hadd : calcAdd d c1 x = .ok R := by
    unfold calcAdd
    rw [hxd]
    split
    · rw [nodeAdd_addAttr, hR]
    · exact hR
  obtain ⟨r, hr, hre, hrv, hrs⟩ := addElem_loose hadd hvR h.srcTag h.src.bare.here' h.src.valid.noText h2 hsame
    h.defaults (Or.inr hd) h.trimmed
  refine ⟨_, r, D, R, newDelta_ok h1 h2, ?_, ⟨hrv, by rw [hre]; rfl⟩, hrs, hdiff, hok.carried, hR, ?_⟩
  · unfold configAddDelta
    rw [compatible_ok (cs := [c1, c1, c2]) (by
      intro c hc
      simp only [List.mem_cons, List.not_mem_nil, or_false] at hc
      rcases hc with rfl | rfl | rfl
      · exact h1.known
      · exact h1.known
      · exact h2.known)]
    simp only [bind, Except.bind, Delta.nc]
    rw [hx]
    exact hr
  · intro hs
    obtain ⟨e1, e2, e3, e4⟩ := nodeAdd_tag hadd
    refine (same_root (ω := True) hs.loose ?_ ?_ ?_ ?_).tight
    · rw [e1, h.srcTag, hre]; rfl
    · rw [e2, h.src.valid.noText, hre]; rfl
    · rw [e3, h.src.bare.here', hre]; rfl
    · rw [hre]; simp

/-- C60: whatever the order of their entries, the delta from `c1` to `c2` can be computed and applied to `c1`, and
the result is `c2` but for the order. -/
theorem C60_any_order (d : Device) (opts : Opts) (c1 c2 : Elem) (h : AnyOrder d c1 c2)
    (hd : Deep d (NoOrderedDefault d) .root c2) (hll : RootSafe d opts c2) :
    ∃ δ r, newDelta d c1 c2 opts = .ok δ ∧ configAddDelta d c1 δ = .ok r ∧ SameAnyOrder d .root r c2 := by
  obtain ⟨δ, r, D, R, h1, h2, _, h4, _⟩ := any_order d opts c1 c2 carry_deletes.carry h hd hll
  exact ⟨δ, r, h1, h2, h4.anyOrder⟩

/-- C60: with `preferred_replace='merge'`, the order of the result is that of `c2` exactly if moving the entries one
after another ends in the order of `c2`, at every level that `c1` and `c2` share. -/
theorem C60_order_exact (d : Device) (opts : Opts) (c1 c2 : Elem) (h : AnyOrder d c1 c2)
    (hd : Deep d (NoOrderedDefault d) .root c2) (ho : opts.replace = .merge) (ht : opts.diffType ≠ .replace) :
    ∃ δ r, newDelta d c1 c2 opts = .ok δ ∧ configAddDelta d c1 δ = .ok r ∧
      (cfgEq d r c2 = .ok true ↔ AllSettle d .root c1 c2) := by
  obtain ⟨δ, r, D, R, h1, h2, h3, h4, h5, h6, h7, h8⟩ := any_order d opts c1 c2 (carry_prefer ht) h hd (Or.inl ho)
  refine ⟨δ, r, h1, h2, ?_, ?_⟩
  · intro he
    obtain ⟨b, hb, hbi⟩ := cfgEq_iff h3 h.dst.valid
    obtain rfl : b = true := Except.ok.inj (hb.symm.trans he)
    exact h5.settles ho h6 h7 (h8 (hbi.1 rfl))
  · intro hs
    obtain ⟨δ', r', h1', h2', h3'⟩ := C01_round_trip d opts c1 c2 (h.transition hs) (Or.inl ho)
    obtain rfl := Except.ok.inj (h1.symm.trans h1')
    obtain rfl := Except.ok.inj (h2.symm.trans h2')
    exact h3'

/-! ## The hypotheses can be met -/

namespace Demo

/-- Three rules and three servers in another order, with a new rule and a changed one. -/
def ord1 : Elem := cfg [el "top" [lf "a" "1", rule "1" "x", rule "2" "x", rule "3" "x", lf "dns" "1", lf "dns" "2",
  lf "dns" "3"]]
def ord2 : Elem := cfg [el "top" [lf "a" "2", rule "3" "x", rule "2" "y", rule "4" "x", rule "1" "x", lf "dns" "3",
  lf "dns" "2", lf "dns" "1"]]

theorem ord_matched : AnyOrder dev ord1 ord2 := anyOrderB_sound (by decide +kernel)
theorem ord_defaults : Deep dev (NoOrderedDefault dev) .root ord2 :=
  deepB_sound noOrderedDefaultB_sound _ _ (by decide +kernel)

example : ∃ δ r, newDelta dev ord1 ord2 { replace := .replace } = .ok δ ∧ configAddDelta dev ord1 δ = .ok r ∧
    SameAnyOrder dev .root r ord2 :=
  C60_any_order dev { replace := .replace } ord1 ord2 ord_matched ord_defaults (Or.inr (Or.inr (by
    intro k hk f hf
    obtain rfl : k = ord2.kids.head! := by simpa [ord2, cfg] using hk
    have : dev.lookup .root (q "top") = .ok ⟨topS, [0, 0], false⟩ := rfl
    obtain rfl := Except.ok.inj (this.symm.trans hf)
    decide)))

/-- Here the order of the target is not reached, so the entries do not settle. -/
example : ¬ AllSettle dev .root ord1 ord2 := by
  obtain ⟨δ, r, h1, h2, h3⟩ := C60_order_exact dev {} ord1 ord2 ord_matched ord_defaults rfl (by decide)
  rw [← h3]
  intro h
  exact not_roundTrips (d := dev) (opts := {}) (c1 := ord1) (c2 := ord2) (by decide +kernel) ⟨δ, r, h1, h2, h⟩

/-- Here it is. -/
example : ∃ δ r, newDelta dev rt1 rt2 = .ok δ ∧ configAddDelta dev rt1 δ = .ok r ∧
    (cfgEq dev r rt2 = .ok true ↔ AllSettle dev .root rt1 rt2) :=
  C60_order_exact dev {} rt1 rt2 rt_transition.anyOrder (deepB_sound noOrderedDefaultB_sound _ _ (by decide +kernel)) rfl
    (by decide)

/-- A device with a leaf-list ordered by the user that has a default. -/
def devOD : Device :=
  { namespaces := [("demo", "d", u)], roots := [(q "top", "demo")],
    models := [("demo", [.mk { tag := q "top", ntype := .container, presence := true }
      [.mk { tag := q "l", ntype := .leafList, userOrdered := true, dflt := some "3,1,2" } []]])] }

/-- C60 is false when a leaf-list ordered by the user has a default: an order that is not reached may be the default
by chance, and then the whole leaf-list is trimmed. -/
theorem C60_false_for_ordered_default : ∃ c1 c2 δ, AnyOrder devOD c1 c2 ∧ newDelta devOD c1 c2 = .ok δ ∧
    configAddDelta devOD c1 δ = .ok (cfg [el "top" []]) ∧ c2 = cfg [el "top" [lf "l" "3", lf "l" "2", lf "l" "1"]] :=
  ⟨cfg [el "top" [lf "l" "1", lf "l" "2", lf "l" "3"]], cfg [el "top" [lf "l" "3", lf "l" "2", lf "l" "1"]],
    ⟨_, _, {}, none⟩, anyOrderB_sound (by decide +kernel), rfl, by decide +kernel, rfl⟩

end Demo
end NcDiff
