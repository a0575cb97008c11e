import Verif.Proof.Minimal
import Verif.Props.Choice
/-!
# Property C78: the edit-config of a delta says nothing about what has not changed
-/

namespace NcDiff

variable {d : Device}

/-- C78: of what both configs have, exactly what is different is in the edit-config of the delta, at
every level, together with the keys of lists and the entries of ordered-by-user lists and
leaf-lists; an entry of an ordered-by-user list that has not changed is there with its keys only. -/
theorem C78_only_changes (d : Device) (opts : Opts) (c1 c2 : Elem) (h : AnyOrder d c1 c2) :
    ∃ δ x, newDelta d c1 c2 opts = .ok δ ∧ δ.nc d = .ok x ∧
      OnlyChanges d (opts.replace = .replace ∨ opts.diffType = .replace) .root c1 c2 x := by
  obtain ⟨D, hx, hok, _⟩ := calcSub_ok carry_minimal.carry h.loose (fun _ => h.src.filled)
  refine ⟨_, _, newDelta_ok h.src.valid.valid h.dst.valid.valid, ?_, strip_minimal hok.carried
    (D' := if opts.diffType = .minimumReplace then addAttrAtDepth (opts.replaceDepth + 1) D else D) ?_⟩
  rotate_left
  · split
    · rw [strip_addAttr]
    · rfl
  simp only [Delta.nc, hx, bind, Except.bind, pure, Except.pure]

/-- C78, choices: the same holds if the target has other cases of choices than the source. -/
theorem C78_cases (d : Device) (opts : Opts) (c1 c2 : Elem) (h : Switches d c1 c2) (hr : opts.diffType ≠ .replace) :
    ∃ δ x, newDelta d c1 c2 opts = .ok δ ∧ δ.nc d = .ok x ∧
      OnlyChanges d (opts.replace = .replace) .root c1 c2 x := by
  have ht : (clear d .root c2 c1).tag = c2.tag := by rw [clear_tag]; exact h.srcTag.trans h.dstTag.symm
  have hv : parseTextAt d .root (clear d .root c2 c1) = parseTextAt d .root c2 := by
    unfold parseTextAt
    simp only [clear_text, h.src.valid.noText, h.dst.valid.noText]
  have hsc : ∀ n, Scope.root = .node n → n.ntype ≠ .case := by rintro n ⟨⟩
  have hS := clear_side c1 h.src.side h.dst.side h.dstCase
  have hsw : SwitchW True d .root c1 c2 := h.switch.loose
  obtain ⟨D, hD, hok, _⟩ := nodeSub_shed (ω := True) (opts := opts)
    (q := ⟨fun _ => OnlyChanges d (opts.replace = .replace), fun _ _ _ => True, fun _ _ _ => True, fun _ _ _ _ _ => True⟩)
    { whole := fun hw hS hT => carry_minimal.whole (hw.elim (fun h => h.1) (fun h => absurd h.1 hr)) hS hT
      keys := fun _ hs hk => carry_minimal.keys hs hk
      level := fun _ _ hL => carry_minimal.level hL
      new := fun _ _ _ => trivial
      gone := fun _ => trivial
      leaf := fun _ _ _ => trivial
      replaced := fun _ _ _ => trivial }
    c2 0 (fun h' => absurd h' hr) h.src.side hS
    h.dst.side ht hv (clear_compat c1 hsc h.src.side h.dst.side h.dstCase hsw h.src.filled h.dst.filled)
    (fun h' => absurd h' hr)
    (clear_sheds c1 hsc h.src.side h.dst.side h.srcCase h.dstCase hsw h.src.filled)
  refine ⟨_, if opts.diffType = .minimumReplace then addAttrAtDepth (opts.replaceDepth + 1) D else D,
    newDelta_ok h.src.valid.valid h.dst.valid.valid, ?_, ?_⟩
  · have hx : calcSub d opts c2 c1 =
        .ok (if opts.diffType = .minimumReplace then addAttrAtDepth (opts.replaceDepth + 1) D else D) := by
      unfold calcSub
      simp only [if_neg (fun h' : opts.diffType = .replace ∧ opts.replaceDepth = 0 => hr h'.1), hD, bind, Except.bind,
        pure, Except.pure]
      split <;> rfl
    simp only [Delta.nc, hx, bind, Except.bind, pure, Except.pure]
  · refine strip_minimal (clear_minimal c1 h.src.side h.dst.side h.srcCase h.dstCase hok.carried) ?_
    split
    · rw [strip_addAttr]
    · rfl

/-- C78, unchanged parts: what is the same under the root of both configs is not in the edit-config,
unless the order of its siblings counts. -/
theorem C78_untouched (d : Device) (opts : Opts) (c1 c2 : Elem) (h : AnyOrder d c1 c2)
    (ho : opts.replace = .merge) (ht : opts.diffType ≠ .replace) :
    ∃ δ x, newDelta d c1 c2 opts = .ok δ ∧ δ.nc d = .ok x ∧
      ∀ s ∈ c1.kids, ∀ k ∈ c2.kids, ∀ f, d.lookup .root k.tag = .ok f → SameInstance d .root s k →
        SameConfig d (.node f.node) s k → ¬ Repeated f → ∀ o ∈ x.kids, ¬ SameInstance d .root k o := by
  obtain ⟨δ, x, h1, h2, h3⟩ := C78_only_changes d opts c1 c2 h
  refine ⟨δ, x, h1, h2, ?_⟩
  intro s hs k hk f hf hi hsame hrep o hoo hko
  cases h3 with
  | replaced hw _ _ => exact hw.elim (fun h => by rw [ho] at h; cases h) (fun h => ht h)
  | same _ keys =>
    obtain ⟨_, _, g, hg, hkey, hn⟩ := keys o hoo
    rw [← hko.1, hf] at hg
    obtain rfl := Except.ok.inj hg
    exact hrep (Or.inl ⟨hkey, hn⟩)
  | level mentioned _ =>
    rcases (mentioned s hs k hk hi f hf).1 ⟨o, hoo, hko⟩ with h' | h'
    · exact h' hsame
    · exact hrep h'

/-- C78, equal configs: there is nothing in the edit-config, but for the entries of lists and
leaf-lists at the root whose order counts. -/
theorem C78_equal (d : Device) (opts : Opts) (c1 c2 : Elem) (h : AnyOrder d c1 c2)
    (ho : opts.replace = .merge) (ht : opts.diffType ≠ .replace) (hs : cfgEq d c1 c2 = .ok true) :
    ∃ δ x, newDelta d c1 c2 opts = .ok δ ∧ δ.nc d = .ok x ∧
      ∀ o ∈ x.kids, ∃ f, d.lookup .root o.tag = .ok f ∧ Repeated f := by
  obtain ⟨δ, x, h1, h2, h3⟩ := C78_untouched d opts c1 c2 h ho ht
  obtain ⟨δ', x', h1', h2', h4⟩ := C15_deletes_missing d opts c1 c2 h
  obtain rfl := Except.ok.inj (h1.symm.trans h1')
  obtain rfl := Except.ok.inj (h2.symm.trans h2')
  refine ⟨δ, x, h1, h2, ?_⟩
  obtain ⟨b, hb, hbi⟩ := cfgEq_iff h.src.valid h.dst.valid
  obtain rfl : b = true := Except.ok.inj (hb.symm.trans hs)
  have hsame := hbi.1 rfl
  intro o hoo
  have hk : ∃ k ∈ c2.kids, SameInstance d .root k o := by
    cases h4 with
    | replaced hw _ _ => exact hw.elim (fun h => by rw [ho] at h; cases h) (fun h => absurd h ht)
    | level _ _ _ _ only =>
      rcases only o hoo with h | ⟨s, hs, hi⟩
      · exact h
      · obtain ⟨k, hk, hsk⟩ := hsame.left hs
        exact ⟨k, hk, hsk.symm.trans hi⟩
  obtain ⟨k, hk, hko⟩ := hk
  obtain ⟨f, hf, _⟩ := h.dst.valid.valid.shape' k hk
  refine ⟨f, by rw [← hko.1]; exact hf, ?_⟩
  by_contra hrep
  obtain ⟨s, hs, hks⟩ := hsame.symm.left hk
  exact h3 s hs k hk f hf hks.symm (hsame.symm.sub' hk hs hks hf).symm hrep o hoo hko

/-! ## Examples -/

open Demo

namespace MinimalDemo

example (opts : Opts) : ∃ δ x, newDelta dev rt1 rt2 opts = .ok δ ∧ δ.nc dev = .ok x ∧
    OnlyChanges dev (opts.replace = .replace ∨ opts.diffType = .replace) .root rt1 rt2 x :=
  C78_only_changes dev opts rt1 rt2 rt_transition.anyOrder

example : ∃ δ x, newDelta dev Choice.sw1 Choice.sw2 = .ok δ ∧ δ.nc dev = .ok x ∧
    OnlyChanges dev (PrefReplace.merge = .replace) .root Choice.sw1 Choice.sw2 x :=
  C78_cases dev {} Choice.sw1 Choice.sw2 Choice.sw_switches (by decide)

/-- The entry `y` of the list, the leaf `b` and the container `np` are the same; the order of the rules counts. -/
def m1 : Elem := cfg [el "top" [lf "a" "1", lf "b" "5", item "x" "1", item "y" "2", rule "1" "deny", rule "2" "permit",
  el "np" [lf "w" "1"]]]
def m2 : Elem := cfg [el "top" [lf "a" "2", lf "b" "5", item "x" "3", item "y" "2", rule "1" "deny", rule "2" "permit",
  el "np" [lf "w" "1"]]]

theorem m_transition : Transition dev m1 m2 := transitionB_sound (by decide +kernel)

example : ∃ δ, newDelta dev m1 m2 = .ok δ ∧ (δ.nc dev).toOption.map (fun x => x.kids.map (fun t => t.kids.map (fun k =>
    (k.tag, k.kids.map Elem.tag)))) = some [[(q "a", []), (q "item", [q "name", q "val"]), (q "rule", [q "id"]),
      (q "rule", [q "id"])]] := ⟨_, rfl, by decide +kernel⟩

example : ∃ δ x, newDelta dev m1 m1 = .ok δ ∧ δ.nc dev = .ok x ∧
    ∀ o ∈ x.kids, ∃ f, dev.lookup .root o.tag = .ok f ∧ Repeated f :=
  C78_equal dev {} m1 m1 (transitionB_sound (c1 := m1) (c2 := m1) (by decide +kernel)).anyOrder rfl (by decide)
    (by decide +kernel)

example : ∃ δ x, newDelta dev m1 m2 = .ok δ ∧ δ.nc dev = .ok x ∧
    ∀ s ∈ m1.kids, ∀ k ∈ m2.kids, ∀ f, dev.lookup .root k.tag = .ok f → SameInstance dev .root s k →
      SameConfig dev (.node f.node) s k → ¬ Repeated f → ∀ o ∈ x.kids, ¬ SameInstance dev .root k o :=
  C78_untouched dev {} m1 m2 m_transition.anyOrder rfl (by decide)

end MinimalDemo

end NcDiff
