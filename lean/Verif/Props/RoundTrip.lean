import Verif.Proof.ConfigLaws
import Verif.Proof.ShapeStrip
import Verif.Proof.Laws
import Verif.Proof.Exact
import Verif.Spec.CheckTransition
import Verif.Spec.Demo
import Verif.Props.Ref
/-!
# Properties C01, C06, C07, C14, C15, C34: differences of configs
-/

namespace NcDiff

section
variable {ω : Prop} {d : Device}

theorem SourceConfig.side {c : Elem} (h : SourceConfig d c) : Side d .root c := ⟨h.valid.valid, h.bare, h.level⟩

theorem PlainConfig.side {c : Elem} (h : PlainConfig d c) : Side d .root c := ⟨h.valid.valid, h.bare, h.level⟩

/-- Every config can be compared with itself. -/
theorem Compat.refl : ∀ {c : Elem} {sc : Scope}, Valid d sc c → Compat d sc c c := by
  intro c
  induction c using Elem.ind with
  | h t n a x ks ih =>
    intro sc hv
    have hu : ∀ x ∈ ks, ∀ y ∈ ks, SameInstance d sc x y → x = y := fun x hx y hy h =>
      List.inj_on_of_nodup_map hv.indexable.nodup hx hy ((hv.same_iff hv hx hy).2 h)
    refine .mk ?_ ?_ ?_ ?_
    · intro s hs k _ ha; exact absurd (SameInstance.refl d sc s) (ha s hs)
    · intro t _
      refine settles_of_kept hv hv ?_
      intro x y hb _ _ x' hx' y' hy' h1 h2
      have hx := hb.subset (List.mem_cons_self)
      have hy := hb.subset (List.mem_cons_of_mem _ List.mem_cons_self)
      rw [← hu x hx x' hx' h1, ← hu y hy y' hy' h2]; exact hb
    · intro s hs k hk h f _ _ hne
      rw [hu s hs k hk h] at hne
      rcases hne with hne | hne
      · exact absurd rfl hne.2
      · exact absurd rfl hne
    · intro s hs k hk h f hf _
      rw [hu s hs k hk h]
      cases hv with
      | mk _ _ _ sub => exact ih k hk (sub k hk f hf)

/-- Adding nothing changes nothing. -/
theorem nodeAdd_empty {sc : Scope} {src delta : Elem} (i1 : Indexable d sc src.kids) (hk : delta.kids = []) :
    nodeAdd d delta sc src = .ok src := by
  rw [nodeAdd_run i1 (by rw [hk]; exact ⟨by simp, by simp⟩), hk]
  have h1 : ∀ l : List (Elem × Nat), l.filterMap (fun a => (([] : List (Elem × AddFn)).find?
      (fun b => uid d sc b.1 = uid d sc a.1)).map (fun b => (a, b))) = [] := by
    intro l; simp
  simp only [groupsOf, List.map_nil, h1, List.filter_nil, List.foldlM_nil, bind, Except.bind, pure, Except.pure]
  cases src
  simp [List.map_map, Function.comp_def, Elem.setKids]

/-- The difference of two plain configs, as an edit-config tree before `nc` marks its replace
level. -/
theorem calcSub_ok {opts : Opts} {q : Carrier} {c1 c2 : Elem} (hQ : Carry d opts q) (h : TransitionW ω d c1 c2)
    (hF : opts.diffType = .replace → Deep d (FilledLevel d) .root c1) :
    ∃ D, calcSub d opts c2 c1 =
        .ok (if opts.diffType = .minimumReplace then addAttrAtDepth (opts.replaceDepth + 1) D else D) ∧
      SubOk ω d (q.node 0) .root c1 c2 D ∧
      (RootSafe d opts c2 → D.attrs = [] ∧ Diff ω d .root c1 c2 D) := by
  have ht := h.srcTag.trans h.dstTag.symm
  have hv : parseTextAt d .root c1 = parseTextAt d .root c2 := by
    unfold parseTextAt
    simp only [h.src.valid.noText, h.dst.valid.noText]
  unfold calcSub
  by_cases hr : opts.diffType = .replace ∧ opts.replaceDepth = 0
  · obtain ⟨D, hD, hok, hd⟩ := configReplace_ok hQ hr.1 h.src.side h.dst.side ht hv h.compat (hF hr.1)
    rw [hr.2] at hok
    refine ⟨D, ?_, hok, fun _ => hd⟩
    have hm : opts.diffType ≠ .minimumReplace := by rw [hr.1]; decide
    simp only [if_pos hr, hD, hm, if_false, bind, Except.bind, pure, Except.pure]
  · obtain ⟨D, hD, hok, hd⟩ := nodeSub_ok hQ c2 0 (fun h => Nat.pos_of_ne_zero (fun h0 => hr ⟨h, h0⟩)) h.src.side h.dst.side ht hv h.compat hF
    refine ⟨D, ?_, hok, fun hs => hd ?_⟩
    rotate_left
    · rcases hs with hs | hs | hs
      · exact Or.inl hs
      · exact absurd hs hr
      · exact Or.inr hs
    simp only [if_neg hr, hD, bind, Except.bind, pure, Except.pure]
    split <;> rfl

theorem newDelta_ok {opts : Opts} {c1 c2 : Elem} (h1 : Valid d .root c1) (h2 : Valid d .root c2) :
    newDelta d c1 c2 opts = .ok { src := c1, dst := c2, opts := opts } := by
  unfold newDelta
  rw [compatible_ok (cs := [c1, c2]) (by
    intro c hc
    simp only [List.mem_cons, List.not_mem_nil, or_false] at hc
    rcases hc with rfl | rfl
    · exact h1.known
    · exact h2.known)]
  rfl

/-! ## C01 -/

/-- The delta from `c1` to `c2` can be computed and applied to `c1`, and the result is a valid config and the
same as `c2`. -/
theorem round_trip (d : Device) (opts : Opts) (c1 c2 : Elem) (h : Transition d c1 c2)
    (hll : RootSafe d opts c2) :
    ∃ δ r, newDelta d c1 c2 opts = .ok δ ∧ configAddDelta d c1 δ = .ok r ∧ ValidConfig d r ∧
      SameConfig d .root r c2 := by
  obtain ⟨D, hx, _, hdiff⟩ := calcSub_ok carry_deletes.carry (h.loose (ω := True)) (fun _ => h.src.filled)
  obtain ⟨_, hdiff⟩ := hdiff hll
  obtain ⟨R, hR, hsame⟩ := hdiff.add
  have hb := hdiff.base'
  have hvR := (nodeAdd_valid d D .root c1 R hb.vS hb.nS hb.vD hb.lD hR).1
  have h1 := h.src.valid.valid
  have h2 := h.dst.valid.valid
  set x := if opts.diffType = .minimumReplace then addAttrAtDepth (opts.replaceDepth + 1) D else D with hxd
  have hadd : calcAdd d c1 x = .ok R := by
    unfold calcAdd
    rw [hxd]
    split
    · rw [nodeAdd_addAttr, hR]
    · exact hR
  obtain ⟨r, hr, hre, hrv, hrs⟩ := addElem_ok hadd hvR h.srcTag h.src.bare.here' h.src.valid.noText h2 hsame.tight
    h.defaults h.trimmed
  refine ⟨_, r, newDelta_ok h1 h2, ?_, ⟨hrv, by rw [hre]; rfl⟩, hrs⟩
  · unfold configAddDelta
    rw [compatible_ok (cs := [c1, c1, c2]) (by
      intro c hc
      simp only [List.mem_cons, List.not_mem_nil, or_false] at hc
      rcases hc with rfl | rfl | rfl
      · exact h1.known
      · exact h1.known
      · exact h2.known)]
    simp only [bind, Except.bind, Delta.nc]
    rw [hx]
    exact hr

/-- C01: the delta from `c1` to `c2` can be computed and applied to `c1`, and the result equals
`c2`.  All preferences for creating, replacing and deleting, all diff types and replace depths. -/
theorem C01_round_trip (d : Device) (opts : Opts) (c1 c2 : Elem) (h : Transition d c1 c2)
    (hll : RootSafe d opts c2) :
    ∃ δ r, newDelta d c1 c2 opts = .ok δ ∧ configAddDelta d c1 δ = .ok r ∧ cfgEq d r c2 = .ok true := by
  obtain ⟨δ, r, hδ, hr, hv, hs⟩ := round_trip d opts c1 c2 h hll
  obtain ⟨b, hbq, hbi⟩ := cfgEq_iff hv h.dst.valid
  exact ⟨δ, r, hδ, hr, by rw [hbq, hbi.2 hs]⟩

/-- C01, order: entries that keep their relative order meet the order condition of `Transition`,
whatever is created and deleted between them. -/
theorem C01_order_kept {sc : Scope} {S T : Elem} (t : QName) (hS : Valid d sc S) (hT : Valid d sc T)
    (h : KeepsOrder d sc t S.kids T.kids) : OrderSettles d sc t S.kids T.kids := settles_of_kept hS hT h

/-- C01, order: entries of which some move together meet the order condition of `Transition`, if
none is created. -/
theorem C01_order_moved {sc : Scope} {S T : Elem} (t : QName) (hS : Valid d sc S) (hT : Valid d sc T)
    (h : MovesPart d sc t S.kids T.kids) : OrderSettles d sc t S.kids T.kids := settles_of_moved hS hT h

/-! ## C14 and C15 -/

/-- C14: the edit-config of the delta gives, at every level it goes through, all entries of
ordered-by-user lists and leaf-lists in the order of the target: the first is marked
`insert=first`, and each other one `insert=after`, naming the entry in front of it. -/
theorem C14_order_marked (d : Device) (opts : Opts) (c1 c2 : Elem) (h : AnyOrder d c1 c2) :
    ∃ δ x, newDelta d c1 c2 opts = .ok δ ∧ δ.nc d = .ok x ∧
      OrderMarked d (opts.replace = .replace ∨ opts.diffType = .replace) .root c1 c2 x := by
  obtain ⟨D, hx, hok, _⟩ := calcSub_ok carry_order.carry h.loose (fun _ => h.src.filled)
  refine ⟨_, _, newDelta_ok h.src.valid.valid h.dst.valid.valid, ?_, strip_order hok.carried
    (D' := if opts.diffType = .minimumReplace then addAttrAtDepth (opts.replaceDepth + 1) D else D) ?_⟩
  rotate_left
  · split
    · rw [strip_addAttr]
    · rfl
  simp only [Delta.nc, hx, bind, Except.bind, pure, Except.pure]

/-- C15: the edit-config of the delta deletes exactly what is in `c1` and not in `c2`. -/
theorem C15_deletes_missing (d : Device) (opts : Opts) (c1 c2 : Elem) (h : AnyOrder d c1 c2) :
    ∃ δ x, newDelta d c1 c2 opts = .ok δ ∧ δ.nc d = .ok x ∧
      DeletesMissing d (opts.replace = .replace ∨ opts.diffType = .replace) .root c1 c2 x := by
  obtain ⟨D, hx, hok, _⟩ := calcSub_ok carry_deletes.carry h.loose (fun _ => h.src.filled)
  refine ⟨_, _, newDelta_ok h.src.valid.valid h.dst.valid.valid, ?_, strip_deletes hok.carried
    (D' := if opts.diffType = .minimumReplace then addAttrAtDepth (opts.replaceDepth + 1) D else D) ?_⟩
  rotate_left
  · split
    · rw [strip_addAttr]
    · rfl
  simp only [Delta.nc, hx, bind, Except.bind, pure, Except.pure]

/-! ## C06 and C07 -/

/-- C07: a delta is falsy exactly when one config is a rearrangement of the other. -/
theorem C07_falsy_iff_equal (d : Device) (opts : Opts) (c1 c2 : Elem) (h1 : ValidConfig d c1)
    (h2 : ValidConfig d c2) :
    ∃ δ b, newDelta d c1 c2 opts = .ok δ ∧ δ.bool d = .ok b ∧ (b = false ↔ SameConfig d .root c1 c2) ∧
      (b = false → Rearranged d .root c1 c2) := by
  obtain ⟨r, hr, hri⟩ := cfgEq_iff h1 h2
  refine ⟨_, !r, newDelta_ok h1.valid h2.valid, ?_, ?_, ?_⟩
  · simp only [Delta.bool, hr, bind, Except.bind, pure, Except.pure]
  · rw [← hri]; simp
  · intro hb
    exact rearranged_of_same c1 .root c2 h1.valid h2.valid (hri.1 (by simpa using hb))

/-- C07, edit-config: if there is nothing in the edit-config of a delta, the configs are equal. -/
theorem C07_empty_edit_config (d : Device) (opts : Opts) (c1 c2 : Elem) (h : AnyOrder d c1 c2)
    (hll : RootSafe d opts c2) :
    ∃ δ x, newDelta d c1 c2 opts = .ok δ ∧ δ.nc d = .ok x ∧ (x.kids = [] → cfgEq d c1 c2 = .ok true) := by
  obtain ⟨D, hx, _, hdiff⟩ := calcSub_ok carry_deletes.carry h.loose (fun _ => h.src.filled)
  obtain ⟨_, hdiff⟩ := hdiff hll
  refine ⟨_, if opts.diffType = .minimumReplace then addAttrAtDepth (opts.replaceDepth + 1) D else D,
    newDelta_ok h.src.valid.valid h.dst.valid.valid, ?_, ?_⟩
  · simp only [Delta.nc, hx, bind, Except.bind, pure, Except.pure]
  · intro he
    have hk : D.kids = [] := by
      revert he
      split
      · cases D with
        | mk t n a x ks => cases ks <;> simp [addAttrAtDepth, addAttrAtDepthList]
      · exact id
    obtain ⟨R, hR, hsame⟩ := (hdiff.empty hk).add
    rw [nodeAdd_empty h.src.valid.valid.indexable hk] at hR
    cases hR
    obtain ⟨b, hbq, hbi⟩ := cfgEq_iff h.src.valid h.dst.valid
    rw [hbq, hbi.2 hsame.tight]

/-- C06: a config minus itself is falsy, and adding it changes nothing. -/
theorem C06_self_difference (d : Device) (opts : Opts) (c : Elem) (h : PlainConfig d c)
    (htag : c.tag = ncTag "config") (htrim : trimDefaults d .root c = .ok c)
    (hdef : Deep d (DefaultLevel d) .root c)
    (hll : RootSafe d opts c) :
    ∃ δ r, newDelta d c c opts = .ok δ ∧ δ.bool d = .ok false ∧ configAddDelta d c δ = .ok r ∧
      cfgEq d r c = .ok true := by
  have ht : Transition d c c := ⟨h, h, htag, htag, .refl h.valid.valid, htrim, hdef⟩
  obtain ⟨δ, r, h1, h2, h3⟩ := C01_round_trip d opts c c ht hll
  obtain ⟨δ', b, h1', h4, h5, _⟩ := C07_falsy_iff_equal d opts c c h.valid h.valid
  obtain rfl := Except.ok.inj (h1.symm.trans h1')
  exact ⟨δ, r, h1, by rw [h4, h5.2 (.refl h.valid.valid)], h2, h3⟩

/-! ## C34 -/

/-- C34: negating the delta from `c1` to `c2` gives the delta `c1 - c2` (with default preferences),
negating once more gives `c2 - c1`. -/
theorem C34_negation (d : Device) (opts : Opts) (shuffle : Option (Nat × (Nat → List Nat))) (c1 c2 : Elem)
    (h1 : ValidConfig d c1) (h2 : ValidConfig d c2) :
    ∃ δ δ' δ'', newDelta d c1 c2 opts shuffle = .ok δ ∧ δ.neg d = .ok δ' ∧ configSub d c1 c2 = .ok δ' ∧
      δ'.neg d = .ok δ'' ∧ configSub d c2 c1 = .ok δ'' ∧ δ''.src = δ.src ∧ δ''.dst = δ.dst := by
  have hc : compatible d [c1, c2] = .ok () := compatible_ok (by
    intro c hc
    simp only [List.mem_cons, List.not_mem_nil, or_false] at hc
    rcases hc with rfl | rfl
    · exact h1.valid.known
    · exact h2.valid.known)
  refine ⟨⟨c1, c2, opts, shuffle⟩, ⟨c2, c1, {}, none⟩, ⟨c1, c2, {}, none⟩, ?_, ?_, ?_, ?_, ?_, rfl, rfl⟩
  · unfold newDelta; rw [hc]; rfl
  · exact newDelta_ok h2.valid h1.valid
  · exact newDelta_ok h2.valid h1.valid
  · exact newDelta_ok h1.valid h2.valid
  · exact newDelta_ok h1.valid h2.valid

/-- C34, effect: subtracting the delta from `c1` to `c2` from `c2` leads back to `c1`. -/
theorem C34_subtract_delta (d : Device) (opts : Opts) (shuffle : Option (Nat × (Nat → List Nat))) (c1 c2 : Elem)
    (h : Transition d c2 c1) :
    ∃ δ r, newDelta d c1 c2 opts shuffle = .ok δ ∧ configSubDelta d c2 δ = .ok r ∧ cfgEq d r c1 = .ok true := by
  obtain ⟨δ, δ', δ'', h1, h2, h3, _⟩ := C34_negation d opts shuffle c1 c2 h.dst.valid h.src.valid
  obtain ⟨e, r, h4, h5, h6⟩ := C01_round_trip d {} c2 c1 h (Or.inl rfl)
  obtain rfl := Except.ok.inj (h4.symm.trans h3)
  refine ⟨δ, r, h1, ?_, h6⟩
  simp only [configSubDelta, h2, bind, Except.bind]
  exact h5

end

/-! ## The hypotheses can be met -/

namespace Demo

def rt1 : Elem := cfg [el "top" [lf "a" "1", lf "b" "5", item "x" "1", item "y" "2", rule "1" "deny",
  rule "2" "permit", rule "4" "deny", lf "dns" "10.0.0.1", lf "dns" "10.0.0.2", lf "tagl" "red", el "np" [lf "w" "1"],
  lf "x" "1"]]
def rt2 : Elem := cfg [el "top" [lf "a" "2", item "y" "3", item "z" "1", rule "0" "deny", rule "1" "deny",
  rule "3" "permit", rule "4" "permit", lf "dns" "10.0.0.9", lf "dns" "10.0.0.1", lf "dns" "10.0.0.2",
  lf "tagl" "blue", el "pc" [lf "z" "1"], lf "x" "2"]]

theorem rt_transition : Transition dev rt1 rt2 := transitionB_sound (by decide +kernel)
theorem rt_back : Transition dev rt2 rt1 := transitionB_sound (by decide +kernel)

/-- All combinations of preferences. -/
example (opts : Opts) :
    ∃ δ r, newDelta dev rt1 rt2 opts = .ok δ ∧ configAddDelta dev rt1 δ = .ok r ∧ cfgEq dev r rt2 = .ok true :=
  C01_round_trip dev opts rt1 rt2 rt_transition (Or.inr (Or.inr (by
    intro k hk f hf
    obtain rfl : k = rt2.kids.head! := by simpa [rt2, cfg] using hk
    have : dev.lookup .root (q "top") = .ok ⟨topS, [0, 0], false⟩ := rfl
    obtain rfl := Except.ok.inj (this.symm.trans hf)
    decide)))

example : ∃ δ x, newDelta dev rt1 rt2 = .ok δ ∧ δ.nc dev = .ok x ∧ OrderMarked dev (PrefReplace.merge = .replace ∨ DiffType.minimum = .replace) .root rt1 rt2 x :=
  C14_order_marked dev {} rt1 rt2 rt_transition.anyOrder

example : ∃ δ x, newDelta dev rt1 rt2 = .ok δ ∧ δ.nc dev = .ok x ∧ DeletesMissing dev (PrefReplace.merge = .replace ∨ DiffType.minimum = .replace) .root rt1 rt2 x :=
  C15_deletes_missing dev {} rt1 rt2 rt_transition.anyOrder

example : ∃ δ x, newDelta dev rt1 rt2 { diffType := .replace, replaceDepth := 1 } = .ok δ ∧ δ.nc dev = .ok x ∧
    DeletesMissing dev (PrefReplace.merge = .replace ∨ DiffType.replace = .replace) .root rt1 rt2 x :=
  C15_deletes_missing dev { diffType := .replace, replaceDepth := 1 } rt1 rt2 rt_transition.anyOrder

example : ∃ δ r, newDelta dev rt1 rt1 = .ok δ ∧ δ.bool dev = .ok false ∧ configAddDelta dev rt1 δ = .ok r ∧
    cfgEq dev r rt1 = .ok true :=
  C06_self_difference dev {} rt1 rt_transition.src rfl rt_back.trimmed rt_back.defaults (Or.inl rfl)

example : ∃ δ b, newDelta dev rt1 rt2 = .ok δ ∧ δ.bool dev = .ok b ∧
    (b = false ↔ SameConfig dev .root rt1 rt2) ∧ (b = false → Rearranged dev .root rt1 rt2) :=
  C07_falsy_iff_equal dev {} rt1 rt2 rt_transition.src.valid rt_transition.dst.valid

example : ∃ δ x, newDelta dev rt1 rt2 = .ok δ ∧ δ.nc dev = .ok x ∧
    (x.kids = [] → cfgEq dev rt1 rt2 = .ok true) :=
  C07_empty_edit_config dev {} rt1 rt2 rt_transition.anyOrder (Or.inl rfl)

/-- A rule whose key is the empty string. -/
def rule0 (v : String) : Elem := el "rule" [.mk (q "id") ns [] none [], lf "act" v]

/-- The rule with the empty key is in front of the rule `1` in both. -/
def ek1 : Elem := cfg [el "top" [rule0 "deny"]]
def ek2 : Elem := cfg [el "top" [rule0 "deny", rule "1" "deny"]]

/-- C14 and C01 are false for empty keys: the entry behind is placed after the entry `None`, which there is not, so
the delta cannot be applied. -/
theorem C14_false_for_empty_key : ValidConfig dev ek1 ∧ ValidConfig dev ek2 ∧ ∃ δ x o, newDelta dev ek1 ek2 = .ok δ ∧
    δ.nc dev = .ok x ∧ x.kids.head?.bind (fun t => t.kids.getLast?) = some o ∧ o.delAttrib = rule "1" "deny" ∧
    o.get .insert = some (.str "after") ∧ (∃ p, o.get .key = some (.pred [(p, "None")])) ∧
    configAddDelta dev ek1 δ = .error (.configDelta .insertWrong) :=
  ⟨validConfigB_sound (by decide +kernel), validConfigB_sound (by decide +kernel), ⟨_, _, {}, none⟩,
    cfg [el "top" [(el "rule" [.mk (q "id") ns [] none []]).set .insert (.str "first"),
      ((rule "1" "deny").set .insert (.str "after")).set .key (.pred [(.bare "id", "None")])]],
    ((rule "1" "deny").set .insert (.str "after")).set .key (.pred [(.bare "id", "None")]),
    rfl, by decide +kernel, rfl, by decide +kernel, by decide +kernel, ⟨.bare "id", by decide +kernel⟩,
    by decide +kernel⟩

/-- C14 and C01 are false for empty values of leaf-lists: there is no delta at all. -/
theorem C14_false_for_empty_value : ∃ c1 c2 δ, ValidConfig dev c1 ∧ ValidConfig dev c2 ∧ newDelta dev c1 c2 = .ok δ ∧
    δ.nc dev = .error .typeError :=
  ⟨cfg [el "top" [lf "a" "1"]], cfg [el "top" [.mk (q "dns") ns [] none [], lf "dns" "1"]], ⟨_, _, {}, none⟩,
    validConfigB_sound (by decide +kernel), validConfigB_sound (by decide +kernel), rfl, by decide +kernel⟩

/-- A device with an ordered-by-user leaf-list as a root. -/
def devU : Device :=
  { namespaces := [("demo", "d", u)], roots := [(q "l", "demo")],
    models := [("demo", [.mk { tag := q "l", ntype := .leafList, userOrdered := true } []])] }

/-- C07, edit-config, cannot be reversed: the order of equal root lists is always given. -/
theorem C07_equal_with_edit_config : ∃ c δ x, PlainConfig devU c ∧ newDelta devU c c = .ok δ ∧ δ.nc devU = .ok x ∧
    x.kids ≠ [] :=
  ⟨cfg [lf "l" "1"], ⟨_, _, {}, none⟩, cfg [(lf "l" "1").set .insert (.str "first")],
    plainConfigB_sound (by decide +kernel), rfl, by decide +kernel, by decide⟩

example (opts : Opts) : ∃ δ r, newDelta dev rt1 rt2 opts none = .ok δ ∧ configSubDelta dev rt2 δ = .ok r ∧
    cfgEq dev r rt1 = .ok true :=
  C34_subtract_delta dev opts none rt1 rt2 rt_back

/-- C34 is false with "preferences are kept": the negated delta deletes instead of removes. -/
theorem C34_false_for_preferences : ∃ c1 c2 δ δ' x, newDelta dev c1 c2 { delete := .remove } = .ok δ ∧
    δ.neg dev = .ok δ' ∧ δ'.nc dev = .ok x ∧
    x = cfg [el "top" [setOp (.mk (q "a") ns [] none []) "delete"]] :=
  ⟨cfg [el "top" [lf "b" "1"]], cfg [el "top" [lf "b" "1", lf "a" "1"]], ⟨_, _, { delete := .remove }, none⟩,
    ⟨_, _, {}, none⟩, _, rfl, rfl, by decide +kernel, rfl⟩

/-! ## C01 needs its hypotheses -/

/-- What C01 says about one pair of configs. -/
def RoundTrips (d : Device) (opts : Opts) (c1 c2 : Elem) : Prop :=
  ∃ δ r, newDelta d c1 c2 opts = .ok δ ∧ configAddDelta d c1 δ = .ok r ∧ cfgEq d r c2 = .ok true

/-- Executable `RoundTrips`. -/
def roundTripsB (d : Device) (opts : Opts) (c1 c2 : Elem) : Bool :=
  match newDelta d c1 c2 opts with
  | .ok δ => match configAddDelta d c1 δ with
    | .ok r => cfgEq d r c2 = .ok true
    | .error _ => false
  | .error _ => false

theorem not_roundTrips {d : Device} {opts : Opts} {c1 c2 : Elem} (h : roundTripsB d opts c1 c2 = false) :
    ¬ RoundTrips d opts c1 c2 := by
  rintro ⟨δ, r, h1, h2, h3⟩
  simp [roundTripsB, h1, h2, h3] at h

/-- C01 is false when the target is in another case of a choice: the delta leaves it to the device
to remove the old case, `+` does not do that. -/
theorem C01_false_for_other_case : ∃ c1 c2, PlainConfig dev c1 ∧ PlainConfig dev c2 ∧ ¬ RoundTrips dev {} c1 c2 :=
  ⟨cfg [el "top" [lf "x" "1"]], cfg [el "top" [lf "y" "1"]], plainConfigB_sound (by decide +kernel),
    plainConfigB_sound (by decide +kernel), not_roundTrips (by decide +kernel)⟩

/-- C01 is false when entries that stay change their order: `+` goes through the entries in the
order of the source. -/
theorem C01_false_for_reordered : ∃ c1 c2, PlainConfig dev c1 ∧ PlainConfig dev c2 ∧ ¬ RoundTrips dev {} c1 c2 :=
  ⟨cfg [el "top" [lf "dns" "1", lf "dns" "2", lf "dns" "3"]], cfg [el "top" [lf "dns" "3", lf "dns" "2", lf "dns" "1"]],
    plainConfigB_sound (by decide +kernel), plainConfigB_sound (by decide +kernel), not_roundTrips (by decide +kernel)⟩

/-- C01 is false when one entry moves and another is created behind it. -/
theorem C01_false_for_moved_and_new : ∃ c1 c2, PlainConfig dev c1 ∧ PlainConfig dev c2 ∧ ¬ RoundTrips dev {} c1 c2 :=
  ⟨cfg [el "top" [lf "dns" "1", lf "dns" "2", lf "dns" "3"]],
    cfg [el "top" [lf "dns" "2", lf "dns" "3", lf "dns" "1", lf "dns" "4"]],
    plainConfigB_sound (by decide +kernel), plainConfigB_sound (by decide +kernel), not_roundTrips (by decide +kernel)⟩

/-- Three values, and the same with the last moved to the front. -/
def before3 : Elem := el "top" [lf "dns" "1", lf "dns" "2", lf "dns" "3"]
def after3 : Elem := el "top" [lf "dns" "3", lf "dns" "1", lf "dns" "2"]

theorem transition_moved : Transition dev (cfg [before3]) (cfg [after3]) := transitionB_sound (by decide +kernel)

example (opts : Opts) (hs : RootSafe dev opts (cfg [after3])) : RoundTrips dev opts (cfg [before3]) (cfg [after3]) := by
  obtain ⟨δ, r, h1, h2, h3⟩ := C01_round_trip dev opts _ _ transition_moved hs
  exact ⟨δ, r, h1, h2, h3⟩

example : ∀ f, dev.lookup .root (q "top") = .ok f → MovesPart dev (.node f.node) (q "dns") before3.kids after3.kids := by
  intro f hf
  refine ⟨?_, [lf "dns" "3"], [lf "dns" "1", lf "dns" "2"], rfl, ?_, ?_⟩
  · intro k hk _
    refine ⟨k, ?_, .refl ..⟩
    rcases List.mem_cons.1 hk with rfl | hk
    · simp [before3, el, Elem.kids]
    rcases List.mem_cons.1 hk with rfl | hk
    · simp [before3, el, Elem.kids]
    rw [List.mem_singleton.1 hk]
    simp [before3, el, Elem.kids]
  · intro x y hb
    exact absurd hb.length_le (by simp)
  · intro x y hb
    exact ⟨x, y, hb.trans (List.sublist_append_left [lf "dns" "1", lf "dns" "2"] [lf "dns" "3"]), .refl .., .refl ..⟩

/-- C01 is false when the key of an ordered-by-user entry has an apostrophe: the delta cannot be
applied. -/
theorem C01_false_for_apostrophe : ∃ c1 c2, ValidConfig dev c1 ∧ ValidConfig dev c2 ∧ Compat dev .root c1 c2 ∧
    ¬ RoundTrips dev {} c1 c2 :=
  ⟨cfg [el "top" [rule "a'" "x"]], cfg [el "top" [rule "a'" "x", rule "b" "x"]], validConfigB_sound (by decide +kernel),
    validConfigB_sound (by decide +kernel), compatB_sound _ (by decide +kernel), not_roundTrips (by decide +kernel)⟩

/-- A device with a leaf-list as a root. -/
def devL : Device :=
  { namespaces := [("demo", "d", u)], roots := [(q "l", "demo")],
    models := [("demo", [.mk { tag := q "l", ntype := .leafList } []])] }

/-- C01 is false for `preferred_replace='replace'` when root leaf-lists differ: the operation is put
on the root of the edit-config, and is ignored there. -/
theorem C01_false_for_root_leaf_list : ∃ c1 c2, PlainConfig devL c1 ∧ PlainConfig devL c2 ∧
    Compat devL .root c1 c2 ∧ ¬ RoundTrips devL { replace := .replace } c1 c2 :=
  ⟨cfg [lf "l" "1"], cfg [lf "l" "2"], plainConfigB_sound (by decide +kernel), plainConfigB_sound (by decide +kernel),
    compatB_sound _ (by decide +kernel), not_roundTrips (by decide +kernel)⟩

/-- C01 is false when the source has an empty non-presence container that the target does not
have. -/
theorem C01_false_for_empty_container : ∃ c1 c2, ValidConfig dev c1 ∧ PlainConfig dev c2 ∧
    Compat dev .root c1 c2 ∧ ¬ RoundTrips dev { delete := .remove } c1 c2 :=
  ⟨cfg [el "top" [lf "a" "1", el "np" []]], cfg [el "top" [lf "a" "1"]], validConfigB_sound (by decide +kernel),
    plainConfigB_sound (by decide +kernel), compatB_sound _ (by decide +kernel), not_roundTrips (by decide +kernel)⟩

end Demo

namespace RefDemo

/-- Instance identifiers and identities, written with the prefixes of `ns1`. -/
def refs1 : Elem := cfg [node "top" ns1 none [node "kind" ns1 (some "a:fast") [],
  node "ref" ns1 (some "/e:top/l[a:id=\"x=[1]\"]/kind") []]]
/-- Another instance identifier, written with the prefixes of `ns2`. -/
def refs2 : Elem := cfg [node "top" ns2 none [node "kind" ns2 (some "b:slow") [],
  node "ref" ns2 (some "/x:top/x:l[b:id='y']/x:kind") []]]

/-- `C01_round_trip` covers leaves of the types identityref and instance-identifier whose values are
written with different prefixes in the two configs. -/
example (opts : Opts) (h : opts.replace = .merge) : ∃ δ r, newDelta dev refs1 refs2 opts = .ok δ ∧
    configAddDelta dev refs1 δ = .ok r ∧ cfgEq dev r refs2 = .ok true :=
  C01_round_trip dev opts refs1 refs2 (transitionB_sound (by decide +kernel)) (Or.inl h)

/-- The value of the instance-identifier in the result is written with the prefixes of the first
config. -/
example : (newDelta dev refs1 refs2 {} >>= configAddDelta dev refs1) =
    .ok (cfg [node "top" ns1 none [node "kind" ns1 (some "a:slow") [],
      node "ref" ns1 (some "/e:top/e:l[a:id='y']/e:kind") []]]) := by decide +kernel

/-- Prefixes that are those of the modules. -/
def ns3 : NsMap := [(none, "urn:ex"), (some "o", "urn:ot")]
/-- An entry of the list, keyed by an identityref. -/
def entry (m : NsMap) (i v : String) : Elem :=
  node "l" m none [node "id" m (some i) [], node "v" m (some v) []]
def keyed1 : Elem := cfg [node "top" ns1 none [entry ns3 "o:fast" "1", entry ns3 "slow" "2", entry ns3 "o:slow" "3"]]
def keyed2 : Elem := cfg [node "top" ns2 none [entry ns3 "slow" "4", entry (ns3 ++ [(some "z", "urn:zz")]) "o:fast" "1",
  entry ns3 "fast" "7"]]

/-- It also covers lists keyed by identityrefs: one entry goes, one is changed, one is new. -/
example (opts : Opts) (h : opts.replace = .merge) : ∃ δ r, newDelta dev keyed1 keyed2 opts = .ok δ ∧
    configAddDelta dev keyed1 δ = .ok r ∧ cfgEq dev r keyed2 = .ok true :=
  C01_round_trip dev opts keyed1 keyed2 (transitionB_sound (by decide +kernel)) (Or.inl h)

/-- Two configs that use a prefix for different modules. -/
def swap1 : NsMap := [(none, "urn:ex"), (some "a", "urn:ot"), (some "e", "urn:ex")]
def swap2 : NsMap := [(none, "urn:ex"), (some "a", "urn:ex"), (some "e", "urn:ot")]

/-- C01 is false when two keys are the same text but mean different identities: entries are matched by the texts of their
keys, but the identity is what is merged. -/
theorem C01_false_for_prefixes_of_keys : ∃ c1 c2, ValidConfig dev c1 ∧ ValidConfig dev c2 ∧ Compat dev .root c1 c2 ∧
    ¬ Demo.RoundTrips dev {} c1 c2 :=
  ⟨cfg [node "top" ns1 none [entry swap1 "a:x" "1"]], cfg [node "top" ns1 none [entry swap2 "a:x" "2"]],
    validConfigB_sound (by decide +kernel), validConfigB_sound (by decide +kernel), compatB_sound _ (by decide +kernel),
    Demo.not_roundTrips (by decide +kernel)⟩

/-- The sum may then have two entries with the same key. -/
theorem C12_false_for_prefixes_of_keys : ∃ c1 c2 δ r, ValidConfig dev c1 ∧ ValidConfig dev c2 ∧
    newDelta dev c1 c2 {} = .ok δ ∧ configAddDelta dev c1 δ = .ok r ∧ ¬ ValidConfig dev r := by
  refine ⟨cfg [node "top" ns1 none [entry swap1 "a:x" "1", entry swap1 "e:x" "3"]],
    cfg [node "top" ns1 none [entry swap2 "a:x" "2", entry swap1 "e:x" "3"]], _, _,
    validConfigB_sound (by decide +kernel), validConfigB_sound (by decide +kernel), rfl, rfl, ?_⟩
  intro h
  obtain ⟨f, hf⟩ : ∃ f, dev.lookup .root ⟨"urn:ex", "top"⟩ = .ok f := ⟨_, rfl⟩
  have h1 := h.valid.sub' _ (List.mem_singleton.2 rfl) f hf
  cases hf
  cases h1 with
  | mk _ _ un _ =>
    have := un.sublist (l₁ := [entry swap1 "e:x" "2", entry swap1 "e:x" "3"]) (by decide +kernel)
    rw [List.pairwise_cons] at this
    exact this.1 _ (List.mem_singleton.2 rfl) ((sameB_iff ..).1 (by decide +kernel))

end RefDemo
end NcDiff
