import Verif.Spec.CheckKey
import Verif.Spec.CheckInstId
import Verif.Proof.Fault
import Verif.Props.Sum
/-!
# Properties C08, C12: edit-config semantics of sums
-/

namespace NcDiff

/-- A config that a delta can be applied to: valid, with proper prefix maps. -/
structure GoodConfig (d : Device) (c : Elem) : Prop where
  valid : ValidConfig d c
  ns : Deep d (NsLevel d) .root c

/-- A proper delta: valid as a tree, list entries with plain keys that are not deleted, leaves with
proper values. -/
structure GoodDelta (d : Device) (c : Elem) : Prop where
  valid : Valid d .root c
  level : Deep d (DeltaLevel d) .root c

/-! ## C08 -/

/-- C08, success: when a sum is computed, every operation of the delta has had its edit-config
effect, at every level (see `Applied`). -/
theorem C08_operations_applied (d : Device) (c delta r : Elem) (hc : GoodConfig d c)
    (hd : GoodDelta d delta) (h : calcAdd d c delta = .ok r) : Applied d .root delta c r :=
  nodeAdd_applied d delta .root c r hc.valid.valid hc.ns hd.valid hd.level h

/-- C08, failure: a delta that can be applied except for one operation that cannot be carried out
(deleting what is missing, creating what exists, an unknown operation), at whatever depth, raises
`ConfigDeltaError` with the corresponding message. -/
theorem C08_bad_operation_raises (d : Device) (c delta : Elem) (x : DeltaErr) (hc : ValidConfig d c)
    (hd : Valid d .root delta) (h : OneFault d .root delta c x) :
    calcAdd d c delta = .error (.configDelta x) :=
  nodeAdd_fault h hc.valid hd

/-! ## C12 -/

/-- C12: the sum of a valid config and a proper delta is a valid config; in particular no instance
occurs twice at any level. -/
theorem C12_sum_valid (d : Device) (c delta r : Elem) (hc : GoodConfig d c) (hd : GoodDelta d delta)
    (h : calcAdd d c delta = .ok r) : GoodConfig d r := by
  obtain ⟨h1, h2⟩ := nodeAdd_valid d delta .root c r hc.valid.valid hc.ns hd.valid hd.level h
  exact ⟨⟨h1, (nodeAdd_tag h).2.1.trans hc.valid.noText⟩, h2⟩

/-! ## The hypotheses can be met -/

/-- Executable `LeafValueOk`. -/
def leafValueB (sn : SNode) (k : Elem) : Bool :=
  decide sn.info.datatype.plain || (sn.info.datatype = .identityref &&
    match k.text with
    | none => true
    | some t => match t.toList with | c :: _ => c ≠ ':' | [] => false) ||
  (sn.info.datatype = .instanceId &&
    match k.text with
    | none => true
    | some t => decide (InstId.Readable t.toList (InstId.read t.toList)))

theorem leafValueB_sound {sn : SNode} {k : Elem} (h : leafValueB sn k = true) : LeafValueOk sn k := by
  unfold leafValueB at h
  rw [Bool.or_eq_true, Bool.or_eq_true, Bool.and_eq_true, Bool.and_eq_true] at h
  rcases h with (h | ⟨h1, h2⟩) | ⟨h1, h2⟩
  · exact Or.inl (by simpa using h)
  rotate_left
  · refine Or.inr (Or.inr ⟨by simpa using h1, ?_⟩)
    intro t ht
    rw [ht] at h2
    exact ⟨_, of_decide_eq_true h2⟩
  · refine Or.inr (Or.inl ⟨by simpa using h1, ?_⟩)
    intro t ht
    rw [ht] at h2
    simp only at h2
    split at h2
    · rename_i c r hcr; exact ⟨c, r, hcr, by simpa using h2⟩
    · cases h2

/-- The keys of an entry are proper leaves. -/
def keysOkB (d : Device) (sn : SNode) (k : Elem) : Bool :=
  !(sn.ntype = .list) || sn.keys.all (fun q =>
    match d.lookup (.node sn) q with
    | .ok g => g.node.ntype = .leaf && (k.childrenWith q).all (keyOkB d g.node)
    | .error _ => false)

/-- Executable `DeltaLevel`. -/
def deltaLevelB (d : Device) (sc : Scope) (e : Elem) : Bool :=
  decide (NsMapOk e.nsmap) && e.kids.all (fun k =>
    match d.lookup sc k.tag with
    | .error _ => false
    | .ok f => kidOkB d f.node k && keysOkB d f.node k &&
        (!(f.node.ntype = .list) || f.node.keys.all (fun q => (k.childrenWith q).all (fun c => opOf c = "merge"))) &&
        (!(f.node.ntype = .leaf) || leafValueB f.node k))

theorem deltaLevelB_sound {d : Device} (sc : Scope) (e : Elem) (h : deltaLevelB d sc e = true) :
    DeltaLevel d sc e := by
  unfold deltaLevelB at h
  rw [Bool.and_eq_true, decide_eq_true_eq, List.all_eq_true] at h
  obtain ⟨h0, h⟩ := h
  have h' : ∀ k ∈ e.kids, ∃ f, d.lookup sc k.tag = .ok f ∧ kidOkB d f.node k = true ∧
      keysOkB d f.node k = true ∧ (f.node.ntype = .list → ∀ q ∈ f.node.keys, ∀ c ∈ k.childrenWith q, opOf c = "merge") ∧
      (f.node.ntype = .leaf → leafValueB f.node k = true) := by
    intro k hk
    have := h k hk
    cases hl : d.lookup sc k.tag with
    | error x => simp [hl] at this
    | ok f =>
      simp only [hl, Bool.and_eq_true, Bool.or_eq_true, Bool.not_eq_true', decide_eq_false_iff_not,
        List.all_eq_true, decide_eq_true_eq] at this
      obtain ⟨⟨⟨h1, h2⟩, h3⟩, h4⟩ := this
      exact ⟨f, rfl, h1, h2, fun hn => h3.resolve_left (fun h => h hn), fun hn => h4.resolve_left (fun h => h hn)⟩
  refine ⟨h0, ?_, ?_, ?_⟩
  · intro k hk
    obtain ⟨f, hf, h1, _⟩ := h' k hk
    exact ⟨f, hf, kidOkB_sound h1⟩
  · intro k hk f hf hn q hq
    obtain ⟨g, hg, _, h2, h3, _⟩ := h' k hk
    rw [hf] at hg; cases hg
    refine ⟨?_, h3 hn q hq⟩
    simp only [keysOkB, hn, decide_true, Bool.not_true, Bool.false_or, List.all_eq_true] at h2
    have := h2 q hq
    cases hg : d.lookup (.node f.node) q with
    | error e => simp [hg] at this
    | ok g =>
      simp only [hg, Bool.and_eq_true, decide_eq_true_eq, List.all_eq_true] at this
      exact ⟨g, rfl, this.1, fun c hc => keyOkB_sound (this.2 c hc)⟩
  · intro k hk f hf hn
    obtain ⟨g, hg, _, _, _, h4⟩ := h' k hk
    rw [hf] at hg; cases hg
    exact leafValueB_sound (h4 hn)

theorem goodConfig_of {d : Device} {c : Elem} (h1 : validConfigB d c = true)
    (h2 : deepB d (nsLevelB d) .root c = true) : GoodConfig d c :=
  ⟨validConfigB_sound h1, deepB_sound nsLevelB_sound c .root h2⟩

theorem goodDelta_of {d : Device} {c : Elem} (h1 : validB d .root c = true)
    (h2 : deepB d (deltaLevelB d) .root c = true) : GoodDelta d c :=
  ⟨validB_sound c .root h1, deepB_sound deltaLevelB_sound c .root h2⟩

namespace Demo

theorem sum1_good : GoodConfig dev sum1 := goodConfig_of (by decide +kernel) (by decide +kernel)
theorem sum2_good : GoodDelta dev sum2 := goodDelta_of (by decide +kernel) (by decide +kernel)

example : ∀ r, calcAdd dev sum1 sum2 = .ok r → Applied dev .root sum2 sum1 r :=
  fun r h => C08_operations_applied dev sum1 sum2 r sum1_good sum2_good h

example : ∀ r, calcAdd dev sum1 sum2 = .ok r → GoodConfig dev r :=
  fun r h => C12_sum_valid dev sum1 sum2 r sum1_good sum2_good h

/-- A delta with one fault: leaf `x` is deleted two levels down, but does not exist. -/
def bad1 : Elem := cfg [el "top" [lf "b" "7", setOp (lf "x" "1") "delete", setOp (item "z" "1") "create"]]

theorem bad1_fault : OneFault dev .root bad1 sum1 .dataMissing := by
  refine OneFault.inside [] [] (el "top" [lf "b" "7", setOp (lf "x" "1") "delete", setOp (item "z" "1") "create"])
    (sum1.kids.head!) ⟨topS, [0, 0], false⟩ rfl (by decide) ⟨sum1, by decide +kernel⟩ (by decide +kernel)
    ((sameB_iff ..).1 (by decide +kernel)) (by decide) rfl (Or.inl rfl) ?_
  refine OneFault.here [lf "b" "7"] [setOp (item "z" "1") "create"] (setOp (lf "x" "1") "delete") rfl
    (by decide) ?_ (.deleteMissing (by decide) ?_)
  · exact isOk_iff.1 (by decide +kernel)
  · intro y hy hsm
    have hall : ∀ y ∈ (sum1.kids.head!).kids, y.tag ≠ q "x" := by decide +kernel
    exact hall y hy hsm.1

example : calcAdd dev sum1 bad1 = .error (.configDelta .dataMissing) :=
  C08_bad_operation_raises dev sum1 bad1 _ sum1_valid (validB_sound _ _ (by decide +kernel)) bad1_fault

/-- C12 is false for a delta that creates an entry with a duplicated child: it is copied as it is. -/
theorem C12_false_for_duplicates_in_delta : ∃ c delta r, GoodConfig dev c ∧ calcAdd dev c delta = .ok r ∧
    ∃ t ∈ r.kids, ∃ p ∈ t.kids, p.kids = [lf "z" "1", lf "z" "2"] :=
  ⟨cfg [el "top" [lf "a" "1"]], cfg [el "top" [setOp (el "pc" [lf "z" "1", lf "z" "2"]) "create"]],
    cfg [el "top" [lf "a" "1", el "pc" [lf "z" "1", lf "z" "2"]]],
    goodConfig_of (by decide +kernel) (by decide +kernel), by decide +kernel,
    el "top" [lf "a" "1", el "pc" [lf "z" "1", lf "z" "2"]], by simp [cfg], el "pc" [lf "z" "1", lf "z" "2"],
    by simp [el], rfl⟩

/-- C12 is false for a delta that deletes the key leaves of list entries. -/
theorem C12_false_for_deleted_keys : ∃ c delta r, GoodConfig dev c ∧ Valid dev .root delta ∧
    calcAdd dev c delta = .ok r ∧
    ∃ t ∈ r.kids, t.kids = [el "item" [lf "val" "1"], el "item" [lf "val" "2"]] ∧
      SameInstance dev (.node topS) (el "item" [lf "val" "1"]) (el "item" [lf "val" "2"]) :=
  ⟨cfg [el "top" [item "x" "1", item "y" "2"]],
    cfg [el "top" [el "item" [setOp (lf "name" "x") "delete"], el "item" [setOp (lf "name" "y") "delete"]]],
    cfg [el "top" [el "item" [lf "val" "1"], el "item" [lf "val" "2"]]],
    goodConfig_of (by decide +kernel) (by decide +kernel), validB_sound _ _ (by decide +kernel), by decide +kernel,
    el "top" [el "item" [lf "val" "1"], el "item" [lf "val" "2"]], by simp [cfg], rfl,
    (sameB_iff ..).1 (by decide +kernel)⟩

end Demo

end NcDiff
