import Verif.Proof.Refused
import Verif.Props.Insert
/-!
# C64: exactly when a delta can be applied

`Refused d .root delta c x` (Spec/Refused.lean) says in terms of the two trees that something is
wrong with `delta` for `c`, and that `x` is the exception for it.
-/

namespace NcDiff

/-- C64: config + delta is computed exactly when nothing is wrong with the delta for the config. -/
theorem C64_applied_iff (d : Device) (c delta : Elem) (hc : GoodConfig d c) (hd : GoodDelta d delta)
    (hi : Deep d (InsertLevel d) .root delta) :
    (∃ r, calcAdd d c delta = .ok r) ↔ ∀ x, ¬ Refused d .root delta c x := by
  obtain ⟨h1, h2⟩ := Refuse.nodeAdd_refused d delta .root c hc.valid.valid hc.ns hd.valid hd.level hi
  constructor
  · rintro ⟨r, hr⟩ x
    exact h2 r x hr
  · intro h
    cases hr : calcAdd d c delta with
    | ok r => exact ⟨r, rfl⟩
    | error x => exact absurd (h1 x hr) (h x)

/-- C64: the exception that is raised is for something that is wrong with the delta. -/
theorem C64_reason (d : Device) (c delta : Elem) (x : Err) (hc : GoodConfig d c) (hd : GoodDelta d delta)
    (hi : Deep d (InsertLevel d) .root delta) (h : calcAdd d c delta = .error x) :
    Refused d .root delta c x :=
  (Refuse.nodeAdd_refused d delta .root c hc.valid.valid hc.ns hd.valid hd.level hi).1 x h

/-- C64: when one kind of thing only is wrong with the delta, at however many places, the exception is
the one for it. -/
theorem C64_one_kind (d : Device) (c delta : Elem) (x : Err) (hc : GoodConfig d c) (hd : GoodDelta d delta)
    (hi : Deep d (InsertLevel d) .root delta) (hx : Refused d .root delta c x)
    (only : ∀ y, Refused d .root delta c y → y = x) : calcAdd d c delta = .error x := by
  cases hr : calcAdd d c delta with
  | ok r => exact absurd hx ((C64_applied_iff d c delta hc hd hi).1 ⟨r, hr⟩ x)
  | error y => rw [only y (C64_reason d c delta y hc hd hi hr)]

/-- C64: the exceptions that can be raised. -/
theorem C64_kinds (d : Device) (c delta : Elem) (x : Err) (hc : GoodConfig d c) (hd : GoodDelta d delta)
    (hi : Deep d (InsertLevel d) .root delta) (h : calcAdd d c delta = .error x) :
    (∃ y, x = .configDelta y) ∨ x = .syntaxError ∨ x = .valueError ∨ x = .configError := by
  have hr := C64_reason d c delta x hc hd hi h
  clear hc hd hi h
  generalize Scope.root = sc at hr
  induction hr with
  | operation => exact Or.inl ⟨_, rfl⟩
  | anchorMissing => exact Or.inl ⟨_, rfl⟩
  | anchorUnreadable => exact Or.inr (Or.inl rfl)
  | anchorNew => exact Or.inl ⟨_, rfl⟩
  | anchorOld => exact Or.inl ⟨_, rfl⟩
  | empty => exact Or.inr (Or.inr (Or.inl rfl))
  | identity => exact Or.inr (Or.inr (Or.inr rfl))
  | inside _ _ _ _ _ _ _ _ _ _ ih => exact ih
  | insideNew _ _ _ _ _ _ _ _ _ _ ih => exact ih

/-! ## Deltas that can always be applied -/

/-- Merges, replacements and removals that do not refer to other entries and write neither identities nor instance-identifiers. -/
structure Harmless (d : Device) (sc : Scope) (e : Elem) : Prop where
  ops : ∀ k ∈ e.kids, opOf k = "merge" ∨ opOf k = "replace" ∨ opOf k = "remove"
  inserts : ∀ k ∈ e.kids, ∀ f, d.lookup sc k.tag = .ok f → ¬ Relative f.node k
  values : ∀ k ∈ e.kids, ∀ f, d.lookup sc k.tag = .ok f → 
    ¬ (f.node.info.datatype = .identityref ∨ f.node.info.datatype = .instanceId)

/-- No non-presence container is empty. -/
def NoEmptyNP (d : Device) (sc : Scope) (e : Elem) : Prop :=
  ∀ k ∈ e.kids, ∀ f, d.lookup sc k.tag = .ok f → f.node.isNP = true → k.kids ≠ []

theorem harmless_accepted {d : Device} {sc : Scope} {delta src : Elem} {x : Err}
    (h : Refused d sc delta src x) : Deep d (Harmless d) sc delta → Deep d (DeltaLevel d) sc delta →
    Deep d (NoEmptyNP d) sc src → False := by
  induction h with
  | operation o ho bad =>
    intro hh _ _
    rcases hh.here'.ops o ho with h | h | h <;> cases bad with
    | deleteMissing h2 _ => rw [h] at h2; exact absurd h2 (by decide)
    | createExisting h2 _ => rw [h] at h2; exact absurd h2 (by decide)
    | unknown h2 => exact h2 (by simp [h])
  | anchorMissing o f ho hf hr => intro hh _ _; exact hh.here'.inserts o ho f hf hr
  | anchorUnreadable o f ho hf hr => intro hh _ _; exact hh.here'.inserts o ho f hf hr
  | anchorNew l r o f kids hf hr =>
    intro hh _ _; exact hh.here'.inserts o (by rw [kids]; simp) f hf hr
  | anchorOld a b o s f ho kids hso hf hr => intro hh _ _; exact hh.here'.inserts o ho f hf hr
  | empty o s f ho hs hso hf hn hk =>
    intro _ _ he; exact he.here' s hs f (by rw [hso.1]; exact hf) hn hk
  | identity o s f ho hs hso hf hn hop hw =>
    intro hh _ _; exact hw ⟨fun hi => absurd (Or.inl hi) (hh.here'.values o ho f hf),
      fun hi => absurd (Or.inr hi) (hh.here'.values o ho f hf)⟩
  | inside o s f ho hs hso hf hn hop bad ih =>
    intro hh hd he
    exact ih (hh.sub' o ho f hf) (hd.sub' o ho f hf) (he.sub' s hs f (by rw [hso.1]; exact hf))
  | insideNew o b f ho new hf hn hop hb bad ih =>
    intro hh hd _
    refine ih (hh.sub' o ho f hf) (hd.sub' o ho f hf) ?_
    rcases hn with hn | hn
    · have : b.kids = [] := hb.container hn
      refine ⟨fun k hk => ?_, fun k hk => ?_⟩ <;> rw [this] at hk <;> cases hk
    · have hkey : ∀ k ∈ b.kids, k.kids = [] ∧ ∀ g, d.lookup (.node f.node) k.tag = .ok g →
          g.node.ntype = .leaf := by
        intro k hk
        obtain ⟨q, hq, c, hc, rfl⟩ := forall₂_right (hb.list hn) hk
        have hcm : c ∈ o.kids ∧ c.tag = q := by
          have : c ∈ o.childrenWith q := by rw [hc]; simp
          simpa [Elem.childrenWith] using this
        obtain ⟨⟨g, hg, hgl, _⟩, _⟩ := hd.here'.keys o ho f hf hn q hq
        obtain ⟨g', hg', kg⟩ := (hd.sub' o ho f hf).here'.shape c hcm.1
        rw [hcm.2, hg] at hg'; cases hg'
        unfold KidOk at kg
        simp only [hgl] at kg
        refine ⟨by rw [delAttrib_kids, kg.1]; rfl, ?_⟩
        intro g' h'
        rw [delAttrib_tag, hcm.2, hg] at h'; cases h'
        exact hgl
      refine ⟨fun k hk g hg hnp => ?_, fun k hk g hg => ⟨fun k' hk' => ?_, fun k' hk' => ?_⟩⟩
      · rw [notNP (by rw [(hkey k hk).2 g hg]; decide)] at hnp; cases hnp
      · rw [(hkey k hk).1] at hk'; cases hk'
      · rw [(hkey k hk).1] at hk'; cases hk'

/-- C64: a delta of merges, replacements and removals that places nothing before or after another
entry and writes neither identities nor instance-identifiers can be applied to every config without empty non-presence
containers. -/
theorem C64_always (d : Device) (c delta : Elem) (hc : GoodConfig d c) (hd : GoodDelta d delta)
    (hi : Deep d (InsertLevel d) .root delta) (hh : Deep d (Harmless d) .root delta)
    (he : Deep d (NoEmptyNP d) .root c) : ∃ r, calcAdd d c delta = .ok r :=
  (C64_applied_iff d c delta hc hd hi).2 (fun _ h => harmless_accepted h hh hd.level he)

/-! ## The hypotheses can be met -/

/-- What a name in a `key` attribute denotes. -/
def denoted (m : NsMap) : KeyId → Option QName
  | .brace q => some q
  | .bare n => some ⟨(m.url none).getD "", n⟩
  | .prefixed p n => (m.url (some p)).map (fun u => ⟨u, n⟩)

theorem denoted_iff {m : NsMap} {x : KeyId} {q : QName} (h : Denotes m x q) : denoted m x = some q := by
  cases x with
  | brace q' => simp only [Denotes] at h; simp [denoted, h]
  | bare n => simp only [Denotes] at h; simp [denoted, h.1, h.2]
  | prefixed p n => simp only [Denotes] at h; simp [denoted, h.1, h.2]

/-- Executable `InsertLevel`. -/
def insertLevelB (d : Device) (sc : Scope) (e : Elem) : Bool :=
  e.kids.all (fun k =>
    match d.lookup sc k.tag with
    | .error _ => true
    | .ok f => decide (insertOf k = none ∨ insertOf k = some "first" ∨ insertOf k = some "last" ∨
          insertOf k = some "before" ∨ insertOf k = some "after") &&
        (match k.get .key with
        | some (.pred ps) => ps.all (fun x => (denoted k.nsmap x.1).all (fun q => decide (q ∈ f.node.keys)))
        | _ => true) &&
        decide f.node.keys.Nodup)

theorem insertLevelB_sound {d : Device} (sc : Scope) (e : Elem) (h : insertLevelB d sc e = true) :
    InsertLevel d sc e := by
  unfold insertLevelB at h
  rw [List.all_eq_true] at h
  have h' : ∀ k ∈ e.kids, ∀ f, d.lookup sc k.tag = .ok f →
      (insertOf k = none ∨ insertOf k = some "first" ∨ insertOf k = some "last" ∨
          insertOf k = some "before" ∨ insertOf k = some "after") ∧
        (match k.get .key with
        | some (.pred ps) => ps.all (fun x => (denoted k.nsmap x.1).all (fun q => decide (q ∈ f.node.keys)))
        | _ => true) = true ∧ f.node.keys.Nodup := by
    intro k hk f hf
    have := h k hk
    simp only [hf, Bool.and_eq_true, decide_eq_true_eq] at this
    exact ⟨this.1.1, this.1.2, this.2⟩
  refine ⟨?_, ?_, fun k hk f hf _ => (h' k hk f hf).2.2⟩
  · rintro k hk f hf ⟨_, _, i, hi, h1, h2, h3, h4⟩
    rcases (h' k hk f hf).1 with h | h | h | h | h <;> rw [hi] at h <;> simp at h
    · exact h1 h
    · exact h2 h
    · exact h3 h
    · exact h4 h
  · intro k hk f hf _ ps hps x hx q hq
    have := (h' k hk f hf).2.1
    simp only [hps, List.all_eq_true] at this
    have := this x hx
    rw [denoted_iff hq] at this
    simpa using this

namespace Demo

theorem sum2_inserts : Deep dev (InsertLevel dev) .root sum2 :=
  deepB_sound insertLevelB_sound _ _ (by decide +kernel)
theorem ins2_inserts : Deep dev (InsertLevel dev) .root ins2 :=
  deepB_sound insertLevelB_sound _ _ (by decide +kernel)

/-- Nothing is wrong with a delta that places entries. -/
example : ∀ x, ¬ Refused dev .root ins2 ins1 x :=
  (C64_applied_iff dev ins1 ins2 ins1_good ins2_good ins2_inserts).1 ⟨_, ins_eq⟩

/-- Two things are wrong: leaf `x` is deleted, which does not exist, and entry 4 is placed before entry
7, which does not exist. -/
def bad2 : Elem := cfg [el "top" [lf "b" "7", setOp (lf "x" "1") "delete", badO]]

theorem bad2_good : GoodDelta dev bad2 := goodDelta_of (by decide +kernel) (by decide +kernel)
theorem bad2_inserts : Deep dev (InsertLevel dev) .root bad2 :=
  deepB_sound insertLevelB_sound _ _ (by decide +kernel)

theorem ins1_top_same : SameInstance dev .root (ins1.kids.head!)
    (el "top" [lf "b" "7", setOp (lf "x" "1") "delete", badO]) := (sameB_iff ..).1 (by decide +kernel)

/-- Both are told by the specification. -/
theorem bad2_refused : Refused dev .root bad2 ins1 (.configDelta .dataMissing) ∧
    Refused dev .root bad2 ins1 (.configDelta .insertWrong) := by
  constructor
  · refine .inside (el "top" [lf "b" "7", setOp (lf "x" "1") "delete", badO]) (ins1.kids.head!)
      ⟨topS, [0, 0], false⟩ (by decide +kernel) (by decide +kernel) ins1_top_same rfl (Or.inl rfl) (by decide) ?_
    refine .operation (setOp (lf "x" "1") "delete") (by decide +kernel) (.deleteMissing (by decide) ?_)
    intro y hy hs
    have : ∀ y ∈ (ins1.kids.head!).kids, sameB dev (.node topS) y (setOp (lf "x" "1") "delete") = false := by
      decide +kernel
    have h2 := this y hy
    rw [(sameB_iff ..).2 hs] at h2
    cases h2
  · refine .inside (el "top" [lf "b" "7", setOp (lf "x" "1") "delete", badO]) (ins1.kids.head!)
      ⟨topS, [0, 0], false⟩ (by decide +kernel) (by decide +kernel) ins1_top_same rfl (Or.inl rfl) (by decide) ?_
    have named : ∀ x : Elem, (∀ c ∈ x.kids, c.itertext ≠ "7") → ¬ Named ruleS badO x := by
      intro x hx hN
      obtain ⟨_, ps, hps, hall⟩ := hN
      cases hps
      obtain ⟨k, hk, c, hc, hct⟩ := hall (.bare "id", "7") (by simp)
      exact hx c (List.mem_filter.1 hc).1 hct
    refine .anchorNew [lf "b" "7", setOp (lf "x" "1") "delete"] [] badO ⟨ruleS, [3], false⟩ rfl rule_lookup
      ⟨Or.inl rfl, rfl, Or.inl rfl⟩ ⟨by decide, by decide⟩ ?_ ?_ ?_
    · intro y hy hs
      have : ∀ y ∈ (ins1.kids.head!).kids, sameB dev (.node topS) y badO = false := by decide +kernel
      have h2 := this y hy
      rw [(sameB_iff ..).2 hs] at h2
      cases h2
    · intro p hp
      have : ∀ x ∈ (ins1.kids.head!).kids, ∀ c ∈ x.kids, c.itertext ≠ "7" := by decide +kernel
      exact named p (this p hp)
    · intro p hp _ _
      have : ∀ x ∈ [lf "b" "7", setOp (lf "x" "1") "delete"], ∀ c ∈ x.kids, c.itertext ≠ "7" := by decide +kernel
      exact named p (this p hp)

/-- The first of them in the order of the delta is raised. -/
example : calcAdd dev ins1 bad2 = .error (.configDelta .dataMissing) := by decide +kernel

example : ¬ ∃ r, calcAdd dev ins1 bad2 = .ok r := fun h =>
  (C64_applied_iff dev ins1 bad2 ins1_good bad2_good bad2_inserts).1 h _ bad2_refused.1

/-- Deleting a container that does not exist: nothing else is wrong. -/
def bad3 : Elem := cfg [setOp (el "top" [lf "b" "7"]) "delete"]

example : calcAdd dev (cfg []) bad3 = .error (.configDelta .dataMissing) := by
  refine C64_one_kind dev (cfg []) bad3 _ (goodConfig_of (by decide +kernel) (by decide +kernel))
    (goodDelta_of (by decide +kernel) (by decide +kernel))
    (deepB_sound insertLevelB_sound _ _ (by decide +kernel))
    (.operation (setOp (el "top" [lf "b" "7"]) "delete") (by decide +kernel)
      (.deleteMissing (by decide) (fun y hy => by cases hy))) ?_
  intro y hy
  have hk : ∀ o ∈ bad3.kids, opOf o = "delete" := by decide +kernel
  cases hy with
  | operation o ho bad =>
    cases bad with
    | deleteMissing => rfl
    | createExisting h => rw [hk o ho] at h; exact absurd h (by decide)
    | unknown h => exact absurd (by rw [hk o ho]; decide) h
  | anchorMissing o f ho hf hr hop => exact absurd (hk o ho) hop.1
  | anchorUnreadable o f ho hf hr hop => exact absurd (hk o ho) hop.1
  | anchorNew l r o f kids hf hr hop => exact absurd (hk o (by rw [kids]; simp)) hop.1
  | anchorOld a b o s f ho kids => cases a <;> cases kids
  | empty o s f ho hs => cases hs
  | identity o s f ho hs => cases hs
  | inside o s f ho hs => cases hs
  | insideNew o b f ho new hf hn hop => rw [hk o ho] at hop; exact absurd hop (by decide)

/-- A delta that can always be applied, with entries of lists and removals. -/
def harmless1 : Elem := cfg [el "top" [lf "b" "7", setOp (lf "a" "1") "remove", rule "9" "p",
  setOp (rule "2" "x") "replace", (lf "dns" "9").set .insert (.str "first"), setOp (rule "8" "x") "remove"]]

/-- Executable `Harmless`. -/
def harmlessB (d : Device) (sc : Scope) (e : Elem) : Bool :=
  e.kids.all (fun k => decide (opOf k = "merge" ∨ opOf k = "replace" ∨ opOf k = "remove") &&
    decide (insertOf k ≠ some "before" ∧ insertOf k ≠ some "after") &&
    (match d.lookup sc k.tag with
    | .ok f => decide (¬ (f.node.info.datatype = .identityref ∨ f.node.info.datatype = .instanceId))
    | .error _ => true))

theorem harmlessB_sound {d : Device} (sc : Scope) (e : Elem) (h : harmlessB d sc e = true) :
    Harmless d sc e := by
  unfold harmlessB at h
  simp only [List.all_eq_true, Bool.and_eq_true, decide_eq_true_eq] at h
  refine ⟨fun k hk => (h k hk).1.1, ?_, ?_⟩
  · intro k hk f hf hr
    rcases hr.2.2 with hi | hi
    · exact (h k hk).1.2.1 ((inserts_iff (by decide)).1 hi)
    · exact (h k hk).1.2.2 ((inserts_iff (by decide)).1 hi)
  · intro k hk f hf
    have := (h k hk).2
    simpa only [hf, decide_eq_true_eq] using this

/-- Executable `NoEmptyNP`. -/
def noEmptyNPB (d : Device) (sc : Scope) (e : Elem) : Bool :=
  e.kids.all (fun k => match d.lookup sc k.tag with
    | .ok f => !f.node.isNP || decide (k.kids ≠ [])
    | .error _ => true)

theorem noEmptyNPB_sound {d : Device} (sc : Scope) (e : Elem) (h : noEmptyNPB d sc e = true) :
    NoEmptyNP d sc e := by
  unfold noEmptyNPB at h
  simp only [List.all_eq_true] at h
  intro k hk f hf hn
  have := h k hk
  simpa [hf, hn] using this

example : ∃ r, calcAdd dev ins1 harmless1 = .ok r :=
  C64_always dev ins1 harmless1 ins1_good (goodDelta_of (by decide +kernel) (by decide +kernel))
    (deepB_sound insertLevelB_sound _ _ (by decide +kernel))
    (deepB_sound harmlessB_sound _ _ (by decide +kernel))
    (deepB_sound noEmptyNPB_sound _ _ (by decide +kernel))

/-- Why empty non-presence containers are named: replacing one raises `ValueError`. -/
theorem C64_empty_container : ∃ c delta, GoodConfig dev c ∧ GoodDelta dev delta ∧
    Deep dev (InsertLevel dev) .root delta ∧ calcAdd dev c delta = .error .valueError :=
  ⟨cfg [el "top" []], cfg [setOp (el "top" [lf "b" "7"]) "replace"],
    goodConfig_of (by decide +kernel) (by decide +kernel),
    goodDelta_of (by decide +kernel) (by decide +kernel),
    deepB_sound insertLevelB_sound _ _ (by decide +kernel), by decide +kernel⟩

end Demo
end NcDiff
