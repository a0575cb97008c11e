import Verif.Proof.Positioned
import Verif.Props.Delta
/-!
# Property C13: insert positions
-/

namespace NcDiff

/-- C13: when a sum is computed, every `insert` attribute of the delta has been honoured, at every
level (see `Positioned`): the children of the delta are applied one after the other, a new entry
arrives first, last, immediately before or immediately after the named sibling, an existing entry
moves there, and nothing else moves. -/
theorem C13_positions (d : Device) (c delta r : Elem) (hc : GoodConfig d c) (hd : GoodDelta d delta)
    (h : calcAdd d c delta = .ok r) : Positioned d .root delta c r :=
  nodeAdd_positioned d delta .root c r hc.valid.valid hc.ns hd.valid hd.level h

/-- C13 for one new entry: where `o` is the only change, the entry is put, among the siblings as they
were, where `o` wants it. -/
theorem C13_new_entry {d : Device} {sc : Scope} {D S R o : Elem} {f : Found}
    (h : Positioned d sc D S R) (hD : D.kids = [o]) (hf : d.lookup sc o.tag = .ok f)
    (ha : Asks f.node o) (hop : opOf o = "merge" ∨ opOf o = "replace" ∨ opOf o = "create")
    (hno : ∀ s ∈ S.kids, ¬ SameInstance d sc s o) :
    ∃ e, SameInstance d sc e o ∧ PlacedAs f.node o e S.kids R.kids := by
  cases h with
  | mk M old base new order all change _ _ _ =>
    have hold : old = [] := by
      rw [List.eq_nil_iff_forall_not_mem]
      rintro ⟨s, o'⟩ hm
      obtain ⟨h1, h2, h3⟩ := (all _).1 hm
      rw [hD, List.mem_singleton] at h2
      simp only at h1 h2 h3
      subst h2
      exact hno s h1 h3
    subst hold
    have hMR : M = R.kids := by cases change; rfl
    subst hMR
    rw [hD, List.filter_cons, if_pos (by simpa using hno), List.filter_nil] at new
    cases new with
    | cons h1 h2 =>
      cases h2
      cases h1 with
      | nothing hop' _ => rw [hop'] at hop; simp at hop
      | new f' e hf' he _ har =>
        obtain rfl : f = f' := Except.ok.inj (hf.symm.trans hf')
        refine ⟨e, he, ?_⟩
        cases har with
        | unordered hn _ =>
          rcases hn with hn | hn <;> rcases ha.1 with h | h <;> rw [hn] at h <;> cases h
        | last l r hn hi _ _ _ =>
          obtain ⟨_, hu, i, _, hins⟩ := ha
          rcases hi with hi | hi
          · rw [hu] at hi; cases hi
          · unfold Inserts at hins; rw [hi] at hins; cases hins
        | placed _ hp => exact hp
        | ignored _ _ _ hna _ => exact absurd ha hna

/-- C13 for one existing entry: where `o` is the only change, the entry is moved, among the other
siblings, to where `o` wants it; it stays where it is if `o` names the entry itself. -/
theorem C13_existing_entry {d : Device} {sc : Scope} {D S R s o : Elem} {f : Found}
    (h : Positioned d sc D S R) (hD : D.kids = [o]) (hf : d.lookup sc o.tag = .ok f)
    (ha : Asks f.node o) (hop : opOf o = "merge" ∨ opOf o = "replace")
    (hs : s ∈ S.kids) (hso : SameInstance d sc s o)
    (huniq : ∀ x ∈ S.kids, SameInstance d sc x o → x = s) (hnd : S.kids.Nodup) :
    ∃ e a b, SameInstance d sc e o ∧ S.kids = a ++ s :: b ∧
      (PlacedAs f.node o e (a ++ b) R.kids ∨
       ((Inserts o "before" ∨ Inserts o "after") ∧ Named f.node o s ∧ (∀ x ∈ a, ¬ Named f.node o x) ∧
        R.kids = a ++ e :: b)) := by
  cases h with
  | mk M old base new order all change _ _ _ =>
    rw [hD, List.filter_cons, if_neg (by
      simp only [decide_eq_true_eq]
      exact fun hh => hh s hs hso), List.filter_nil] at new
    have hSM : S.kids = M := by cases new; rfl
    subst hSM
    have hall : ∀ p ∈ old, p = (s, o) := by
      rintro ⟨s', o'⟩ hm
      obtain ⟨h1, h2, h3⟩ := (all _).1 hm
      rw [hD, List.mem_singleton] at h2
      simp only at h1 h2 h3
      subst h2
      rw [huniq s' h1 h3]
    have hm : (s, o) ∈ old := (all (s, o)).2 ⟨hs, by rw [hD]; simp, hso⟩
    have hold : old = [(s, o)] := by
      cases old with
      | nil => simp at hm
      | cons p l =>
        obtain rfl := hall p (by simp)
        cases l with
        | nil => rfl
        | cons q l =>
          obtain rfl := hall q (by simp)
          have := order.nodup hnd
          simp at this
    subst hold
    cases change with
    | cons h1 h2 =>
      cases h2
      cases h1 with
      | gone f' a b hf' _ _ hg =>
        obtain rfl : f = f' := Except.ok.inj (hf.symm.trans hf')
        exfalso
        rcases hg with h | h | ⟨h, _⟩
        · rw [h] at hop; simp at hop
        · rw [h] at hop; simp at hop
        · rcases ha.1 with h' | h' <;> rw [h] at h' <;> cases h'
      | there f' e a b hf' hK he _ hmv =>
        obtain rfl : f = f' := Except.ok.inj (hf.symm.trans hf')
        refine ⟨e, a, b, he, hK, ?_⟩
        cases hmv with
        | stays hi _ => exact absurd ha hi
        | placed _ hp => exact Or.inl hp
        | itself hi _ hn ha' hK' => exact Or.inr ⟨hi, hn, ha', hK'⟩

/-- C13, errors: an insert position that is not said or not found raises `ConfigDeltaError`. -/
theorem C13_bad_insert_raises (d : Device) (c delta : Elem) (x : DeltaErr) (hc : ValidConfig d c)
    (hd : Valid d .root delta) (h : InsertFault d .root delta c x) :
    calcAdd d c delta = .error (.configDelta x) :=
  nodeAdd_insertFault h hc.valid hd

/-! ## The hypotheses can be met -/

namespace Demo

/-- Three rules and two name servers. -/
def ins1 : Elem := cfg [el "top" [lf "a" "1", rule "1" "p", rule "2" "d", lf "dns" "8", rule "3" "p",
  lf "dns" "9"]]

/-- A rule that wants to be right after rule 2. -/
def insO : Elem := ((rule "4" "q").set .insert (.str "after")).set .key (.pred [(.bare "id", "2")])

def ins2 : Elem := cfg [el "top" [insO, ((lf "dns" "9").set .insert (.str "first")),
  ((rule "1" "p").set .insert (.str "last"))]]

theorem ins1_good : GoodConfig dev ins1 := goodConfig_of (by decide +kernel) (by decide +kernel)
theorem ins2_good : GoodDelta dev ins2 := goodDelta_of (by decide +kernel) (by decide +kernel)

theorem ins_eq : calcAdd dev ins1 ins2 = .ok (cfg [el "top" [lf "a" "1", rule "2" "d", rule "4" "q",
    lf "dns" "9", lf "dns" "8", rule "3" "p", rule "1" "p"]]) := by decide +kernel

example : Positioned dev .root ins2 ins1 (cfg [el "top" [lf "a" "1", rule "2" "d", rule "4" "q",
    lf "dns" "9", lf "dns" "8", rule "3" "p", rule "1" "p"]]) :=
  C13_positions dev ins1 ins2 _ ins1_good ins2_good ins_eq

/-- `before` an entry that does not exist. -/
def badO : Elem := ((rule "4" "q").set .insert (.str "before")).set .key (.pred [(.bare "id", "7")])
/-- `before` without a key. -/
def badO' : Elem := (rule "4" "q").set .insert (.str "before")

def ruleS : SNode := .mk { tag := q "rule", ntype := .list, keyNames := ["id"], userOrdered := true }
  [leafS "id" (isKey := true), leafS "act"]

theorem rule_lookup : dev.lookup (.node topS) (q "rule") = .ok ⟨ruleS, [3], false⟩ := rfl

theorem insBad_fault : InsertFault dev .root (cfg [el "top" [badO]]) ins1 .insertWrong := by
  refine .inside [] [] (el "top" [badO]) (ins1.kids.head!) ⟨topS, [0, 0], false⟩ rfl (by decide)
    (isOk_iff.1 (by decide +kernel)) (by decide +kernel)
    ((sameB_iff ..).1 (by decide +kernel)) (by decide) rfl (Or.inl rfl) ?_
  refine .wrong badO ⟨ruleS, [3], false⟩ rfl rule_lookup ⟨Or.inl rfl, rfl, "before", by simp, rfl⟩
    (Or.inl rfl) (Or.inl rfl) ⟨_, rfl, ?_⟩ ?_
  · intro x hx
    simp only [List.mem_singleton] at hx
    subst hx
    exact ⟨by decide, q "id", rfl, rfl⟩
  · intro x hx hN
    obtain ⟨_, ps, hps, hall⟩ := hN
    cases hps
    obtain ⟨k, hk, c, hc, hct⟩ := hall (.bare "id", "7") (by simp)
    have h0 : ∀ x ∈ (ins1.kids.head!).kids, ∀ c ∈ x.kids, c.itertext ≠ "7" := by decide +kernel
    exact h0 x hx c (List.mem_filter.1 hc).1 hct

example : calcAdd dev ins1 (cfg [el "top" [badO]]) = .error (.configDelta .insertWrong) :=
  C13_bad_insert_raises dev ins1 _ _ ins1_good.valid (validB_sound _ _ (by decide +kernel)) insBad_fault

theorem insBad_fault' : InsertFault dev .root (cfg [el "top" [lf "b" "7", badO']]) ins1 .insertMissing := by
  refine .inside [] [] (el "top" [lf "b" "7", badO']) (ins1.kids.head!) ⟨topS, [0, 0], false⟩ rfl (by decide)
    (isOk_iff.1 (by decide +kernel)) (by decide +kernel)
    ((sameB_iff ..).1 (by decide +kernel)) (by decide) rfl (Or.inl rfl) ?_
  exact .missing [lf "b" "7"] [] badO' ⟨ruleS, [3], false⟩ rfl (isOk_iff.1 (by decide +kernel)) rule_lookup
    ⟨Or.inl rfl, rfl, "before", by simp, rfl⟩ (Or.inl rfl) (Or.inl rfl) rfl

example : calcAdd dev ins1 (cfg [el "top" [lf "b" "7", badO']]) = .error (.configDelta .insertMissing) :=
  C13_bad_insert_raises dev ins1 _ _ ins1_good.valid (validB_sound _ _ (by decide +kernel)) insBad_fault'

/-- A new rule behind an existing one. -/
example : ∃ e, SameInstance dev (.node topS) e insO ∧
    PlacedAs ruleS insO e (ins1.kids.head!).kids
      [lf "a" "1", rule "1" "p", rule "2" "d", rule "4" "q", lf "dns" "8", rule "3" "p", lf "dns" "9"] := by
  have h : nodeAdd dev (el "top" [insO]) (.node topS) (ins1.kids.head!) = .ok (el "top"
      [lf "a" "1", rule "1" "p", rule "2" "d", rule "4" "q", lf "dns" "8", rule "3" "p", lf "dns" "9"]) := by
    decide +kernel
  have hp := nodeAdd_positioned dev _ _ _ _ (validB_sound _ _ (by decide +kernel))
    (deepB_sound nsLevelB_sound _ _ (by decide +kernel))
    (validB_sound _ _ (by decide +kernel)) (deepB_sound deltaLevelB_sound _ _ (by decide +kernel)) h
  refine C13_new_entry hp rfl rule_lookup ⟨Or.inl rfl, rfl, "after", by simp, rfl⟩ (Or.inl rfl) ?_
  intro s hs hsm
  have : ∀ s ∈ (ins1.kids.head!).kids, sameB dev (.node topS) s insO = false := by decide +kernel
  have h2 := this s hs
  rw [(sameB_iff ..).2 hsm] at h2
  cases h2

/-- A rule that moves to the end. -/
def movO : Elem := (rule "1" "p").set .insert (.str "last")

example : ∃ e a b, SameInstance dev (.node topS) e movO ∧ (ins1.kids.head!).kids = a ++ rule "1" "p" :: b ∧
    (PlacedAs ruleS movO e (a ++ b)
      [lf "a" "1", rule "2" "d", lf "dns" "8", rule "3" "p", rule "1" "p", lf "dns" "9"] ∨
     ((Inserts movO "before" ∨ Inserts movO "after") ∧ Named ruleS movO (rule "1" "p") ∧
      (∀ x ∈ a, ¬ Named ruleS movO x) ∧
      [lf "a" "1", rule "2" "d", lf "dns" "8", rule "3" "p", rule "1" "p", lf "dns" "9"] = a ++ e :: b)) := by
  have h : nodeAdd dev (el "top" [movO]) (.node topS) (ins1.kids.head!) = .ok (el "top"
      [lf "a" "1", rule "2" "d", lf "dns" "8", rule "3" "p", rule "1" "p", lf "dns" "9"]) := by
    decide +kernel
  have hp := nodeAdd_positioned dev _ _ _ _ (validB_sound _ _ (by decide +kernel))
    (deepB_sound nsLevelB_sound _ _ (by decide +kernel))
    (validB_sound _ _ (by decide +kernel)) (deepB_sound deltaLevelB_sound _ _ (by decide +kernel)) h
  refine C13_existing_entry hp rfl rule_lookup ⟨Or.inl rfl, rfl, "last", by simp, rfl⟩ (Or.inl rfl)
    (s := rule "1" "p") (by decide +kernel) ((sameB_iff ..).1 (by decide +kernel)) ?_ (by decide +kernel)
  intro x hx hsm
  have : ∀ s ∈ (ins1.kids.head!).kids, sameB dev (.node topS) s movO = true → s = rule "1" "p" := by decide +kernel
  exact this x hx ((sameB_iff ..).2 hsm)

/-- An `insert` value that is none of the four is not an error: the new entry is dropped. -/
theorem C13_unknown_insert_drops : ∃ c delta, GoodConfig dev c ∧ GoodDelta dev delta ∧
    calcAdd dev c delta = .ok c ∧ ∃ t ∈ delta.kids, ∃ o ∈ t.kids, opOf o = "create" :=
  ⟨ins1, cfg [el "top" [setOp ((rule "4" "q").set .insert (.str "middle")) "create"]], ins1_good,
    goodDelta_of (by decide +kernel) (by decide +kernel), by decide +kernel,
    el "top" [setOp ((rule "4" "q").set .insert (.str "middle")) "create"], by simp [cfg],
    setOp ((rule "4" "q").set .insert (.str "middle")) "create", by simp [el], by decide⟩

end Demo

end NcDiff
