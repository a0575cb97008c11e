import Verif.Proof.Commute
import Verif.Props.Delta
import Verif.Props.Compare
/-!
# C81: what a delta does not name plays no part, and deltas that are independent commute
-/

namespace NcDiff
open Apart

/-- C81, untouched: for a name that the delta does not have at the top, the sum has the nodes of the config, all of them, as
they are and in their order. -/
theorem C81_untouched (d : Device) (c delta r : Elem) (h : calcAdd d c delta = .ok r) (t : QName)
    (ht : ∀ k ∈ delta.kids, k.tag ≠ t) : r.childrenWith t = c.childrenWith t := by
  have h1 := congrArg Elem.kids (only_same h (P := fun q => decide (q = t)) (fun k hk => by simpa using ht k hk))
  rwa [only_kids, only_kids] at h1

/-- C81, nothing else matters: with any selection of names among which are those of the delta, the rest of the config may
as well be absent.  The delta is refused for the same reason, or the nodes with these names become the same. -/
theorem C81_local (d : Device) (c delta : Elem) (hc : GoodConfig d c) (hd : GoodDelta d delta) (p : QName → Bool)
    (hp : ∀ k ∈ delta.kids, p k.tag = true) :
    (∀ x, calcAdd d c delta = .error x ↔ calcAdd d (partOf p c) delta = .error x) ∧
      ∀ r, calcAdd d c delta = .ok r → calcAdd d (partOf p c) delta = .ok (partOf p r) ∧
        partOf (fun t => !p t) r = partOf (fun t => !p t) c :=
  nodeAdd_only hc.valid.valid.indexable hd.valid.indexable hp

theorem Apart.fit {d : Device} {c delta : Elem} (hc : GoodConfig d c) (hd : GoodDelta d delta) : Fit d .root delta c :=
  ⟨hc.valid.valid, hc.ns, hd.valid, hd.level⟩

/-- C81, order: two deltas that are independent of each other and can both be applied to a config can be applied one after the other,
in either order, and the two results are the same but for the order of siblings with different names; `==` says so, too. -/
theorem C81_commute (d : Device) (c one two r1 r2 : Elem) (hc : GoodConfig d c) (h1 : GoodDelta d one) (h2 : GoodDelta d two)
    (hi : Independent d .root one two c) (e1 : calcAdd d c one = .ok r1) (e2 : calcAdd d c two = .ok r2) :
    ∃ r12 r21, calcAdd d r1 two = .ok r12 ∧ calcAdd d r2 one = .ok r21 ∧ UpToOrder r12 r21 ∧ cfgEq d r12 r21 = .ok true := by
  obtain ⟨r21, e21⟩ := (nodeAdd_after_iff d one .root two c r2 (fit hc h1) (fit hc h2) hi e2).1 ⟨r1, e1⟩
  obtain ⟨r12, e12⟩ := (nodeAdd_after_iff d two .root one c r1 (fit hc h2) (fit hc h1) hi.symm e1).1 ⟨r2, e2⟩
  have hu := nodeAdd_commute d one .root two c r1 r2 r12 r21 (fit hc h1) (fit hc h2) hi e1 e2 e12 e21
  have g12 := (C12_sum_valid d r1 two r12 (C12_sum_valid d c one r1 hc h1 e1) h2 e12).valid
  have g21 := (C12_sum_valid d r2 one r21 (C12_sum_valid d c two r2 hc h2 e2) h1 e21).valid
  exact ⟨r12, r21, e12, e21, hu, (C04_eq_iff_same_instances d r12 r21 g12 g21).2 ⟨hu.incl g21.valid, hu.symm.incl g12.valid⟩⟩

/-- C81, refusal: a delta is refused after another delta that is independent of it exactly if it is refused at once. -/
theorem C81_accepted (d : Device) (c one two r2 : Elem) (hc : GoodConfig d c) (h1 : GoodDelta d one) (h2 : GoodDelta d two)
    (hi : Independent d .root one two c) (e2 : calcAdd d c two = .ok r2) :
    (∃ r, calcAdd d c one = .ok r) ↔ ∃ r, calcAdd d r2 one = .ok r :=
  nodeAdd_after_iff d one .root two c r2 (fit hc h1) (fit hc h2) hi e2

/-- C81, reason of a refusal: without a common name at the top, a delta is refused after the other for the same reason as at once. -/
theorem C81_same_error (d : Device) (c one two r2 : Elem) (hc : GoodConfig d c) (h1 : GoodDelta d one) (h2 : GoodDelta d two)
    (hn : ∀ k ∈ one.kids, ∀ l ∈ two.kids, k.tag ≠ l.tag) (e2 : calcAdd d c two = .ok r2) (x : Err) :
    calcAdd d c one = .error x ↔ calcAdd d r2 one = .error x := by
  have g2 := C12_sum_valid d c two r2 hc h2 e2
  have hp : ∀ k ∈ one.kids, (fun t => one.kids.any fun k => decide (k.tag = t)) k.tag = true := fun k hk => by simpa using ⟨k, hk, rfl⟩
  have hs : only (fun t => one.kids.any fun k => decide (k.tag = t)) r2 = only (fun t => one.kids.any fun k => decide (k.tag = t)) c :=
    only_same e2 (fun l hl => by simpa using fun k hk => hn k hk l hl)
  rw [(C81_local d c one hc h1 (fun t => one.kids.any fun k => decide (k.tag = t)) hp).1,
    (C81_local d r2 one g2 h1 (fun t => one.kids.any fun k => decide (k.tag = t)) hp).1]
  exact (congrArg (fun s => calcAdd d s one = .error x) hs.symm).to_iff

theorem Apart.only_in {P : QName → Bool} {t : QName} (h : P t = true) (e : Elem) :
    only (fun q => decide (q = t)) (only P e) = only (fun q => decide (q = t)) e := by
  have hk : (only P e).kids.filter (fun k => decide (k.tag = t)) = e.kids.filter (fun k => decide (k.tag = t)) := by
    rw [only_kids, List.filter_filter]
    refine List.filter_congr fun k _ => ?_
    by_cases hkt : k.tag = t <;> simp [hkt, h]
  unfold only at hk ⊢
  rw [hk, setKids_twice]

theorem Apart.only_out {P : QName → Bool} {t : QName} (h : P t = false) (e : Elem) :
    (only (fun q => decide (q = t)) (only P e)).kids = [] := by
  refine only_none fun k hk => ?_
  rw [only_kids, List.mem_filter] at hk
  by_cases hkt : k.tag = t
  · rw [hkt, h] at hk; simp at hk
  · simpa using hkt

/-- A part of a proper delta is a proper delta. -/
theorem Apart.good_part {d : Device} {delta : Elem} (p : QName → Bool) (hd : GoodDelta d delta) : GoodDelta d (partOf p delta) := by
  have hk : (partOf p delta).kids = delta.kids.filter fun k => p k.tag := only_kids p delta
  have hn : (partOf p delta).nsmap = delta.nsmap := by unfold partOf; cases delta; rfl
  have ha : (partOf p delta).attrs = delta.attrs := by unfold partOf; cases delta; rfl
  have hm : ∀ k ∈ (partOf p delta).kids, k ∈ delta.kids := fun k h => by rw [hk] at h; exact List.mem_of_mem_filter h
  refine ⟨.mk ?_ (fun k h => hd.valid.shape' k (hm k h)) ?_ (fun k h => hd.valid.sub' k (hm k h)), .mk ?_ (fun k h => hd.level.sub' k (hm k h))⟩
  · rw [ha]
    cases hd.valid; assumption
  · rw [hk]
    exact hd.valid.unique'.sublist List.filter_sublist
  · have := hd.level.here'
    exact ⟨by rw [hn]; exact this.nsmap, fun k h => this.shape k (hm k h), fun k h => this.keys k (hm k h), fun k h => this.values k (hm k h)⟩

/-- C81, parts: a delta can be applied exactly if its nodes with some of the names can be, and then those with the other names;
and the result is the same but for the order of siblings with different names. -/
theorem C81_parts (d : Device) (c delta : Elem) (hc : GoodConfig d c) (hd : GoodDelta d delta) (p : QName → Bool) :
    ((∃ r, calcAdd d c delta = .ok r) ↔
      ∃ r1 r2, calcAdd d c (partOf p delta) = .ok r1 ∧ calcAdd d r1 (partOf (fun t => !p t) delta) = .ok r2) ∧
    ∀ r r1 r2, calcAdd d c delta = .ok r → calcAdd d c (partOf p delta) = .ok r1 →
      calcAdd d r1 (partOf (fun t => !p t) delta) = .ok r2 → UpToOrder r r2 := by
  have ic := hc.valid.valid.indexable
  have id' := hd.valid.indexable
  have ip : ∀ P : QName → Bool, Indexable d .root (only P delta).kids := fun P => by rw [only_kids]; exact indexable_only id' _
  have it : ∀ (s : Elem), Indexable d .root s.kids → ∀ P : QName → Bool, Indexable d .root (only P s).kids := fun s h P => by
    rw [only_kids]; exact indexable_only h _
  -- what the first part leaves for the second
  have keep : ∀ r1, calcAdd d c (partOf p delta) = .ok r1 → ∀ t, p t = false →
      only (fun q => decide (q = t)) r1 = only (fun q => decide (q = t)) c := by
    intro r1 e1 t ht
    refine only_same e1 fun k hk => ?_
    have hk' := (List.mem_filter.1 (by rw [← only_kids]; exact hk : k ∈ delta.kids.filter fun k => p k.tag)).2
    by_cases hkt : k.tag = t
    · rw [hkt, ht] at hk'; simp at hk'
    · simpa using hkt
  have keep2 : ∀ r1 r2, calcAdd d r1 (partOf (fun t => !p t) delta) = .ok r2 → ∀ t, p t = true →
      only (fun q => decide (q = t)) r2 = only (fun q => decide (q = t)) r1 := by
    intro r1 r2 e2 t ht
    refine only_same e2 fun k hk => ?_
    have hk' := (List.mem_filter.1 (by rw [← only_kids (fun t => !p t)]; exact hk : k ∈ delta.kids.filter fun k => !p k.tag)).2
    by_cases hkt : k.tag = t
    · rw [hkt, ht] at hk'; simp at hk'
    · simpa using hkt
  refine ⟨⟨?_, ?_⟩, ?_⟩
  · rintro ⟨r, e⟩
    obtain ⟨r1, e1⟩ : ∃ r1, nodeAdd d (only p delta) .root c = .ok r1 := by
      refine nodeAdd_join ic (ip p) fun t => ?_
      cases ht : p t with
      | true => rw [only_in ht]; exact ⟨_, nodeAdd_split e _⟩
      | false => exact ⟨_, nodeAdd_nothing (it c ic _) (only_out ht delta)⟩
    have i1 : Indexable d .root r1.kids := (C12_sum_valid d c _ r1 hc (good_part p hd) e1).valid.valid.indexable
    obtain ⟨r2, e2⟩ : ∃ r2, nodeAdd d (only (fun t => !p t) delta) .root r1 = .ok r2 := by
      refine nodeAdd_join i1 (ip _) fun t => ?_
      cases ht : p t with
      | true => exact ⟨_, nodeAdd_nothing (it r1 i1 _) (only_out (P := fun t => !p t) (by simp [ht]) delta)⟩
      | false =>
        rw [only_in (P := fun t => !p t) (by simp [ht]), keep r1 e1 t ht]
        exact ⟨_, nodeAdd_split e _⟩
    exact ⟨r1, r2, e1, e2⟩
  · rintro ⟨r1, r2, e1, e2⟩
    refine nodeAdd_join ic id' fun t => ?_
    cases ht : p t with
    | true =>
      have := nodeAdd_split e1 (fun q => decide (q = t))
      rw [show partOf p delta = only p delta from rfl, only_in ht] at this
      exact ⟨_, this⟩
    | false =>
      have := nodeAdd_split e2 (fun q => decide (q = t))
      rw [show partOf (fun t => !p t) delta = only (fun t => !p t) delta from rfl, only_in (P := fun t => !p t) (by simp [ht]),
        keep r1 e1 t ht] at this
      exact ⟨_, this⟩
  · intro r r1 r2 e e1 e2
    obtain ⟨a1, a2, a3, a4⟩ := nodeAdd_tag e
    obtain ⟨b1, b2, b3, b4⟩ := nodeAdd_tag e1
    obtain ⟨c1, c2, c3, c4⟩ := nodeAdd_tag e2
    refine UpToOrder.of_parts (by rw [a1, c1, b1]) (by rw [a4, c4, b4]) (by rw [a3, c3, b3]) (by rw [a2, c2, b2]) fun t => ?_
    have : only (fun q => decide (q = t)) r = only (fun q => decide (q = t)) r2 := by
      have h0 := nodeAdd_split e (fun q => decide (q = t))
      cases ht : p t with
      | true =>
        have h1 := nodeAdd_split e1 (fun q => decide (q = t))
        rw [show partOf p delta = only p delta from rfl, only_in ht, h0] at h1
        rw [keep2 r1 r2 e2 t ht]
        exact Except.ok.inj h1
      | false =>
        have h1 := nodeAdd_split e2 (fun q => decide (q = t))
        rw [show partOf (fun t => !p t) delta = only (fun t => !p t) delta from rfl, only_in (P := fun t => !p t) (by simp [ht]),
          keep r1 e1 t ht, h0] at h1
        exact Except.ok.inj h1
    have := congrArg Elem.kids this
    rw [only_kids, only_kids] at this
    show List.Forall₂ UpToOrder (r.kids.filter _) (r2.kids.filter _)
    rw [this]
    exact forall2_refl _

/-- C81, parts: `==` does not tell the two results apart. -/
theorem C81_parts_eq (d : Device) (c delta r r1 r2 : Elem) (hc : GoodConfig d c) (hd : GoodDelta d delta) (p : QName → Bool)
    (e : calcAdd d c delta = .ok r) (e1 : calcAdd d c (partOf p delta) = .ok r1)
    (e2 : calcAdd d r1 (partOf (fun t => !p t) delta) = .ok r2) : cfgEq d r r2 = .ok true := by
  have hu := (C81_parts d c delta hc hd p).2 r r1 r2 e e1 e2
  have g := (C12_sum_valid d c delta r hc hd e).valid
  have g2 := (C12_sum_valid d r1 _ r2 (C12_sum_valid d c _ r1 hc (good_part p hd) e1) (good_part _ hd) e2).valid
  exact (C04_eq_iff_same_instances d r r2 g g2).2 ⟨hu.incl g2.valid, hu.symm.incl g.valid⟩

/-! ## The hypotheses can be met -/

/-- Executable `MergesOnly`. -/
def mergesB (d : Device) (sc : Scope) (delta c : Elem) (t : QName) : Bool :=
  delta.kids.all fun k => !decide (k.tag = t) || (decide (opOf k = "merge") && decide (insertOf k = none) && c.kids.any fun e => sameB d sc e k)

theorem mergesB_sound {d : Device} {sc : Scope} {delta c : Elem} {t : QName} (h : mergesB d sc delta c t = true) :
    MergesOnly d sc delta c t := by
  intro k hk ht
  have := List.all_eq_true.1 h k hk
  simp only [ht, decide_true, Bool.not_true, Bool.false_or, Bool.and_eq_true, decide_eq_true_eq, List.any_eq_true, sameB_iff] at this
  exact ⟨this.1.1, this.1.2, this.2⟩

/-- Executable `Independent`, down to some depth. -/
def indepB (d : Device) : Nat → Scope → Elem → Elem → Elem → Bool
  | 0, _, _, _, _ => false
  | n + 1, sc, one, two, c => one.kids.all fun k => two.kids.all fun l => !decide (k.tag = l.tag) ||
    (mergesB d sc one c k.tag && mergesB d sc two c k.tag &&
      match d.lookup sc k.tag with
      | .error _ => true
      | .ok f =>
        (decide (f.node.ntype = .leaf) || decide (f.node.ntype = .container) || decide (f.node.ntype = .list)) &&
        (!decide (f.node.ntype = .leaf) || (decide f.node.info.datatype.plain && decide (k.text = l.text))) &&
        c.kids.all fun e => !(sameB d sc e k && sameB d sc e l) ||
          ((decide (f.node.ntype = .leaf) || indepB d n (.node f.node) k l e) &&
            (!f.node.isNP || e.kids.any fun x => (k.kids.all fun y => !decide (y.tag = x.tag)) && l.kids.all fun y => !decide (y.tag = x.tag))))

theorem indepB_sound {d : Device} : ∀ (n : Nat) {sc : Scope} {one two c : Elem}, indepB d n sc one two c = true →
    Independent d sc one two c
  | 0, _, _, _, _, h => by cases h
  | n + 1, sc, one, two, c, h => by
    have key : ∀ k ∈ one.kids, ∀ l ∈ two.kids, k.tag = l.tag → MergesOnly d sc one c k.tag ∧ MergesOnly d sc two c k.tag ∧
        ∀ f, d.lookup sc k.tag = .ok f →
          (f.node.ntype = .leaf ∨ f.node.ntype = .container ∨ f.node.ntype = .list) ∧
          (f.node.ntype = .leaf → f.node.info.datatype.plain ∧ k.text = l.text) ∧
          ∀ e ∈ c.kids, SameInstance d sc e k → SameInstance d sc e l →
            (f.node.ntype = .leaf ∨ indepB d n (.node f.node) k l e = true) ∧
            (f.node.isNP = true → ∃ x ∈ e.kids, (∀ y ∈ k.kids, y.tag ≠ x.tag) ∧ ∀ y ∈ l.kids, y.tag ≠ x.tag) := by
      intro k hk l hl ht
      unfold indepB at h
      have h1 := List.all_eq_true.1 (List.all_eq_true.1 h k hk) l hl
      rw [Bool.or_eq_true, Bool.not_eq_true', decide_eq_false_iff_not, Bool.and_eq_true, Bool.and_eq_true] at h1
      rcases h1 with h1 | ⟨⟨m1, m2⟩, h1⟩
      · exact absurd ht h1
      · refine ⟨mergesB_sound m1, mergesB_sound m2, fun f hf => ?_⟩
        rw [hf] at h1
        simp only [Bool.and_eq_true, Bool.or_eq_true, decide_eq_true_eq, Bool.not_eq_true', decide_eq_false_iff_not,
          List.all_eq_true, List.any_eq_true, Bool.and_eq_false_iff] at h1
        obtain ⟨⟨q1, q2⟩, q3⟩ := h1
        refine ⟨by tauto, by tauto, fun e he s1 s2 => ?_⟩
        rcases q3 e he with q3 | ⟨q3, q4⟩
        · rcases q3 with q3 | q3
          · rw [(sameB_iff d sc e k).2 s1] at q3; cases q3
          · rw [(sameB_iff d sc e l).2 s2] at q3; cases q3
        · refine ⟨q3, fun hnp => ?_⟩
          rcases q4 with q4 | q4
          · rw [hnp] at q4; cases q4
          · exact q4
    refine .mk (fun k hk l hl ht => ?_) (fun k hk l hl ht f hf hn => ?_) (fun k hk l hl e he s1 s2 f hf hn => ?_)
      (fun k hk l hl e he s1 s2 f hf hnp => ?_)
    · obtain ⟨m1, m2, m3⟩ := key k hk l hl ht
      exact ⟨m1, m2, fun f hf => (m3 f hf).1⟩
    · exact ((key k hk l hl ht).2.2 f hf).2.1 hn
    · have := (((key k hk l hl (s1.1.symm.trans s2.1)).2.2 f hf).2.2 e he s1 s2).1
      rcases this with this | this
      · rw [this] at hn; simp at hn
      · exact indepB_sound n this
    · exact (((key k hk l hl (s1.1.symm.trans s2.1)).2.2 f hf).2.2 e he s1 s2).2 hnp

namespace Demo
namespace Apart81

/-- A model with two roots and a container with two leaves. -/
def sysS : SNode := .mk { tag := q "sys", ntype := .container } [leafS "host", leafS "site",
  .mk { tag := q "log", ntype := .container } [leafS "w", leafS "v"]]
def dev2 : Device :=
  { namespaces := [("demo", "d", u)], roots := [(q "top", "demo"), (q "sys", "demo")], models := [("demo", [topS, sysS])] }

def c : Elem := cfg [el "top" [lf "a" "1", item "x" "1", item "y" "2", rule "1" "p", rule "2" "d", lf "dns" "8", lf "dns" "9",
  lf "tagl" "t"], el "sys" [lf "host" "h", el "log" [lf "w" "1"]]]
/-- Changes list entry `x`, empties entry `y`, removes `a` and adds to the other root. -/
def one : Elem := cfg [el "top" [setOp (lf "a" "1") "delete", item "x" "7", el "item" [lf "name" "y", setOp (lf "val" "2") "remove"]],
  el "sys" [lf "site" "s"]]
/-- Goes into the list entry `y`, too, inserts a rule after another, removes a value and adds `b`. -/
def two : Elem := cfg [el "top" [el "item" [lf "name" "y"],
  ((setOp (rule "3" "q") "merge").set .insert (.str "after")).set .key (.pred [(.bare "id", "1")]),
  setOp (lf "dns" "9") "remove", lf "b" "7"]]
/-- Goes into the other root only. -/
def three : Elem := cfg [el "sys" [el "log" [setOp (lf "v" "1") "create"]]]

theorem c_good : GoodConfig dev2 c := goodConfig_of (by decide +kernel) (by decide +kernel)
theorem one_good : GoodDelta dev2 one := goodDelta_of (by decide +kernel) (by decide +kernel)
theorem two_good : GoodDelta dev2 two := goodDelta_of (by decide +kernel) (by decide +kernel)
theorem three_good : GoodDelta dev2 three := goodDelta_of (by decide +kernel) (by decide +kernel)
theorem one_two : Independent dev2 .root one two c := indepB_sound 4 (by decide +kernel)

theorem c_one : calcAdd dev2 c one = .ok (cfg [el "top" [item "x" "7", el "item" [lf "name" "y"], rule "1" "p", rule "2" "d",
    lf "dns" "8", lf "dns" "9", lf "tagl" "t"], el "sys" [lf "host" "h", el "log" [lf "w" "1"], lf "site" "s"]]) := by decide +kernel
theorem c_two : calcAdd dev2 c two = .ok (cfg [el "top" [lf "a" "1", item "x" "1", item "y" "2", rule "1" "p", rule "3" "q", rule "2" "d",
    lf "dns" "8", lf "tagl" "t", lf "b" "7"], el "sys" [lf "host" "h", el "log" [lf "w" "1"]]]) := by decide +kernel
theorem c_three : calcAdd dev2 c three = .ok (c.setKids (c.kids.take 1 ++
    [el "sys" [lf "host" "h", el "log" [lf "w" "1", lf "v" "1"]]])) := by decide +kernel

example :=
  C81_commute dev2 c one two _ _ c_good one_good two_good one_two c_one c_two

example := C81_accepted dev2 c one two _ c_good one_good two_good one_two c_two

example : (c.setKids (c.kids.take 1 ++ [el "sys" [lf "host" "h", el "log" [lf "w" "1", lf "v" "1"]]])).childrenWith (q "top")
    = c.childrenWith (q "top") :=
  C81_untouched dev2 c three _ c_three _ (by decide +kernel)

example := C81_local dev2 c three c_good three_good (fun t => decide (t = q "sys")) (by decide +kernel)
/-- Deletes a node that the config does not have. -/
def bad : Elem := cfg [el "top" [setOp (lf "b" "1") "delete"]]

theorem bad_good : GoodDelta dev2 bad := goodDelta_of (by decide +kernel) (by decide +kernel)

example : calcAdd dev2 (c.setKids (c.kids.take 1 ++ [el "sys" [lf "host" "h", el "log" [lf "w" "1", lf "v" "1"]]])) bad =
    .error (.configDelta .dataMissing) :=
  (C81_same_error dev2 c bad three _ c_good bad_good three_good (by decide +kernel) c_three _).1 (by decide +kernel)
example := C81_parts dev2 c one c_good one_good (fun t => decide (t = q "sys"))
example := fun r1 r2 => C81_parts_eq dev2 c one _ r1 r2 c_good one_good (fun t => decide (t = q "sys")) c_one
example : ∃ r1 r2, calcAdd dev2 c (partOf (fun t => decide (t = q "sys")) one) = .ok r1 ∧
    calcAdd dev2 r1 (partOf (fun t => !decide (t = q "sys")) one) = .ok r2 :=
  (C81_parts dev2 c one c_good one_good (fun t => decide (t = q "sys"))).1.1 ⟨_, c_one⟩

/-- Deletes the only node of a container, and the container vanishes with it. -/
def four : Elem := cfg [el "sys" [el "log" [setOp (lf "w" "1") "delete"]]]
/-- Removes a node that the container does not have, which leaves the config as it is. -/
def five : Elem := cfg [el "sys" [el "log" [setOp (lf "v" "1") "remove"]]]

/-- What deltas leave in a container matters: here each can be applied before and after the other, but in one order the container is left
over, empty, and `==` tells the results apart. -/
theorem C81_emptied : GoodDelta dev2 four ∧ GoodDelta dev2 five ∧ ∃ r4 r5 r45 r54, calcAdd dev2 c four = .ok r4 ∧ calcAdd dev2 c five = .ok r5 ∧
    calcAdd dev2 r4 five = .ok r45 ∧ calcAdd dev2 r5 four = .ok r54 ∧ r5 = c ∧ cfgEq dev2 r45 r54 = .ok false := by
  refine ⟨goodDelta_of (by decide +kernel) (by decide +kernel), goodDelta_of (by decide +kernel) (by decide +kernel),
    cfg [c.kids.head!, el "sys" [lf "host" "h"]], c, cfg [c.kids.head!, el "sys" [lf "host" "h", el "log" []]],
    cfg [c.kids.head!, el "sys" [lf "host" "h"]], ?_, ?_, ?_, ?_, rfl, ?_⟩ <;> decide +kernel

end Apart81
end Demo
end NcDiff
