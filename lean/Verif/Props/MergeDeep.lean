import Verif.Proof.MergeDeep
import Verif.Props.ThreeWay
/-!
# C83: changes inside the same containers and list entries are merged, too
-/

namespace NcDiff
open Deep83
variable {d : Device}

/-- C83: a config `b` was changed to `x` here and to `y` there, and wherever both have changed the same node, it is a
container or an entry of a list in which they have changed different things.  Then the deltas from `b` to `x` and from `b` to `y` can
be added to `b` one after the other, and the result equals every config that has the changes of both. -/
theorem C83_merge_at_all_levels (d : Device) (o1 o2 : Opts) (b x y w : Elem) (hx : Transition d b x) (hy : Transition d b y)
    (s1 : RootSafe d o1 x) (r2 : o2.replace = .merge) (t2 : o2.diffType ≠ .replace) (n2 : o2.create ≠ .replace)
    (px : Deep d (PlainLeaves d) .root x) (py : Deep d (PlainLeaves d) .root y) (hw : PlainConfig d w)
    (wTrim : trimDefaults d .root w = .ok w) (wDef : Deep d (DefaultLevel d) .root w) (hm : DeepMerge d .root b x y w) :
    ∃ δ1 δ2 c1 c2, newDelta d b x o1 = .ok δ1 ∧ newDelta d b y o2 = .ok δ2 ∧ configAddDelta d b δ1 = .ok c1 ∧
      configAddDelta d c1 δ2 = .ok c2 ∧ cfgEq d c1 x = .ok true ∧ cfgEq d c2 w = .ok true := by
  have bb : StandIn d b b := ⟨hx.src.valid, hx.src.bare, hx.src.side.ns, hx.srcTag,
    (C04_eq_iff_same_instances d b b hx.src.valid hx.src.valid).2 (SameConfig.refl hx.src.valid.valid)⟩
  obtain ⟨δ1, c1, p1, p2, S1⟩ := stand_in d o1 b x b hx s1 bb (Steps.plain px)
  obtain ⟨D, hD, hok, hdiff⟩ := calcSub_ok (opts := o2) carry_minimal.carry (hy.loose (ω := True)) (fun _ => hy.src.filled)
  obtain ⟨_, hdiff⟩ := hdiff (Or.inl r2)
  have hops : OpsIn o2.Allows D := by
    have := operations_calcSub (lets_allows o2) (operations_noAttrs (lets_allows o2).none hy.dst.bare) hD
    split at this
    · exact ops_back _ _ this
    · exact this
  have hA : ¬ o2.Allows (some (.str "replace")) := by
    rintro (h | h | ⟨h, _⟩ | ⟨_, _, h⟩)
    · cases h
    · cases hd : o2.delete <;> rw [hd] at h <;> exact absurd h (by decide)
    · rcases h with h | h | h
      · exact n2 h
      · rw [r2] at h; cases h
      · exact t2 h
    · exact absurd h (by decide)
  have hsays : Says d .root b y D := says_delta hA (by
    rintro (h | h)
    · rw [r2] at h; cases h
    · exact t2 h) hok.carried hops
  obtain ⟨T, t1, t3, t4, _⟩ := third hdiff hsays hx.dst.side hy.dst.side px py hw.valid.valid hw.bare hw.filled hm
  have tb := t1.base'
  have hsame : SameConfig d .root c1 x := (C04_eq_iff_same_instances d c1 x S1.valid hx.dst.valid).1 S1.equal
  have hd' := t1.stand ⟨S1.valid.valid, S1.prefixes, S1.bare, hsame⟩ (Steps.plain t4) rfl tb.vT tb.aT rfl rfl
  obtain ⟨R, hR, hsR⟩ := hd'.add
  have hb := hd'.base'
  obtain ⟨hvR, _⟩ := nodeAdd_valid d D .root c1 R hb.vS hb.nS hb.vD hb.lD hR
  set e := if o2.diffType = .minimumReplace then addAttrAtDepth (o2.replaceDepth + 1) D else D with hxd
  have hadd : calcAdd d c1 e = .ok R := by
    unfold calcAdd
    rw [hxd]
    split
    · rw [nodeAdd_addAttr, hR]
    · exact hR
  obtain ⟨r, hr, hre, hrv, hrs⟩ := addElem_ok hadd hvR S1.tag S1.bare.here' S1.valid.noText hw.valid.valid (hsR.tight.trans t3)
    wDef wTrim
  refine ⟨δ1, _, c1, r, p1, newDelta_ok hy.src.valid.valid hy.dst.valid.valid, p2, ?_, S1.equal, ?_⟩
  · unfold configAddDelta
    rw [compatible_ok (cs := [c1, b, y]) (by
      intro c hc
      simp only [List.mem_cons, List.not_mem_nil, or_false] at hc
      rcases hc with rfl | rfl | rfl
      · exact S1.valid.valid.known
      · exact hx.src.valid.valid.known
      · exact hy.dst.valid.valid.known)]
    simp only [bind, Except.bind, Delta.nc]
    rw [hD]
    exact hr
  · exact (C04_eq_iff_same_instances d r w ⟨hrv, by rw [hre]; rfl⟩ hw.valid).2 hrs

/-- C83, either order: the two deltas can be added in the other order, too, and the results of both orders are equal. -/
theorem C83_either_order (d : Device) (o1 o2 : Opts) (b x y w : Elem) (hx : Transition d b x) (hy : Transition d b y)
    (r1 : o1.replace = .merge) (t1 : o1.diffType ≠ .replace) (n1 : o1.create ≠ .replace)
    (r2 : o2.replace = .merge) (t2 : o2.diffType ≠ .replace) (n2 : o2.create ≠ .replace)
    (px : Deep d (PlainLeaves d) .root x) (py : Deep d (PlainLeaves d) .root y) (hw : PlainConfig d w)
    (wTrim : trimDefaults d .root w = .ok w) (wDef : Deep d (DefaultLevel d) .root w) (hm : DeepMerge d .root b x y w) :
    ∃ δ1 δ2 c1 c2 c12 c21, newDelta d b x o1 = .ok δ1 ∧ newDelta d b y o2 = .ok δ2 ∧ configAddDelta d b δ1 = .ok c1 ∧
      configAddDelta d b δ2 = .ok c2 ∧ configAddDelta d c1 δ2 = .ok c12 ∧ configAddDelta d c2 δ1 = .ok c21 ∧
      cfgEq d c12 w = .ok true ∧ cfgEq d c21 w = .ok true := by
  obtain ⟨δ1, δ2, c1, c12, p1, p2, p3, p4, _, p6⟩ := C83_merge_at_all_levels d o1 o2 b x y w hx hy (.inl r1) r2 t2 n2 px py hw wTrim wDef hm
  obtain ⟨δ2', δ1', c2, c21, q1, q2, q3, q4, _, q6⟩ := C83_merge_at_all_levels d o2 o1 b y x w hy hx (.inl r2) r1 t1 n1 py px hw wTrim wDef hm.swap
  obtain rfl := Except.ok.inj (p1.symm.trans q2)
  obtain rfl := Except.ok.inj (p2.symm.trans q1)
  exact ⟨δ1, δ2, c1, c2, c12, c21, p1, p2, p3, q3, p4, q4, p6, q6⟩

/-! ## The hypotheses can be met -/

namespace Demo
namespace DeepMerge83
open Apart81 (dev2)

/-- Executable `SameConfig`, of valid trees. -/
def eqV (d : Device) (sc : Scope) (a b : Elem) : Option Bool :=
  if validB d sc a && validB d sc b && isOk (parseTextAt d sc a) && isOk (parseTextAt d sc b) then
    match andE (nodeLe d sc a b) (nodeLe d sc b a) with
    | .ok r => some r
    | .error _ => none
  else none

theorem eqV_sound {d : Device} {sc : Scope} {a b : Elem} {r : Bool} (h : eqV d sc a b = some r) : r = true ↔ SameConfig d sc a b := by
  unfold eqV at h
  split at h
  · rename_i hc
    simp only [Bool.and_eq_true] at hc
    obtain ⟨⟨⟨h1, h2⟩, h3⟩, h4⟩ := hc
    obtain ⟨r1, e1, i1⟩ := nodeLe_iff d a sc b (validB_sound _ _ h1) (validB_sound _ _ h2) (isOk_iff.1 h3) (isOk_iff.1 h4)
    obtain ⟨r2, e2, i2⟩ := nodeLe_iff d b sc a (validB_sound _ _ h2) (validB_sound _ _ h1) (isOk_iff.1 h4) (isOk_iff.1 h3)
    rw [andE_ok e1 e2] at h
    obtain rfl := Option.some.inj h
    simp [SameConfig, i1, i2]
  · cases h

def noneB (d : Device) (sc : Scope) (k a : Elem) : Bool := a.kids.all fun x => !sameB d sc x k

theorem noneB_iff {d : Device} {sc : Scope} {k a : Elem} : noneB d sc k a = true ↔ Absent d sc a.kids k := by
  unfold noneB Absent
  rw [List.all_eq_true]
  refine forall_congr' fun x => forall_congr' fun _ => ?_
  rw [← sameB_iff]
  simp

theorem not_noneB {d : Device} {sc : Scope} {k a : Elem} (h : (!noneB d sc k a) = true) : HasInst d sc k a := by
  by_contra hn
  have : noneB d sc k a = true := noneB_iff.2 fun x hx hs => hn ⟨x, hx, hs⟩
  rw [this] at h
  cases h

/-- Executable `Unchanged`. -/
def unchB (d : Device) (sc : Scope) (k a b : Elem) : Bool :=
  (noneB d sc k a && noneB d sc k b) || a.kids.any fun x => sameB d sc x k && b.kids.any fun y => sameB d sc y k &&
    match d.lookup sc k.tag with
    | .ok f => eqV d (.node f.node) x y == some true
    | .error _ => true

theorem unchB_sound {d : Device} {sc : Scope} {k a b : Elem} (h : unchB d sc k a b = true) : Unchanged d sc k a b := by
  unfold unchB at h
  rw [Bool.or_eq_true, Bool.and_eq_true, noneB_iff, noneB_iff] at h
  rcases h with h | h
  · exact .inl h
  · obtain ⟨x, hx, h⟩ := List.any_eq_true.1 h
    rw [Bool.and_eq_true, sameB_iff] at h
    obtain ⟨y, hy, h'⟩ := List.any_eq_true.1 h.2
    rw [Bool.and_eq_true, sameB_iff] at h'
    refine .inr ⟨x, hx, y, hy, h.1, h'.1, fun f hf => ?_⟩
    have := h'.2
    rw [hf] at this
    exact (eqV_sound (eq_of_beq this)).1 rfl

/-- Executable negation of `Unchanged`. -/
def chB (d : Device) (sc : Scope) (k a b : Elem) : Bool :=
  !(noneB d sc k a && noneB d sc k b) && a.kids.all fun x => !sameB d sc x k || b.kids.all fun y => !sameB d sc y k ||
    match d.lookup sc k.tag with
    | .ok f => eqV d (.node f.node) x y == some false
    | .error _ => false

theorem chB_sound {d : Device} {sc : Scope} {k a b : Elem} (h : chB d sc k a b = true) : ¬ Unchanged d sc k a b := by
  unfold chB at h
  rw [Bool.and_eq_true] at h
  rintro (⟨h1, h2⟩ | ⟨x, hx, y, hy, s1, s2, h3⟩)
  · have := h.1
    rw [noneB_iff.2 h1, noneB_iff.2 h2] at this
    cases this
  · have := List.all_eq_true.1 h.2 x hx
    rw [(sameB_iff d sc x k).2 s1, Bool.not_true, Bool.false_or] at this
    have := List.all_eq_true.1 this y hy
    rw [(sameB_iff d sc y k).2 s2, Bool.not_true, Bool.false_or] at this
    split at this
    · rename_i f hf
      exact absurd ((eqV_sound (eq_of_beq this)).2 (h3 f hf)) (by decide)
    · cases this

def repeatedB (f : Found) : Bool :=
  (f.node.info.isKey && decide (f.node.ntype = .leaf)) || (f.node.userOrdered && (decide (f.node.ntype = .leafList) || decide (f.node.ntype = .list)))

theorem repeatedB_of {f : Found} (h : Repeated f) : repeatedB f = true := by
  unfold repeatedB
  rcases h with ⟨h1, h2⟩ | ⟨h1, h2 | h2⟩ <;> simp [h1, h2]

/-- The parts with this name are the same. -/
def partB (d : Device) (sc : Scope) (t : QName) (a b : Elem) : Bool :=
  eqV d sc (partOf (fun q => decide (q = t)) a) (partOf (fun q => decide (q = t)) b) == some true

/-- Executable `DeepMerge`, to some depth. -/
def deepMergeB (d : Device) : Nat → Scope → Elem → Elem → Elem → Elem → Bool
  | 0, _, _, _, _, _ => false
  | n + 1, sc, b, x, y, w =>
    let all := b.kids ++ x.kids ++ y.kids ++ w.kids
    decide (b.tag = x.tag ∧ b.tag = y.tag ∧ b.tag = w.tag) &&
    decide (parseTextAt d sc b = parseTextAt d sc x ∧ parseTextAt d sc b = parseTextAt d sc y ∧ parseTextAt d sc b = parseTextAt d sc w) &&
    decide (b.attrs = [] ∧ x.attrs = [] ∧ y.attrs = [] ∧ w.attrs = []) &&
    all.all (fun k => (chB d sc k b y || unchB d sc k x w) && (chB d sc k b x || unchB d sc k y w) &&
      (unchB d sc k b x || unchB d sc k b y || (!noneB d sc k b && !noneB d sc k x && !noneB d sc k y && !noneB d sc k w &&
        match d.lookup sc k.tag with
        | .ok f => decide (f.node.ntype = .container) || decide (f.node.ntype = .list)
        | .error _ => true))) &&
    b.kids.all (fun kb => unchB d sc kb b x || unchB d sc kb b y || x.kids.all fun kx => !sameB d sc kb kx || y.kids.all fun ky =>
      !sameB d sc kb ky || w.kids.all fun kw => !sameB d sc kb kw ||
        match d.lookup sc kb.tag with
        | .ok f => deepMergeB d n (.node f.node) kb kx ky kw
        | .error _ => true) &&
    all.all (fun k => match d.lookup sc k.tag with
      | .ok f => !repeatedB f || (partB d sc k.tag b x && partB d sc k.tag b y && partB d sc k.tag b w)
      | .error _ => true)

theorem part_none {d : Device} {sc : Scope} {t : QName} {a b : Elem} (ha : ∀ k ∈ a.kids, k.tag ≠ t) (hb : ∀ k ∈ b.kids, k.tag ≠ t)
    (h1 : a.tag = b.tag) (h2 : parseTextAt d sc a = parseTextAt d sc b) (h3 : a.attrs = []) (h4 : b.attrs = []) :
    SameConfig d sc (partOf (fun q => decide (q = t)) a) (partOf (fun q => decide (q = t)) b) := by
  have e : ∀ {a : Elem}, (∀ k ∈ a.kids, k.tag ≠ t) → (partOf (fun q => decide (q = t)) a) = a.setKids [] := by
    intro a ha
    unfold partOf
    rw [List.filter_eq_nil_iff.2]
    intro k hk
    simpa using ha k hk
  rw [e ha, e hb]
  constructor <;> refine .mk ?_ ?_ ?_ ?_ ?_ ?_ <;> simp [Elem.kids_setKids, Elem.tag_setKids, Elem.attrs_setKids, parseTextAt_setKids, *, Before]

theorem deepMergeB_sound {d : Device} : ∀ (n : Nat) {sc : Scope} {b x y w : Elem}, deepMergeB d n sc b x y w = true →
    DeepMerge d sc b x y w := by
  intro n
  induction n with
  | zero => intro sc b x y w h; cases h
  | succ n ih =>
    intro sc b x y w h
    unfold deepMergeB at h
    simp only [Bool.and_eq_true, decide_eq_true_eq] at h
    obtain ⟨⟨⟨⟨⟨h1, h2⟩, h3⟩, h4⟩, h5⟩, h6⟩ := h
    have h4 := List.all_eq_true.1 h4
    have h5 := List.all_eq_true.1 h5
    have h6 := List.all_eq_true.1 h6
    simp only [Bool.and_eq_true, Bool.or_eq_true] at h4
    refine .mk h1 h2 ?_ ?_ ?_ ?_ ?_
    · intro k hk hu
      exact (h4 k hk).1.1.elim (fun h => absurd hu (chB_sound h)) unchB_sound
    · intro k hk hu
      exact (h4 k hk).1.2.elim (fun h => absurd hu (chB_sound h)) unchB_sound
    · intro k hk n1 n2
      rcases (h4 k hk).2 with (h | h) | ⟨⟨⟨⟨a1, a2⟩, a3⟩, a4⟩, a5⟩
      · exact absurd (unchB_sound h) n1
      · exact absurd (unchB_sound h) n2
      · refine ⟨not_noneB a1, not_noneB a2, not_noneB a3, not_noneB a4, fun f hf => ?_⟩
        rw [hf] at a5
        simpa using a5
    · intro kb hb kx hx ky hy kw hw s1 s2 s3 n1 n2 f hf
      have := h5 kb hb
      simp only [Bool.or_eq_true] at this
      rcases this with (h | h) | h
      · exact absurd (unchB_sound h) n1
      · exact absurd (unchB_sound h) n2
      · have := List.all_eq_true.1 h kx hx
        rw [(sameB_iff d sc kb kx).2 s1, Bool.not_true, Bool.false_or] at this
        have := List.all_eq_true.1 this ky hy
        rw [(sameB_iff d sc kb ky).2 s2, Bool.not_true, Bool.false_or] at this
        have := List.all_eq_true.1 this kw hw
        rw [(sameB_iff d sc kb kw).2 s3, Bool.not_true, Bool.false_or, hf] at this
        exact ih this
    · intro t f hf hr
      by_cases ht : ∃ k ∈ b.kids ++ x.kids ++ y.kids ++ w.kids, k.tag = t
      · obtain ⟨k, hk, rfl⟩ := ht
        have := h6 k hk
        rw [hf] at this
        simp only [repeatedB_of hr, Bool.not_true, Bool.false_or, Bool.and_eq_true] at this
        exact ⟨(eqV_sound (eq_of_beq this.1.1)).1 rfl, (eqV_sound (eq_of_beq this.1.2)).1 rfl, (eqV_sound (eq_of_beq this.2)).1 rfl⟩
      · have hno : ∀ k ∈ b.kids ++ x.kids ++ y.kids ++ w.kids, k.tag ≠ t := fun k hk h => ht ⟨k, hk, h⟩
        have nb : ∀ k ∈ b.kids, k.tag ≠ t := fun k hk => hno k (by simp [hk])
        exact ⟨part_none nb (fun k hk => hno k (by simp [hk])) h1.1 h2.1 h3.1 h3.2.1,
          part_none nb (fun k hk => hno k (by simp [hk])) h1.2.1 h2.2.1 h3.1 h3.2.2.1,
          part_none nb (fun k hk => hno k (by simp [hk])) h1.2.2 h2.2.2 h3.1 h3.2.2.2⟩

def b : Elem := cfg [el "top" [lf "a" "1", item "x" "1", item "y" "2", rule "1" "p", lf "tagl" "t", el "dk" [lf "k" "1"]],
  el "sys" [lf "host" "h", el "log" [lf "w" "1"]]]
/-- Changed here: an entry of a list gets another value, another one is added, a leaf is gone, and one in a container changes. -/
def x : Elem := cfg [el "top" [item "x" "7", item "y" "2", item "z" "3", rule "1" "p", lf "tagl" "t", el "dk" [lf "k" "1", lf "v" "1"]],
  el "sys" [lf "host" "g", el "log" [lf "w" "1"]]]
/-- Changed there: an entry of the same list is removed, a value is added, and the same containers get other leaves. -/
def y : Elem := cfg [el "top" [lf "a" "1", item "x" "1", rule "1" "p", lf "tagl" "t", lf "tagl" "s", lf "b" "5", el "dk" [lf "k" "1"]],
  el "sys" [lf "host" "h", lf "site" "s", el "log" [lf "w" "1", lf "v" "2"]]]
/-- The changes of both, written in another order. -/
def w : Elem := cfg [el "sys" [lf "site" "s", lf "host" "g", el "log" [lf "v" "2", lf "w" "1"]], el "top" [lf "b" "5", item "z" "3",
  item "x" "7", rule "1" "p", lf "tagl" "s", lf "tagl" "t", el "dk" [lf "k" "1", lf "v" "1"]]]

theorem b_x : Transition dev2 b x := transitionB_sound (by decide +kernel)
theorem b_y : Transition dev2 b y := transitionB_sound (by decide +kernel)
theorem b_w : Transition dev2 b w := transitionB_sound (by decide +kernel)
theorem merged : DeepMerge dev2 .root b x y w := deepMergeB_sound 4 (by decide +kernel)

example := C83_either_order dev2 {} { delete := .remove, create := .create } b x y w b_x b_y rfl (by decide) (by decide)
  rfl (by decide) (by decide) (deepB_sound plainLeavesB_sound x .root (by decide +kernel)) (deepB_sound plainLeavesB_sound y .root (by decide +kernel))
  b_w.dst b_w.trimmed b_w.defaults merged

/-- `DeepMerge` is not met by a config that lacks one of the changes. -/
example : ¬ DeepMerge dev2 .root b x y x := by
  intro h
  cases h with
  | mk _ _ _ fromY both inside _ =>
    have hsys : el "sys" [lf "host" "h", el "log" [lf "w" "1"]] ∈ b.kids := by simp [b, cfg, Elem.kids]
    have := inside _ hsys (el "sys" [lf "host" "g", el "log" [lf "w" "1"]]) (by simp [x, cfg, Elem.kids])
      (el "sys" [lf "host" "h", lf "site" "s", el "log" [lf "w" "1", lf "v" "2"]]) (by simp [y, cfg, Elem.kids])
      (el "sys" [lf "host" "g", el "log" [lf "w" "1"]]) (by simp [x, cfg, Elem.kids])
      ((sameB_iff _ _ _ _).1 (by decide +kernel)) ((sameB_iff _ _ _ _).1 (by decide +kernel)) ((sameB_iff _ _ _ _).1 (by decide +kernel))
      (chB_sound (by decide +kernel)) (chB_sound (by decide +kernel)) _ rfl
    cases this with
    | mk _ _ _ fromY _ _ _ =>
      exact chB_sound (d := dev2) (sc := .node Apart81.sysS) (k := lf "site" "s") (by decide +kernel)
        (fromY (lf "site" "s") (by decide +kernel) (unchB_sound (by decide +kernel)))

end DeepMerge83
end Demo
end NcDiff
