import Verif.Proof.ThreeWay
import Verif.Props.Apart
import Verif.Props.RoundTrip
/-!
# C82: two changes of one config can be merged by adding the deltas of both
-/

namespace NcDiff
open Apart
variable {d : Device}

/-- C82: a config `b` was changed to `x` here and to `y` there, and no name at the top is that of a node that was changed in both.  Then the
deltas from `b` to `x` and from `b` to `y` can be added to `b` one after the other, and the result equals every config that has the
changes of both. -/
theorem C82_three_way (d : Device) (o1 o2 : Opts) (b x y w : Elem) (hx : Transition d b x) (hy : Transition d b y)
    (r1 : o1.replace = .merge) (t1 : o1.diffType ≠ .replace) (r2 : o2.replace = .merge) (t2 : o2.diffType ≠ .replace)
    (hr : ∀ t f, d.lookup .root t = .ok f → ¬ Repeated f) (hw : PlainConfig d w) (wTag : w.tag = ncTag "config")
    (wTrim : trimDefaults d .root w = .ok w) (wDef : Deep d (DefaultLevel d) .root w) (hm : MergeOf d b x y w) :
    ∃ δ1 δ2 c1 c2, newDelta d b x o1 = .ok δ1 ∧ newDelta d b y o2 = .ok δ2 ∧ configAddDelta d b δ1 = .ok c1 ∧
      configAddDelta d c1 δ2 = .ok c2 ∧ cfgEq d c1 x = .ok true ∧ cfgEq d c2 w = .ok true := by
  obtain ⟨e1, D1, R1, n1, a1, F1, s1, v1, m1, u1⟩ := delta_facts o1 hx r1 t1 hr
  obtain ⟨e2, D2, R2, n2, a2, F2, s2, v2, m2, u2⟩ := delta_facts o2 hy r2 t2 hr
  obtain ⟨c1, hc1, hk1, vc1, sc1⟩ := addElem_ok s1 v1 hx.srcTag hx.src.bare.here' hx.src.valid.noText hx.dst.valid.valid m1
    hx.defaults hx.trimmed
  have kc1 : c1.kids = R1.kids := by rw [hk1, Elem.kids_setKids]
  have named1 : ∀ t, AlikeAt d t b x → only (fun q => decide (q = t)) R1 = only (fun q => decide (q = t)) b := fun t ht =>
    only_same s1 fun k hk => by simpa using u1 t ht k hk
  have kidsEq : ∀ t, AlikeAt d t b x → (only (fun q => decide (q = t)) c1).kids = (only (fun q => decide (q = t)) b).kids := fun t ht => by
    rw [← named1 t ht, only_kids, only_kids, kc1]
  obtain ⟨_, i2, _⟩ := nodeAdd_inv s2
  -- the second sum
  obtain ⟨R, hR⟩ : ∃ R, nodeAdd d e2 .root c1 = .ok R := by
    refine nodeAdd_join vc1.indexable i2 fun t => ?_
    rcases hm.one t with ht | ht
    · exact ⟨_, nodeAdd_outer (nodeAdd_split s2 (fun q => decide (q = t))) (kidsEq t ht)⟩
    · exact ⟨_, nodeAdd_nothing (by rw [only_kids]; exact indexable_only vc1.indexable _)
        (only_none fun k hk => by simpa using u2 t ht k hk)⟩
  obtain ⟨g1, g2, g3, g4⟩ := nodeAdd_tag hR
  have c1tag : c1.tag = ncTag "config" := by rw [hk1]; rfl
  have c1text : c1.text = none := by rw [hk1]; rfl
  have c1attrs : c1.attrs = [] := by rw [hk1]; rfl
  -- it has the changes of both
  have hsame : SameConfig d .root R w := by
    refine same_of_names (by rw [g1, c1tag, wTag]) (by rw [g2, c1text, hw.valid.noText]) (by rw [g3, c1attrs, hw.bare.here']) fun t => ?_
    have outer : ∀ (a a' z : Elem), a.tag = a'.tag → a.text = a'.text → a.attrs = a'.attrs →
        (only (fun q => decide (q = t)) a).kids = (only (fun q => decide (q = t)) a').kids →
        SameConfig d .root (only (fun q => decide (q = t)) a') z → SameConfig d .root (only (fun q => decide (q = t)) a) z := by
      intro a a' z p1 p2 p3 p4 hz
      refine (same_root (ω := True) hz.loose ?_ ?_ ?_ p4).tight
      · cases a; cases a'; exact p1
      · cases a; cases a'; exact p2
      · cases a; cases a'; exact p3
    obtain ⟨q1, q2, q3, _⟩ := nodeAdd_tag s2
    obtain ⟨l1, l2, l3, _⟩ := nodeAdd_tag s1
    rcases hm.one t with ht | ht
    · have hp := nodeAdd_split hR (fun q => decide (q = t))
      rw [nodeAdd_outer (nodeAdd_split s2 (fun q => decide (q = t))) (kidsEq t ht)] at hp
      have hk : (only (fun q => decide (q = t)) R).kids = (only (fun q => decide (q = t)) R2).kids := by
        rw [← Except.ok.inj hp, Elem.kids_setKids]
      exact outer R R2 _ (by rw [g1, c1tag, q1, hy.srcTag]) (by rw [g2, c1text, q2, hy.src.valid.noText])
        (by rw [g3, c1attrs, q3, hy.src.bare.here']) hk ((same_only m2 _).trans (hm.fromY t ht).symm)
    · have hk : (only (fun q => decide (q = t)) R).kids = (only (fun q => decide (q = t)) R1).kids := by
        rw [only_same hR (P := fun q => decide (q = t)) fun k hk => by simpa using u2 t ht k hk, only_kids, only_kids, kc1]
      exact outer R R1 _ (by rw [g1, c1tag, l1, hx.srcTag]) (by rw [g2, c1text, l2, hx.src.valid.noText])
        (by rw [g3, c1attrs, l3, hx.src.bare.here']) hk ((same_only m1 _).trans (hm.fromX t ht).symm)
  have vR : Valid d .root R := by
    have nR1 := (nodeAdd_valid d D1 .root b R1 F1.vs F1.ns F1.vo F1.dl (by rw [← a1]; exact s1)).2
    have nc1 : Deep d (NsLevel d) .root c1 := by
      refine .mk ⟨?_, ?_⟩ ?_
      · rw [hk1]; exact (by decide : NsMapOk emptyConfig.nsmap)
      · rw [kc1]; exact nR1.here'.2
      · rw [kc1]; exact nR1.sub'
    exact (nodeAdd_valid d D2 .root c1 R vc1 nc1 F2.vo F2.dl (by rw [← a2]; exact hR)).1
  obtain ⟨c2, hc2, hk2, vc2, sc2⟩ := addElem_ok hR vR c1tag c1attrs c1text hw.valid.valid hsame wDef wTrim
  have known : ∀ {e : Elem}, Valid d .root e → ∀ k ∈ e.kids, ∃ f, d.lookup .root k.tag = .ok f := fun h => h.known
  have add : ∀ (a z : Elem) (o : Opts) (e r : Elem), Valid d .root a → Valid d .root z → Delta.nc d { src := b, dst := z, opts := o } = .ok e →
      configAddElem d a e = .ok r → configAddDelta d a { src := b, dst := z, opts := o } = .ok r := by
    intro a z o e r va vz hn hr
    unfold configAddDelta
    rw [compatible_ok (cs := [a, b, z]) (by
      intro c hc
      simp only [List.mem_cons, List.not_mem_nil, or_false] at hc
      rcases hc with rfl | rfl | rfl
      · exact va.known
      · exact hx.src.valid.valid.known
      · exact vz.known)]
    simp only [bind, Except.bind]
    rw [hn]
    exact hr
  refine ⟨_, _, c1, c2, newDelta_ok hx.src.valid.valid hx.dst.valid.valid, newDelta_ok hy.src.valid.valid hy.dst.valid.valid,
    add b x o1 e1 c1 hx.src.valid.valid hx.dst.valid.valid n1 hc1, add c1 y o2 e2 c2 vc1 hy.dst.valid.valid n2 hc2, ?_, ?_⟩
  · exact (C04_eq_iff_same_instances d c1 x ⟨vc1, c1text⟩ hx.dst.valid).2 sc1
  · exact (C04_eq_iff_same_instances d c2 w ⟨vc2, by rw [hk2]; rfl⟩ hw.valid).2 sc2

/-- C82, either order: the two deltas can be added in the other order, too, and the results of both orders are equal. -/
theorem C82_either_order (d : Device) (o1 o2 : Opts) (b x y w : Elem) (hx : Transition d b x) (hy : Transition d b y)
    (r1 : o1.replace = .merge) (t1 : o1.diffType ≠ .replace) (r2 : o2.replace = .merge) (t2 : o2.diffType ≠ .replace)
    (hr : ∀ t f, d.lookup .root t = .ok f → ¬ Repeated f) (hw : PlainConfig d w) (wTag : w.tag = ncTag "config")
    (wTrim : trimDefaults d .root w = .ok w) (wDef : Deep d (DefaultLevel d) .root w) (hm : MergeOf d b x y w) :
    ∃ δ1 δ2 c1 c2 c12 c21, newDelta d b x o1 = .ok δ1 ∧ newDelta d b y o2 = .ok δ2 ∧ configAddDelta d b δ1 = .ok c1 ∧
      configAddDelta d b δ2 = .ok c2 ∧ configAddDelta d c1 δ2 = .ok c12 ∧ configAddDelta d c2 δ1 = .ok c21 ∧
      cfgEq d c12 w = .ok true ∧ cfgEq d c21 w = .ok true := by
  obtain ⟨δ1, δ2, c1, c12, p1, p2, p3, p4, _, p6⟩ := C82_three_way d o1 o2 b x y w hx hy r1 t1 r2 t2 hr hw wTag wTrim wDef hm
  obtain ⟨δ2', δ1', c2, c21, q1, q2, q3, q4, _, q6⟩ := C82_three_way d o2 o1 b y x w hy hx r2 t2 r1 t1 hr hw wTag wTrim wDef hm.swap
  obtain rfl := Except.ok.inj (p1.symm.trans q2)
  obtain rfl := Except.ok.inj (p2.symm.trans q1)
  exact ⟨δ1, δ2, c1, c2, c12, c21, p1, p2, p3, q3, p4, q4, p6, q6⟩

namespace Demo
namespace ThreeWay82
open Apart81 (dev2 sysS)

def b : Elem := cfg [el "top" [lf "a" "1", item "x" "1", item "y" "2", rule "1" "p", lf "tagl" "t"], el "sys" [lf "host" "h", el "log" [lf "w" "1"]]]
/-- Changed here: list entries are changed, removed and added. -/
def x : Elem := cfg [el "top" [item "x" "7", item "z" "2", rule "1" "p", rule "2" "d", lf "tagl" "t", lf "b" "5"],
  el "sys" [lf "host" "h", el "log" [lf "w" "1"]]]
/-- Changed there: a leaf gets another value, and a container is gone. -/
def y : Elem := cfg [el "top" [lf "a" "1", item "x" "1", item "y" "2", rule "1" "p", lf "tagl" "t"], el "sys" [lf "host" "g", lf "site" "s"]]
/-- The changes of both, written in another order. -/
def w : Elem := cfg [el "sys" [lf "site" "s", lf "host" "g"], el "top" [lf "b" "5", item "z" "2", item "x" "7", rule "1" "p", rule "2" "d",
  lf "tagl" "t"]]

theorem b_x : Transition dev2 b x := transitionB_sound (by decide +kernel)
theorem b_y : Transition dev2 b y := transitionB_sound (by decide +kernel)
theorem b_w : Transition dev2 b w := transitionB_sound (by decide +kernel)

theorem alike_of {a c : Elem} {t : QName} (h1 : validConfigB dev2 (partOf (fun q => decide (q = t)) a) = true)
    (h2 : validConfigB dev2 (partOf (fun q => decide (q = t)) c) = true)
    (h : cfgEq dev2 (partOf (fun q => decide (q = t)) a) (partOf (fun q => decide (q = t)) c) = .ok true) : AlikeAt dev2 t a c :=
  (C04_eq_iff_same_instances dev2 _ _ (validConfigB_sound h1) (validConfigB_sound h2)).1 h

theorem not_alike_of {a c : Elem} {t : QName} (h1 : validConfigB dev2 (partOf (fun q => decide (q = t)) a) = true)
    (h2 : validConfigB dev2 (partOf (fun q => decide (q = t)) c) = true)
    (h : cfgEq dev2 (partOf (fun q => decide (q = t)) a) (partOf (fun q => decide (q = t)) c) = .ok false) : ¬ AlikeAt dev2 t a c := by
  intro hs
  have := (C04_eq_iff_same_instances dev2 _ _ (validConfigB_sound h1) (validConfigB_sound h2)).2 hs
  rw [this] at h
  cases h

theorem alike_other {a c : Elem} {t : QName} (h1 : t ≠ q "top") (h2 : t ≠ q "sys") (ha : a ∈ [b, x, y, w]) (hc : c ∈ [b, x, y, w]) :
    AlikeAt dev2 t a c := by
  have e : ∀ a ∈ [b, x, y, w], partOf (fun q => decide (q = t)) a = cfg [] := by
    intro a ha
    have h3 : ¬ q "top" = t := fun h => h1 h.symm
    have h4 : ¬ q "sys" = t := fun h => h2 h.symm
    simp only [List.mem_cons, List.not_mem_nil, or_false] at ha
    rcases ha with rfl | rfl | rfl | rfl <;>
      simp [partOf, b, x, y, w, cfg, el, Elem.setKids, Elem.kids, Elem.tag, h3, h4]
  unfold AlikeAt
  rw [e a ha, e c hc]
  exact .refl (validB_sound _ _ (by decide +kernel))

theorem merged : MergeOf dev2 b x y w := by
  refine ⟨fun t => ?_, fun t ht => ?_, fun t ht => ?_⟩ <;> by_cases h1 : t = q "top"
  · subst h1; exact .inr (alike_of (by decide +kernel) (by decide +kernel) (by decide +kernel))
  · by_cases h2 : t = q "sys"
    · subst h2; exact .inl (alike_of (by decide +kernel) (by decide +kernel) (by decide +kernel))
    · exact .inl (alike_other h1 h2 (by simp) (by simp))
  · subst h1; exact alike_of (by decide +kernel) (by decide +kernel) (by decide +kernel)
  · by_cases h2 : t = q "sys"
    · subst h2; exact absurd ht (not_alike_of (by decide +kernel) (by decide +kernel) (by decide +kernel))
    · exact alike_other h1 h2 (by simp) (by simp)
  · subst h1; exact absurd ht (not_alike_of (by decide +kernel) (by decide +kernel) (by decide +kernel))
  · by_cases h2 : t = q "sys"
    · subst h2; exact alike_of (by decide +kernel) (by decide +kernel) (by decide +kernel)
    · exact alike_other h1 h2 (by simp) (by simp)

theorem roots_free : ∀ t f, dev2.lookup .root t = .ok f → ¬ Repeated f := by
  intro t f h
  have key : f.node.info.isKey = false ∧ f.node.userOrdered = false := by
    by_cases h1 : t = q "top"
    · subst h1; cases h; exact ⟨rfl, rfl⟩
    · by_cases h2 : t = q "sys"
      · subst h2; cases h; exact ⟨rfl, rfl⟩
      · have b1 : (t == q "top") = false := beq_eq_false_iff_ne.2 h1
        have b2 : (t == q "sys") = false := beq_eq_false_iff_ne.2 h2
        simp only [Device.lookup, dev2, List.lookup, b1, b2] at h
        cases h
  rintro (⟨h1, _⟩ | ⟨h1, _⟩)
  · rw [key.1] at h1; cases h1
  · rw [key.2] at h1; cases h1

example := C82_either_order dev2 {} { delete := .remove, create := .create } b x y w b_x b_y rfl (by decide) rfl (by decide) roots_free
  b_w.dst b_w.dstTag b_w.trimmed b_w.defaults merged

/-- Names at the top that both have changed are another matter: when both delete the same
node, the second delta is refused. -/
theorem C82_false_for_conflicts : ∃ c z1 z2 δ1 δ2 c1 err, Transition dev2 c z1 ∧ Transition dev2 c z2 ∧ newDelta dev2 c z1 = .ok δ1 ∧
    newDelta dev2 c z2 = .ok δ2 ∧ configAddDelta dev2 c δ1 = .ok c1 ∧ configAddDelta dev2 c1 δ2 = .error err :=
  ⟨cfg [el "sys" [lf "host" "h", lf "site" "s"]], cfg [el "sys" [lf "host" "h"]], cfg [el "sys" [lf "host" "g"]], _, _,
    cfg [el "sys" [lf "host" "h"]], _, transitionB_sound (by decide +kernel), transitionB_sound (by decide +kernel), rfl, rfl,
    by decide +kernel, rfl⟩

end ThreeWay82
end Demo
end NcDiff
