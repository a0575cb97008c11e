import Verif.Proof.StandIn
import Verif.Proof.Settled
import Verif.Proof.ThreeWay
import Verif.Props.StandIn
import Verif.Props.Vocabulary
/-!
# A delta takes along changes that were made elsewhere
-/

namespace NcDiff
namespace Deep83

variable {d : Device} {ω : Prop}

/-- A delta without `replace` that has only what is not the same, or repeated. -/
inductive Says (d : Device) : Scope → Elem → Elem → Elem → Prop
  | mk {sc : Scope} {B Y D : Elem}
      (only : ∀ b ∈ B.kids, ∀ y ∈ Y.kids, ∀ o ∈ D.kids, SameInstance d sc b y → SameInstance d sc y o → ∀ f, d.lookup sc y.tag = .ok f →
        SameConfig d (.node f.node) b y → Repeated f)
      (ops : ∀ b ∈ B.kids, ∀ y ∈ Y.kids, ∀ o ∈ D.kids, SameInstance d sc b y → SameInstance d sc y o → opOf o ≠ "replace")
      (both : ∀ b ∈ B.kids, ∀ y ∈ Y.kids, ∀ o ∈ D.kids, SameInstance d sc b y → SameInstance d sc y o → ∀ f, d.lookup sc y.tag = .ok f →
        f.node.ntype = .container ∨ f.node.ntype = .list → Says d (.node f.node) b y o) : Says d sc B Y D

section level
variable {sc : Scope} {B X Y W D : Elem}

/-- The instance is repeated in every delta. -/
def rep (d : Device) (sc : Scope) (t : QName) : Prop := ∃ f, d.lookup sc t = .ok f ∧ Repeated f

theorem part_mem {t : QName} {e k : Elem} : k ∈ (partOf (fun q => decide (q = t)) e).kids ↔ k ∈ e.kids ∧ k.tag = t := by
  unfold partOf; rw [Elem.kids_setKids, List.mem_filter, decide_eq_true_eq]

/-- What parts that are the same say about an instance. -/
theorem part_unchanged {a b k : Elem} (hk : k ∈ a.kids ∨ k ∈ b.kids)
    (h : SameConfig d sc (partOf (fun q => decide (q = k.tag)) a) (partOf (fun q => decide (q = k.tag)) b)) : Unchanged d sc k a b := by
  rcases hk with hk | hk
  · have h1 := part_mem.2 ⟨hk, rfl⟩
    obtain ⟨y, hy, hs⟩ := h.left h1
    exact .inr ⟨k, hk, y, (part_mem.1 hy).1, .refl _ _ _, hs.symm, fun f hf => h.sub' h1 hy hs hf⟩
  · have h1 := part_mem.2 ⟨hk, rfl⟩
    obtain ⟨x, hx, hs⟩ := h.symm.left h1
    exact .inr ⟨x, (part_mem.1 hx).1, k, hk, hs.symm, .refl _ _ _, fun f hf => (h.symm.sub' h1 hx hs hf).symm⟩

theorem Unchanged.congr {k k' a b : Elem} (h : Unchanged d sc k a b) (hs : SameInstance d sc k k') : Unchanged d sc k' a b := by
  rcases h with ⟨h1, h2⟩ | ⟨x, hx, y, hy, s1, s2, h3⟩
  · exact .inl ⟨fun x hx h => h1 x hx (h.trans hs.symm), fun x hx h => h2 x hx (h.trans hs.symm)⟩
  · exact .inr ⟨x, hx, y, hy, s1.trans hs, s2.trans hs, fun f hf => h3 f (by rw [hs.1]; exact hf)⟩

theorem Unchanged.symm {k a b : Elem} (h : Unchanged d sc k a b) : Unchanged d sc k b a := by
  rcases h with ⟨h1, h2⟩ | ⟨x, hx, y, hy, s1, s2, h3⟩
  · exact .inl ⟨h2, h1⟩
  · exact .inr ⟨y, hy, x, hx, s2, s1, fun f hf => (h3 f hf).symm⟩

theorem uniq {a x y : Elem} (va : Valid d sc a) (hx : x ∈ a.kids) (hy : y ∈ a.kids) (hs : SameInstance d sc x y) : x = y :=
  List.inj_on_of_nodup_map va.indexable.nodup hx hy ((same_uid va va hx hy).2 hs)

/-- The counterpart of a child that is the same on the other side. -/
theorem Unchanged.to {a b k : Elem} (va : Valid d sc a) (h : Unchanged d sc k a b) (hk : k ∈ a.kids) :
    ∃ y ∈ b.kids, SameInstance d sc k y ∧ ∀ f, d.lookup sc k.tag = .ok f → SameConfig d (.node f.node) k y := by
  rcases h with ⟨h1, _⟩ | ⟨x, hx, y, hy, s1, s2, h3⟩
  · exact absurd (.refl _ _ _) (h1 k hk)
  · obtain rfl := uniq va hx hk s1
    exact ⟨y, hy, s2.symm, h3⟩

/-- What becomes of the child `y` of the target. -/
structure Target (ω : Prop) (d : Device) (sc : Scope) (B X W D y k : Elem) : Prop where
  uid : uid d sc k = uid d sc y
  nsmap : k.nsmap = y.nsmap
  text : k.text = y.text
  bare : NoAttrs k
  cell : CellOk d sc k
  valid : ∀ f, d.lookup sc k.tag = .ok f → Valid d (.node f.node) k
  plain : ∀ f, d.lookup sc k.tag = .ok f → Deep d (PlainLeaves d) (.node f.node) k
  level : ∀ f, d.lookup sc k.tag = .ok f → Deep d (ConfLevel d) (.node f.node) k
  keys : ∀ f, d.lookup sc k.tag = .ok f → f.node.ntype = .list → ∀ q ∈ f.node.keys, k.childrenWith q = y.childrenWith q
  same : ∃ kw ∈ W.kids, NcDiff.uid d sc k = NcDiff.uid d sc kw ∧ ∀ f, d.lookup sc k.tag = .ok f → SameConfig d (.node f.node) k kw
  how : (k = y ∧ Unchanged d sc y B X) ∨ (¬ rep d sc y.tag ∧ ∃ b ∈ B.kids, ∃ x ∈ X.kids, NcDiff.uid d sc b = NcDiff.uid d sc y ∧
    NcDiff.uid d sc x = NcDiff.uid d sc y ∧ ∀ f, d.lookup sc y.tag = .ok f → (f.node.ntype = .container ∨ f.node.ntype = .list) ∧
      (f.node.isNP = true → k.kids ≠ []) ∧ ∀ o ∈ D.kids, NcDiff.uid d sc o = NcDiff.uid d sc y → opOf o = "merge" ∧
        Diff ω d (.node f.node) x k o)

/-- What does not occur in the delta, and is not repeated, is the same on both sides of it. -/
theorem unsaid (H : DiffBase ω d sc B Y D) {k : Elem} {V : Elem} (hV : Valid d sc V) (hk : k ∈ V.kids)
    (hD : ∀ o ∈ D.kids, uid d sc o ≠ uid d sc k) : Unchanged d sc k B Y := by
  by_cases hb : ∃ b ∈ B.kids, uid d sc b = uid d sc k
  · obtain ⟨b, hb, hu⟩ := hb
    by_cases hy : ∃ y ∈ Y.kids, uid d sc y = uid d sc k
    · obtain ⟨y, hy, hu'⟩ := hy
      refine .inr ⟨b, hb, y, hy, (same_uid H.vS hV hb hk).1 hu, (same_uid H.vT hV hy hk).1 hu', fun f hf => ?_⟩
      exact H.out b hb y hy (hu.trans hu'.symm) (fun o ho h => hD o ho (h.trans hu')) f (by rw [tag_of_uid hu']; exact hf)
    · obtain ⟨m, hm, hmu⟩ := H.gone b hb (fun y hy' h => hy ⟨y, hy', h.trans hu⟩)
      exact absurd (hmu.trans hu) (hD m hm)
  · by_cases hy : ∃ y ∈ Y.kids, uid d sc y = uid d sc k
    · obtain ⟨y, hy, hu'⟩ := hy
      obtain ⟨o, ho, hou⟩ := H.new y hy (fun b hb' h => hb ⟨b, hb', h.trans hu'⟩)
      exact absurd (hou.trans hu') (hD o ho)
    · exact .inl ⟨fun b hb' h => hb ⟨b, hb', (same_uid H.vS hV hb' hk).2 h⟩, fun y hy' h => hy ⟨y, hy', (same_uid H.vT hV hy' hk).2 h⟩⟩

/-- What occurs in the delta, and is not repeated, is not the same. -/
theorem said (H : DiffBase ω d sc B Y D) (hs : Says d sc B Y D) {k : Elem} {V : Elem} (hV : Valid d sc V) (hk : k ∈ V.kids) {o : Elem}
    (ho : o ∈ D.kids) (hu : uid d sc o = uid d sc k) (hr : ¬ rep d sc k.tag) : ¬ Unchanged d sc k B Y := by
  intro h
  cases hs with
  | mk only _ _ =>
  rcases h with ⟨h1, h2⟩ | ⟨b, hb, y, hy, s1, s2, h3⟩
  · rcases H.only o ho with ⟨y, hy, h⟩ | ⟨b, hb, h⟩
    · exact h2 y hy ((same_uid H.vT hV hy hk).1 (h.trans hu))
    · exact h1 b hb ((same_uid H.vS hV hb hk).1 (h.trans hu))
  · obtain ⟨f, hf, _⟩ := hV.shape' k hk
    refine hr ⟨f, hf, only b hb y hy o ho (s1.trans s2.symm) ?_ f (by rw [s2.1]; exact hf) (h3 f hf)⟩
    exact (same_uid H.vT H.vD hy ho).1 (((same_uid H.vT hV hy hk).2 s2).trans hu.symm)

open Classical in
/-- The children of the target: what the delta does not mention, and what has become of the rest. -/
noncomputable def kidsOf (d : Device) (sc : Scope) (X Y D : Elem) (g : Elem → Elem) : List Elem :=
  X.kids.filter (fun x => decide (¬ rep d sc x.tag ∧ ∀ o ∈ D.kids, uid d sc o ≠ uid d sc x)) ++
    (Y.kids.filter (fun y => decide (rep d sc y.tag ∨ ∃ o ∈ D.kids, uid d sc o = uid d sc y))).map g

theorem mem_kidsOf {g : Elem → Elem} {k : Elem} : k ∈ kidsOf d sc X Y D g ↔
    (k ∈ X.kids ∧ ¬ rep d sc k.tag ∧ ∀ o ∈ D.kids, uid d sc o ≠ uid d sc k) ∨
    ∃ y ∈ Y.kids, (rep d sc y.tag ∨ ∃ o ∈ D.kids, uid d sc o = uid d sc y) ∧ g y = k := by
  unfold kidsOf
  simp only [List.mem_append, List.mem_filter, List.mem_map, decide_eq_true_eq, and_assoc]

theorem valid_part {e : Elem} (h : Valid d sc e) (P : QName → Bool) : Valid d sc (partOf P e) := by
  unfold partOf
  cases h with
  | mk h1 h2 h3 h4 =>
    refine .mk (by rw [Elem.attrs_setKids]; exact h1) ?_ ?_ ?_
    · rw [Elem.kids_setKids]; exact fun k hk => h2 k (List.mem_of_mem_filter hk)
    · rw [Elem.kids_setKids]; exact h3.filter _
    · rw [Elem.kids_setKids]; exact fun k hk => h4 k (List.mem_of_mem_filter hk)

theorem rep_of_ordered {t : QName} (h : UserOrdered d sc t) : rep d sc t := by
  obtain ⟨f, hf, h1, h2⟩ := h
  exact ⟨f, hf, .inr ⟨h1, h2⟩⟩

theorem assemble (H : DiffBase ω d sc B Y D)
    (gone : ∀ s ∈ B.kids, (∀ k ∈ Y.kids, uid d sc k ≠ uid d sc s) → ∀ m ∈ D.kids,
        uid d sc m = uid d sc s → opOf m = "merge" → ∀ f, d.lookup sc s.tag = .ok f → Diff ω d (.node f.node) s (s.setKids []) m)
    (newC : ∀ k ∈ Y.kids, (∀ s ∈ B.kids, uid d sc s ≠ uid d sc k) → ∀ o ∈ D.kids,
        uid d sc o = uid d sc k → opOf o = "merge" → ∀ f, d.lookup sc k.tag = .ok f →
        f.node.ntype = .container → Diff ω d (.node f.node) (Elem.new o.tag o.nsmap) k o)
    (newL : ∀ k ∈ Y.kids, (∀ s ∈ B.kids, uid d sc s ≠ uid d sc k) → ∀ o ∈ D.kids,
        uid d sc o = uid d sc k → opOf o = "merge" → ∀ f, d.lookup sc k.tag = .ok f →
        f.node.ntype = .list → ∀ sk, listSkeleton f.node.keys o = .ok sk → Diff ω d (.node f.node) sk k o)
    (both : ∀ s ∈ B.kids, ∀ k ∈ Y.kids, ∀ o ∈ D.kids, uid d sc s = uid d sc k →
        uid d sc o = uid d sc k → opOf o = "merge" → ∀ f, d.lookup sc k.tag = .ok f →
        f.node.ntype = .container ∨ f.node.ntype = .list → Diff ω d (.node f.node) s k o)
    (hs : Says d sc B Y D) (hX : Side d sc X) (hY : Side d sc Y) (pX : Deep d (PlainLeaves d) sc X) (pY : Deep d (PlainLeaves d) sc Y)
    (vW : Valid d sc W) (aW : NoAttrs W) (hm : DeepMerge d sc B X Y W) (hv : ∀ {S : Elem}, MergeValues d sc S Y)
    {g : Elem → Elem} (hg : ∀ y ∈ Y.kids, (rep d sc y.tag ∨ ∃ o ∈ D.kids, uid d sc o = uid d sc y) → Target ω d sc B X W D y (g y)) :
    Diff ω d sc X (Y.setKids (kidsOf d sc X Y D g)) D ∧ SameConfig d sc (Y.setKids (kidsOf d sc X Y D g)) W ∧
      Deep d (PlainLeaves d) sc (Y.setKids (kidsOf d sc X Y D g)) ∧
      ∀ t, rep d sc t → (Y.setKids (kidsOf d sc X Y D g)).childrenWith t = Y.childrenWith t := by
  classical
  cases hm with
  | mk tag value fromX fromY bothM inside fixed =>
  have vX := hX.valid
  have vB := H.vS
  have vY := hY.valid
  have vD := H.vD
  have inB : ∀ {k}, k ∈ B.kids → k ∈ B.kids ++ X.kids ++ Y.kids ++ W.kids := by intro k h; simp [h]
  have inX : ∀ {k}, k ∈ X.kids → k ∈ B.kids ++ X.kids ++ Y.kids ++ W.kids := by intro k h; simp [h]
  have inY : ∀ {k}, k ∈ Y.kids → k ∈ B.kids ++ X.kids ++ Y.kids ++ W.kids := by intro k h; simp [h]
  have inW : ∀ {k}, k ∈ W.kids → k ∈ B.kids ++ X.kids ++ Y.kids ++ W.kids := by intro k h; simp [h]
  -- repeated names are the same everywhere
  have repX : ∀ {k}, rep d sc k.tag → k ∈ X.kids → Unchanged d sc k B X := fun ⟨f, hf, hr⟩ hk => part_unchanged (.inr hk) (fixed _ f hf hr).1
  have repB : ∀ {k}, rep d sc k.tag → k ∈ B.kids → Unchanged d sc k B X := fun ⟨f, hf, hr⟩ hk => part_unchanged (.inl hk) (fixed _ f hf hr).1
  have repB' : ∀ {k}, rep d sc k.tag → k ∈ B.kids → Unchanged d sc k B Y := fun ⟨f, hf, hr⟩ hk => part_unchanged (.inl hk) (fixed _ f hf hr).2.1
  have repY : ∀ {k}, rep d sc k.tag → k ∈ Y.kids → Unchanged d sc k B Y := fun ⟨f, hf, hr⟩ hk => part_unchanged (.inr hk) (fixed _ f hf hr).2.1
  have repYX : ∀ {k}, rep d sc k.tag → k ∈ Y.kids → Unchanged d sc k B X := by
    intro k hr hk
    obtain ⟨b, hb, hsb, _⟩ := Unchanged.to vY (Unchanged.symm (repY hr hk)) hk
    exact Unchanged.congr (repB (by rw [← hsb.1]; exact hr) hb) hsb.symm
  have repW : ∀ {k}, rep d sc k.tag → k ∈ W.kids → Unchanged d sc k B X := by
    intro k hr hk
    obtain ⟨f, hf, hr'⟩ := hr
    obtain ⟨b, hb, hsb, _⟩ := Unchanged.to vW (Unchanged.symm (part_unchanged (.inr hk) (fixed _ f hf hr').2.2)) hk
    exact Unchanged.congr (repB ⟨f, by rw [← hsb.1]; exact hf, hr'⟩ hb) hsb.symm
  have repg : ∀ {y}, y ∈ Y.kids → rep d sc y.tag → g y = y := by
    intro y hy hr
    rcases (hg y hy (.inl hr)).how with ⟨h, _⟩ | ⟨h, _⟩
    · exact h
    · exact absurd hr h
  set T := Y.setKids (kidsOf d sc X Y D g) with hT
  have hTk : T.kids = kidsOf d sc X Y D g := by rw [hT, Elem.kids_setKids]
  have memT : ∀ {k}, k ∈ T.kids ↔ (k ∈ X.kids ∧ ¬ rep d sc k.tag ∧ ∀ o ∈ D.kids, uid d sc o ≠ uid d sc k) ∨
      ∃ y ∈ Y.kids, (rep d sc y.tag ∨ ∃ o ∈ D.kids, uid d sc o = uid d sc y) ∧ g y = k := by
    intro k; rw [hTk]; exact mem_kidsOf
  -- the children of the target and those of `W`
  have toW : ∀ k ∈ T.kids, ∃ kw ∈ W.kids, uid d sc k = uid d sc kw ∧ ∀ f, d.lookup sc k.tag = .ok f → SameConfig d (.node f.node) k kw := by
    intro k hk
    rcases memT.1 hk with ⟨hk, _, hD⟩ | ⟨y, hy, hp, rfl⟩
    · obtain ⟨kw, hw, hsw, hc⟩ := Unchanged.to vX (fromX k (inX hk) (unsaid H vX hk hD)) hk
      exact ⟨kw, hw, (same_uid vX vW hk hw).2 hsw, hc⟩
    · exact (hg y hy hp).same
  have fromY' : ∀ {y}, y ∈ Y.kids → (rep d sc y.tag ∨ ∃ o ∈ D.kids, uid d sc o = uid d sc y) → ∃ k ∈ T.kids, uid d sc k = uid d sc y :=
    fun {y} hy hp => ⟨g y, memT.2 (.inr ⟨y, hy, hp, rfl⟩), (hg y hy hp).uid⟩
  have instW : ∀ {k kw : Elem}, k ∈ T.kids → kw ∈ W.kids → uid d sc k = uid d sc kw → ∀ f, d.lookup sc k.tag = .ok f →
      SameConfig d (.node f.node) k kw := by
    intro k kw hk hkw hu f hf
    obtain ⟨kw', hw', hu', hc⟩ := toW k hk
    obtain rfl := List.inj_on_of_nodup_map vW.indexable.nodup hw' hkw (hu'.symm.trans hu)
    exact hc f hf
  have ofW : ∀ kw ∈ W.kids, ∃ k ∈ T.kids, uid d sc k = uid d sc kw := by
    intro kw hkw
    by_cases h1 : Unchanged d sc kw B X
    · obtain ⟨y, hy, hsy, _⟩ := Unchanged.to vW (Unchanged.symm (fromY kw (inW hkw) h1)) hkw
      have hyu := (same_uid vY vW hy hkw).2 hsy.symm
      by_cases hp : rep d sc y.tag ∨ ∃ o ∈ D.kids, uid d sc o = uid d sc y
      · obtain ⟨k, hk, hu⟩ := fromY' hy hp
        exact ⟨k, hk, hu.trans hyu⟩
      · have hD : ∀ o ∈ D.kids, uid d sc o ≠ uid d sc y := fun o ho h => hp (.inr ⟨o, ho, h⟩)
        obtain ⟨b, hb, hsb, _⟩ := Unchanged.to vY (Unchanged.symm (unsaid H vY hy hD)) hy
        obtain ⟨x, hx, hsx, _⟩ := Unchanged.to vB (Unchanged.congr h1 (hsy.trans hsb)) hb
        have hxu : uid d sc x = uid d sc y := (same_uid vX vY hx hy).2 (hsb.trans hsx).symm
        refine ⟨x, memT.2 (.inl ⟨hx, ?_, ?_⟩), hxu.trans hyu⟩
        · rw [tag_of_uid hxu]; exact fun h => hp (.inl h)
        · rw [hxu]; exact hD
    · have hr : ¬ rep d sc kw.tag := fun h => h1 (repW h hkw)
      by_cases h2 : Unchanged d sc kw B Y
      · obtain ⟨x, hx, hsx, _⟩ := Unchanged.to vW (Unchanged.symm (fromX kw (inW hkw) h2)) hkw
        have hxu := (same_uid vX vW hx hkw).2 hsx.symm
        refine ⟨x, memT.2 (.inl ⟨hx, by rw [tag_of_uid hxu]; exact hr, ?_⟩), hxu⟩
        intro o ho hou
        exact said H hs vW hkw ho (hou.trans hxu) hr h2
      · obtain ⟨_, _, ⟨y, hy, hsy⟩, _, _⟩ := bothM kw (inW hkw) h1 h2
        have hyu := (same_uid vY vW hy hkw).2 hsy
        by_cases hD : ∃ o ∈ D.kids, uid d sc o = uid d sc y
        · obtain ⟨k, hk, hu⟩ := fromY' hy (.inr hD)
          exact ⟨k, hk, hu.trans hyu⟩
        · exact absurd (Unchanged.congr (unsaid H vY hy (fun o ho h => hD ⟨o, ho, h⟩)) hsy) h2
  -- what is in the delta and not in the target
  have lost : ∀ {o : Elem}, o ∈ D.kids → (∀ k ∈ T.kids, uid d sc k ≠ uid d sc o) → (∀ y ∈ Y.kids, uid d sc y ≠ uid d sc o) ∧
      ∃ b ∈ B.kids, uid d sc b = uid d sc o ∧ ∃ x ∈ X.kids, uid d sc x = uid d sc o ∧ ∀ f, d.lookup sc b.tag = .ok f →
        SameConfig d (.node f.node) b x := by
    intro o ho hno
    have hY' : ∀ y ∈ Y.kids, uid d sc y ≠ uid d sc o := by
      intro y hy h
      obtain ⟨k, hk, hu⟩ := fromY' hy (.inr ⟨o, ho, h.symm⟩)
      exact hno k hk (hu.trans h)
    refine ⟨hY', ?_⟩
    rcases H.only o ho with ⟨y, hy, h⟩ | ⟨b, hb, h⟩
    · exact absurd h (hY' y hy)
    · refine ⟨b, hb, h, ?_⟩
      have h2 : ¬ Unchanged d sc b B Y := by
        intro hc
        obtain ⟨y, hy, hsy, _⟩ := Unchanged.to vB hc hb
        exact hY' y hy (((same_uid vB vY hb hy).2 hsy).symm.trans h)
      by_cases h1 : Unchanged d sc b B X
      · obtain ⟨x, hx, hsx, hc⟩ := Unchanged.to vB h1 hb
        exact ⟨x, hx, ((same_uid vB vX hb hx).2 hsx).symm.trans h, hc⟩
      · obtain ⟨_, _, ⟨y, hy, hsy⟩, _, _⟩ := bothM b (inB hb) h1 h2
        exact absurd (((same_uid vY vB hy hb).2 hsy).trans h) (hY' y hy)
  -- what is in the delta and in the target
  have kept : ∀ {o k : Elem}, o ∈ D.kids → k ∈ T.kids → uid d sc o = uid d sc k → ∃ y ∈ Y.kids, g y = k ∧ uid d sc y = uid d sc k ∧
      Target ω d sc B X W D y k := by
    intro o k ho hk hu
    rcases memT.1 hk with ⟨_, _, hD⟩ | ⟨y, hy, hp, rfl⟩
    · exact absurd hu (hD o ho)
    · exact ⟨y, hy, rfl, (hg y hy hp).uid.symm, hg y hy hp⟩
  have noX : ∀ {k : Elem}, k ∈ T.kids → (∀ x ∈ X.kids, uid d sc x ≠ uid d sc k) → k ∈ Y.kids ∧ (∀ b ∈ B.kids, uid d sc b ≠ uid d sc k) ∧
      ∃ o ∈ D.kids, uid d sc o = uid d sc k := by
    intro k hk hno
    rcases memT.1 hk with ⟨hx, _⟩ | ⟨y, hy, hp, rfl⟩
    · exact absurd rfl (hno k hx)
    · have ht := hg y hy hp
      rcases ht.how with ⟨he, hc⟩ | ⟨_, b, hb, x, hx, _, hu, _⟩
      · rw [he] at hno ⊢
        have hB : ∀ b ∈ B.kids, uid d sc b ≠ uid d sc y := by
          intro b hb h
          obtain ⟨x, hx, hsx, _⟩ := Unchanged.to vB (Unchanged.congr hc ((same_uid vY vB hy hb).1 h.symm)) hb
          exact hno x hx (((same_uid vB vX hb hx).2 hsx).symm.trans h)
        refine ⟨hy, hB, ?_⟩
        rcases hp with hr | hD
        · obtain ⟨b, hb, hsb, _⟩ := Unchanged.to vY (Unchanged.symm (repY hr hy)) hy
          exact absurd ((same_uid vB vY hb hy).2 hsb.symm) (hB b hb)
        · exact hD
      · exact absurd (hu.trans ht.uid.symm) (hno x hx)
  -- the order
  have sameY : ∀ {t}, rep d sc t → T.kids.filter (fun k => k.tag = t) = Y.kids.filter (fun k => k.tag = t) := by
    intro t ht
    rw [hTk]
    unfold kidsOf
    rw [List.filter_append, List.filter_filter, List.filter_eq_nil_iff.2, List.nil_append]
    · rw [List.filter_map, List.filter_filter]
      have e1 : Y.kids.filter (fun y => (((fun k : Elem => decide (k.tag = t)) ∘ g) y) &&
          decide (rep d sc y.tag ∨ ∃ o ∈ D.kids, uid d sc o = uid d sc y)) = Y.kids.filter (fun k => decide (k.tag = t)) := by
        refine List.filter_congr fun y hy => ?_
        by_cases hp : rep d sc y.tag ∨ ∃ o ∈ D.kids, uid d sc o = uid d sc y
        · have := tag_of_uid (hg y hy hp).uid
          simp [hp, this]
        · have : ¬ y.tag = t := fun h => hp (.inl (h ▸ ht))
          simp [hp, this]
      rw [e1]
      conv_rhs => rw [← List.map_id (Y.kids.filter _)]
      refine List.map_congr_left fun y hy => ?_
      obtain ⟨hy, hyt⟩ := List.mem_filter.1 hy
      exact repg hy (by rw [of_decide_eq_true hyt]; exact ht)
    · intro x _
      by_cases hx : x.tag = t
      · simp [hx, ht]
      · simp [hx]
  have ordT : ∀ {t}, rep d sc t → targetOf d sc T t = targetOf d sc Y t := by
    intro t ht
    rw [targetOf_eq, targetOf_eq, sameY ht]
  have ordX : ∀ {t}, UserOrdered d sc t → targetOf d sc X t = targetOf d sc B t := by
    intro t ht
    obtain ⟨f, hf, hr⟩ := rep_of_ordered ht
    have := targetOf_same (d := d) (sc := sc) (t := t) (valid_part vX _) (valid_part vB _) (fixed t f hf hr).1.symm ht
    have e : ∀ e : Elem, targetOf d sc (partOf (fun q => decide (q = t)) e) t = targetOf d sc e t := by
      intro e
      rw [targetOf_eq, targetOf_eq]
      unfold partOf
      rw [Elem.kids_setKids, List.filter_filter]
      simp
    rw [e, e] at this
    exact this
  have nodupT : (T.kids.map (uid d sc)).Nodup := by
    rw [hTk]
    unfold kidsOf
    rw [List.map_append, List.map_map]
    have e1 : (Y.kids.filter (fun y => decide (rep d sc y.tag ∨ ∃ o ∈ D.kids, uid d sc o = uid d sc y))).map (uid d sc ∘ g) =
        (Y.kids.filter (fun y => decide (rep d sc y.tag ∨ ∃ o ∈ D.kids, uid d sc o = uid d sc y))).map (uid d sc) := by
      refine List.map_congr_left fun y hy => ?_
      obtain ⟨hy, hp⟩ := List.mem_filter.1 hy
      exact (hg y hy (of_decide_eq_true hp)).uid
    rw [e1]
    refine List.Nodup.append (vX.indexable.nodup.sublist (List.filter_sublist.map _))
      (vY.indexable.nodup.sublist (List.filter_sublist.map _)) ?_
    intro u hu hu'
    obtain ⟨x, hx, rfl⟩ := List.mem_map.1 hu
    obtain ⟨y, hy, hyx⟩ := List.mem_map.1 hu'
    obtain ⟨_, hx⟩ := List.mem_filter.1 hx
    obtain ⟨_, hy⟩ := List.mem_filter.1 hy
    have hx := of_decide_eq_true hx
    rcases of_decide_eq_true hy with h | ⟨o, ho, h⟩
    · exact hx.1 (by rw [← tag_of_uid hyx]; exact h)
    · exact hx.2 o ho (h.trans hyx)
  have cellT : ∀ k ∈ T.kids, CellOk d sc k := by
    intro k hk
    rcases memT.1 hk with ⟨hx, _⟩ | ⟨y, hy, hp, rfl⟩
    · exact hX.cell hx
    · exact (hg y hy hp).cell
  have aT : NoAttrs T := by
    refine .mk (by rw [hT, Elem.attrs_setKids]; exact hY.bare.here') fun k hk => ?_
    rcases memT.1 hk with ⟨hx, _⟩ | ⟨y, hy, hp, rfl⟩
    · exact hX.bare.sub' k hx
    · exact (hg y hy hp).bare
  have vT : Valid d sc T := by
    refine .mk (by rw [aT.here']; simp) (fun k hk => ?_) ?_ fun k hk f hf => ?_
    · obtain ⟨f, hf, kf, _⟩ := cellT k hk
      exact ⟨f, hf, kf⟩
    · have := List.pairwise_map.1 nodupT
      refine this.imp_of_mem ?_
      intro a b ha hb hn h
      obtain ⟨f, hf, kf, _⟩ := cellT a ha
      obtain ⟨g', hg', kg, _⟩ := cellT b hb
      exact hn ((uid_eq_iff' hf kf hg' kg).2 h)
    · rcases memT.1 hk with ⟨hx, _⟩ | ⟨y, hy, hp, rfl⟩
      · exact vX.sub' k hx f hf
      · exact (hg y hy hp).valid f hf
  have tT : T.tag = Y.tag := by rw [hT, Elem.tag_setKids]
  have pT : parseTextAt d sc T = parseTextAt d sc Y := by rw [hT, parseTextAt_setKids]
  have plT : Deep d (PlainLeaves d) sc T := by
    refine .mk (fun k hk f hf hn => ?_) fun k hk f hf => ?_
    · rcases memT.1 hk with ⟨hx, _⟩ | ⟨y, hy, hp, rfl⟩
      · exact pX.here' k hx f hf hn
      · exact pY.here' y hy f (by rw [← tag_of_uid (hg y hy hp).uid]; exact hf) hn
    · rcases memT.1 hk with ⟨hx, _⟩ | ⟨y, hy, hp, rfl⟩
      · exact pX.sub' k hx f hf
      · exact (hg y hy hp).plain f hf
  refine ⟨?_, ?_, plT, fun t ht => ?_⟩
  rotate_left
  · -- the same as `W`
    have ordW : ∀ t, UserOrdered d sc t →
        SameConfig d sc (partOf (fun q => decide (q = t)) Y) (partOf (fun q => decide (q = t)) W) := by
      intro t ht
      obtain ⟨f, hf, hr⟩ := rep_of_ordered ht
      exact (fixed t f hf hr).2.1.symm.trans (fixed t f hf hr).2.2
    have before_tag : ∀ {l : List Elem} {x y : Elem} {t : QName}, Before l x y → x.tag = t → y.tag = t →
        Before (l.filter fun k => k.tag = t) x y := by
      intro l x y t hb h1 h2
      exact Apart.before_only (P := fun q => decide (q = t)) hb (by simp [h1]) (by simp [h2])
    have kp : ∀ (e : Elem) (t : QName), (partOf (fun q => decide (q = t)) e).kids = e.kids.filter (fun k => k.tag = t) := by
      intro e t; unfold partOf; rw [Elem.kids_setKids]
    refine ⟨.mk (by rw [tT, ← tag.2.1, tag.2.2]) (by rw [pT, ← value.2.1, value.2.2]) (by rw [aT.here']; simp) ?_ ?_ ?_,
      .mk (by rw [tT, ← tag.2.1, tag.2.2]) (by rw [pT, ← value.2.1, value.2.2]) (by rw [aW.here']; simp) ?_ ?_ ?_⟩
    · intro k hk
      obtain ⟨kw, hw, hu, _⟩ := toW k hk
      exact ⟨kw, hw, (same_uid vT vW hk hw).1 hu⟩
    · intro k hk kw hw h f hf
      exact (instW hk hw ((same_uid vT vW hk hw).2 h) f hf).1
    · intro x y hb hxy hu
      have h1 := before_tag hb rfl hxy.symm
      rw [sameY (rep_of_ordered hu), ← kp] at h1
      cases (ordW _ hu).1 with
      | mk _ _ _ _ _ order =>
        obtain ⟨x', y', hb', s1, s2⟩ := order x y h1 hxy hu
        rw [kp] at hb'
        exact ⟨x', y', hb'.trans List.filter_sublist, s1, s2⟩
    · intro kw hw
      obtain ⟨k, hk, hu⟩ := ofW kw hw
      exact ⟨k, hk, (same_uid vW vT hw hk).1 hu.symm⟩
    · intro kw hw k hk h f hf
      exact (instW hk hw ((same_uid vW vT hw hk).2 h).symm f (by rw [← h.1]; exact hf)).2
    · intro x y hb hxy hu
      have h1 := before_tag hb rfl hxy.symm
      rw [← kp] at h1
      cases (ordW _ hu).2 with
      | mk _ _ _ _ _ order =>
        obtain ⟨x', y', hb', s1, s2⟩ := order x y h1 hxy hu
        rw [kp, ← sameY (rep_of_ordered hu)] at hb'
        exact ⟨x', y', hb'.trans List.filter_sublist, s1, s2⟩
  · unfold Elem.childrenWith
    exact sameY ht
  -- the delta
  have uT : ∀ {t}, rep d sc t → ∀ u : UID, u.1 = t → (u ∈ T.kids.map (uid d sc) ↔ u ∈ Y.kids.map (uid d sc)) := by
    intro t ht u hu
    have h1 : u ∈ targetOf d sc T t ↔ u ∈ targetOf d sc Y t := by rw [ordT ht]
    unfold targetOf at h1
    simpa only [List.mem_filter, hu, decide_true, and_true] using h1
  have uX : ∀ {t}, UserOrdered d sc t → ∀ u : UID, u.1 = t → (u ∈ X.kids.map (uid d sc) ↔ u ∈ B.kids.map (uid d sc)) := by
    intro t ht u hu
    have h1 : u ∈ targetOf d sc X t ↔ u ∈ targetOf d sc B t := by rw [ordX ht]
    unfold targetOf at h1
    simpa only [List.mem_filter, hu, decide_true, and_true] using h1
  have like : ∀ {x b : Elem}, x ∈ X.kids → b ∈ B.kids → uid d sc x = uid d sc b → ∀ f, d.lookup sc b.tag = .ok f →
      SameConfig d (.node f.node) b x → LikeS d (.node f.node) x b := by
    intro x b hx hb hu f hf hc
    have hfx : d.lookup sc x.tag = .ok f := by rw [tag_of_uid hu]; exact hf
    exact ⟨vX.sub' x hx f hfx, hX.ns.sub' x hx f hfx, hX.bare.sub' x hx, hc.symm⟩
  -- a child of `X` that is the same as in `B`
  have sameX : ∀ {y x : Elem}, y ∈ Y.kids → x ∈ X.kids → uid d sc x = uid d sc y → Unchanged d sc y B X → ∃ b ∈ B.kids,
      uid d sc b = uid d sc y ∧ ∀ f, d.lookup sc y.tag = .ok f → SameConfig d (.node f.node) b x := by
    intro y x hy hx hu hc
    obtain ⟨b, hb, hsb, hcb⟩ := Unchanged.to vX (Unchanged.symm (Unchanged.congr hc ((same_uid vY vX hy hx).1 hu.symm))) hx
    refine ⟨b, hb, ((same_uid vX vB hx hb).2 hsb).symm.trans hu, fun f hf => (hcb f (by rw [tag_of_uid hu]; exact hf)).symm⟩
  have base : DiffBase ω d sc X T D := by
    refine ⟨vX, hX.ns, vT, vD, H.lD, hX.bare, aT, by rw [tT, ← tag.1, tag.2.1], by rw [pT, ← value.1, value.2.1],
      fun x hx => hX.cell hx, cellT, ?_, ?_, ?_, ?_, ?_, ?_, ?_, ?_, ?_, ?_, ?_, ?_⟩
    · -- only
      intro o ho
      by_cases h : ∃ k ∈ T.kids, uid d sc k = uid d sc o
      · exact .inl h
      · obtain ⟨_, b, _, _, x, hx, hu, _⟩ := lost ho (fun k hk h' => h ⟨k, hk, h'⟩)
        exact .inr ⟨x, hx, hu⟩
    · -- gone
      intro x hx hno
      by_contra hD
      have hD' : ∀ o ∈ D.kids, uid d sc o ≠ uid d sc x := fun o ho h => hD ⟨o, ho, h⟩
      by_cases hr : rep d sc x.tag
      · obtain ⟨b, hb, hsb, _⟩ := Unchanged.to vX (Unchanged.symm (repX hr hx)) hx
        obtain ⟨y, hy, hsy, _⟩ := Unchanged.to vB (repB' (by rw [← hsb.1]; exact hr) hb) hb
        have hyu : uid d sc y = uid d sc x := ((same_uid vX vY hx hy).2 (hsb.trans hsy)).symm
        obtain ⟨k, hk, hu⟩ := fromY' hy (.inl (by rw [tag_of_uid hyu]; exact hr))
        exact hno k hk (hu.trans hyu)
      · exact hno x (memT.2 (.inl ⟨hx, hr, hD'⟩)) rfl
    · -- goneOp
      intro x hx hno m hm hu f hf
      obtain ⟨hnoY, b, hb, hub, x', hx', hux, hc⟩ := lost hm (by rw [hu]; exact hno)
      obtain rfl := List.inj_on_of_nodup_map vX.indexable.nodup hx' hx (hux.trans hu)
      have htb : b.tag = x'.tag := tag_of_uid (hub.trans hu)
      have hfb : d.lookup sc b.tag = .ok f := by rw [htb]; exact hf
      rcases H.goneOp b hb (by rw [hub]; exact hnoY) m hm hub.symm f hfb with h1 | h1
      · exact .inl ⟨h1.1, fun hnp => (hc f hfb).symm.filled (h1.2 hnp)⟩
      · exact .inr h1
    · -- new
      intro k hk hno
      exact (noX hk hno).2.2
    · -- newOp
      intro k hk hno
      obtain ⟨hy, hB, _⟩ := noX hk hno
      exact H.newOp k hy hB
    · -- bothOp
      intro x hx k hk o ho hxu hou f hf
      obtain ⟨y, hy, hgy, hyu, ht⟩ := kept ho hk hou
      have hfy : d.lookup sc y.tag = .ok f := by rw [tag_of_uid hyu]; exact hf
      rcases ht.how with ⟨rfl, hc⟩ | ⟨_, b, hb, x', hx', _, _, hrec⟩
      · obtain ⟨b, hb, hbu, hcb⟩ := sameX hy hx hxu hc
        have hcb := hcb f hfy
        obtain ⟨b1, b2, b3⟩ := H.bothOp b hb k hy o ho hbu hou f hf
        have htb : b.tag = k.tag := tag_of_uid hbu
        have htx : x.tag = k.tag := tag_of_uid hxu
        refine ⟨fun hn => ⟨(b1 hn).1, ?_⟩, b2, fun hn => ?_⟩
        · obtain ⟨_, e, he, hev⟩ := b1 hn
          have hot : o.tag = k.tag := tag_of_uid hou
          have hfo : d.lookup sc o.tag = .ok f := by rw [hot]; exact hf
          have hval := H.lD.here'.values o ho f hfo hn
          have hns : NsMapOk b.nsmap := (H.nS.sub' b hb f (by rw [htb]; exact hf)).here'.1
          have hns' : NsMapOk x.nsmap := hX.kidNs hx
          have hpo : parseText d o f.node = parseText d k f.node :=
            (mergeText_value hval hns (hot.trans htb.symm) he).symm.trans hev
          obtain ⟨hon, hox⟩ := H.texts b hb k hy o ho hbu hou
          have hw : Writable d f.node o x.nsmap := by
            cases hv (S := X) with
            | mk values _ =>
              have := values x hx k hy ((same_uid vX vY hx hy).1 hxu) f hf hn
              unfold Writable at this ⊢
              rw [hon, hox]; exact this
          have hp : ∃ t, parseText d o f.node = .ok t := by
            obtain ⟨g', hg', kg⟩ := vD.shape' o ho
            obtain rfl : f = g' := Except.ok.inj (hfo.symm.trans hg')
            unfold KidOk at kg
            simp only [hn] at kg
            exact kg.2
          obtain ⟨e', he'⟩ := mergeText_writable (dst := x) hval hp hw
          exact ⟨e', he', (mergeText_value hval hns' (hot.trans htx.symm) he').trans hpo⟩
        · rcases b3 hn with h1 | h1
          · exact .inl h1
          · exact .inr ⟨h1.1, h1.2.1, fun hnp => hcb.symm.filled (h1.2.2.1 hnp), h1.2.2.2⟩
      · obtain ⟨hn, hnp, hd⟩ := hrec f hfy
        refine ⟨fun h => ?_, fun h => ?_, fun _ => .inl ⟨(hd o ho (hou.trans hyu.symm)).1, hnp⟩⟩
        · rw [h] at hn; rcases hn with hn | hn <;> cases hn
        · rw [h] at hn; rcases hn with hn | hn <;> cases hn
    · -- out
      intro x hx k hk hxu hno f hf
      rcases memT.1 hk with ⟨hkx, _⟩ | ⟨y, hy, hp, rfl⟩
      · obtain rfl := List.inj_on_of_nodup_map vX.indexable.nodup hx hkx hxu
        exact .refl (vX.sub' x hx f hf)
      · have ht := hg y hy hp
        rcases hp with hr | ⟨o, ho, hou⟩
        · rw [repg hy hr] at hxu hf ⊢
          obtain ⟨b, hb, hbu, hcb⟩ := sameX hy hx hxu (repYX hr hy)
          obtain ⟨b', hb', hsb, hc⟩ := Unchanged.to vY (Unchanged.symm (repY hr hy)) hy
          obtain rfl := List.inj_on_of_nodup_map vB.indexable.nodup hb hb' (hbu.trans ((same_uid vY vB hy hb').2 hsb))
          exact (hcb f hf).symm.trans (hc f hf).symm
        · exact absurd (hou.trans ht.uid.symm) (hno o ho)
    · -- pos
      intro o ho k hk hou f hf h1 h2
      have hU : UserOrdered d sc k.tag := ⟨f, hf, h1, h2⟩
      have hr := rep_of_ordered hU
      have hky : k ∈ Y.kids := by
        have : k ∈ T.kids.filter (fun q => q.tag = k.tag) := List.mem_filter.2 ⟨hk, by simp⟩
        rw [sameY hr] at this
        exact List.mem_of_mem_filter this
      have hp := H.pos o ho k hky hou f hf h1 h2
      have eT := ordT hr
      have eX := ordX hU
      unfold targetOf at eT eX
      unfold PosOk at hp ⊢
      rw [eT, eX]
      rcases hp with h | ⟨h, p, hp, ha, l, r, hlr⟩ | ⟨h, h'⟩
      · exact .inl h
      · refine .inr (.inl ⟨h, p, ?_, ha, l, r, hlr⟩)
        have hpt : (uid d sc p).1 = k.tag := by
          have : uid d sc p ∈ (Y.kids.map (uid d sc)).filter (fun u => u.1 = k.tag) := by rw [hlr]; simp
          simpa using (List.mem_filter.1 this).2
        rw [uid_tag] at hpt
        have : p ∈ Y.kids.filter (fun q => q.tag = k.tag) := List.mem_filter.2 ⟨hp, by simp [hpt]⟩
        rw [← sameY hr] at this
        exact List.mem_of_mem_filter this
      · refine .inr (.inr ⟨h, ?_⟩)
        rcases h' with h' | h'
        · left
          intro x hx hxt
          have := (uX hU (uid d sc x) (by rw [uid_tag]; exact hxt)).1 (List.mem_map_of_mem hx)
          obtain ⟨b, hb, hbu⟩ := List.mem_map.1 this
          exact h' b hb ((tag_of_uid hbu).trans hxt)
        · exact .inr h'
    · -- ends
      intro w t ht
      have hr := rep_of_ordered ht
      have hE := H.ends w t ht
      have e1 : staysOf d sc X T t = staysOf d sc B Y t := by
        have h0 := congrArg (List.filter (fun u => decide (u ∈ Y.kids.map (uid d sc)))) (ordX ht)
        unfold targetOf at h0
        rw [List.filter_filter, List.filter_filter] at h0
        unfold staysOf
        refine Eq.trans (List.filter_congr fun u _ => ?_) (h0.trans (List.filter_congr fun u _ => ?_))
        · by_cases hu : u.1 = t
          · simp only [hu, true_and, decide_true, Bool.and_true, decide_eq_decide]
            exact uT hr u hu
          · simp [hu]
        · by_cases hu : u.1 = t <;> simp [hu]
      have e2 : movesOf d sc X T D t = movesOf d sc B Y D t := by
        have h0 := congrArg (List.filter (fun u => decide (u ∈ Y.kids.map (uid d sc) ∧ u ∈ D.kids.map (uid d sc)))) (ordX ht)
        unfold targetOf at h0
        rw [List.filter_filter, List.filter_filter] at h0
        unfold movesOf
        refine Eq.trans (List.filter_congr fun u _ => ?_) (h0.trans (List.filter_congr fun u _ => ?_))
        · by_cases hu : u.1 = t
          · simp only [hu, true_and, decide_true, Bool.and_true, decide_eq_decide]
            rw [uT hr u hu]
          · simp [hu]
        · by_cases hu : u.1 = t <;> simp [hu]
      have e3 : addsOf d sc X T D t = addsOf d sc B Y D t := by
        unfold addsOf
        refine List.filter_congr fun u _ => ?_
        rw [decide_eq_decide]
        constructor
        · rintro ⟨h1, h2, h3⟩
          exact ⟨h1, (uT hr u h1).1 h2, fun h => h3 ((uX ht u h1).2 h)⟩
        · rintro ⟨h1, h2, h3⟩
          exact ⟨h1, (uT hr u h1).2 h2, fun h => h3 ((uX ht u h1).1 h)⟩
      unfold Ends at hE ⊢
      rw [e1, e2, e3, ordT hr]
      exact hE
    · -- full
      intro t ht
      have hr := rep_of_ordered ht
      have eX := ordX ht
      unfold targetOf at eX
      rw [ordT hr, eX]
      refine (H.full t ht).imp_left fun h k hk hkt => h k ?_ hkt
      have : k ∈ T.kids.filter (fun q => q.tag = t) := List.mem_filter.2 ⟨hk, by simp [hkt]⟩
      rw [sameY hr] at this
      exact List.mem_of_mem_filter this
    · -- seq
      have key : ∀ u ∈ D.kids.map (uid d sc), (u ∈ T.kids.map (uid d sc) ↔ u ∈ Y.kids.map (uid d sc)) := by
        intro u hu
        obtain ⟨o, ho, rfl⟩ := List.mem_map.1 hu
        constructor
        · intro h
          obtain ⟨k, hk, hku⟩ := List.mem_map.1 h
          obtain ⟨y, hy, _, hyu, _⟩ := kept ho hk hku.symm
          exact List.mem_map.2 ⟨y, hy, hyu.trans hku⟩
        · intro h
          obtain ⟨y, hy, hyu⟩ := List.mem_map.1 h
          obtain ⟨k, hk, hku⟩ := fromY' hy (.inr ⟨o, ho, hyu.symm⟩)
          exact List.mem_map.2 ⟨k, hk, hku.trans hyu⟩
      rw [List.filter_congr (q := fun u => decide (u ∈ Y.kids.map (uid d sc))) (fun u hu => by rw [decide_eq_decide]; exact key u hu)]
      have h1 := List.Sublist.filter (fun u => decide (rep d sc u.1 ∨ u ∈ D.kids.map (uid d sc))) H.seq
      rw [List.filter_eq_self.2 (by
        intro u hu
        exact decide_eq_true (.inr (List.mem_of_mem_filter hu)))] at h1
      refine h1.trans ?_
      rw [hTk]
      unfold kidsOf
      rw [List.map_append, List.map_map]
      refine List.Sublist.trans ?_ (List.sublist_append_right _ _)
      rw [List.filter_map]
      have e2 : (Y.kids.filter ((fun u => decide (rep d sc u.1 ∨ u ∈ D.kids.map (uid d sc))) ∘ uid d sc)) =
          Y.kids.filter (fun y => decide (rep d sc y.tag ∨ ∃ o ∈ D.kids, uid d sc o = uid d sc y)) := by
        refine List.filter_congr fun y _ => ?_
        simp only [Function.comp, decide_eq_decide, uid_tag, List.mem_map]
      rw [e2]
      have e3 : ∀ l : List Elem, (∀ y ∈ l, uid d sc y = uid d sc (g y)) → l.map (uid d sc) = l.map (uid d sc ∘ g) :=
        fun l h => List.map_congr_left h
      rw [e3 _ fun y hy => ?_]
      obtain ⟨hy, hp⟩ := List.mem_filter.1 hy
      exact (hg y hy (of_decide_eq_true hp)).uid.symm
    · -- texts
      intro x hx k hk o ho hxu hou
      obtain ⟨y, hy, hgy, hyu, ht⟩ := kept ho hk hou
      rw [ht.nsmap, ht.text]
      rcases ht.how with ⟨rfl, hc⟩ | ⟨_, b, hb, _, _, hbu, _⟩
      · obtain ⟨b, hb, hbu, _⟩ := sameX hy hx hxu hc
        exact H.texts b hb k hy o ho hbu hou
      · exact H.texts b hb y hy o ho hbu (hou.trans hyu.symm)
  refine .mk base ?_ ?_ ?_ ?_
  · intro x hx hno m hm hu hop f hf
    obtain ⟨hnoY, b, hb, hub, x', hx', hux, hc⟩ := lost hm (by rw [hu]; exact hno)
    obtain rfl := List.inj_on_of_nodup_map vX.indexable.nodup hx' hx (hux.trans hu)
    have htb : b.tag = x'.tag := tag_of_uid (hub.trans hu)
    have hfb : d.lookup sc b.tag = .ok f := by rw [htb]; exact hf
    have L' := like hx hb (hu.symm.trans hub.symm) f hfb (hc f hfb)
    refine (gone b hb (by rw [hub]; exact hnoY) m hm hub.symm hop f hfb).stand L' (.mk (by simp) (by simp)) rfl ?_ (noAttrs_setKids L'.bare) ?_ ?_
    · exact valid_childless (by rw [Elem.attrs_setKids, L'.bare.here']; simp) rfl
    · simp only [Elem.tag_setKids]; exact htb.symm
    · rw [parseTextAt_setKids, parseTextAt_setKids]
      cases L'.same.1; assumption
  · intro k hk hno
    obtain ⟨hy, hB, _⟩ := noX hk hno
    exact newC k hy hB
  · intro k hk hno
    obtain ⟨hy, hB, _⟩ := noX hk hno
    exact newL k hy hB
  · intro x hx k hk o ho hxu hou hop f hf hn
    obtain ⟨y, hy, hgy, hyu, ht⟩ := kept ho hk hou
    have hfy : d.lookup sc y.tag = .ok f := by rw [tag_of_uid hyu]; exact hf
    rcases ht.how with ⟨rfl, hc⟩ | ⟨_, b, hb, x', hx', _, hxu', hrec⟩
    · obtain ⟨b, hb, hbu, hcb⟩ := sameX hy hx hxu hc
      have hcb := hcb f hfy
      have hv' : MergeValues d (.node f.node) x k := by
        cases hv (S := X) with
        | mk _ sub => exact sub x hx k hy ((same_uid vX vY hx hy).1 hxu) f hf hn
      exact (both b hb k hy o ho hbu hou hop f hf hn).stand
        (like hx hb (hxu.trans hbu.symm) f (by rw [tag_of_uid hbu]; exact hf) hcb) hv' rfl (vY.sub' k hy f hf) (hY.bare.sub' k hy) rfl rfl
    · obtain rfl := List.inj_on_of_nodup_map vX.indexable.nodup hx hx' (hxu.trans (hyu.symm.trans hxu'.symm))
      exact ((hrec f hfy).2.2 o ho (hou.trans hyu.symm)).2

/-- A container or an entry of a list that keeps its keys denotes the same instance. -/
theorem keeps_instance {Y y T : Elem} {f : Found} (hY : Side d sc Y) (hy : y ∈ Y.kids) (hf : d.lookup sc y.tag = .ok f)
    (hn : f.node.ntype = .container ∨ f.node.ntype = .list) (hr : ¬ Repeated f) (ht : T.tag = y.tag) (hx : T.text = y.text)
    (vT : Valid d (.node f.node) T) (hk : ∀ t, rep d (.node f.node) t → T.childrenWith t = y.childrenWith t) :
    uid d sc T = uid d sc y ∧ CellOk d sc T := by
  have key : f.node.ntype = .list → ∀ q ∈ f.node.keys, T.childrenWith q = y.childrenWith q := by
    intro h q hq
    obtain ⟨g, hg, hgl, _, hgk⟩ := hY.level.here'.keys y hy f hf h q hq
    exact hk q ⟨g, hg, .inl ⟨hgk, hgl⟩⟩
  have hft : d.lookup sc T.tag = .ok f := by rw [ht]; exact hf
  have hkid : KidOk d f.node T := by
    have := hY.kid hy hf
    unfold KidOk at this ⊢
    rcases hn with h | h
    · simp only [h] at this ⊢; exact this
    · simp only [h] at this ⊢
      exact ⟨hx.trans this.1, this.2.1, fun q hq => by rw [key h q hq]; exact this.2.2.1 q hq, this.2.2.2⟩
  have vP : Valid d sc (Y.setKids [T]) := by
    refine .mk (by rw [Elem.attrs_setKids, hY.bare.here']; simp) ?_ ?_ ?_
    · rw [Elem.kids_setKids]; simp only [List.mem_singleton]
      rintro k rfl; exact ⟨f, hft, hkid⟩
    · rw [Elem.kids_setKids]; simp
    · rw [Elem.kids_setKids]; simp only [List.mem_singleton]
      rintro k rfl g hg
      obtain rfl := Except.ok.inj (hft.symm.trans hg)
      exact vT
  refine ⟨(same_uid vP hY.valid (by rw [Elem.kids_setKids]; simp) hy).2 ⟨ht, fun g hg => ?_⟩, f, hft, hkid, fun hu => ?_⟩
  · obtain rfl := Except.ok.inj (hft.symm.trans hg)
    rcases hn with h | h
    · simp only [h]
    · simp only [h]
      intro q hq
      unfold keyTexts
      rw [key h q hq]
  · unfold Keyed
    rcases hn with h | h
    · simp only [h]
    · exact absurd (.inr ⟨hu, .inr h⟩) hr

/-- What each node has to satisfy holds of the children of the target, too. -/
theorem level_kidsOf {B X Y W D : Elem} (hX : Side d sc X) (hY : Side d sc Y) {g : Elem → Elem}
    (hg : ∀ y ∈ Y.kids, (rep d sc y.tag ∨ ∃ o ∈ D.kids, uid d sc o = uid d sc y) → Target ω d sc B X W D y (g y)) :
    Deep d (ConfLevel d) sc (Y.setKids (kidsOf d sc X Y D g)) := by
  have lX := hX.level.here'
  have lY := hY.level.here'
  have kid : ∀ k ∈ (Y.setKids (kidsOf d sc X Y D g)).kids, (k ∈ X.kids ∧ ¬ rep d sc k.tag) ∨ k ∈ Y.kids ∨
      (¬ rep d sc k.tag ∧ ∃ y ∈ Y.kids, Target ω d sc B X W D y k ∧ y.tag = k.tag ∧ ∀ f, d.lookup sc k.tag = .ok f →
        f.node.ntype = .container ∨ f.node.ntype = .list) := by
    intro k hk
    rw [Elem.kids_setKids, mem_kidsOf] at hk
    rcases hk with ⟨h, hr, _⟩ | ⟨y, hy, hp, rfl⟩
    · exact .inl ⟨h, hr⟩
    · have ht := hg y hy hp
      have hn := tag_of_uid ht.uid
      rcases ht.how with ⟨h, _⟩ | ⟨hr, _, _, _, _, _, _, h⟩
      · exact .inr (.inl (by rw [h]; exact hy))
      · exact .inr (.inr ⟨by rw [hn]; exact hr, y, hy, ht, hn.symm, fun f hf => (h f (by rw [← hn]; exact hf)).1⟩)
  refine .mk ⟨?_, ?_, ?_, ?_, ?_, ?_, ?_, ?_, ?_, ?_⟩ ?_
  · have : (Y.setKids (kidsOf d sc X Y D g)).nsmap = Y.nsmap := by cases Y; rfl
    rw [this]; exact lY.nsmap
  · intro k hk f hf hl q hq
    rcases kid k hk with ⟨h, _⟩ | h | ⟨_, y, hy, ht, hn, _⟩
    · exact lX.keys k h f hf hl q hq
    · exact lY.keys k h f hf hl q hq
    · rw [ht.keys f hf hl q hq]
      exact lY.keys y hy f (by rw [hn]; exact hf) hl q hq
  · intro k hk f hf hl
    rcases kid k hk with ⟨h, _⟩ | h | ⟨_, y, hy, ht, hn, _⟩
    · exact lX.keysOnce k h f hf hl
    · exact lY.keysOnce k h f hf hl
    · exact lY.keysOnce y hy f (by rw [hn]; exact hf) hl
  · intro k hk f hf hl
    rcases kid k hk with ⟨h, _⟩ | h | ⟨_, y, hy, ht, hn, hc⟩
    · exact lX.keyLeaf k h f hf hl
    · exact lY.keyLeaf k h f hf hl
    · have := (lY.keyLeaf y hy f (by rw [hn]; exact hf) hl).1
      rcases hc f hf with h | h <;> rw [h] at this <;> cases this
  · intro k hk f hf hl
    rcases kid k hk with ⟨h, _⟩ | h | ⟨_, y, hy, ht, hn, hc⟩
    · exact lX.values k h f hf hl
    · exact lY.values k h f hf hl
    · rcases hc f hf with h | h <;> rw [h] at hl <;> rcases hl with hl | hl <;> cases hl
  · intro k hk f hf hl
    rcases kid k hk with ⟨h, _⟩ | h | ⟨_, y, hy, ht, hn, hc⟩
    · exact lX.noText k h f hf hl
    · exact lY.noText k h f hf hl
    · rw [ht.text]; exact lY.noText y hy f (by rw [hn]; exact hf) hl
  · intro k hk f hf hl
    rcases kid k hk with ⟨h, _⟩ | h | ⟨_, y, hy, ht, hn, hc⟩
    · exact lX.own k h f hf hl
    · exact lY.own k h f hf hl
    · rcases hc f hf with h | h <;> rw [h] at hl <;> cases hl
  · intro k hk f hf hu hl
    rcases kid k hk with ⟨h, _⟩ | h | ⟨_, y, hy, ht, hn, hc⟩
    · exact lX.orderedValues k h f hf hu hl
    · exact lY.orderedValues k h f hf hu hl
    · rcases hc f hf with h | h <;> rw [h] at hl <;> cases hl
  · intro k hk f hf hu hl q hq
    rcases kid k hk with ⟨h, _⟩ | h | ⟨_, y, hy, ht, hn, hc⟩
    · exact lX.orderedKeys k h f hf hu hl q hq
    · exact lY.orderedKeys k h f hf hu hl q hq
    · rw [ht.keys f hf hl q hq]
      exact lY.orderedKeys y hy f (by rw [hn]; exact hf) hu hl q hq
  · intro a ha b hb hab f hf hu hl
    have hr : rep d sc a.tag := ⟨f, hf, .inr ⟨hu, .inr hl⟩⟩
    rcases kid a ha with ⟨_, h⟩ | h | ⟨h, _⟩
    · exact absurd hr h
    · rcases kid b hb with ⟨_, h'⟩ | h' | ⟨h', _⟩
      · exact absurd (hab ▸ hr) h'
      · exact lY.orderedPrefixes a h b h' hab f hf hu hl
      · exact absurd (hab ▸ hr) h'
    · exact absurd hr h
  · intro k hk f hf
    have hk' := hk
    rw [Elem.kids_setKids, mem_kidsOf] at hk'
    rcases hk' with ⟨h, _⟩ | ⟨y, hy, hp, rfl⟩
    · exact hX.level.sub' k h f hf
    · exact (hg y hy hp).level f hf

end level

/-- A delta from `B` to `Y` leads from `X` to a tree that has the changes of both. -/
theorem third {sc : Scope} {B Y D : Elem} (h : Diff ω d sc B Y D) : ∀ {X W : Elem}, Says d sc B Y D → Side d sc X → Side d sc Y →
    Deep d (PlainLeaves d) sc X → Deep d (PlainLeaves d) sc Y → Valid d sc W → NoAttrs W → Deep d (FilledLevel d) sc W →
    DeepMerge d sc B X Y W → ∃ T, Diff ω d sc X T D ∧ SameConfig d sc T W ∧ Deep d (PlainLeaves d) sc T ∧
      (∀ t, rep d sc t → T.childrenWith t = Y.childrenWith t) ∧ T.tag = Y.tag ∧ T.nsmap = Y.nsmap ∧ T.text = Y.text ∧
      Deep d (ConfLevel d) sc T := by
  induction h with
  | @mk sc B Y D H gone newC newL both _ _ _ ib =>
  intro X W hs hX hY pX pY vW aW fW hm
  have vX := hX.valid
  have vB := H.vS
  have vY := hY.valid
  have hg : ∀ y ∈ Y.kids, (rep d sc y.tag ∨ ∃ o ∈ D.kids, uid d sc o = uid d sc y) → ∃ k, Target ω d sc B X W D y k := by
    cases hm with
    | mk tag value fromX fromY bothM inside fixed =>
    intro y hy hp
    have inY : y ∈ B.kids ++ X.kids ++ Y.kids ++ W.kids := by simp [hy]
    by_cases h1 : Unchanged d sc y B X
    · obtain ⟨kw, hw, hsw, hc⟩ := Unchanged.to vY (fromY y inY h1) hy
      exact ⟨y, rfl, rfl, rfl, hY.bare.sub' y hy, hY.cell hy, fun f hf => vY.sub' y hy f hf, fun f hf => pY.sub' y hy f hf,
        fun f hf => hY.level.sub' y hy f hf, fun _ _ _ _ _ => rfl, ⟨kw, hw, (same_uid vY vW hy hw).2 hsw, hc⟩, .inl ⟨rfl, h1⟩⟩
    · have hr : ¬ rep d sc y.tag := by
        rintro ⟨f, hf, hr⟩
        obtain ⟨b, hb, hsb, _⟩ := Unchanged.to vY (Unchanged.symm (part_unchanged (.inr hy) (fixed _ f hf hr).2.1)) hy
        exact h1 (Unchanged.congr (part_unchanged (.inl hb) (fixed _ f (by rw [← hsb.1]; exact hf) hr).1) hsb.symm)
      obtain ⟨o, ho, hou⟩ := hp.resolve_left hr
      have h2 := said H hs vY hy ho hou hr
      obtain ⟨⟨b, hb, sb⟩, ⟨x, hx, sx⟩, _, ⟨w, hw, sw⟩, hn⟩ := bothM y inY h1 h2
      obtain ⟨f, hf, _⟩ := vY.shape' y hy
      have hn := hn f hf
      have hfb : d.lookup sc b.tag = .ok f := by rw [sb.1]; exact hf
      have hfx : d.lookup sc x.tag = .ok f := by rw [sx.1]; exact hf
      have hfw : d.lookup sc w.tag = .ok f := by rw [sw.1]; exact hf
      have hM := inside b hb x hx y hy w hw (sb.trans sx.symm) sb (sb.trans sw.symm) (fun h => h1 (Unchanged.congr h sb))
        (fun h => h2 (Unchanged.congr h sb)) f hfb
      have hbu := (same_uid vB vY hb hy).2 sb
      have hxu := (same_uid vX vY hx hy).2 sx
      have hwu := (same_uid vW vY hw hy).2 sw
      have hso := (same_uid vY H.vD hy ho).1 hou.symm
      have hop : opOf o = "merge" := by
        rcases (H.bothOp b hb y hy o ho hbu hou f hf).2.2 hn with h | h
        · exact h.1
        · cases hs with
          | mk _ ops _ => exact absurd h.1 (ops b hb y hy o ho sb hso)
      have hs' : Says d (.node f.node) b y o := by
        cases hs with
        | mk _ _ bo => exact bo b hb y hy o ho sb hso f hf hn
      obtain ⟨T, t1, t2, t3, t4, t5, t6, t7, t8⟩ := ib b hb y hy o ho hbu hou hop f hf hn hs' (hX.sub hx hfx) (hY.sub hy hf)
        (pX.sub' x hx f hfx) (pY.sub' y hy f hf) (vW.sub' w hw f hfw) (aW.sub' w hw) (fW.sub' w hw f hfw) hM
      have tb := t1.base'
      obtain ⟨hu, hcell⟩ := keeps_instance hY hy hf hn (fun h => hr ⟨f, hf, h⟩) t5 t7 tb.vT t4
      have hg' : ∀ {g}, d.lookup sc T.tag = .ok g → g = f := fun hg => (Except.ok.inj ((by rw [t5]; exact hf : d.lookup sc T.tag = .ok f).symm.trans hg)).symm
      refine ⟨T, hu, t6, t7, tb.aT, hcell, fun g hg => by rw [hg' hg]; exact tb.vT, fun g hg => by rw [hg' hg]; exact t3,
        fun g hg => by rw [hg' hg]; exact t8, fun g hg hl q hq => ?_, ⟨w, hw, hu.trans hwu.symm, fun g hg => by rw [hg' hg]; exact t2⟩, .inr ⟨hr, b, hb, x, hx, hbu, hxu, fun g hg => ?_⟩⟩
      · rw [hg' hg] at hl hq
        obtain ⟨j, hj, hjl, _, hjk⟩ := hY.level.here'.keys y hy f hf hl q hq
        exact t4 q ⟨j, hj, .inl ⟨hjk, hjl⟩⟩
      obtain rfl := Except.ok.inj (hf.symm.trans hg)
      refine ⟨hn, fun hnp => t2.filled (fW.here' w hw f hfw hnp), fun o' ho' hou' => ?_⟩
      obtain rfl := List.inj_on_of_nodup_map H.vD.indexable.nodup ho' ho (hou'.trans hou.symm)
      exact ⟨hop, t1⟩
  choose! g hg using hg
  obtain ⟨r1, r2, r3, r4⟩ := assemble H gone newC newL both hs hX hY pX pY vW aW hm (Steps.plain pY) hg
  refine ⟨_, r1, r2, r3, r4, by cases Y; rfl, by cases Y; rfl, by cases Y; rfl, level_kidsOf hX hY hg⟩

/-- What the edit-config of a delta without `replace` says. -/
theorem says_delta {A : Option AVal → Prop} (hA : ¬ A (some (.str "replace"))) {w : Prop} (hw : ¬ w) {sc : Scope} {S T D : Elem}
    (h : OnlyChanges d w sc S T D) : OpsIn A D → Says d sc S T D := by
  have op : ∀ {D : Elem}, OpsIn A D → ∀ o ∈ D.kids, opOf o ≠ "replace" := by
    intro D hD o ho h
    have := (hD.sub' o ho).here'
    unfold opOf at h
    split at h
    · exact absurd h (by decide)
    · rename_i s hs
      subst h
      rw [hs] at this
      exact hA this
    · exact absurd h (by decide)
  induction h with
  | replaced h => exact absurd h hw
  | same _ keys =>
    intro hD
    refine .mk ?_ (fun _ _ _ _ o ho _ _ => op hD o ho) ?_
    · intro b _ y _ o ho _ hs f hf _
      obtain ⟨_, _, g, hg, h1, h2⟩ := keys o ho
      rw [← hs.1, hf] at hg
      obtain rfl := Except.ok.inj hg
      exact .inl ⟨h1, h2⟩
    · intro b _ y _ o ho _ hs f hf hn
      obtain ⟨_, _, g, hg, h1, h2⟩ := keys o ho
      rw [← hs.1, hf] at hg
      obtain rfl := Except.ok.inj hg
      rw [h2] at hn
      rcases hn with hn | hn <;> cases hn
  | level mentioned _ ih =>
    intro hD
    refine .mk ?_ (fun _ _ _ _ o ho _ _ => op hD o ho) ?_
    · intro b hb y hy o ho h1 h2 f hf hsame
      rcases (mentioned b hb y hy h1 f hf).1 ⟨o, ho, h2⟩ with h | h
      · exact absurd hsame h
      · exact h
    · intro b hb y hy o ho h1 h2 f hf hn
      exact ih b hb y hy h1 o ho h2 f hf hn (hD.sub' o ho)

mutual
theorem ops_back {A : Option AVal → Prop} : ∀ (n : Nat) (e : Elem), OpsIn A (addAttrAtDepth n e) → OpsIn A e
  | 0, .mk t m a x ks, h => by
    rw [addAttrAtDepth] at h
    refine ⟨?_, h.sub'⟩
    have := h.here'
    rwa [get_set, if_neg (by decide)] at this
  | n + 1, .mk t m a x ks, h => by
    rw [addAttrAtDepth] at h
    exact ⟨h.here', ops_backList n ks h.sub'⟩
theorem ops_backList {A : Option AVal → Prop} : ∀ (n : Nat) (l : List Elem), (∀ k ∈ addAttrAtDepthList n l, OpsIn A k) → ∀ k ∈ l, OpsIn A k
  | n, [], _ => by simp
  | n, x :: l, h => by
    rw [addAttrAtDepthList] at h
    intro k hk
    rcases List.mem_cons.1 hk with hk | hk
    · rw [hk]; exact ops_back n x (h _ (by simp))
    · exact ops_backList n l (fun k hk => h k (by simp [hk])) k hk
end

end Deep83
end NcDiff
