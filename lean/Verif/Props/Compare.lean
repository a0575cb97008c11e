import Verif.Proof.Laws
import Verif.Spec.Check
import Verif.Spec.Demo
/-!
# Properties C02–C05: comparing configs and matching siblings
-/

namespace NcDiff

/-! ## C02 -/

/-- C02: on valid configs, `==` always returns, is reflexive, symmetric and transitive, and `!=` is
its negation. -/
theorem C02_eq_equivalence (d : Device) :
    (∀ a, ValidConfig d a → cfgEq d a a = .ok true) ∧
    (∀ a b, ValidConfig d a → ValidConfig d b → cfgEq d a b = .ok true → cfgEq d b a = .ok true) ∧
    (∀ a b c, ValidConfig d a → ValidConfig d b → ValidConfig d c → cfgEq d a b = .ok true →
      cfgEq d b c = .ok true → cfgEq d a c = .ok true) ∧
    (∀ a b, ValidConfig d a → ValidConfig d b →
      ∃ r, cfgEq d a b = .ok r ∧ cfgNe d a b = .ok (!r)) := by
  have key : ∀ a b, ValidConfig d a → ValidConfig d b →
      (cfgEq d a b = .ok true ↔ SameConfig d .root a b) := by
    intro a b ha hb
    obtain ⟨r, hr, hri⟩ := cfgEq_iff ha hb
    rw [hr, Except.ok.injEq, hri]
  refine ⟨?_, ?_, ?_, ?_⟩
  · intro a ha; exact (key a a ha ha).2 (.refl ha.valid)
  · intro a b ha hb h; exact (key b a hb ha).2 ((key a b ha hb).1 h).symm
  · intro a b c ha hb hc h1 h2
    exact (key a c ha hc).2 (((key a b ha hb).1 h1).trans ((key b c hb hc).1 h2))
  · intro a b ha hb
    obtain ⟨r, hr, _⟩ := cfgLe_iff ha hb
    obtain ⟨s, hs, _⟩ := cfgLe_iff hb ha
    exact ⟨r && s, andE_ok hr hs, by
      rw [Bool.not_and]; exact orE_ok (notE_ok hr) (notE_ok hs)⟩

/-! ## C03 -/

/-- C03: on valid configs, `<=` returns, is reflexive and transitive, `==` is `<=` both ways, `<`
is `<=` and not `>=`, and `>`, `>=` are the swapped operators. -/
theorem C03_le_partial_order (d : Device) :
    (∀ a, ValidConfig d a → cfgLe d a a = .ok true) ∧
    (∀ a b c, ValidConfig d a → ValidConfig d b → ValidConfig d c → cfgLe d a b = .ok true →
      cfgLe d b c = .ok true → cfgLe d a c = .ok true) ∧
    (∀ a b, ValidConfig d a → ValidConfig d b →
      ((∃ r, cfgLe d a b = .ok r) ∧
      (cfgEq d a b = .ok true ↔ cfgLe d a b = .ok true ∧ cfgLe d b a = .ok true) ∧
      (cfgLt d a b = .ok true ↔ cfgLe d a b = .ok true ∧ ¬ cfgLe d b a = .ok true) ∧
      cfgGe d a b = cfgLe d b a ∧ cfgGt d a b = cfgLt d b a)) := by
  have key : ∀ a b, ValidConfig d a → ValidConfig d b →
      (cfgLe d a b = .ok true ↔ Incl d .root a b) := by
    intro a b ha hb
    obtain ⟨r, hr, hri⟩ := cfgLe_iff ha hb
    rw [hr, Except.ok.injEq, hri]
  refine ⟨?_, ?_, ?_⟩
  · intro a ha; exact (key a a ha ha).2 (.refl ha.valid)
  · intro a b c ha hb hc h1 h2
    exact (key a c ha hc).2 (((key a b ha hb).1 h1).trans ((key b c hb hc).1 h2))
  · intro a b ha hb
    obtain ⟨r, hr, _⟩ := cfgLe_iff ha hb
    obtain ⟨s, hs, _⟩ := cfgLe_iff hb ha
    have e1 : cfgEq d a b = .ok (r && s) := andE_ok hr hs
    have e2 : cfgLt d a b = .ok (r && !s) := andE_ok hr (notE_ok hs)
    refine ⟨⟨r, hr⟩, ?_, ?_, rfl, rfl⟩
    · rw [e1, hr, hs]; simp
    · rw [e2, hr, hs]; simp

/-- C03, on configs that need not be valid: `==` and `<` are false, and raise nothing, as soon as `<=` is false; what `<=`
raises they raise too; and a config with text beside its nodes is compared with none: `ModelMissing` is raised. -/
theorem C03_outside (d : Device) (a b : Elem) :
    (cfgLe d a b = .ok false → cfgEq d a b = .ok false ∧ cfgLt d a b = .ok false ∧ cfgGt d b a = .ok false) ∧
    (∀ e, cfgLe d a b = .error e → cfgEq d a b = .error e ∧ cfgLt d a b = .error e ∧ cfgGt d b a = .error e) ∧
    (a.tag = b.tag → a.text ≠ none ∨ b.text ≠ none → cfgLe d a b = .error .modelMissing) := by
  refine ⟨fun h => ?_, fun e h => ?_, fun ht hx => ?_⟩
  · unfold cfgEq cfgLt cfgGt
    unfold cfgLe at h
    simp only [andE, h, bind, Except.bind]
    exact ⟨rfl, rfl, rfl⟩
  · unfold cfgEq cfgLt cfgGt
    unfold cfgLe at h
    simp only [andE, h, bind, Except.bind, and_self]
  · unfold cfgLe
    rw [nodeLe_eq, nodeLeBody, if_neg (by simpa using ht)]
    have : sameText d .root a b = .error .modelMissing := by
      unfold sameText
      rw [if_neg (by rintro ⟨h1, h2⟩; exact hx.elim (· h1) (· h2))]
      unfold parseTextAt
      cases ha : a.text with
      | some _ => rfl
      | none =>
        cases hb : b.text with
        | some _ => rfl
        | none => exact absurd hb (hx.resolve_left (· ha))
    rw [this]; rfl

/-- A case where the other direction raises: `a <= b` is false, `b <= a` raises, and `a == b` is false. -/
example : ∃ a b e, cfgLe Demo.dev a b = .ok false ∧ cfgLe Demo.dev b a = .error e ∧ cfgEq Demo.dev a b = .ok false :=
  ⟨(Demo.cfg [Demo.el "unknown" []]).set .operation (.str "merge"), Demo.cfg [Demo.el "unknown" []], _, rfl, rfl, rfl⟩

/-! ## C04 -/

/-- C04: two valid configs with plain list keys are `==` exactly when one is a rearrangement of the
other that keeps the order of user-ordered siblings. -/
theorem C04_eq_iff_rearranged (d : Device) (a b : Elem) (ha : ValidConfig d a)
    (hb : ValidConfig d b) (pk : PlainKeys d .root a) :
    cfgEq d a b = .ok true ↔ Rearranged d .root a b := by
  obtain ⟨r, hr, hri⟩ := cfgEq_iff ha hb
  rw [hr, Except.ok.injEq, hri]
  exact ⟨rearranged_of_same a _ b ha.valid hb.valid,
    fun h => same_of_rearranged h ha.valid hb.valid pk⟩

/-- C04, in terms of instances: equal exactly when each is included in the other. -/
theorem C04_eq_iff_same_instances (d : Device) (a b : Elem) (ha : ValidConfig d a)
    (hb : ValidConfig d b) :
    cfgEq d a b = .ok true ↔ Incl d .root a b ∧ Incl d .root b a := by
  obtain ⟨r, hr, hri⟩ := cfgEq_iff ha hb
  rw [hr, Except.ok.injEq, hri]; rfl

/-! ## C05 -/

/-- Children of a node that all have a schema node and the right shape. -/
def GoodKids (d : Device) (sc : Scope) (ks : List Elem) : Prop :=
  ∀ k ∈ ks, ∃ f, d.lookup sc k.tag = .ok f ∧ KidOk d f.node k

theorem GoodKids.indexable {d : Device} {sc : Scope} {ks : List Elem} (h : GoodKids d sc ks) :
    (∀ k ∈ ks, uidOf d sc k = .ok (uid d sc k)) ∧
    ((ks.map (uid d sc)).Nodup ↔ ks.Pairwise (fun x y => ¬ SameInstance d sc x y)) := by
  constructor
  · intro k hk
    obtain ⟨f, hf, kf⟩ := h k hk
    exact uidOf_ok hf kf
  · rw [List.Nodup, List.pairwise_map]
    constructor
    · intro hp
      refine hp.imp_of_mem ?_
      intro x y hx hy hn he
      obtain ⟨f, hf, kf⟩ := h x hx
      obtain ⟨g, hg, kg⟩ := h y hy
      exact hn ((uid_eq_iff' hf kf hg kg).2 he)
    · intro hp
      refine hp.imp_of_mem ?_
      intro x y hx hy hn he
      obtain ⟨f, hf, kf⟩ := h x hx
      obtain ⟨g, hg, kg⟩ := h y hy
      exact hn ((uid_eq_iff' hf kf hg kg).1 he)

theorem indexKids_dup {d : Device} {sc : Scope} : ∀ (seen : List UID) (as : List Elem),
    (∀ a ∈ as, uidOf d sc a = .ok (uid d sc a)) → seen.Nodup →
    ¬ (seen ++ as.map (uid d sc)).Nodup →
    indexKids d sc id seen as = .error .configError
  | seen, [], _, hs, hn => absurd (by simpa using hs) hn
  | seen, a :: r, hu, hs, hn => by
    unfold indexKids
    simp only [id, hu a (by simp), bind, Except.bind]
    by_cases hm : uid d sc a ∈ seen
    · simp [hm]
    · have hs' : (seen ++ [uid d sc a]).Nodup := by
        rw [List.nodup_append]
        refine ⟨hs, by simp, ?_⟩
        intro x hx y hy e
        simp at hy; subst hy; subst e; exact hm hx
      have := indexKids_dup (seen ++ [uid d sc a]) r (fun b hb => hu b (by simp [hb])) hs'
        (by simpa using hn)
      simp [hm, this]

/-- C05: matching the children of two nodes either reports a duplicated instance with
`ConfigError`, or gives a list of pairs in which every child of either node occurs exactly once, in
the order of the first node; matched children are the same instance, and unmatched ones have no
counterpart. -/
theorem C05_pairing_partition (d : Device) (sc : Scope) (as bs : List Elem)
    (ha : GoodKids d sc as) (hb : GoodKids d sc bs) :
    (¬ (as.Pairwise (fun x y => ¬ SameInstance d sc x y) ∧
        bs.Pairwise (fun x y => ¬ SameInstance d sc x y)) ∧
      pairChildren d sc id id as bs = .error .configError) ∨
    ∃ ps, pairChildren d sc id id as bs = .ok ps ∧
      as.Pairwise (fun x y => ¬ SameInstance d sc x y) ∧
      bs.Pairwise (fun x y => ¬ SameInstance d sc x y) ∧
      ps.filterMap Prod.fst = as ∧
      (ps.filterMap Prod.snd).Perm bs ∧
      (none, none) ∉ ps ∧
      (∀ x y, (some x, some y) ∈ ps → SameInstance d sc x y) ∧
      (∀ x, (some x, none) ∈ ps → ∀ y ∈ bs, ¬ SameInstance d sc x y) ∧
      (∀ y, (none, some y) ∈ ps → ∀ x ∈ as, ¬ SameInstance d sc x y) := by
  obtain ⟨ua, na⟩ := GoodKids.indexable ha
  obtain ⟨ub, nb⟩ := GoodKids.indexable hb
  have hsame : ∀ x ∈ as, ∀ y ∈ bs, uid d sc x = uid d sc y ↔ SameInstance d sc x y := by
    intro x hx y hy
    obtain ⟨f, hf, kf⟩ := ha x hx
    obtain ⟨g, hg, kg⟩ := hb y hy
    exact uid_eq_iff' hf kf hg kg
  by_cases hA : as.Pairwise (fun x y => ¬ SameInstance d sc x y)
  swap
  · refine Or.inl ⟨fun h => hA h.1, ?_⟩
    have := indexKids_dup [] as ua List.nodup_nil (by simpa [na] using hA)
    simp [pairChildren, this, bind, Except.bind]
  have iA := indexKids_ok (d := d) (sc := sc) (proj := id) [] as (by simpa using ua)
    (by simpa using na.2 hA)
  by_cases hB : bs.Pairwise (fun x y => ¬ SameInstance d sc x y)
  swap
  · refine Or.inl ⟨fun h => hB h.2, ?_⟩
    have := indexKids_dup [] bs ub List.nodup_nil (by simpa [nb] using hB)
    simp [pairChildren, this, iA, bind, Except.bind]
  have iB := indexKids_ok (d := d) (sc := sc) (proj := id) [] bs (by simpa using ub)
    (by simpa using nb.2 hB)
  refine Or.inr ⟨_, by simp only [pairChildren, iA, iB, bind, Except.bind, pure, Except.pure]; rfl,
    hA, hB, ?_⟩
  have hps : pairUp (as.map (fun a => (uid d sc (id a), a))) (bs.map (fun b => (uid d sc (id b), b))) =
      as.map (fun a => (some a, bs.find? (fun b => uid d sc b = uid d sc a))) ++
      (bs.filter (fun b => (as.find? (fun a => uid d sc a = uid d sc b)).isNone)).map
        (fun b => (none, some b)) := by
    unfold pairUp
    simp only [id, lookup_map_eq_find (fun e => uid d sc e), List.map_map, List.filter_map,
      Function.comp_def]
  rw [hps]
  have nA := na.2 hA
  have nB := nb.2 hB
  refine ⟨?_, ?_, ?_, ?_, ?_, ?_⟩
  · rw [List.filterMap_append, List.filterMap_map, List.filterMap_map]
    have h1 : ∀ l : List Elem, l.filterMap (fun a => some a) = l := fun l => by simp
    have h2 : ∀ l : List Elem, l.filterMap (fun _ => (none : Option Elem)) = [] := fun l => by simp
    simp only [Function.comp_def, h1, h2, List.append_nil]
  · have hbn : bs.Nodup := List.Nodup.of_map _ nB
    have han : as.Nodup := List.Nodup.of_map _ nA
    rw [List.filterMap_append, List.filterMap_map, List.filterMap_map]
    have h1 : ∀ l : List Elem, l.filterMap (fun a => some a) = l := fun l => by simp
    simp only [Function.comp_def, h1]
    rw [List.perm_ext_iff_of_nodup ?_ hbn]
    · intro y
      rw [List.mem_append, List.mem_filterMap, List.mem_filter]
      constructor
      · rintro (⟨a, _, h⟩ | ⟨h, _⟩)
        · exact List.mem_of_find?_eq_some h
        · exact h
      · intro hy
        cases hf : as.find? (fun a => uid d sc a = uid d sc y) with
        | none => exact Or.inr ⟨hy, by simp⟩
        | some a =>
          have hu : uid d sc a = uid d sc y := by simpa using List.find?_some hf
          refine Or.inl ⟨a, List.mem_of_find?_eq_some hf, ?_⟩
          cases hg : bs.find? (fun b => uid d sc b = uid d sc a) with
          | none =>
            have := List.find?_eq_none.1 hg y hy
            simp [hu] at this
          | some z =>
            have hz : uid d sc z = uid d sc y := by
              rw [← hu]; simpa using List.find?_some hg
            have := List.inj_on_of_nodup_map nB (List.mem_of_find?_eq_some hg) hy hz
            rw [this]
    · rw [List.nodup_append]
      refine ⟨?_, hbn.filter _, ?_⟩
      · have nA' := nA
        rw [List.Nodup, List.pairwise_map] at nA'
        refine List.Pairwise.filterMap _ ?_ nA'
        intro a a' hne b hb' b' hb'' e
        subst e
        have e1 : uid d sc b = uid d sc a := by simpa using List.find?_some hb'
        have e2 : uid d sc b = uid d sc a' := by simpa using List.find?_some hb''
        exact hne (e1.symm.trans e2)
      · intro y hy z hz e
        subst e
        obtain ⟨a, haa, h⟩ := List.mem_filterMap.1 hy
        have h2 := (List.mem_filter.1 hz).2
        have hu : uid d sc y = uid d sc a := by simpa using List.find?_some h
        rw [Option.isNone_iff_eq_none, List.find?_eq_none] at h2
        exact h2 a haa (by simp [hu])
  · simp
  · intro x y h
    simp only [List.mem_append, List.mem_map, Prod.mk.injEq, reduceCtorEq, false_and, and_false,
      exists_false, or_false, Option.some.injEq] at h
    obtain ⟨a, haa, rfl, hf⟩ := h
    have hu : uid d sc y = uid d sc a := by simpa using List.find?_some hf
    exact (hsame a haa y (List.mem_of_find?_eq_some hf)).1 hu.symm
  · intro x h y hy hs
    simp only [List.mem_append, List.mem_map, Prod.mk.injEq, reduceCtorEq, and_false,
      exists_false, or_false, Option.some.injEq] at h
    obtain ⟨a, haa, rfl, hf⟩ := h
    exact List.find?_eq_none.1 hf y hy (by simp [(hsame a haa y hy).2 hs])
  · intro y h x hx hs
    simp only [List.mem_append, List.mem_map, Prod.mk.injEq, reduceCtorEq, false_and, and_false,
      exists_false, false_or, Option.some.injEq, true_and] at h
    obtain ⟨b, hb', rfl⟩ := h
    obtain ⟨hbb, h2⟩ := List.mem_filter.1 hb'
    rw [Option.isNone_iff_eq_none, List.find?_eq_none] at h2
    exact h2 x hx (by simp [(hsame x hx b hbb).2 hs])

/-! ## The hypotheses can be met -/

namespace Demo

/-- Two configs that differ in document order only. -/
def cmp1 : Elem := cfg [el "top" [lf "a" "1", item "x" "1", item "y" "2", rule "1" "p", rule "2" "d",
  lf "dns" "8", lf "dns" "9", lf "tagl" "t", el "np" [lf "w" "5"]]]
def cmp2 : Elem := cfg [el "top" [lf "dns" "8", item "y" "2", rule "1" "p", item "x" "1",
  el "np" [lf "w" "5"], rule "2" "d", lf "dns" "9", lf "tagl" "t", lf "a" "1"]]
/-- Like `cmp2`, with two user-ordered entries swapped. -/
def cmp3 : Elem := cfg [el "top" [lf "dns" "8", item "y" "2", rule "2" "d", item "x" "1",
  el "np" [lf "w" "5"], rule "1" "p", lf "dns" "9", lf "tagl" "t", lf "a" "1"]]

theorem cmp1_valid : ValidConfig dev cmp1 := validConfigB_sound (by decide +kernel)
theorem cmp2_valid : ValidConfig dev cmp2 := validConfigB_sound (by decide +kernel)
theorem cmp3_valid : ValidConfig dev cmp3 := validConfigB_sound (by decide +kernel)
theorem cmp1_plain : PlainKeys dev .root cmp1 := plainKeysB_sound _ _ (by decide +kernel)

example : cfgEq dev cmp1 cmp2 = .ok true := by decide +kernel
example : Rearranged dev .root cmp1 cmp2 :=
  (C04_eq_iff_rearranged dev cmp1 cmp2 cmp1_valid cmp2_valid cmp1_plain).1 (by decide +kernel)
example : ¬ Rearranged dev .root cmp1 cmp3 := fun h =>
  absurd ((C04_eq_iff_rearranged dev cmp1 cmp3 cmp1_valid cmp3_valid cmp1_plain).2 h)
    (by decide +kernel)
example : GoodKids dev (.node topS) [item "x" "1", item "y" "2", lf "dns" "8"] := by
  intro k hk
  obtain ⟨f, hf, h, _⟩ := validKidsB_mem (d := dev) (sc := .node topS)
    (ks := [item "x" "1", item "y" "2", lf "dns" "8"]) (by decide +kernel) k hk
  exact ⟨f, hf, kidOkB_sound h⟩

end Demo

end NcDiff
