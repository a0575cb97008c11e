import Verif.Proof.ModelMarks
/-!
# What remains of a tree of differences after trimming
-/

namespace NcDiff.ModelDiff

/-- The node is not removed because of its mark. -/
def Open (msg : String) (k : Elem) : Prop :=
  diffOf k = none ∨ diffOf k = some (.str "") ∨ diffOf k = some (.str msg)

/-- Nothing on the way to the node is removed because of a mark, and there is no inner node at the end. -/
inductive Kept (msg : String) : Elem → List QName → Prop where
  | leaf {k} : Open msg k → isInnerType (typeOf k) = false → Kept msg k []
  | inner {k c p} : Open msg k → isInnerType (typeOf k) = true → c ∈ k.kids → Kept msg c p →
      Kept msg k (c.tag :: p)

theorem kids_trim (msg : String) (e : Elem) : (trim msg e).kids = trimKids msg e.kids := by
  cases e; rfl

theorem tag_trim (msg : String) (e : Elem) : (trim msg e).tag = e.tag := by
  cases e; rfl

theorem trimKids_mem (msg : String) (k : Elem) : ∀ ks, k ∈ trimKids msg ks ↔ ∃ c ∈ ks, Open msg c ∧
    ((isInnerType (typeOf c) = true ∧ k = trim msg c ∧ k.kids ≠ []) ∨
      (isInnerType (typeOf c) = false ∧ k = c)) := by
  intro ks
  induction ks with
  | nil => simp [trimKids]
  | cons c ks ih =>
    simp only [List.mem_cons, exists_eq_or_imp]
    rw [trimKids]
    by_cases h : diffOf c ≠ none ∧ diffOf c ≠ some (.str "") ∧ diffOf c ≠ some (.str msg)
    · rw [if_pos h, ih]
      refine ⟨.inr, fun h' => h'.resolve_left ?_⟩
      rintro ⟨ho, -⟩
      rcases ho with ho | ho | ho
      exacts [h.1 ho, h.2.1 ho, h.2.2 ho]
    · rw [if_neg h]
      have ho : Open msg c := by
        unfold Open
        by_cases h1 : diffOf c = none
        · exact .inl h1
        · by_cases h2 : diffOf c = some (.str "")
          · exact .inr (.inl h2)
          · exact .inr (.inr (Classical.not_not.mp fun h3 => h ⟨h1, h2, h3⟩))
      cases hi : isInnerType (typeOf c) with
      | false =>
        simp only [Bool.false_eq_true, if_false, List.mem_cons, ih, ho, true_and, false_and, false_or]
      | true =>
        simp only [if_true]
        cases he : (trim msg c).kids.isEmpty with
        | true =>
          simp only [if_true, ih, ho, true_and, Bool.true_eq_false, false_and, or_false]
          refine ⟨.inr, fun h' => h'.resolve_left ?_⟩
          rintro ⟨rfl, hne⟩
          exact hne (List.isEmpty_iff.mp he)
        | false =>
          simp only [Bool.false_eq_true, if_false, List.mem_cons, ih, ho, true_and, Bool.true_eq_false,
            false_and, or_false]
          refine or_congr ⟨?_, fun h => h.1⟩ Iff.rfl
          rintro rfl
          exact ⟨rfl, fun h => by rw [List.isEmpty_iff.mpr h] at he; cases he⟩

/-- Something remains below a node exactly if something is kept below it. -/
theorem trim_nonempty (msg : String) (e : Elem) :
    (trim msg e).kids ≠ [] ↔ ∃ c ∈ e.kids, ∃ q, Kept msg c q := by
  induction e using Elem.ind with
  | h t n a x ks ih =>
    rw [kids_trim]
    simp only [Elem.kids_mk]
    constructor
    · intro h
      obtain ⟨k, hk⟩ := List.exists_mem_of_ne_nil _ h
      obtain ⟨c, hc, ho, ⟨hi, rfl, hne⟩ | ⟨hi, rfl⟩⟩ := (trimKids_mem msg k ks).mp hk
      · obtain ⟨c', hc', q, hq⟩ := (ih c hc).mp hne
        exact ⟨c, hc, _, .inner ho hi hc' hq⟩
      · exact ⟨k, hc, _, .leaf ho hi⟩
    · rintro ⟨c, hc, q, hq⟩
      have hex : ∃ k, k ∈ trimKids msg ks := by
        cases hq with
        | leaf ho hi => exact ⟨c, (trimKids_mem msg _ ks).mpr ⟨c, hc, ho, .inr ⟨hi, rfl⟩⟩⟩
        | inner ho hi hc' hq' =>
          exact ⟨_, (trimKids_mem msg _ ks).mpr ⟨c, hc, ho, .inl ⟨hi, rfl, (ih c hc).mpr ⟨_, hc', _, hq'⟩⟩⟩⟩
      obtain ⟨k, hk⟩ := hex
      exact List.ne_nil_of_mem hk

/-- The nodes that remain are those on the way to a node that is kept. -/
theorem has_trim {msg : String} {p} : ∀ {e : Elem}, p ≠ [] →
    (∀ q n, At e q n → q ≠ [] → isInnerType (typeOf n) = false → n.kids = []) →
    (Has (trim msg e) p ↔ ∃ c ∈ e.kids, ∃ q, Kept msg c q ∧ p <+: c.tag :: q) := by
  induction p with
  | nil => intro e h; exact absurd rfl h
  | cons t p ih =>
    intro e _ hbare
    rw [has_cons, kids_trim]
    constructor
    · rintro ⟨k, hk, ht, hp⟩
      obtain ⟨c, hc, ho, ⟨hi, rfl, hne⟩ | ⟨hi, rfl⟩⟩ := (trimKids_mem msg k _).mp hk
      · rw [tag_trim] at ht
        subst ht
        by_cases hp0 : p = []
        · obtain ⟨c', hc', q, hq⟩ := (trim_nonempty msg c).mp hne
          exact ⟨c, hc, _, .inner ho hi hc' hq, by simp [hp0]⟩
        · obtain ⟨c', hc', q, hq, hpre⟩ := (ih hp0 fun q n hn hq => hbare _ n (.down hc hn) (by simp)).mp hp
          exact ⟨c, hc, _, .inner ho hi hc' hq, List.cons_prefix_cons.mpr ⟨rfl, hpre⟩⟩
      · have hkids := hbare _ _ (.down hc .here) (by simp) hi
        rw [has_bare hkids] at hp
        subst hp ht
        exact ⟨k, hc, [], .leaf ho hi, List.prefix_rfl⟩
    · rintro ⟨c, hc, q, hq, hpre0⟩
      obtain ⟨rfl, hpre⟩ := List.cons_prefix_cons.mp hpre0
      cases hq with
      | leaf ho hi =>
        rw [List.prefix_nil] at hpre
        subst hpre
        exact ⟨c, (trimKids_mem msg _ _).mpr ⟨c, hc, ho, .inr ⟨hi, rfl⟩⟩, rfl, has_nil c⟩
      | inner ho hi hc' hq' =>
        have hne := (trim_nonempty msg c).mpr ⟨_, hc', _, hq'⟩
        refine ⟨trim msg c, (trimKids_mem msg _ _).mpr ⟨c, hc, ho, .inl ⟨hi, rfl, hne⟩⟩, tag_trim _ _, ?_⟩
        by_cases hp0 : p = []
        · rw [hp0]; exact has_nil _
        · exact (ih hp0 fun q n hn hq => hbare _ n (.down hc hn) (by simp)).mpr ⟨_, hc', _, hq', hpre⟩

/-! ## Kinds of nodes -/

theorem innerLike_iff {e : Elem} : InnerLike e ↔ isInnerType (typeOf e) = true := by
  unfold InnerLike isInnerType typeOf
  simp [or_assoc]

theorem not_inner_of_leaf {e : Elem} (h : LeafLike e) : ¬ InnerLike e := by
  rintro ⟨t, ht, h'⟩
  simp only [List.mem_cons, List.not_mem_nil, or_false] at ht
  rcases h with h | h <;> rw [h] at h' <;> cases h' <;> simp at ht

theorem DataTree.kid {e k : Elem} (h : DataTree e) (hk : k ∈ e.kids) : DataTree k :=
  ⟨h.schema.kid hk, h.bare.kid hk, fun _ _ _ ha => h.kinds _ _ (by simp) (.down hk ha)⟩

theorem type_congr {m n : Elem} (h : m.get (.other "type") = n.get (.other "type")) :
    (InnerLike m ↔ InnerLike n) ∧ (LeafLike m ↔ LeafLike n) := by
  unfold InnerLike LeafLike
  rw [h]
  exact ⟨Iff.rfl, Iff.rfl⟩

theorem kept_copy {msg : String} (hmsg : msg ≠ "") {p} : ∀ {c n : Elem}, DataTree c →
    (InnerLike c ∨ LeafLike c) → At c p n → LeafLike n → Kept msg (processAttrib msg c) p := by
  have ho : ∀ c, Open msg (processAttrib msg c) := fun c => .inr (.inr (diff_processAttrib hmsg c))
  induction p with
  | nil =>
    intro c n _ _ hn hl
    obtain rfl := at_nil.mp hn
    refine .leaf (ho _) (Bool.eq_false_iff.mpr fun h => not_inner_of_leaf hl ?_)
    exact (type_congr (type_processAttrib msg n)).1.mp (innerLike_iff.mpr h)
  | cons t p ih =>
    intro c n hc hk hn0 hl
    obtain ⟨k, hk', rfl, hn⟩ := at_cons.mp hn0
    have hin : InnerLike c := hk.resolve_right fun h => by
      rw [hc.bare _ _ .here h] at hk'; cases hk'
    rw [← tag_processAttrib msg k]
    exact .inner (ho c) (innerLike_iff.mp ((type_congr (type_processAttrib msg c)).1.mpr hin))
      (by rw [kids_processAttrib]; exact List.mem_map_of_mem hk')
      (ih (hc.kid hk') (hc.kinds _ _ (by simp) (.down hk' .here)) hn hl)

theorem at_of_kept {msg k q} (h : Kept msg k q) :
    ∃ n, At k q n ∧ Open msg n ∧ isInnerType (typeOf n) = false := by
  induction h with
  | leaf ho hi => exact ⟨_, .here, ho, hi⟩
  | inner _ _ hc _ ih =>
    obtain ⟨n, hn, h⟩ := ih
    exact ⟨n, .down hc hn, h⟩

/-- What is kept in a tree of differences is a leaf with that mark. -/
theorem found_of_kept {a b d c : Elem} {msg : String} {q} (ha : DataTree a) (hb : DataTree b)
    (hd : IsDiff a b d) (hc : c ∈ d.kids) (h : Kept msg c q) :
    ∃ n0, Found a b (c.tag :: q) n0 (some msg) ∧ LeafLike n0 := by
  obtain ⟨n, hn, ho, hi⟩ := at_of_kept h
  obtain ⟨n0, m, hf, -, hm, hty, -⟩ := found_of_at (by simp) ha.schema hb.schema hd (.down hc hn)
  have hnin : ¬ InnerLike n0 := fun h' => by
    rw [innerLike_iff.mp ((type_congr hty).1.mpr h')] at hi; cases hi
  have hl : LeafLike n0 := by
    cases hf with
    | added h1 _ => exact (hb.kinds _ _ (by simp) h1).resolve_left hnin
    | deleted h1 _ => exact (ha.kinds _ _ (by simp) h1).resolve_left hnin
    | modified h1 _ _ _ => exact (hb.kinds _ _ (by simp) h1).resolve_left hnin
    | inner h1 _ _ _ => exact (hb.kinds _ _ (by simp) h1).resolve_left hnin
  have conv : ∀ s : String, m = some s → s ≠ "" → m = some msg := by
    intro s hs hne
    subst hs
    have hm' : diffOf n = some (.str s) := hm
    rcases ho with ho | ho | ho
    · rw [ho] at hm'; cases hm'
    · rw [ho] at hm'; cases hm'; exact absurd rfl hne
    · rw [ho] at hm'; cases hm'; rfl
  have : m = some msg := by
    cases hf with
    | added _ _ => exact conv _ rfl (by decide)
    | deleted _ _ => exact conv _ rfl (by decide)
    | modified _ _ _ _ => exact conv _ rfl (by decide)
    | inner _ _ _ h4 => exact absurd hl h4
  rw [this] at hf
  exact ⟨n0, hf, hl⟩

/-- Every leaf with that mark is kept. -/
theorem kept_of_found {p} : ∀ {a b d n0 : Elem} {msg : String}, DataTree a → DataTree b →
    IsDiff a b d → NoneCollapsed a b → p ≠ [] → Found a b p n0 (some msg) → LeafLike n0 →
    ∃ c ∈ d.kids, ∃ q, Kept msg c q ∧ p = c.tag :: q := by
  induction p with
  | nil => intro a b d n0 msg _ _ _ _ h; exact absurd rfl h
  | cons t p ih =>
    intro a b d n0 msg ha hb hd hcol _ hf hl
    -- the part below an inner node that both trees have
    have both : ∀ {c q}, c ∈ b.kids → q ∈ a.kids → c.tag = t → q.tag = t → ¬ Equal q c → p ≠ [] →
        ¬ LeafLike c → Found q c p n0 (some msg) → ∃ k ∈ d.kids, ∃ r, Kept msg k r ∧ t :: p = k.tag :: r := by
      intro c q hc hq htc htq hE hp hlc hf
      obtain ⟨sub, hs, -⟩ := compareNodes_spec c q (ha.schema.kid hq) (hb.schema.kid hc)
      obtain ⟨k, hk, r, hr, e⟩ := ih (ha.kid hq) (hb.kid hc)
        (isDiff_inner (ha.schema.kid hq) (hb.schema.kid hc) hs) (hcol.kid hq hc (htq.trans htc.symm)) hp hf hl
      refine ⟨copyNode c "" sub, (hd _).mpr (.inner hc hq (htq.trans htc.symm) hE hlc hs), p, ?_, by
        rw [← htc]; rfl⟩
      rw [e]
      refine .inner (.inl (diff_copyNode c _ _)) (innerLike_iff.mp ?_) hk hr
      exact (type_congr (type_copyNode c _ _)).1.mpr
        ((hb.kinds _ _ (by simp) (.down hc .here)).resolve_right hlc)
    cases hf with
    | added h1 h2 =>
      obtain ⟨c, hc, htc, h1⟩ := at_cons.mp h1
      rcases Classical.em (∃ q ∈ a.kids, q.tag = t) with ⟨q, hq, htq⟩ | hnone
      · have hnq : ¬ Has q p := by rw [← ha.schema.has_kid hq, htq]; exact h2
        have hp : p ≠ [] := by rintro rfl; exact hnq (has_nil q)
        refine both hc hq htc htq (fun hE => hnq (hE.has.mpr ⟨_, h1⟩)) hp (fun hl => ?_) (.added h1 hnq)
        exact hp ((has_bare (hb.bare _ _ (.down hc .here) hl)).mp ⟨_, h1⟩)
      · have hno : ∀ q ∈ a.kids, q.tag ≠ c.tag := fun q hq h => hnone ⟨q, hq, h.trans htc⟩
        exact ⟨_, (hd _).mpr (.added hc hno), p, kept_copy (by decide) (hb.kid hc)
          (hb.kinds _ _ (by simp) (.down hc .here)) h1 hl, by rw [tag_processAttrib, htc]⟩
    | deleted h1 h2 =>
      obtain ⟨q, hq, htq, h1⟩ := at_cons.mp h1
      rcases Classical.em (∃ c ∈ b.kids, c.tag = t) with ⟨c, hc, htc⟩ | hnone
      · have hnc : ¬ Has c p := by rw [← hb.schema.has_kid hc, htc]; exact h2
        have hp : p ≠ [] := by rintro rfl; exact hnc (has_nil c)
        refine both hc hq htc htq (fun hE => hnc (hE.has.mp ⟨_, h1⟩)) hp (fun hl => ?_) (.deleted h1 hnc)
        have := hcol.kid hq hc (htq.trans htc.symm) _ _ _ .here .here hl
        exact hp ((has_bare this).mp ⟨_, h1⟩)
      · have hno : ∀ c ∈ b.kids, c.tag ≠ q.tag := fun c hc h => hnone ⟨c, hc, h.trans htq⟩
        exact ⟨_, (hd _).mpr (.deleted hq hno), p, kept_copy (by decide) (ha.kid hq)
          (ha.kinds _ _ (by simp) (.down hq .here)) h1 hl, by rw [tag_processAttrib, htq]⟩
    | modified h1 h2 h3 h4 =>
      obtain ⟨c, hc, htc, h1⟩ := at_cons.mp h1
      obtain ⟨q, hq, htq, h2⟩ := at_cons.mp h2
      have hE : ¬ Equal q c := fun hE => h3 (hE.at (ha.schema.kid hq) (hb.schema.kid hc) h2 h1)
      by_cases hp : p = []
      · subst hp
        obtain rfl := at_nil.mp h1
        refine ⟨_, (hd _).mpr (.modified hc hq (htq.trans htc.symm) hE h4), [], ?_, by rw [← htc]; rfl⟩
        refine .leaf (.inr (.inr (diff_copyNode n0 _ _))) (Bool.eq_false_iff.mpr fun h => ?_)
        exact not_inner_of_leaf h4 ((type_congr (type_copyNode n0 _ _)).1.mp (innerLike_iff.mpr h))
      · refine both hc hq htc htq hE hp (fun hl => ?_) (.modified h1 h2 h3 h4)
        exact hp ((has_bare (hb.bare _ _ (.down hc .here) hl)).mp ⟨_, h1⟩)

theorem equal_of_bare {a b : Elem} (ha : a.kids = []) (hb : b.kids = []) : Equal a b ↔ SameNode a b := by
  refine ⟨fun h => h.1, fun h => ⟨h, ?_, ?_⟩⟩ <;>
  · intro p n hp hn
    cases hn with
    | here => exact absurd rfl hp
    | down hk _ => simp_all

theorem leafChange_iff {a b : Elem} {msg : String} {p} (hb : DataTree b) (hcol : NoneCollapsed a b)
    (hp : p ≠ []) : LeafChange a b msg p ↔ ∃ n0, Found a b p n0 (some msg) ∧ LeafLike n0 := by
  constructor
  · rintro ⟨-, ⟨rfl, h1, n, h2, h3⟩ | ⟨rfl, h1, n, h2, h3⟩ | ⟨rfl, n, n', h1, h2, h3, h4⟩⟩
    · exact ⟨n, .added h2 h1, h3⟩
    · exact ⟨n, .deleted h2 h1, h3⟩
    · exact ⟨n', .modified h2 h1 (fun hE => h4 hE.1) h3, h3⟩
  · rintro ⟨n, hf, hl⟩
    refine ⟨hp, ?_⟩
    cases hf with
    | added h1 h2 => exact .inl ⟨rfl, h2, n, h1, hl⟩
    | deleted h1 h2 => exact .inr (.inl ⟨rfl, h2, n, h1, hl⟩)
    | modified h1 h2 h3 h4 =>
      exact .inr (.inr ⟨rfl, _, _, h2, h1, h4, fun hs =>
        h3 ((equal_of_bare (hcol _ _ _ h2 h1 h4) (hb.bare _ _ h1 h4)).mpr hs)⟩)

theorem kept_iff {a b d : Elem} {msg : String} {p} (ha : DataTree a) (hb : DataTree b) (hd : IsDiff a b d)
    (hcol : NoneCollapsed a b) :
    (∃ c ∈ d.kids, ∃ q, Kept msg c q ∧ p = c.tag :: q) ↔ LeafChange a b msg p := by
  constructor
  · rintro ⟨c, hc, q, hq, rfl⟩
    exact (leafChange_iff hb hcol (by simp)).mpr (found_of_kept ha hb hd hc hq)
  · intro h
    obtain ⟨n, hf, hl⟩ := (leafChange_iff hb hcol h.1).mp h
    exact kept_of_found ha hb hd hcol h.1 hf hl

theorem diff_bare {a b d : Elem} (ha : DataTree a) (hb : DataTree b) (hd : IsDiff a b d) :
    ∀ q n, At d q n → q ≠ [] → isInnerType (typeOf n) = false → n.kids = [] := by
  intro q n hn hq hi
  obtain ⟨n0, m, hf, -, -, hty, hkids⟩ := found_of_at hq ha.schema hb.schema hd hn
  have hnin : ¬ InnerLike n0 := fun h' => by
    rw [innerLike_iff.mp ((type_congr hty).1.mpr h')] at hi; cases hi
  cases hf with
  | added h1 _ => exact hkids (hb.bare _ _ h1 ((hb.kinds _ _ hq h1).resolve_left hnin)) (by simp)
  | deleted h1 _ => exact hkids (ha.bare _ _ h1 ((ha.kinds _ _ hq h1).resolve_left hnin)) (by simp)
  | modified h1 _ _ h4 => exact hkids (hb.bare _ _ h1 h4) (by simp)
  | inner h1 _ _ h4 => exact absurd ((hb.kinds _ _ hq h1).resolve_left hnin) h4

end NcDiff.ModelDiff
