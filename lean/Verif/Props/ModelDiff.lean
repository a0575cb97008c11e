import Verif.Proof.ModelView
/-!
# C33: differences between two schema trees
-/

namespace NcDiff.ModelDiff

theorem isDiff_of {a b d : Elem} (ha : SchemaTree a) (hb : SchemaTree b) (h : modelDiff a b = .ok d) :
    IsDiff a b d := by
  obtain ⟨ks, hks, hi⟩ := compareNodes_spec b a ha hb
  unfold modelDiff at h
  split at h
  · simp only [hks, bind, Except.bind, Except.ok.injEq] at h
    subst h
    exact hi
  · cases h

/-- C33: the difference of two schema trees of the same module can always be computed; trees of different
modules raise. -/
theorem C33_total {a b : Elem} (ha : SchemaTree a) (hb : SchemaTree b) :
    (a.tag = b.tag → ∃ d, modelDiff a b = .ok d) ∧ (a.tag ≠ b.tag → modelDiff a b = .error .valueError) := by
  obtain ⟨ks, hks, -⟩ := compareNodes_spec b a ha hb
  unfold modelDiff
  exact ⟨fun h => ⟨_, by rw [if_pos h, hks]; rfl⟩, fun h => by rw [if_neg h]⟩

/-- C33: the difference is falsy exactly if both trees have the same nodes at the same paths.  The order of
siblings and of attributes does not matter. -/
theorem C33_empty {a b d : Elem} (ha : SchemaTree a) (hb : SchemaTree b) (h : modelDiff a b = .ok d) :
    truthy d = false ↔ SameBelow a b := by
  have hd := isDiff_of ha hb h
  have : truthy d = false ↔ ∀ k, ¬ Child a b k := by
    simp only [truthy, Bool.not_eq_false', List.isEmpty_iff, List.eq_nil_iff_forall_not_mem]
    exact forall_congr' fun k => not_congr (hd k)
  rw [this]
  constructor
  · intro hno
    have peerB : ∀ c ∈ b.kids, ∃ q ∈ a.kids, q.tag = c.tag ∧ Equal q c := by
      intro c hc
      rcases Classical.em (∃ q ∈ a.kids, q.tag = c.tag) with ⟨q, hq, ht⟩ | hn
      · refine ⟨q, hq, ht, Classical.not_not.mp fun hE => ?_⟩
        obtain ⟨sub, hs, -⟩ := compareNodes_spec c q (ha.kid hq) (hb.kid hc)
        by_cases hl : LeafLike c
        · exact hno _ (.modified hc hq ht hE hl)
        · exact hno _ (.inner hc hq ht hE hl hs)
      · exact absurd (.added hc fun q hq ht => hn ⟨q, hq, ht⟩) (hno _)
    constructor
    · intro p n hp hn
      cases hn with
      | here => exact absurd rfl hp
      | @down _ q p _ hq hn =>
        rcases Classical.em (∃ c ∈ b.kids, c.tag = q.tag) with ⟨c, hc, ht⟩ | hne
        · obtain ⟨q', hq', ht', hE⟩ := peerB c hc
          obtain rfl := ha.kid_unique hq hq' (ht.symm.trans ht'.symm)
          by_cases hp0 : p = []
          · subst hp0
            obtain rfl := at_nil.mp hn
            exact ⟨c, ht ▸ .down hc .here, hE.1⟩
          · obtain ⟨n', hn', hs⟩ := hE.2.1 _ _ hp0 hn
            exact ⟨n', ht ▸ .down hc hn', hs⟩
        · exact absurd (.deleted hq fun c hc ht => hne ⟨c, hc, ht⟩) (hno _)
    · intro p n hp hn
      cases hn with
      | here => exact absurd rfl hp
      | @down _ c p _ hc hn =>
        obtain ⟨q, hq, ht, hE⟩ := peerB c hc
        by_cases hp0 : p = []
        · subst hp0
          obtain rfl := at_nil.mp hn
          exact ⟨q, ht ▸ .down hq .here, hE.1.1.symm, hE.1.2.1.symm, fun a => (hE.1.2.2 a).symm⟩
        · obtain ⟨n', hn', hs⟩ := hE.2.2 _ _ hp0 hn
          exact ⟨n', ht ▸ .down hq hn', hs⟩
  · rintro ⟨h1, h2⟩ k hk
    have peers : ∀ {q c}, q ∈ a.kids → c ∈ b.kids → q.tag = c.tag → Equal q c := by
      intro q c hq hc ht
      refine ⟨?_, ?_, ?_⟩
      · obtain ⟨n, hn, hs⟩ := h1 _ _ (by simp) (.down hq .here)
        rw [ht, hb.at_kid hc, at_nil] at hn
        subst hn
        exact hs
      · intro p n _ hn
        obtain ⟨n', hn', hs⟩ := h1 _ _ (by simp) (.down hq hn)
        rw [ht, hb.at_kid hc] at hn'
        exact ⟨n', hn', hs⟩
      · intro p n _ hn
        obtain ⟨n', hn', hs⟩ := h2 _ _ (by simp) (.down hc hn)
        rw [← ht, ha.at_kid hq] at hn'
        exact ⟨n', hn', hs⟩
    cases hk with
    | added hc hn =>
      obtain ⟨n', hn', -⟩ := h2 _ _ (by simp) (.down hc .here)
      exact not_has_of_no_kid hn ⟨n', hn'⟩
    | deleted hc hn =>
      obtain ⟨n', hn', -⟩ := h1 _ _ (by simp) (.down hc .here)
      exact not_has_of_no_kid hn ⟨n', hn'⟩
    | modified hc hq ht hE _ => exact hE (peers hq hc ht)
    | inner hc hq ht hE _ _ => exact hE (peers hq hc ht)

theorem getPeer_single {t : QName} {e : Elem} {r : Option Elem} (h : getPeer t e = .ok r) :
    (e.kids.filter fun k => k.tag = t).length ≤ 1 := by
  unfold getPeer Elem.childrenWith at h
  split at h
  · rename_i he; rw [he]; simp
  · rename_i he; rw [he]; simp
  · cases h

/-- C33: with a difference, no child of one tree has two counterparts in the other: an ambiguous pair of trees raises. -/
theorem C33_ambiguous {a b d : Elem} (h : modelDiff a b = .ok d) :
    (∀ c ∈ b.kids, (a.kids.filter fun k => k.tag = c.tag).length ≤ 1) ∧
      ∀ c ∈ a.kids, (b.kids.filter fun k => k.tag = c.tag).length ≤ 1 := by
  unfold modelDiff at h
  split at h
  swap
  · cases h
  rename_i htag
  clear htag
  obtain ⟨ks, h0, -⟩ := bind_ok.1 h
  clear h
  obtain ⟨t, n, at', x, bs⟩ := b
  rw [compareNodes] at h0
  obtain ⟨ch, h1, h3⟩ := bind_ok.1 h0
  obtain ⟨go, h2, -⟩ := bind_ok.1 h3
  clear h0 h3
  constructor
  · simp only [Elem.kids_mk]
    clear h2
    induction bs generalizing ch with
    | nil => simp
    | cons c cs ih =>
      rw [compareKids] at h1
      obtain ⟨pe, hp, h1⟩ := bind_ok.1 h1
      have hrest : ∃ r, compareKids a cs = .ok r := by
        cases pe with
        | none =>
          obtain ⟨r, hr, -⟩ := bind_ok.1 h1
          exact ⟨r, hr⟩
        | some p =>
          obtain ⟨eq, -, h1⟩ := bind_ok.1 h1
          cases eq with
          | true => exact ⟨ch, h1⟩
          | false =>
            simp only [Bool.false_eq_true, if_false] at h1
            cases ht : typeOf c with
            | none => rw [ht] at h1; cases h1
            | some ty =>
              rw [ht] at h1
              simp only at h1
              split at h1
              · obtain ⟨r, hr, -⟩ := bind_ok.1 h1
                exact ⟨r, hr⟩
              · obtain ⟨_, -, h1⟩ := bind_ok.1 h1
                obtain ⟨r, hr, -⟩ := bind_ok.1 h1
                exact ⟨r, hr⟩
      obtain ⟨r, hr⟩ := hrest
      intro c' hc'
      rcases List.mem_cons.1 hc' with rfl | hc'
      · exact getPeer_single hp
      · exact ih r hr c' hc'
  · generalize a.kids = as at h2
    generalize Elem.mk t n at' x bs = b at h2
    clear h1
    induction as generalizing go with
    | nil => simp
    | cons c cs ih =>
      rw [deletedKids] at h2
      obtain ⟨pe, hp, h2⟩ := bind_ok.1 h2
      obtain ⟨r, hr, -⟩ := bind_ok.1 h2
      intro c' hc'
      rcases List.mem_cons.1 hc' with rfl | hc'
      · exact getPeer_single hp
      · exact ih r hr c' hc'

theorem marked_iff {a b d : Elem} {m : Option String} (ha : SchemaTree a) (hb : SchemaTree b)
    (hbare : BareLeafs b) (hcol : m = some "deleted" → NoneCollapsed a b) (hd : IsDiff a b d) {p}
    (hp : p ≠ []) : (∃ n, At d p n ∧ n.get (.other "diff") = m.map AVal.str) ↔ ∃ n0, Found a b p n0 m := by
  constructor
  · rintro ⟨n, hn, hm⟩
    obtain ⟨n0, m', hf, -, hm', -⟩ := found_of_at hp ha hb hd hn
    rw [markOf, hm] at hm'
    have : m = m' := by
      cases m <;> cases m' <;> simp_all
    subst this
    exact ⟨n0, hf⟩
  · rintro ⟨n0, hf⟩
    exact at_of_found hp ha hb hd hbare hcol hf

/-- C33: a node is marked `added` exactly if there is a node at that path in the second tree only. -/
theorem C33_added {a b d : Elem} (ha : SchemaTree a) (hb : SchemaTree b) (hbare : BareLeafs b)
    (h : modelDiff a b = .ok d) {p} (hp : p ≠ []) :
    Marked d p "added" ↔ Has b p ∧ ¬ Has a p := by
  refine (marked_iff (m := some "added") ha hb hbare (by simp) (isDiff_of ha hb h) hp).trans ?_
  constructor
  · rintro ⟨n0, hf⟩
    generalize hm : some "added" = m at hf
    cases hf with
    | added h1 h2 => exact ⟨⟨_, h1⟩, h2⟩
    | _ => simp at hm
  · rintro ⟨⟨n, hn⟩, h2⟩
    exact ⟨n, .added hn h2⟩

/-- C33: a node is marked `deleted` exactly if there is a node at that path in the first tree only. -/
theorem C33_deleted {a b d : Elem} (ha : SchemaTree a) (hb : SchemaTree b) (hbare : BareLeafs b)
    (hcol : NoneCollapsed a b) (h : modelDiff a b = .ok d) {p} (hp : p ≠ []) :
    Marked d p "deleted" ↔ Has a p ∧ ¬ Has b p := by
  refine (marked_iff (m := some "deleted") ha hb hbare (fun _ => hcol) (isDiff_of ha hb h) hp).trans ?_
  constructor
  · rintro ⟨n0, hf⟩
    generalize hm : some "deleted" = m at hf
    cases hf with
    | deleted h1 h2 => exact ⟨⟨_, h1⟩, h2⟩
    | _ => simp at hm
  · rintro ⟨⟨n, hn⟩, h2⟩
    exact ⟨n, .deleted hn h2⟩

/-- C33: a node is marked `modified` exactly if it is a leaf or leaf-list in the second tree, and the node at
that path in the first tree is not the same. -/
theorem C33_modified {a b d : Elem} (ha : SchemaTree a) (hb : SchemaTree b) (hbare : BareLeafs b)
    (hcol : NoneCollapsed a b) (h : modelDiff a b = .ok d) {p} (hp : p ≠ []) :
    Marked d p "modified" ↔ ∃ n n', At a p n ∧ At b p n' ∧ LeafLike n' ∧ ¬ SameNode n n' := by
  refine (marked_iff (m := some "modified") ha hb hbare (by simp) (isDiff_of ha hb h) hp).trans ?_
  constructor
  · rintro ⟨n0, hf⟩
    generalize hm : some "modified" = m at hf
    cases hf with
    | modified h1 h2 h3 h4 =>
      exact ⟨_, _, h2, h1, h4, fun hs =>
        h3 ((equal_of_bare (hcol _ _ _ h2 h1 h4) (hbare _ _ h1 h4)).mpr hs)⟩
    | _ => simp at hm
  · rintro ⟨n, n', h1, h2, h3, h4⟩
    exact ⟨n', .modified h2 h1 (fun hE => h4 hE.1) h3⟩

/-- C33: a node without mark is one that both trees have, that is no leaf, and that differs itself or
somewhere below. -/
theorem C33_unmarked {a b d : Elem} (ha : SchemaTree a) (hb : SchemaTree b) (hbare : BareLeafs b)
    (h : modelDiff a b = .ok d) {p} (hp : p ≠ []) :
    Unmarked d p ↔ ∃ n n', At a p n ∧ At b p n' ∧ ¬ LeafLike n' ∧ ¬ (SameNode n n' ∧ SameBelow n n') := by
  rw [Unmarked]
  refine (marked_iff (m := none) ha hb hbare (by simp) (isDiff_of ha hb h) hp).trans ?_
  constructor
  · rintro ⟨n0, hf⟩
    cases hf with
    | inner h1 h2 h3 h4 => exact ⟨_, _, h2, h1, h4, h3⟩
  · rintro ⟨n, n', h1, h2, h3, h4⟩
    exact ⟨n', .inner h2 h1 h4 h3⟩

/-- C33: there are no other marks. -/
theorem C33_marks {a b d : Elem} (ha : SchemaTree a) (hb : SchemaTree b) (h : modelDiff a b = .ok d)
    {p} (hp : p ≠ []) (hd : Has d p) :
    Unmarked d p ∨ Marked d p "added" ∨ Marked d p "deleted" ∨ Marked d p "modified" := by
  obtain ⟨n, hn⟩ := hd
  obtain ⟨n0, m, hf, -, hm, -⟩ := found_of_at hp ha hb (isDiff_of ha hb h) hn
  cases hf with
  | added _ _ => exact .inr (.inl ⟨n, hn, hm⟩)
  | deleted _ _ => exact .inr (.inr (.inl ⟨n, hn, hm⟩))
  | modified _ _ _ _ => exact .inr (.inr (.inr ⟨n, hn, hm⟩))
  | inner _ _ _ _ => exact .inl ⟨n, hn, hm⟩

/-- C33: `added`, `deleted` and `modified` are `None` exactly if there is no such leaf. -/
theorem C33_view_none {a b d : Elem} (ha : DataTree a) (hb : DataTree b) (hcol : NoneCollapsed a b)
    (h : modelDiff a b = .ok d) (msg : String) : view msg d = none ↔ ∀ p, ¬ LeafChange a b msg p := by
  have hd := isDiff_of ha.schema hb.schema h
  have key : view msg d = none ↔ ¬ (trim msg d).kids ≠ [] := by
    rw [view]
    split
    · rename_i he
      simp [List.isEmpty_iff.mp he]
    · rename_i he
      rw [List.isEmpty_iff] at he
      simp [he]
  rw [key, trim_nonempty]
  constructor
  · intro hno p hp
    obtain ⟨c, hc, q, hq, -⟩ := (kept_iff ha hb hd hcol).mpr hp
    exact hno ⟨c, hc, q, hq⟩
  · rintro hno ⟨c, hc, q, hq⟩
    exact hno _ ((kept_iff ha hb hd hcol).mp ⟨c, hc, q, hq, rfl⟩)

/-- C33: the tree that `added` (`deleted`, `modified`) prints consists of the leafs that are added (deleted,
modified) and of their ancestors. -/
theorem C33_view {a b d v : Elem} (ha : DataTree a) (hb : DataTree b) (hcol : NoneCollapsed a b)
    (h : modelDiff a b = .ok d) {msg : String} (hv : view msg d = some v) {p} (hp : p ≠ []) :
    Has v p ↔ ∃ q, LeafChange a b msg q ∧ p <+: q := by
  have hd := isDiff_of ha.schema hb.schema h
  have hv' : v = trim msg d := by
    rw [view] at hv
    split at hv <;> cases hv
    rfl
  rw [hv', has_trim hp (diff_bare ha hb hd)]
  constructor
  · rintro ⟨c, hc, q, hq, hpre⟩
    exact ⟨_, (kept_iff ha hb hd hcol).mp ⟨c, hc, q, hq, rfl⟩, hpre⟩
  · rintro ⟨q, hq, hpre⟩
    obtain ⟨c, hc, q', hq', rfl⟩ := (kept_iff ha hb hd hcol).mpr hq
    exact ⟨c, hc, q', hq', hpre⟩

/-! ## Concrete trees -/

namespace Demo

mutual
/-- Checks that siblings have different tags, attributes have different names, and that `f` holds for all nodes
below the root. -/
def okTree (f : Elem → Bool) : Elem → Bool
  | .mk _ _ a _ ks => decide ((ks.map Elem.tag).Nodup) && decide ((a.map Prod.fst).Nodup) && okKids f ks
/-- See `okTree`. -/
def okKids (f : Elem → Bool) : List Elem → Bool
  | [] => true
  | k :: ks => f k && okTree f k && okKids f ks
end

/-- A node with a type; leafs have no children. -/
def okNode (k : Elem) : Bool := (typeOf k).isSome && (!(typeOf k).any isLeafType || k.kids.isEmpty)

/-- A leaf or an inner node. -/
def okData (k : Elem) : Bool := okNode k && (isInnerType (typeOf k) || (typeOf k).any isLeafType)

theorem okKids_mem {f} : ∀ {ks : List Elem}, okKids f ks = true → ∀ k ∈ ks, f k = true ∧ okTree f k = true
  | [], _, _, hk => nomatch hk
  | k :: ks, h, k', hk' => by
    rw [okKids, Bool.and_eq_true, Bool.and_eq_true] at h
    cases hk' with
    | head => exact h.1
    | tail _ hk' => exact okKids_mem h.2 k' hk'

theorem okTree_at {f} {e : Elem} (h : okTree f e = true) {p n} (hn : At e p n) :
    okTree f n = true ∧ (p ≠ [] → f n = true) := by
  induction hn with
  | here => exact ⟨h, fun h => absurd rfl h⟩
  | @down e k p n hk hn ih =>
    obtain ⟨t, ns, a, x, ks⟩ := e
    rw [okTree, Bool.and_eq_true, Bool.and_eq_true] at h
    obtain ⟨h1, h2⟩ := okKids_mem h.2 k hk
    refine ⟨(ih h2).1, fun _ => ?_⟩
    by_cases hp : p = []
    · subst hp
      rw [at_nil.mp hn]
      exact h1
    · exact (ih h2).2 hp

theorem leaf_any {e : Elem} : (typeOf e).any isLeafType = true ↔ LeafLike e := by
  cases hv : typeOf e with
  | none =>
    simp only [Option.any_none, Bool.false_eq_true, false_iff]
    rw [typeOf] at hv
    rintro (h | h) <;> rw [h] at hv <;> cases hv
  | some v => exact (leafLike_iff hv).symm

theorem schemaTree_of {f} {e : Elem} (h : okTree f e = true) (hf : ∀ k, f k = true → okNode k = true)
    (hr : (typeOf e).any isLeafType = false) : SchemaTree e ∧ BareLeafs e := by
  have parts : ∀ p n, At e p n → (n.kids.map Elem.tag).Nodup ∧ (n.attrs.map Prod.fst).Nodup := by
    intro p n hn
    have := (okTree_at h hn).1
    obtain ⟨t, ns, a, x, ks⟩ := n
    rw [okTree, Bool.and_eq_true, Bool.and_eq_true] at this
    exact ⟨of_decide_eq_true this.1.1, of_decide_eq_true this.1.2⟩
  have node : ∀ p n, p ≠ [] → At e p n → (typeOf n).isSome = true ∧ (LeafLike n → n.kids = []) := by
    intro p n hp hn
    have := hf _ ((okTree_at h hn).2 hp)
    rw [okNode, Bool.and_eq_true, Bool.or_eq_true, Bool.not_eq_true'] at this
    refine ⟨this.1, fun hl => ?_⟩
    rw [leaf_any.mpr hl] at this
    exact List.isEmpty_iff.mp (this.2.resolve_left (by simp))
  refine ⟨⟨fun p n hn => (parts p n hn).1, fun p n hp hn => ?_, fun p n hn => (parts p n hn).2⟩,
    fun p n hn hl => ?_⟩
  · exact Option.isSome_iff_exists.mp (node p n hp hn).1
  · by_cases hp : p = []
    · subst hp
      obtain rfl := at_nil.mp hn
      rw [leaf_any.mpr hl] at hr
      cases hr
    · exact (node p n hp hn).2 hl

theorem dataTree_of {e : Elem} (h : okTree okData e = true) (hr : (typeOf e).any isLeafType = false) :
    DataTree e := by
  have hs := schemaTree_of h (fun k hk => by rw [okData, Bool.and_eq_true] at hk; exact hk.1) hr
  refine ⟨hs.1, hs.2, fun p n hp hn => ?_⟩
  have := (okTree_at h hn).2 hp
  rw [okData, Bool.and_eq_true, Bool.or_eq_true] at this
  exact this.2.imp innerLike_iff.mpr leaf_any.mp

mutual
/-- Checks `NoneCollapsed`. -/
def okPair (a : Elem) : Elem → Bool
  | .mk t n at' x ks => (!((typeOf (.mk t n at' x ks)).any isLeafType) || a.kids.isEmpty) && okPairs a.kids ks
/-- See `okPair`. -/
def okPairs (qs : List Elem) : List Elem → Bool
  | [] => true
  | c :: cs => okPeer qs c && okPairs qs cs
/-- See `okPair`. -/
def okPeer (qs : List Elem) : Elem → Bool
  | .mk t n at' x ks => qs.all fun q => decide (q.tag ≠ t) ||
      ((!((typeOf (.mk t n at' x ks)).any isLeafType) || q.kids.isEmpty) && okPairs q.kids ks)
end

theorem okPairs_mem {qs : List Elem} : ∀ {cs : List Elem}, okPairs qs cs = true → ∀ c ∈ cs, okPeer qs c = true
  | [], _, _, hc => nomatch hc
  | c :: cs, h, c', hc' => by
    rw [okPairs, Bool.and_eq_true] at h
    cases hc' with
    | head => exact h.1
    | tail _ hc' => exact okPairs_mem h.2 c' hc'

theorem noneCollapsed_of {a b : Elem} (h : okPair a b = true) : NoneCollapsed a b := by
  intro p n n' h1
  induction h1 generalizing b with
  | @here a =>
    intro h2 hl
    obtain rfl := at_nil.mp h2
    obtain ⟨t, ns, at', x, ks⟩ := n'
    rw [okPair, Bool.and_eq_true, Bool.or_eq_true] at h
    rcases h.1 with h | h
    · rcases hl with hl | hl <;> simp [typeOf, hl, isLeafType] at h
    · exact List.isEmpty_iff.mp h
  | @down a q p n hq _ ih =>
    intro h2 hl
    obtain ⟨c, hc, ht, h2⟩ := at_cons.mp h2
    refine ih (b := c) ?_ h2 hl
    obtain ⟨t, ns, at', x, ks⟩ := b
    rw [okPair, Bool.and_eq_true] at h
    have := okPairs_mem h.2 c hc
    obtain ⟨t, ns, at', x, ks⟩ := c
    rw [okPeer, List.all_eq_true] at this
    have := this q hq
    rw [Bool.or_eq_true, decide_eq_true_eq] at this
    have := this.resolve_left (by simpa using ht.symm)
    rw [okPair]
    exact this

/-- A schema node. -/
def sn (name type : String) (more : Attrs) (ks : List Elem) : Elem :=
  .mk ⟨"urn:m", name⟩ [] ((.other "type", .str type) :: more) none ks

/-- A schema tree of the module `m`. -/
def mod (ks : List Elem) : Elem :=
  .mk ⟨"", "m"⟩ [] [(.other "type", .str "module"), (.other "prefix", .str "m")] none ks

/-- First version of a module. -/
def m1 : Elem := mod [
  sn "top" "container" [] [
    sn "a" "leaf" [(.other "datatype", .str "string")] [],
    sn "b" "leaf" [(.other "datatype", .str "string")] [],
    sn "l" "list" [(.key, .str "k")] [sn "k" "leaf" [(.other "datatype", .str "string")] []]]]

/-- Second version: leaf `a` has another type, leaf `b` is gone, container `c` with leaf `d` is new, the order is
different. -/
def m2 : Elem := mod [
  sn "top" "container" [] [
    sn "l" "list" [(.key, .str "k")] [sn "k" "leaf" [(.other "datatype", .str "string")] []],
    sn "c" "container" [] [sn "d" "leaf" [(.other "datatype", .str "string")] []],
    sn "a" "leaf" [(.other "datatype", .str "int8")] []]]

/-- A tag of the module. -/
def q (name : String) : QName := ⟨"urn:m", name⟩

/-- The hypotheses of the theorems are met. -/
theorem trees_ok : DataTree m1 ∧ DataTree m2 ∧ NoneCollapsed m1 m2 :=
  ⟨dataTree_of (by decide +kernel) (by decide +kernel), dataTree_of (by decide +kernel) (by decide +kernel), noneCollapsed_of (by decide +kernel)⟩

/-- The difference of the two versions. -/
def d12 : Elem := .mk ⟨"", "m"⟩ [] [] none [
  sn "top" "container" [] [
    sn "c" "container" [(.other "diff", .str "added")]
      [sn "d" "leaf" [(.other "datatype", .str "string"), (.other "diff", .str "added")] []],
    sn "a" "leaf" [(.other "datatype", .str "int8"), (.other "diff", .str "modified")] [],
    sn "b" "leaf" [(.other "datatype", .str "string"), (.other "diff", .str "deleted")] []]]

theorem diff_m1_m2 : modelDiff m1 m2 = .ok d12 := by decide +kernel

/-- `C33_added` on this difference. -/
example : Marked d12 [q "top", q "c", q "d"] "added" ↔
    Has m2 [q "top", q "c", q "d"] ∧ ¬ Has m1 [q "top", q "c", q "d"] :=
  C33_added trees_ok.1.schema trees_ok.2.1.schema trees_ok.2.1.bare diff_m1_m2 (by simp)

/-- The difference is truthy, so that the trees are not the same (`C33_empty`). -/
example : ¬ SameBelow m1 m2 := by
  rw [← C33_empty trees_ok.1.schema trees_ok.2.1.schema diff_m1_m2]
  decide

/-- What `added` prints. -/
example : view "added" d12 = some (.mk ⟨"", "m"⟩ [] [] none [
    sn "top" "container" [] [
      sn "c" "container" [(.other "diff", .str "added")]
        [sn "d" "leaf" [(.other "datatype", .str "string"), (.other "diff", .str "added")] []]]]) := by
  decide +kernel

/-- Trees that only differ in the order of siblings have no difference. -/
example : ∃ d, modelDiff m1 (mod [sn "top" "container" [] [
      sn "l" "list" [(.key, .str "k")] [sn "k" "leaf" [(.other "datatype", .str "string")] []],
      sn "b" "leaf" [(.other "datatype", .str "string")] [],
      sn "a" "leaf" [(.other "datatype", .str "string")] []]]) = .ok d ∧ truthy d = false :=
  ⟨.mk ⟨"", "m"⟩ [] [] none [], by decide +kernel, rfl⟩

/-- `added` does not show a new container that is empty (for instance one with presence): it is marked, but
`added` is `None`. -/
theorem C33_added_hides_empty_container : ∃ a b d, DataTree a ∧ DataTree b ∧ NoneCollapsed a b ∧
    modelDiff a b = .ok d ∧ Marked d [q "p"] "added" ∧ view "added" d = none := by
  refine ⟨mod [], mod [sn "p" "container" [(.other "presence", .str "true")] []],
    .mk ⟨"", "m"⟩ [] [] none
      [sn "p" "container" [(.other "presence", .str "true"), (.other "diff", .str "added")] []],
    dataTree_of (by decide +kernel) (by decide +kernel), dataTree_of (by decide +kernel) (by decide +kernel), noneCollapsed_of (by decide +kernel),
    by decide +kernel, ⟨_, at_cons.mpr ⟨_, .head _, rfl, .here⟩, rfl⟩, by decide +kernel⟩

/-- A container whose own properties change makes the difference truthy, but nothing is marked, and `added`,
`deleted` and `modified` are all `None`. -/
theorem C33_changed_container_unmarked : ∃ a b d, DataTree a ∧ DataTree b ∧ NoneCollapsed a b ∧
    modelDiff a b = .ok d ∧ truthy d = true ∧ Unmarked d [q "p"] ∧
    view "added" d = none ∧ view "deleted" d = none ∧ view "modified" d = none := by
  refine ⟨mod [sn "p" "container" [] []], mod [sn "p" "container" [(.other "presence", .str "true")] []],
    .mk ⟨"", "m"⟩ [] [] none [sn "p" "container" [(.other "presence", .str "true")] []],
    dataTree_of (by decide +kernel) (by decide +kernel), dataTree_of (by decide +kernel) (by decide +kernel), noneCollapsed_of (by decide +kernel),
    by decide +kernel, rfl, ⟨_, at_cons.mpr ⟨_, .head _, rfl, .here⟩, rfl⟩, by decide +kernel,
    by decide +kernel, by decide +kernel⟩

/-- If a container becomes a leaf, the nodes that were below it are not marked as deleted. -/
theorem C33_collapsed_not_deleted : ∃ a b d, DataTree a ∧ DataTree b ∧ modelDiff a b = .ok d ∧
    Has a [q "p", q "x"] ∧ ¬ Has b [q "p", q "x"] ∧ ¬ Marked d [q "p", q "x"] "deleted" := by
  refine ⟨mod [sn "p" "container" [] [sn "x" "leaf" [] []]], mod [sn "p" "leaf" [] []],
    .mk ⟨"", "m"⟩ [] [] none [sn "p" "leaf" [(.other "diff", .str "modified")] []],
    dataTree_of (by decide +kernel) (by decide +kernel), dataTree_of (by decide +kernel) (by decide +kernel), by decide +kernel,
    ⟨_, at_cons.mpr ⟨_, .head _, rfl, at_cons.mpr ⟨_, .head _, rfl, .here⟩⟩⟩, ?_, ?_⟩
  · rw [has_cons]
    rintro ⟨k, hk, -, h⟩
    rw [show k = sn "p" "leaf" [] [] by simpa [mod] using hk, has_bare rfl] at h
    cases h
  · rintro ⟨n, h, -⟩
    obtain ⟨k, hk, -, h⟩ := at_cons.mp h
    rw [show k = sn "p" "leaf" [(.other "diff", .str "modified")] [] by simpa using hk] at h
    exact absurd ((has_bare rfl).mp ⟨n, h⟩) (by simp)

/-- Inside of an operation, `added` shows what is deleted. -/
theorem C33_added_shows_deleted_in_rpc : ∃ a b d v, SchemaTree a ∧ SchemaTree b ∧ BareLeafs b ∧
    NoneCollapsed a b ∧ modelDiff a b = .ok d ∧ view "added" d = some v ∧
    Marked v [q "r", q "input", q "x"] "deleted" := by
  refine ⟨mod [sn "r" "rpc" [] [sn "input" "input" [] [sn "x" "leaf" [] []]]],
    mod [sn "r" "rpc" [] [sn "input" "input" [] []]],
    .mk ⟨"", "m"⟩ [] [] none [sn "r" "rpc" [] [sn "input" "input" [] [
      sn "x" "leaf" [(.other "diff", .str "deleted")] []]]],
    .mk ⟨"", "m"⟩ [] [] none [sn "r" "rpc" [] [sn "input" "input" [] [
      sn "x" "leaf" [(.other "diff", .str "deleted")] []]]],
    (schemaTree_of (f := okNode) (by decide +kernel) (fun _ h => h) (by decide +kernel)).1,
    (schemaTree_of (f := okNode) (by decide +kernel) (fun _ h => h) (by decide +kernel)).1,
    (schemaTree_of (f := okNode) (by decide +kernel) (fun _ h => h) (by decide +kernel)).2,
    noneCollapsed_of (by decide +kernel), by decide +kernel, by decide +kernel,
    ⟨_, at_cons.mpr ⟨_, .head _, rfl, at_cons.mpr ⟨_, .head _, rfl, at_cons.mpr ⟨_, .head _, rfl, .here⟩⟩⟩, rfl⟩⟩

/-- An ambiguous pair of trees. -/
example : modelDiff (mod [sn "x" "leaf" [] [], sn "x" "leaf-list" [] []]) (mod [sn "x" "leaf" [] []]) = .error .modelError := by
  decide +kernel

/-- The hypothesis of `C33_ambiguous` is met by the trees above. -/
example : ∀ c ∈ m2.kids, (m1.kids.filter fun k => k.tag = c.tag).length ≤ 1 := (C33_ambiguous diff_m1_m2).1

end Demo

end NcDiff.ModelDiff
