import Verif.Proof.ModelDiff
/-!
# Marks in a tree of differences
-/

namespace NcDiff.ModelDiff

/-! ## Attributes of copies -/

theorem lookup_filter {p : AName × AVal → Bool} {n : AName} {keep : Bool} (a : Attrs)
    (h : ∀ v, p (n, v) = keep) : (a.filter p).lookup n = if keep then a.lookup n else none := by
  induction a with
  | nil => simp
  | cons x a ih =>
    obtain ⟨m, w⟩ := x
    by_cases hm : n = m
    · subst hm
      have hp := h w
      cases keep with
      | true => rw [List.filter_cons_of_pos hp]; simp
      | false => rw [List.filter_cons_of_neg (by simp [hp]), ih]; simp
    · have hb : (n == m) = false := by simpa using hm
      by_cases hp : p (m, w) = true
      · rw [List.filter_cons_of_pos hp, List.lookup_cons, hb, ih, List.lookup_cons, hb]
      · rw [List.filter_cons_of_neg hp, ih, List.lookup_cons, hb]

theorem lookup_setA_same (n : AName) (v : AVal) : ∀ a : Attrs, (Elem.setA n v a).lookup n = some v
  | [] => by simp [Elem.setA]
  | (m, w) :: a => by
    rw [Elem.setA]
    split
    · simp
    · rename_i h
      rw [List.lookup_cons]
      have : (n == m) = false := by simpa using fun e => h e.symm
      rw [this]
      exact lookup_setA_same n v a

theorem lookup_setA_other {n m : AName} (v : AVal) (h : m ≠ n) : ∀ a : Attrs,
    (Elem.setA n v a).lookup m = a.lookup m
  | [] => by simp [Elem.setA, h]
  | (k, w) :: a => by
    have hb : (m == n) = false := by simpa using h
    rw [Elem.setA]
    split
    · rename_i hk
      subst hk
      simp [List.lookup_cons, hb]
    · rw [List.lookup_cons, List.lookup_cons, lookup_setA_other v h a]

theorem diff_processAttrs (msg : String) (a : Attrs) :
    (processAttrs msg a).lookup (.other "diff") = if msg = "" then none else some (.str msg) := by
  rw [processAttrs]
  split
  · rw [lookup_filter (keep := false) a fun _ => rfl]
    simp
  · exact lookup_setA_same _ _ _

theorem type_processAttrs (msg : String) (a : Attrs) :
    (processAttrs msg a).lookup (.other "type") = a.lookup (.other "type") := by
  have key : (a.filter fun p => knownAttrib.contains p.1).lookup (.other "type") =
      a.lookup (.other "type") := by
    rw [lookup_filter (keep := true) a fun _ => rfl]
    simp
  rw [processAttrs]
  split
  · exact key
  · rw [lookup_setA_other _ (by decide), key]

theorem attrs_processAttrib (msg : String) (e : Elem) :
    (processAttrib msg e).attrs = processAttrs msg e.attrs := by
  cases e; rfl

theorem diff_processAttrib {msg : String} (h : msg ≠ "") (e : Elem) :
    (processAttrib msg e).get (.other "diff") = some (.str msg) := by
  rw [Elem.get, attrs_processAttrib, diff_processAttrs, if_neg h]

theorem type_processAttrib (msg : String) (e : Elem) :
    (processAttrib msg e).get (.other "type") = e.get (.other "type") := by
  rw [Elem.get, attrs_processAttrib, type_processAttrs, Elem.get]

theorem diff_copyNode (e : Elem) (msg : String) (ks : List Elem) :
    (copyNode e msg ks).get (.other "diff") = if msg = "" then none else some (.str msg) :=
  diff_processAttrs msg e.attrs

theorem type_copyNode (e : Elem) (msg : String) (ks : List Elem) :
    (copyNode e msg ks).get (.other "type") = e.get (.other "type") :=
  type_processAttrs msg e.attrs

/-! ## Nodes of copies -/

theorem at_processAttrib {msg : String} {p} : ∀ {e n : Elem}, At (processAttrib msg e) p n ↔
    ∃ n0, At e p n0 ∧ n = processAttrib msg n0 := by
  induction p with
  | nil =>
    intro e n
    rw [at_nil]
    constructor
    · rintro rfl; exact ⟨e, .here, rfl⟩
    · rintro ⟨n0, h, rfl⟩; rw [at_nil.mp h]
  | cons t p ih =>
    intro e n
    rw [at_cons, kids_processAttrib]
    constructor
    · rintro ⟨k, hk, ht, h⟩
      obtain ⟨k0, hk0, rfl⟩ := List.mem_map.mp hk
      obtain ⟨n0, h0, rfl⟩ := ih.mp h
      rw [tag_processAttrib] at ht
      exact ⟨n0, at_cons.mpr ⟨k0, hk0, ht, h0⟩, rfl⟩
    · rintro ⟨n0, h, rfl⟩
      obtain ⟨k0, hk0, ht, h0⟩ := at_cons.mp h
      exact ⟨_, List.mem_map_of_mem hk0, by rw [tag_processAttrib, ht], ih.mpr ⟨n0, h0, rfl⟩⟩

/-- What is found in a tree of differences: a node that is copied from one of the trees, with a mark. -/
inductive Found (a b : Elem) (p : List QName) : Elem → Option String → Prop where
  | added {n} : At b p n → ¬ Has a p → Found a b p n (some "added")
  | deleted {n} : At a p n → ¬ Has b p → Found a b p n (some "deleted")
  | modified {n m} : At b p n → At a p m → ¬ Equal m n → LeafLike n → Found a b p n (some "modified")
  | inner {n m} : At b p n → At a p m → ¬ Equal m n → ¬ LeafLike n → Found a b p n none

/-- The children of `d` are those that `compare_nodes` finds for `a` and `b`. -/
def IsDiff (a b d : Elem) : Prop := ∀ k, k ∈ d.kids ↔ Child a b k

/-- The mark of a node in a tree of differences. -/
def markOf (n : Elem) : Option AVal := n.get (.other "diff")

theorem isDiff_inner {q c : Elem} {sub} (hq : SchemaTree q) (hc : SchemaTree c)
    (h : compareNodes q c = .ok sub) : IsDiff q c (copyNode c "" sub) := by
  obtain ⟨ks, hks, hi⟩ := compareNodes_spec c q hq hc
  rw [h] at hks
  cases hks
  exact hi

/-- Paths of equal trees agree. -/
theorem Equal.has {q c : Elem} (h : Equal q c) {p} : Has q p ↔ Has c p := by
  by_cases hp : p = []
  · subst hp
    simp [has_nil]
  · constructor
    · rintro ⟨n, hn⟩
      obtain ⟨n', h', -⟩ := h.2.1 p n hp hn
      exact ⟨n', h'⟩
    · rintro ⟨n, hn⟩
      obtain ⟨n', h', -⟩ := h.2.2 p n hp hn
      exact ⟨n', h'⟩

theorem not_has_of_no_kid {a : Elem} {t p} (h : ∀ q ∈ a.kids, q.tag ≠ t) : ¬ Has a (t :: p) := by
  rw [has_cons]
  rintro ⟨k, hk, ht, -⟩
  exact h k hk ht

theorem SchemaTree.has_kid {a q : Elem} (ha : SchemaTree a) (hq : q ∈ a.kids) {p} :
    Has a (q.tag :: p) ↔ Has q p := by
  rw [has_cons]
  constructor
  · rintro ⟨k, hk, ht, h⟩
    obtain rfl := ha.kid_unique hk hq ht
    exact h
  · exact fun h => ⟨q, hq, rfl, h⟩

theorem SchemaTree.at_kid {a q n : Elem} (ha : SchemaTree a) (hq : q ∈ a.kids) {p} :
    At a (q.tag :: p) n ↔ At q p n := by
  rw [at_cons]
  constructor
  · rintro ⟨k, hk, ht, h⟩
    obtain rfl := ha.kid_unique hk hq ht
    exact h
  · exact fun h => ⟨q, hq, rfl, h⟩

/-- Every node in a tree of differences is explained. -/
theorem found_of_at {p} : ∀ {a b d n : Elem}, p ≠ [] → SchemaTree a → SchemaTree b → IsDiff a b d →
    At d p n → ∃ n0 m, Found a b p n0 m ∧ n.tag = n0.tag ∧ markOf n = m.map AVal.str ∧
      n.get (.other "type") = n0.get (.other "type") ∧ (n0.kids = [] → m ≠ none → n.kids = []) := by
  induction p with
  | nil => intro a b d n h; exact absurd rfl h
  | cons t p ih =>
    intro a b d n _ ha hb hd hat
    obtain ⟨k, hk, rfl, hn⟩ := at_cons.mp hat
    clear hat
    cases (hd k).mp hk with
    | @added c hc hnone =>
      rw [tag_processAttrib]
      obtain ⟨n0, h0, rfl⟩ := at_processAttrib.mp hn
      exact ⟨n0, _, .added (.down hc h0) (not_has_of_no_kid hnone), tag_processAttrib _ _,
        diff_processAttrib (by decide) _, type_processAttrib _ _,
        fun h _ => by rw [kids_processAttrib, h]; rfl⟩
    | @deleted c hc hnone =>
      rw [tag_processAttrib]
      obtain ⟨n0, h0, rfl⟩ := at_processAttrib.mp hn
      exact ⟨n0, _, .deleted (.down hc h0) (not_has_of_no_kid hnone), tag_processAttrib _ _,
        diff_processAttrib (by decide) _, type_processAttrib _ _,
        fun h _ => by rw [kids_processAttrib, h]; rfl⟩
    | @modified c q hc hq ht hE hl =>
      cases p with
      | cons t p => obtain ⟨k, hk, -⟩ := at_cons.mp hn; cases hk
      | nil =>
        obtain rfl := at_nil.mp hn
        exact ⟨c, _, .modified (show At b [c.tag] c from .down hc .here) (show At a [c.tag] q from ht ▸ .down hq .here) hE hl, rfl,
          diff_copyNode c _ _, type_copyNode c _ _, fun _ _ => rfl⟩
    | @inner c q sub hc hq ht hE hl hs =>
      have hsub := isDiff_inner (ha.kid hq) (hb.kid hc) hs
      cases p with
      | nil =>
        obtain rfl := at_nil.mp hn
        exact ⟨c, _, .inner (show At b [c.tag] c from .down hc .here) (show At a [c.tag] q from ht ▸ .down hq .here) hE hl, rfl,
          diff_copyNode c _ _, type_copyNode c _ _, fun _ h => absurd rfl h⟩
      | cons t p =>
        obtain ⟨n0, m, hf, h⟩ := ih (by simp) (ha.kid hq) (hb.kid hc) hsub hn
        refine ⟨n0, m, ?_, h⟩
        show Found a b (c.tag :: t :: p) n0 m
        cases hf with
        | added h1 h2 => exact .added (.down hc h1) (by rw [← ht, ha.has_kid hq]; exact h2)
        | deleted h1 h2 =>
          exact .deleted (ht ▸ .down hq h1) (by rw [hb.has_kid hc]; exact h2)
        | modified h1 h2 h3 h4 => exact .modified (.down hc h1) (ht ▸ .down hq h2) h3 h4
        | inner h1 h2 h3 h4 => exact .inner (.down hc h1) (ht ▸ .down hq h2) h3 h4

theorem Equal.at {q c : Elem} (hq : SchemaTree q) (hc : SchemaTree c) (h : Equal q c) {p m n}
    (h1 : At q p m) (h2 : At c p n) : Equal m n := by
  have key : ∀ {x y : Elem}, SchemaTree y → Less x y → ∀ {m n}, At x p m → At y p n → Less m n := by
    intro x y hy hl m n h1 h2 r l hr
    have app : ∀ {e m l : Elem} {p r}, At e p m → At m r l → At e (p ++ r) l := by
      intro e m l p r h
      induction h with
      | here => exact id
      | down hk _ ih => exact fun h => .down hk (ih h)
    obtain ⟨l', h', e⟩ := hl _ _ (app h1 hr)
    have split : ∀ {e : Elem} {p}, At e (p ++ r) l' → ∃ m, At e p m ∧ At m r l' := by
      intro e p
      induction p generalizing e with
      | nil => exact fun h => ⟨e, .here, h⟩
      | cons t p ih =>
        intro h
        rw [List.cons_append] at h
        obtain ⟨k, hk, rfl, h'⟩ := at_cons.mp h
        obtain ⟨m, h1, h2⟩ := ih h'
        exact ⟨m, .down hk h1, h2⟩
    obtain ⟨n', hn', h''⟩ := split h'
    obtain rfl := hy.at_unique h2 hn'
    exact ⟨l', h'', e⟩
  have sub : ∀ {e n : Elem} {p}, SchemaTree e → At e p n → SchemaTree n := by
    intro e n p he h
    induction h with
    | here => exact he
    | down hk _ ih => exact ih (he.kid hk)
  obtain ⟨l1, l2⟩ := (equal_iff hq hc).mp h
  exact (equal_iff (sub hq h1) (sub hc h2)).mpr ⟨key hc l1 h1 h2, key hq l2 h2 h1⟩

/-- Everything that can be found is in the tree of differences. -/
theorem at_of_found {p} : ∀ {a b d n0 : Elem} {m}, p ≠ [] → SchemaTree a → SchemaTree b → IsDiff a b d →
    BareLeafs b → (m = some "deleted" → NoneCollapsed a b) → Found a b p n0 m → ∃ n, At d p n ∧ markOf n = m.map AVal.str := by
  induction p with
  | nil => intro a b d n0 m h; exact absurd rfl h
  | cons t p ih =>
    intro a b d n0 m _ ha hb hd hbare hcol hf
    -- a node of `b` with a peer
    have both : ∀ {c q}, c ∈ b.kids → q ∈ a.kids → c.tag = t → q.tag = t → ¬ Equal q c →
        (p = [] → ∃ n, At d (t :: p) n ∧ (LeafLike c → markOf n = some (.str "modified")) ∧
          (¬ LeafLike c → markOf n = none)) ∧
        (p ≠ [] → (LeafLike c → False) → Found q c p n0 m → ∃ n, At d (t :: p) n ∧ markOf n = m.map AVal.str) := by
      intro c q hc hq htc htq hE
      obtain ⟨sub, hs, -⟩ := compareNodes_spec c q (ha.kid hq) (hb.kid hc)
      constructor
      · rintro rfl
        by_cases hl : LeafLike c
        · refine ⟨copyNode c "modified" [], ?_, fun _ => diff_copyNode c _ _, fun h => absurd hl h⟩
          exact at_cons.mpr ⟨_, (hd _).mpr (.modified hc hq (htq.trans htc.symm) hE hl), htc, .here⟩
        · refine ⟨copyNode c "" sub, ?_, fun h => absurd h hl, fun _ => diff_copyNode c _ _⟩
          exact at_cons.mpr ⟨_, (hd _).mpr (.inner hc hq (htq.trans htc.symm) hE hl hs), htc, .here⟩
      · intro hp hl hf
        obtain ⟨n, hn, hm⟩ := ih hp (ha.kid hq) (hb.kid hc) (isDiff_inner (ha.kid hq) (hb.kid hc) hs)
          (hbare.kid hc) (fun h => (hcol h).kid hq hc (htq.trans htc.symm)) hf
        exact ⟨n, at_cons.mpr ⟨_, (hd _).mpr (.inner hc hq (htq.trans htc.symm) hE hl hs), htc, hn⟩, hm⟩
    cases hf with
    | added h1 h2 =>
      obtain ⟨c, hc, htc, h1⟩ := at_cons.mp h1
      rcases Classical.em (∃ q ∈ a.kids, q.tag = t) with ⟨q, hq, htq⟩ | hnone
      · have hnq : ¬ Has q p := by rw [← ha.has_kid hq, htq]; exact h2
        have hp : p ≠ [] := by rintro rfl; exact hnq (has_nil q)
        refine (both hc hq htc htq fun hE => hnq (hE.has.mpr ⟨_, h1⟩)).2 hp (fun hl => ?_) (.added h1 hnq)
        have := hbare _ _ (.down hc .here) hl
        exact hp ((has_bare this).mp ⟨_, h1⟩)
      · have hno : ∀ q ∈ a.kids, q.tag ≠ c.tag := fun q hq h => hnone ⟨q, hq, h.trans htc⟩
        refine ⟨processAttrib "added" n0, ?_, diff_processAttrib (by decide) _⟩
        exact at_cons.mpr ⟨_, (hd _).mpr (.added hc hno), by rw [tag_processAttrib, htc],
          at_processAttrib.mpr ⟨n0, h1, rfl⟩⟩
    | deleted h1 h2 =>
      obtain ⟨q, hq, htq, h1⟩ := at_cons.mp h1
      rcases Classical.em (∃ c ∈ b.kids, c.tag = t) with ⟨c, hc, htc⟩ | hnone
      · have hnc : ¬ Has c p := by rw [← hb.has_kid hc, htc]; exact h2
        have hp : p ≠ [] := by rintro rfl; exact hnc (has_nil c)
        refine (both hc hq htc htq fun hE => hnc (hE.has.mp ⟨_, h1⟩)).2 hp (fun hl => ?_) (.deleted h1 hnc)
        have := (hcol rfl).kid hq hc (htq.trans htc.symm) _ _ _ .here .here hl
        exact hp ((has_bare this).mp ⟨_, h1⟩)
      · have hno : ∀ c ∈ b.kids, c.tag ≠ q.tag := fun c hc h => hnone ⟨c, hc, h.trans htq⟩
        refine ⟨processAttrib "deleted" n0, ?_, diff_processAttrib (by decide) _⟩
        exact at_cons.mpr ⟨_, (hd _).mpr (.deleted hq hno), by rw [tag_processAttrib, htq],
          at_processAttrib.mpr ⟨n0, h1, rfl⟩⟩
    | modified h1 h2 h3 h4 =>
      obtain ⟨c, hc, htc, h1⟩ := at_cons.mp h1
      obtain ⟨q, hq, htq, h2⟩ := at_cons.mp h2
      have hE : ¬ Equal q c := fun hE => h3 (hE.at (ha.kid hq) (hb.kid hc) h2 h1)
      by_cases hp : p = []
      · obtain ⟨n, hn, hm⟩ := (both hc hq htc htq hE).1 hp
        subst hp
        obtain rfl := at_nil.mp h1
        exact ⟨n, hn, hm.1 h4⟩
      · refine (both hc hq htc htq hE).2 hp (fun hl => ?_) (.modified h1 h2 h3 h4)
        exact hp ((has_bare (hbare _ _ (.down hc .here) hl)).mp ⟨_, h1⟩)
    | inner h1 h2 h3 h4 =>
      obtain ⟨c, hc, htc, h1⟩ := at_cons.mp h1
      obtain ⟨q, hq, htq, h2⟩ := at_cons.mp h2
      have hE : ¬ Equal q c := fun hE => h3 (hE.at (ha.kid hq) (hb.kid hc) h2 h1)
      by_cases hp : p = []
      · obtain ⟨n, hn, hm⟩ := (both hc hq htc htq hE).1 hp
        subst hp
        obtain rfl := at_nil.mp h1
        exact ⟨n, hn, hm.2 h4⟩
      · refine (both hc hq htc htq hE).2 hp (fun hl => ?_) (.inner h1 h2 h3 h4)
        exact hp ((has_bare (hbare _ _ (.down hc .here) hl)).mp ⟨_, h1⟩)

end NcDiff.ModelDiff
