import Mathlib.Data.List.Nodup
import Verif.Model.ModelDiff
import Verif.Spec.ModelDiff
import Verif.Proof.Tree
/-!
# Comparison of schema trees, level by level
-/

namespace NcDiff.ModelDiff

/-! ## Paths -/

theorem at_nil {e n : Elem} : At e [] n ↔ n = e :=
  ⟨fun h => by cases h; rfl, fun h => h ▸ .here⟩

theorem at_cons {e n : Elem} {t p} : At e (t :: p) n ↔ ∃ k ∈ e.kids, k.tag = t ∧ At k p n := by
  constructor
  · intro h
    cases h with
    | down hk h => exact ⟨_, hk, rfl, h⟩
  · rintro ⟨k, hk, rfl, h⟩
    exact .down hk h

theorem has_nil (e : Elem) : Has e [] := ⟨e, .here⟩

theorem has_cons {e : Elem} {t p} : Has e (t :: p) ↔ ∃ k ∈ e.kids, k.tag = t ∧ Has k p := by
  constructor
  · rintro ⟨n, h⟩
    obtain ⟨k, hk, ht, h⟩ := at_cons.mp h
    exact ⟨k, hk, ht, n, h⟩
  · rintro ⟨k, hk, ht, n, h⟩
    exact ⟨n, at_cons.mpr ⟨k, hk, ht, h⟩⟩

theorem has_bare {e : Elem} (h : e.kids = []) {p} : Has e p ↔ p = [] := by
  cases p with
  | nil => simp [has_nil]
  | cons t p => rw [has_cons, h]; simp

theorem SchemaTree.kid {e k : Elem} (h : SchemaTree e) (hk : k ∈ e.kids) : SchemaTree k :=
  ⟨fun _ _ ha => h.tags _ _ (.down hk ha), fun _ _ _ ha => h.typed _ _ (by simp) (.down hk ha),
    fun _ _ ha => h.dict _ _ (.down hk ha)⟩

theorem BareLeafs.kid {e k : Elem} (h : BareLeafs e) (hk : k ∈ e.kids) : BareLeafs k :=
  fun _ _ ha => h _ _ (.down hk ha)

theorem NoneCollapsed.kid {a b q c : Elem} (h : NoneCollapsed a b) (hq : q ∈ a.kids) (hc : c ∈ b.kids)
    (ht : q.tag = c.tag) : NoneCollapsed q c :=
  fun _ _ _ h1 h2 => h _ _ _ (.down hq h1) (ht ▸ .down hc h2)

theorem SchemaTree.kid_unique {e k k' : Elem} (h : SchemaTree e) (hk : k ∈ e.kids) (hk' : k' ∈ e.kids)
    (ht : k.tag = k'.tag) : k = k' :=
  List.inj_on_of_nodup_map (h.tags _ _ .here) hk hk' ht

theorem SchemaTree.at_unique {p} : ∀ {e n n' : Elem}, SchemaTree e → At e p n → At e p n' → n = n' := by
  induction p with
  | nil =>
    intro e n n' _ h h'
    rw [at_nil.mp h, at_nil.mp h']
  | cons t p ih =>
    intro e n n' hs h h'
    obtain ⟨k, hk, ht, h⟩ := at_cons.mp h
    obtain ⟨k', hk', ht', h'⟩ := at_cons.mp h'
    obtain rfl := hs.kid_unique hk hk' (ht.trans ht'.symm)
    exact ih (hs.kid hk) h h'

/-! ## Peers -/

theorem filter_tag {ks : List Elem} (h : (ks.map Elem.tag).Nodup) (t : QName) :
    (ks.filter (fun k => k.tag = t) = [] ∧ ∀ k ∈ ks, k.tag ≠ t) ∨
      ∃ p ∈ ks, p.tag = t ∧ ks.filter (fun k => k.tag = t) = [p] := by
  induction ks with
  | nil => exact .inl ⟨rfl, by simp⟩
  | cons k ks ih =>
    rw [List.map_cons, List.nodup_cons] at h
    by_cases hk : k.tag = t
    · refine .inr ⟨k, .head _, hk, ?_⟩
      rw [List.filter_cons_of_pos (by simpa using hk)]
      congr 1
      rw [List.filter_eq_nil_iff]
      intro k' hk' e
      exact h.1 (List.mem_map.mpr ⟨k', hk', (of_decide_eq_true e).trans hk.symm⟩)
    · rw [List.filter_cons_of_neg (by simpa using hk)]
      rcases ih h.2 with ⟨he, hne⟩ | ⟨p, hp, ht, he⟩
      · exact .inl ⟨he, by rintro k' (_ | ⟨_, hk'⟩); exacts [hk, hne _ hk']⟩
      · exact .inr ⟨p, .tail _ hp, ht, he⟩

theorem childrenWith_cases {e : Elem} (h : SchemaTree e) (t : QName) :
    (e.childrenWith t = [] ∧ ∀ k ∈ e.kids, k.tag ≠ t) ∨
      ∃ p ∈ e.kids, p.tag = t ∧ e.childrenWith t = [p] :=
  filter_tag (h.tags _ _ .here) t

theorem getPeer_cases {e : Elem} (h : SchemaTree e) (t : QName) :
    (getPeer t e = .ok none ∧ ∀ k ∈ e.kids, k.tag ≠ t) ∨
      ∃ p ∈ e.kids, p.tag = t ∧ getPeer t e = .ok (some p) := by
  rcases childrenWith_cases h t with ⟨he, hn⟩ | ⟨p, hp, ht, he⟩
  · exact .inl ⟨by rw [getPeer, he], hn⟩
  · exact .inr ⟨p, hp, ht, by rw [getPeer, he]⟩

/-! ## Equality of nodes -/

/-- What `node_less` decides. -/
def Less (a b : Elem) : Prop :=
  ∀ p n, At a p n → ∃ n', At b p n' ∧ n.tag = n'.tag ∧ n.text = n'.text ∧
    attrsLess n.attrs n'.attrs = true

theorem less_iff {a b : Elem} (hb : SchemaTree b) : Less a b ↔
    a.tag = b.tag ∧ a.text = b.text ∧ attrsLess a.attrs b.attrs = true ∧
      ∀ k ∈ a.kids, ∃ k' ∈ b.kids, k'.tag = k.tag ∧ Less k k' := by
  constructor
  · intro h
    obtain ⟨n', h', e1, e2, e3⟩ := h [] a .here
    rw [at_nil.mp h'] at e1 e2 e3
    refine ⟨e1, e2, e3, fun k hk => ?_⟩
    obtain ⟨n', h', -⟩ := h [k.tag] k (.down hk .here)
    obtain ⟨k', hk', ht, -⟩ := at_cons.mp h'
    refine ⟨k', hk', ht, fun p n hn => ?_⟩
    obtain ⟨n', h', e⟩ := h _ n (.down hk hn)
    obtain ⟨k'', hk'', ht', h'⟩ := at_cons.mp h'
    obtain rfl := hb.kid_unique hk' hk'' (ht.trans ht'.symm)
    exact ⟨n', h', e⟩
  · rintro ⟨e1, e2, e3, h⟩ p n hn
    cases hn with
    | here => exact ⟨b, .here, e1, e2, e3⟩
    | down hk hn =>
      obtain ⟨k', hk', ht, hl⟩ := h _ hk
      obtain ⟨n', h', e⟩ := hl _ _ hn
      exact ⟨n', ht ▸ .down hk' h', e⟩

theorem nodeLess_spec (a : Elem) : ∀ b, SchemaTree b →
    ∃ r, nodeLess a b = .ok r ∧ (r = true ↔ Less a b) := by
  induction a using Elem.ind with
  | h t n at' x ks ih =>
    intro b hb
    have kidsOk : ∀ l : List Elem, (∀ k ∈ l, k ∈ ks) → ∃ r, nodeLessKids l b = .ok r ∧
        (r = true ↔ ∀ k ∈ l, ∃ k' ∈ b.kids, k'.tag = k.tag ∧ Less k k') := by
      intro l
      induction l with
      | nil => intro _; exact ⟨true, rfl, by simp⟩
      | cons k l ihl =>
        intro hl
        rw [nodeLessKids]
        rcases childrenWith_cases hb k.tag with ⟨he, hne⟩ | ⟨p, hp, ht, he⟩
        · refine ⟨false, by rw [he], ?_⟩
          simp only [Bool.false_eq_true, false_iff]
          intro h
          obtain ⟨k', hk', ht, -⟩ := h k (.head _)
          exact hne k' hk' ht
        · rw [he]
          obtain ⟨r, hr, hiff⟩ := ih k (hl _ (.head _)) p (hb.kid hp)
          obtain ⟨r', hr', hiff'⟩ := ihl fun k hk => hl _ (.tail _ hk)
          have key : (∃ k' ∈ b.kids, k'.tag = k.tag ∧ Less k k') ↔ Less k p := by
            constructor
            · rintro ⟨k', hk', ht', h⟩
              obtain rfl := hb.kid_unique hk' hp (ht'.trans ht.symm)
              exact h
            · exact fun h => ⟨p, hp, ht, h⟩
          simp only [hr, bind, Except.bind]
          cases r with
          | true =>
            refine ⟨r', by simpa using hr', ?_⟩
            rw [hiff', List.forall_mem_cons, key, ← hiff]
            simp
          | false =>
            refine ⟨false, by simp, ?_⟩
            rw [List.forall_mem_cons, key, ← hiff]
            simp
    rw [nodeLess, less_iff hb]
    obtain ⟨r, hr, hiff⟩ := kidsOk ks fun _ h => h
    simp only [Elem.tag_mk, Elem.text_mk, Elem.attrs_mk, Elem.kids_mk]
    by_cases h1 : t ≠ b.tag ∨ x ≠ b.text
    · refine ⟨false, by rw [if_pos h1], ?_⟩
      simp only [Bool.false_eq_true, false_iff]
      rintro ⟨e1, e2, -⟩
      rcases h1 with h1 | h1
      exacts [h1 e1, h1 e2]
    · rw [if_neg h1]
      rw [not_or, not_not, not_not] at h1
      by_cases h2 : attrsLess at' b.attrs = true
      · refine ⟨r, by rw [if_pos h2, hr], ?_⟩
        rw [hiff]
        simp [h1.1, h1.2, h2]
      · refine ⟨false, by rw [if_neg h2], ?_⟩
        simp [h2]

theorem lookup_mem {α β : Type} [BEq α] [LawfulBEq α] {l : List (α × β)} {a : α} {v : β}
    (h : l.lookup a = some v) : (a, v) ∈ l := by
  induction l with
  | nil => simp at h
  | cons x l ih =>
    obtain ⟨b, w⟩ := x
    by_cases hb : a == b
    · rw [List.lookup_cons, hb] at h
      cases h
      rw [eq_of_beq hb]
      exact .head _
    · rw [List.lookup_cons, Bool.eq_false_iff.mpr hb] at h
      exact .tail _ (ih h)

theorem mem_lookup {α β : Type} [BEq α] [LawfulBEq α] {l : List (α × β)} {a : α} {v : β}
    (hn : (l.map Prod.fst).Nodup) (h : (a, v) ∈ l) : l.lookup a = some v := by
  induction l with
  | nil => simp at h
  | cons x l ih =>
    obtain ⟨b, w⟩ := x
    rw [List.map_cons, List.nodup_cons] at hn
    cases h with
    | head => rw [List.lookup_cons, beq_self_eq_true]
    | tail _ h =>
      have : ¬ (a == b) = true := by
        intro e
        exact hn.1 (List.mem_map.mpr ⟨_, h, eq_of_beq e⟩)
      rw [List.lookup_cons, Bool.eq_false_iff.mpr this]
      exact ih hn.2 h

theorem sameAttrs_iff {a b : Elem} (ha : (a.attrs.map Prod.fst).Nodup)
    (hb : (b.attrs.map Prod.fst).Nodup) :
    SameAttrs a b ↔ attrsLess a.attrs b.attrs = true ∧ attrsLess b.attrs a.attrs = true := by
  have key : ∀ {x y : Elem}, (x.attrs.map Prod.fst).Nodup → SameAttrs x y →
      attrsLess x.attrs y.attrs = true := by
    intro x y hx h
    rw [attrsLess, List.all_eq_true]
    rintro ⟨n, v⟩ hp
    have := mem_lookup hx hp
    have h2 := h n
    rw [Elem.get, Elem.get, this] at h2
    simp [← h2]
  constructor
  · intro h
    exact ⟨key ha h, key hb fun n => (h n).symm⟩
  · rintro ⟨h1, h2⟩ n
    rw [attrsLess, List.all_eq_true] at h1 h2
    have step : ∀ {x y : Attrs} {v}, (∀ p ∈ x, decide (y.lookup p.1 = some p.2) = true) →
        x.lookup n = some v → y.lookup n = some v := by
      intro x y v h hx
      exact of_decide_eq_true (h _ (lookup_mem hx))
    rw [Elem.get, Elem.get]
    cases hx : a.attrs.lookup n with
    | some v => rw [step h1 hx]
    | none =>
      cases hy : b.attrs.lookup n with
      | none => rfl
      | some v => rw [step h2 hy] at hx; cases hx

/-- The same node with the same nodes below. -/
def Equal (a b : Elem) : Prop := SameNode a b ∧ SameBelow a b

theorem equal_iff {a b : Elem} (ha : SchemaTree a) (hb : SchemaTree b) :
    Equal a b ↔ Less a b ∧ Less b a := by
  constructor
  · have key : ∀ {x y : Elem}, SchemaTree x → SchemaTree y → SameNode x y → Contained x y → Less x y := by
      intro x y hx hy h hc p n hn
      have conv : ∀ {n n' : Elem}, At x p n → At y p n' → SameNode n n' →
          n.tag = n'.tag ∧ n.text = n'.text ∧ attrsLess n.attrs n'.attrs = true := fun h1 h2 s =>
        ⟨s.1, s.2.1, ((sameAttrs_iff (hx.dict _ _ h1) (hy.dict _ _ h2)).mp s.2.2).1⟩
      by_cases hp : p = []
      · subst hp
        obtain rfl := at_nil.mp hn
        exact ⟨y, .here, conv .here .here h⟩
      · obtain ⟨n', hn', s⟩ := hc p n hp hn
        exact ⟨n', hn', conv hn hn' s⟩
    rintro ⟨s, h1, h2⟩
    exact ⟨key ha hb s h1, key hb ha ⟨s.1.symm, s.2.1.symm, fun n => (s.2.2 n).symm⟩ h2⟩
  · rintro ⟨h1, h2⟩
    have key : ∀ {x y : Elem}, SchemaTree x → SchemaTree y → Less x y → Less y x →
        ∀ p n, At x p n → ∃ n', At y p n' ∧ SameNode n n' := by
      intro x y hx hy h1 h2 p n hn
      obtain ⟨n', hn', e1, e2, e3⟩ := h1 p n hn
      obtain ⟨n'', hn'', e1', e2', e3'⟩ := h2 p n' hn'
      obtain rfl := hx.at_unique hn hn''
      exact ⟨n', hn', e1, e2, (sameAttrs_iff (hx.dict _ _ hn) (hy.dict _ _ hn')).mpr ⟨e3, e3'⟩⟩
    refine ⟨?_, fun p n _ => key ha hb h1 h2 p n, fun p n _ => key hb ha h2 h1 p n⟩
    obtain ⟨n', hn', s⟩ := key ha hb h1 h2 [] a .here
    rw [at_nil.mp hn'] at s
    exact s

theorem nodeEqual_spec {a b : Elem} (ha : SchemaTree a) (hb : SchemaTree b) :
    (nodeEqual a b = .ok true ∧ Equal a b) ∨ (nodeEqual a b = .ok false ∧ ¬ Equal a b) := by
  obtain ⟨r, hr, hi⟩ := nodeLess_spec a b hb
  obtain ⟨r', hr', hi'⟩ := nodeLess_spec b a ha
  rw [equal_iff ha hb, ← hi, ← hi']
  simp only [nodeEqual, hr, hr', bind, Except.bind]
  cases r <;> cases r' <;> simp

/-! ## The children of the result -/

theorem processAttribList_eq (msg : String) : ∀ ks, processAttribList msg ks = ks.map (processAttrib msg)
  | [] => rfl
  | k :: ks => by rw [processAttribList, processAttribList_eq msg ks]; rfl

theorem tag_processAttrib (msg : String) (e : Elem) : (processAttrib msg e).tag = e.tag := by
  cases e; rfl

theorem kids_processAttrib (msg : String) (e : Elem) :
    (processAttrib msg e).kids = e.kids.map (processAttrib msg) := by
  cases e; simp [processAttrib, processAttribList_eq]

/-- A child of the result of `compare_nodes`. -/
inductive Child (a b : Elem) : Elem → Prop where
  | added {c} : c ∈ b.kids → (∀ q ∈ a.kids, q.tag ≠ c.tag) → Child a b (processAttrib "added" c)
  | modified {c q} : c ∈ b.kids → q ∈ a.kids → q.tag = c.tag → ¬ Equal q c → LeafLike c →
      Child a b (copyNode c "modified" [])
  | inner {c q sub} : c ∈ b.kids → q ∈ a.kids → q.tag = c.tag → ¬ Equal q c → ¬ LeafLike c →
      compareNodes q c = .ok sub → Child a b (copyNode c "" sub)
  | deleted {c} : c ∈ a.kids → (∀ q ∈ b.kids, q.tag ≠ c.tag) → Child a b (processAttrib "deleted" c)

theorem deletedKids_spec {b : Elem} (hb : SchemaTree b) : ∀ l : List Elem, ∃ ks, deletedKids b l = .ok ks ∧
    ∀ k, k ∈ ks ↔ ∃ c ∈ l, (∀ q ∈ b.kids, q.tag ≠ c.tag) ∧ k = processAttrib "deleted" c := by
  intro l
  induction l with
  | nil => exact ⟨[], rfl, by simp⟩
  | cons c l ih =>
    obtain ⟨ks, hks, hi⟩ := ih
    rcases getPeer_cases hb c.tag with ⟨he, hn⟩ | ⟨p, hp, ht, he⟩
    · refine ⟨processAttrib "deleted" c :: ks, by simp [deletedKids, he, hks, bind, Except.bind], fun k => ?_⟩
      rw [List.mem_cons, hi]
      simp only [List.mem_cons, exists_eq_or_imp]
      exact or_congr ⟨fun h => ⟨hn, h⟩, fun h => h.2⟩ Iff.rfl
    · refine ⟨ks, by simp [deletedKids, he, hks, bind, Except.bind], fun k => ?_⟩
      rw [hi]
      simp only [List.mem_cons, exists_eq_or_imp]
      exact ⟨.inr, fun h => h.resolve_left fun h => h.1 p hp ht⟩

theorem leafLike_iff {e : Elem} {v : AVal} (h : e.get (.other "type") = some v) :
    LeafLike e ↔ isLeafType v = true := by
  rw [LeafLike, h, isLeafType]
  simp [or_comm]

theorem compareNodes_spec (b : Elem) : ∀ a, SchemaTree a → SchemaTree b →
    ∃ ks, compareNodes a b = .ok ks ∧ ∀ k, k ∈ ks ↔ Child a b k := by
  induction b using Elem.ind with
  | h t n at' x bs ih =>
    intro a ha hb
    have kidsOk : ∀ l : List Elem, (∀ c ∈ l, c ∈ bs) → ∃ ks, compareKids a l = .ok ks ∧
        ∀ k, k ∈ ks ↔ ∃ c ∈ l,
          ((∀ q ∈ a.kids, q.tag ≠ c.tag) ∧ k = processAttrib "added" c) ∨
          (∃ q ∈ a.kids, q.tag = c.tag ∧ ¬ Equal q c ∧ LeafLike c ∧ k = copyNode c "modified" []) ∨
          (∃ q ∈ a.kids, q.tag = c.tag ∧ ¬ Equal q c ∧ ¬ LeafLike c ∧ ∃ sub, compareNodes q c = .ok sub ∧
            k = copyNode c "" sub) := by
      intro l
      induction l with
      | nil => intro _; exact ⟨[], rfl, by simp⟩
      | cons c l ihl =>
        intro hl
        obtain ⟨ks, hks, hi⟩ := ihl fun c hc => hl _ (.tail _ hc)
        have hc : c ∈ bs := hl _ (.head _)
        rw [compareKids]
        rcases getPeer_cases ha c.tag with ⟨he, hn⟩ | ⟨p, hp, ht, he⟩
        · refine ⟨processAttrib "added" c :: ks, by simp [he, hks, bind, Except.bind], fun k => ?_⟩
          rw [List.mem_cons, hi]
          simp only [List.mem_cons, exists_eq_or_imp]
          refine or_congr ⟨fun h => .inl ⟨hn, h⟩, ?_⟩ Iff.rfl
          rintro (h | ⟨q, hq, ht, -⟩ | ⟨q, hq, ht, -⟩)
          · exact h.2
          · exact absurd ht (hn q hq)
          · exact absurd ht (hn q hq)
        · have hpeer : ∀ q ∈ a.kids, q.tag = c.tag → q = p := fun q hq h =>
            ha.kid_unique hq hp (h.trans ht.symm)
          rcases nodeEqual_spec (ha.kid hp) (hb.kid hc) with ⟨heq, hE⟩ | ⟨heq, hE⟩
          · refine ⟨ks, by simp [he, heq, hks, bind, Except.bind], fun k => ?_⟩
            rw [hi]
            simp only [List.mem_cons, exists_eq_or_imp]
            refine ⟨.inr, fun h => h.resolve_left ?_⟩
            rintro (h | ⟨q, hq, ht, h, -⟩ | ⟨q, hq, ht, h, -⟩)
            · exact h.1 p hp ht
            · exact h (hpeer q hq ht ▸ hE)
            · exact h (hpeer q hq ht ▸ hE)
          · obtain ⟨v, hv⟩ := hb.typed [c.tag] c (by simp) (.down hc .here)
            by_cases hleaf : LeafLike c
            · have hlt := (leafLike_iff hv).mp hleaf
              refine ⟨copyNode c "modified" [] :: ks,
                by simp [he, heq, hks, bind, Except.bind, typeOf, hv, hlt], fun k => ?_⟩
              rw [List.mem_cons, hi]
              simp only [List.mem_cons, exists_eq_or_imp]
              refine or_congr ⟨fun h => .inr (.inl ⟨p, hp, ht, hE, hleaf, h⟩), ?_⟩ Iff.rfl
              rintro (h | ⟨q, hq, ht, -, -, h⟩ | ⟨q, hq, ht, -, h, -⟩)
              · exact absurd ht (h.1 p hp)
              · exact h
              · exact absurd hleaf h
            · have hlt : isLeafType v = false := by
                rw [← Bool.not_eq_true]; exact fun h => hleaf ((leafLike_iff hv).mpr h)
              obtain ⟨sub, hsub, -⟩ := ih c hc p (ha.kid hp) (hb.kid hc)
              refine ⟨copyNode c "" sub :: ks,
                by simp [he, heq, hks, bind, Except.bind, typeOf, hv, hlt, hsub], fun k => ?_⟩
              rw [List.mem_cons, hi]
              simp only [List.mem_cons, exists_eq_or_imp]
              refine or_congr ⟨fun h => .inr (.inr ⟨p, hp, ht, hE, hleaf, sub, hsub, h⟩), ?_⟩ Iff.rfl
              rintro (h | ⟨q, hq, ht, -, h, -⟩ | ⟨q, hq, ht, -, -, sub', hs, h⟩)
              · exact absurd ht (h.1 p hp)
              · exact absurd h hleaf
              · obtain rfl := hpeer q hq ht
                rw [hsub] at hs
                cases hs
                exact h
    obtain ⟨ks, hks, hi⟩ := kidsOk bs fun _ h => h
    obtain ⟨ds, hds, hd⟩ := deletedKids_spec hb a.kids
    refine ⟨ks ++ ds, by simp [compareNodes, hks, hds, bind, Except.bind], fun k => ?_⟩
    rw [List.mem_append, hi, hd]
    constructor
    · rintro (⟨c, hc, ⟨hn, rfl⟩ | ⟨q, hq, ht, hE, hl, rfl⟩ | ⟨q, hq, ht, hE, hl, sub, hs, rfl⟩⟩ | ⟨c, hc, hn, rfl⟩)
      · exact .added hc hn
      · exact .modified hc hq ht hE hl
      · exact .inner hc hq ht hE hl hs
      · exact .deleted hc hn
    · intro h
      cases h with
      | added hc hn => exact .inl ⟨_, hc, .inl ⟨hn, rfl⟩⟩
      | modified hc hq ht hE hl => exact .inl ⟨_, hc, .inr (.inl ⟨_, hq, ht, hE, hl, rfl⟩)⟩
      | inner hc hq ht hE hl hs => exact .inl ⟨_, hc, .inr (.inr ⟨_, hq, ht, hE, hl, _, hs, rfl⟩)⟩
      | deleted hc hn => exact .inr ⟨_, hc, hn, rfl⟩

end NcDiff.ModelDiff
