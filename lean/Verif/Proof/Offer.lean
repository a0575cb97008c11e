import Verif.Spec.Offer
import Verif.Proof.ModelDiff
/-!
# Lemmas about what a device offers
-/

namespace NcDiff.Offer

open ModelDiff (At)

/-! ## Sorting -/

theorem insertText_mem {a x : String} : ∀ {l : List String}, x ∈ insertText a l ↔ x = a ∨ x ∈ l
  | [] => by simp [insertText]
  | b :: r => by
    rw [insertText]
    split
    · rw [List.mem_cons, insertText_mem, List.mem_cons]
      exact ⟨fun h => h.elim (fun h => .inr (.inl h)) fun h => h.elim .inl fun h => .inr (.inr h),
        fun h => h.elim (fun h => .inr (.inl h)) fun h => h.elim .inl fun h => .inr (.inr h)⟩
    · rw [List.mem_cons, List.mem_cons]

theorem sortTexts_mem {x : String} : ∀ {l : List String}, x ∈ sortTexts l ↔ x ∈ l
  | [] => by simp [sortTexts]
  | a :: r => by rw [sortTexts, insertText_mem, sortTexts_mem, List.mem_cons]

theorem insertText_ascending {a : String} : ∀ {l : List String}, Ascending l → Ascending (insertText a l)
  | [], _ => ⟨by simp, trivial⟩
  | b :: r, h => by
    rw [insertText]
    split
    · rename_i hb
      refine ⟨fun x hx => ?_, insertText_ascending h.2⟩
      rcases insertText_mem.1 hx with rfl | hx
      · exact String.lt_asymm hb
      · exact h.1 x hx
    · rename_i hb
      refine ⟨fun x hx => ?_, h⟩
      rcases List.mem_cons.1 hx with rfl | hx
      · exact hb
      · intro hxa
        have h1 := h.1 x hx
        exact String.not_lt.2 (String.le_trans (String.not_lt.1 hb) (String.not_lt.1 h1)) hxa

theorem sortTexts_ascending : ∀ (l : List String), Ascending (sortTexts l)
  | [] => trivial
  | a :: r => insertText_ascending (sortTexts_ascending r)

/-! ## Queries -/

theorem select_mem {n : Elem} : ∀ {p : List QName} {e : Elem}, n ∈ select p e ↔ At e p n
  | [], e => by rw [select, List.mem_singleton, ModelDiff.at_nil]
  | q :: r, e => by
    rw [select, List.mem_flatMap, ModelDiff.at_cons]
    constructor
    · rintro ⟨k, hk, h⟩
      rw [List.mem_filter, decide_eq_true_eq] at hk
      exact ⟨k, hk.1, hk.2, select_mem.1 h⟩
    · rintro ⟨k, hk, ht, h⟩
      exact ⟨k, List.mem_filter.2 ⟨hk, by simpa using ht⟩, select_mem.2 h⟩

theorem query_text {path : List QName} {root : Elem} {x : Option String} :
    (∃ n ∈ query path root, n.text = x) ↔ TextAt root path x := by
  unfold query TextAt
  cases path with
  | nil => simp
  | cons q r =>
    by_cases h : root.tag = q
    · simp only [h, if_true]
      constructor
      · rintro ⟨n, hn, ht⟩
        exact ⟨q, r, rfl, rfl, n, select_mem.1 hn, ht⟩
      · rintro ⟨q', p', he, -, n, hn, ht⟩
        cases he
        exact ⟨n, select_mem.2 hn, ht⟩
    · simp only [h, if_false]
      constructor
      · rintro ⟨n, hn, _⟩; cases hn
      · rintro ⟨q', p', he, hq, _⟩
        cases he
        exact absurd hq h

theorem supports_iff {caps : List String} {p : String} : supports caps p = true ↔ Advertised caps p := by
  unfold supports Advertised
  simp [List.any_eq_true]

theorem sortedTexts_names {l : List Elem} (h : ∀ n ∈ l, n.text ≠ none) :
    ∃ r, sortedTexts l = some (r.map some) ∧ Ascending r ∧ ∀ x, x ∈ r ↔ ∃ n ∈ l, n.text = some x := by
  unfold sortedTexts
  split
  · rename_i hl
    match l, hl with
    | [], _ => exact ⟨[], rfl, trivial, by simp⟩
    | [n], _ =>
      cases ht : n.text with
      | none => exact absurd ht (h n (.head _))
      | some t => exact ⟨[t], by simp [ht], ⟨by simp, trivial⟩, by simp [ht, eq_comm]⟩
  · rw [if_pos (List.all_eq_true.2 fun e he => by
      cases ht : e.text with
      | none => exact absurd ht (h e he)
      | some _ => rfl)]
    exact ⟨_, rfl, sortTexts_ascending _, fun x => by rw [sortTexts_mem, List.mem_filterMap]⟩

/-- A source that works. -/
theorem source_good {caps : List String} {p : String} {path : List QName} {root : Elem} (hc : Advertised caps p)
    (hn : ¬ TextAt root path none) : ∃ l, source caps p path (some ⟨true, root⟩) = some l ∧
      NamesOf l fun x => TextAt root path (some x) := by
  have h : ∀ n ∈ query path root, n.text ≠ none := fun n hm ht => hn (query_text.1 ⟨n, hm, ht⟩)
  obtain ⟨r, h1, h2, h3⟩ := sortedTexts_names h
  refine ⟨r.map some, ?_, r, rfl, h2, fun x => (h3 x).trans query_text⟩
  unfold source
  rw [if_pos (supports_iff.2 hc)]
  exact h1

theorem source_none {caps : List String} {p : String} {path : List QName} {answer : Option Reply}
    (h : ¬ Advertised caps p ∨ answer = none ∨ ∃ r, answer = some ⟨false, r⟩) : source caps p path answer = none := by
  unfold source
  by_cases hc : Advertised caps p
  · rw [if_pos (supports_iff.2 hc)]
    rcases h with h | rfl | ⟨r, rfl⟩
    · exact absurd hc h
    · rfl
    · rfl
  · rw [if_neg (fun h => hc (supports_iff.1 h))]

/-! ## Capabilities -/

theorem moduleChar_iff {c : Char} : moduleChar c = true ↔ Plain c := by
  unfold moduleChar Plain
  simp [or_assoc]

theorem takeWhile_split {p : Char → Bool} (l : List Char) : ∃ rest, l = l.takeWhile p ++ rest ∧ ∀ x ∈ rest.head?, p x = false := by
  refine ⟨l.dropWhile p, (List.takeWhile_append_dropWhile).symm, fun x hx => ?_⟩
  cases hd : l.dropWhile p with
  | nil => rw [hd] at hx; cases hx
  | cons y r =>
    rw [hd] at hx
    cases Option.some.inj hx
    have := List.head_dropWhile_not p (l := l) (by rw [hd]; simp)
    simpa [hd] using this

theorem searchModule_cons (c : Char) (r : List Char) :
    (∃ x n rest, c :: r = "module=".toList ++ (x :: n) ++ rest ∧ (∀ y ∈ x :: n, Plain y) ∧ (∀ y ∈ rest.head?, ¬ Plain y) ∧
      searchModule (c :: r) = some (x :: n)) ∨
    ((∀ x rest, c :: r = "module=".toList ++ x :: rest → ¬ Plain x) ∧ searchModule (c :: r) = searchModule r) := by
  rw [searchModule]
  cases h1 : "module=".toList.isPrefixOf (c :: r) with
  | false =>
    refine .inr ⟨fun x rest he _ => ?_, rfl⟩
    rw [he] at h1
    have : "module=".toList.isPrefixOf ("module=".toList ++ x :: rest) = true := by
      rw [List.isPrefixOf_iff_prefix]; exact List.prefix_append ..
    rw [this] at h1; cases h1
  | true =>
    obtain ⟨t, ht⟩ := List.isPrefixOf_iff_prefix.1 h1
    have hdrop : (c :: r).drop 7 = t := by rw [← ht]; rfl
    rw [hdrop]
    cases hw : t.takeWhile moduleChar with
    | nil =>
      refine .inr ⟨fun x rest he hp => ?_, rfl⟩
      rw [← ht] at he
      have := List.append_cancel_left he
      subst this
      rw [List.takeWhile_cons, if_pos (moduleChar_iff.2 hp)] at hw
      cases hw
    | cons x n =>
      obtain ⟨rest, h2, h3⟩ := takeWhile_split (p := moduleChar) t
      rw [hw] at h2
      refine .inl ⟨x, n, rest, by rw [← ht, List.append_assoc, ← h2], fun y hy => ?_, fun y hy hp => ?_, rfl⟩
      · have : y ∈ t.takeWhile moduleChar := by rw [hw]; exact hy
        exact moduleChar_iff.1 (List.all_eq_true.1 (List.all_takeWhile (p := moduleChar) (l := t)) y this)
      · have := h3 y hy
        rw [moduleChar_iff.2 hp] at this; cases this

theorem plain_word_unique : ∀ {a b r s : List Char}, (∀ x ∈ a, Plain x) → (∀ x ∈ b, Plain x) → (∀ x ∈ r.head?, ¬ Plain x) →
    (∀ x ∈ s.head?, ¬ Plain x) → a ++ r = b ++ s → a = b
  | [], [], _, _, _, _, _, _, _ => rfl
  | [], y :: b, r, s, _, hb, hr, _, h => by
    rw [List.nil_append] at h
    subst h
    exact absurd (hb y (.head _)) (hr y rfl)
  | x :: a, [], r, s, ha, _, _, hs, h => by
    rw [List.nil_append] at h
    subst h
    exact absurd (ha x (.head _)) (hs x rfl)
  | x :: a, y :: b, r, s, ha, hb, hr, hs, h => by
    rw [List.cons_append, List.cons_append, List.cons.injEq] at h
    rw [h.1, plain_word_unique (fun z hz => ha z (.tail _ hz)) (fun z hz => hb z (.tail _ hz)) hr hs h.2]

theorem searchModule_iff : ∀ {c n : List Char}, searchModule c = some n ↔ ModuleParameter c n
  | [], n => by
    constructor
    · intro h; cases h
    · rintro ⟨pre, rest, h, _⟩
      have := congrArg List.length h
      simp at this
  | c :: r, n => by
    rcases searchModule_cons c r with ⟨x, m, rest, h1, h2, h3, h4⟩ | ⟨h1, h2⟩
    · rw [h4, Option.some.injEq]
      constructor
      · rintro rfl
        exact ⟨[], rest, h1, by simp, h2, h3, fun _ _ _ _ _ => Nat.zero_le _⟩
      · rintro ⟨pre, rest', e, _, hp, hr, hmin⟩
        have hlen := hmin [] x (m ++ rest) (by rw [h1]; simp) (h2 x (.head _))
        have : pre = [] := List.eq_nil_of_length_eq_zero (Nat.le_zero.1 hlen)
        subst this
        rw [h1, List.nil_append, List.append_assoc, List.append_assoc] at e
        exact plain_word_unique h2 hp h3 hr (List.append_cancel_left e)
    · rw [h2, searchModule_iff]
      constructor
      · rintro ⟨pre, rest, e, hn, hp, hr, hmin⟩
        refine ⟨c :: pre, rest, by rw [e]; rfl, hn, hp, hr, fun pre' x rest' e' hx => ?_⟩
        cases pre' with
        | nil => exact absurd hx (h1 x rest' (by rw [e']; rfl))
        | cons c' pre' =>
          rw [List.cons_append, List.cons_append, List.cons.injEq] at e'
          have := hmin pre' x rest' e'.2 hx
          simpa using this
      · rintro ⟨pre, rest, e, hn, hp, hr, hmin⟩
        cases pre with
        | nil =>
          cases n with
          | nil => exact absurd rfl hn
          | cons x n => exact absurd (hp x (.head _)) (h1 x (n ++ rest) (by rw [e]; simp))
        | cons c' pre =>
          rw [List.cons_append, List.cons_append, List.cons_append, List.cons.injEq] at e
          refine ⟨pre, rest, e.2, hn, hp, hr, fun pre' x rest' e' hx => ?_⟩
          have := hmin (c :: pre') x rest' (by rw [e']; rfl) hx
          simpa using this

theorem fromCapabilities_names (caps : List String) :
    NamesOf (fromCapabilities caps) fun x => ∃ c ∈ caps, ModuleParameter c.toList x.toList := by
  refine ⟨_, rfl, sortTexts_ascending _, fun x => ?_⟩
  rw [sortTexts_mem, List.mem_filterMap]
  constructor
  · rintro ⟨c, hc, h⟩
    obtain ⟨n, hn, rfl⟩ := Option.map_eq_some_iff.1 h
    exact ⟨c, hc, by rw [String.toList_ofList]; exact searchModule_iff.1 hn⟩
  · rintro ⟨c, hc, h⟩
    exact ⟨c, hc, by rw [searchModule_iff.2 h]; simp⟩

/-! ## Histories -/

theorem readLoadable_some {s : Session} {l : List (Option String)} (h : s.loadable = some l) (m b : Option Reply) :
    readLoadable s m b = (l, s) := by
  unfold readLoadable
  rw [h]

theorem readLoadable_sets (s : Session) (m b : Option Reply) :
    (readLoadable s m b).2.loadable = some (readLoadable s m b).1 := by
  cases h : s.loadable with
  | some l => rw [readLoadable_some h]; exact h
  | none => unfold readLoadable; rw [h]

theorem readLoadable_other (s : Session) (m b : Option Reply) : (readLoadable s m b).2.compiler = s.compiler ∧
    (readLoadable s m b).2.namespaces = s.namespaces ∧ (readLoadable s m b).2.models = s.models ∧
    (readLoadable s m b).2.caps = s.caps := by
  unfold readLoadable
  split <;> exact ⟨rfl, rfl, rfl, rfl⟩

theorem loadModel_other (s : Session) (m b : Option Reply) (n : String) (c : Except Err String) :
    (loadModel s m b n c).2.compiler = s.compiler ∧ (loadModel s m b n c).2.namespaces = s.namespaces ∧
      (loadModel s m b n c).2.caps = s.caps ∧
      (loadModel s m b n c).2.loadable = (readLoadable s m b).2.loadable ∧
      (loadModel s m b n c).2.sent = (readLoadable s m b).2.sent := by
  obtain ⟨h1, h2, _, h4⟩ := readLoadable_other s m b
  unfold loadModel
  dsimp only
  split
  · split
    · exact ⟨h1, h2, h4, rfl, rfl⟩
    · split
      · exact ⟨h1, h2, h4, rfl, rfl⟩
      · exact ⟨h1, h2, h4, rfl, rfl⟩
  · exact ⟨h1, h2, h4, rfl, rfl⟩

theorem run_loadable {s : Session} {l : List (Option String)} (h : s.loadable = some l) (e : Event) :
    (e.run s).loadable = some l ∧ (e.run s).sent = s.sent := by
  cases e with
  | loadable m b => rw [Event.run, readLoadable_some h]; exact ⟨h, rfl⟩
  | namespaces =>
    rw [Event.run]
    unfold readNamespaces
    split
    · exact ⟨h, rfl⟩
    · split <;> exact ⟨h, rfl⟩
  | scan d => exact ⟨h, rfl⟩
  | load m b n c =>
    obtain ⟨_, _, _, h4, h5⟩ := loadModel_other s m b n c
    rw [Event.run, h4, h5, readLoadable_some h]
    exact ⟨h, rfl⟩

theorem after_loadable {l : List (Option String)} : ∀ (h : List Event) {s : Session}, s.loadable = some l →
    (after s h).loadable = some l ∧ (after s h).sent = s.sent
  | [], _, hs => ⟨hs, rfl⟩
  | e :: h, s, hs => by
    obtain ⟨h1, h2⟩ := run_loadable hs e
    obtain ⟨h3, h4⟩ := after_loadable h h1
    exact ⟨h3, h4.trans h2⟩

theorem run_compiler (s : Session) (e : Event) :
    (e.run s).compiler = match e with | .scan d => some d | _ => s.compiler := by
  cases e with
  | loadable m b => exact (readLoadable_other s m b).1
  | namespaces =>
    rw [Event.run]
    unfold readNamespaces
    show _ = s.compiler
    split
    · rfl
    · split <;> rfl
  | scan d => rfl
  | load m b n c => exact (loadModel_other s m b n c).1

theorem after_compiler : ∀ (h : List Event) (s : Session), (after s h).compiler =
    h.foldl (fun c e => match e with | .scan d => some d | _ => c) s.compiler
  | [], _ => rfl
  | e :: h, s => by
    show (after (e.run s) h).compiler = _
    rw [after_compiler h, run_compiler, List.foldl_cons]

theorem run_namespaces {s : Session} {e : Event} (he : e ≠ .namespaces) : (e.run s).namespaces = s.namespaces := by
  cases e with
  | loadable m b => exact (readLoadable_other s m b).2.1
  | namespaces => exact absurd rfl he
  | scan d => rfl
  | load m b n c => exact (loadModel_other s m b n c).2.1

theorem after_unread : ∀ (h : List Event) {s : Session}, s.namespaces = none →
    (∀ a b, h = a ++ .namespaces :: b → (after s a).compiler = none) → (after s h).namespaces = none
  | [], _, h0, _ => h0
  | e :: h, s, h0, hn => by
    refine after_unread h (s := e.run s) ?_ fun a b he => hn (e :: a) b (by rw [he]; rfl)
    by_cases he : e = .namespaces
    · subst he
      have hc : s.compiler = none := hn [] h rfl
      rw [Event.run]
      unfold readNamespaces
      rw [hc]
      exact h0
    · rw [run_namespaces he]
      exact h0

/-- Both are set. -/
structure Fixed (s : Session) (l : List (Option String × String × Option String)) : Prop where
  rows : s.namespaces = some l
  scanned : ∃ d, s.compiler = some d

theorem run_fixed {s : Session} {l} (h : Fixed s l) (e : Event) : Fixed (e.run s) l := by
  obtain ⟨d, hd⟩ := h.scanned
  refine ⟨?_, ?_⟩
  · cases e with
    | namespaces =>
      rw [Event.run]
      unfold readNamespaces
      rw [hd, h.rows]
      exact h.rows
    | loadable m b => rw [run_namespaces (by simp)]; exact h.rows
    | scan d => rw [run_namespaces (by simp)]; exact h.rows
    | load m b n c => rw [run_namespaces (by simp)]; exact h.rows
  · rw [run_compiler]
    cases e <;> exact ⟨_, by first | rfl | exact hd⟩

theorem after_fixed {l} : ∀ (h : List Event) {s : Session}, Fixed s l → Fixed (after s h) l
  | [], _, hs => hs
  | e :: h, _, hs => after_fixed h (run_fixed hs e)

theorem findNamespace_row {m : Elem} : (findNamespace m = none ∧ ∀ k ∈ m.kids, k.tag ≠ ⟨"", "namespace"⟩) ∨
    ∃ a k b, m.kids = a ++ k :: b ∧ (∀ x ∈ a, x.tag ≠ ⟨"", "namespace"⟩) ∧ k.tag = ⟨"", "namespace"⟩ ∧
      findNamespace m = some (k.text.getD "") := by
  unfold findNamespace
  cases h : m.kids.find? fun k => k.tag = ⟨"", "namespace"⟩ with
  | none =>
    refine .inl ⟨rfl, fun k hk => ?_⟩
    simpa using List.find?_eq_none.1 h k hk
  | some k =>
    obtain ⟨h1, a, b, h2, h3⟩ := List.find?_eq_some_iff_append.1 h
    exact .inr ⟨a, k, b, h2, fun x hx => by simpa using h3 x hx, by simpa using h1, rfl⟩

theorem rows_eq (d : Elem) : List.Forall₂ Row (d.kids.filter hasPrefix) (namespaceRows d) := by
  unfold namespaceRows
  induction d.kids with
  | nil => exact .nil
  | cons k ks ih =>
    by_cases h1 : k.tag = ⟨"", "module"⟩
    · cases h2 : strAttr k (.other "prefix") with
      | none =>
        rw [List.filter_cons, if_neg (by simp [hasPrefix, h2]), List.filter_cons, if_pos (by simpa using h1),
          List.filterMap_cons]
        rw [h2]
        exact ih
      | some p =>
        rw [List.filter_cons, if_pos (by simp [hasPrefix, h1, h2]), List.filter_cons, if_pos (by simpa using h1),
          List.filterMap_cons]
        rw [h2]
        exact .cons ⟨rfl, h2, findNamespace_row⟩ ih
    · rw [List.filter_cons, if_neg (by simp [hasPrefix, h1]), List.filter_cons, if_neg (by simpa using h1)]
      exact ih

end NcDiff.Offer
