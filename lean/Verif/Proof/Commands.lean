import Verif.Proof.ListDiff
import Mathlib.Data.List.Perm.Basic
/-!
# Clean-up of command lists
-/

namespace NcDiff.Running

/-! ## Duplicates -/

theorem removeDuplicates_eq : ∀ (r done seen : List Str), (∀ x, x ∈ seen ↔ x ∈ done) →
    removeDuplicates seen r =
      ((r.zipIdx done.length).filter (fun p => (done ++ r).idxOf p.1 = p.2)).map Prod.fst
  | [], _, _, _ => by simp [removeDuplicates]
  | a :: r, done, seen, hs => by
    have e : done ++ a :: r = (done ++ [a]) ++ r := by simp
    unfold removeDuplicates
    rw [List.zipIdx_cons, List.filter_cons]
    by_cases ha : a ∈ seen
    · have had := (hs a).1 ha
      rw [if_pos ha]
      have hlt := List.idxOf_lt_length_iff.2 had
      have h1 : (done ++ a :: r).idxOf a ≠ done.length := by
        rw [List.idxOf_append_of_mem had]; omega
      simp only [h1, decide_false, Bool.false_eq_true, if_false]
      rw [removeDuplicates_eq r (done ++ [a]) seen (by
        intro x; simp only [hs, List.mem_append, List.mem_singleton]
        constructor
        · exact Or.inl
        · rintro (h | rfl)
          · exact h
          · exact had)]
      rw [e]; simp
    · have had : a ∉ done := fun h => ha ((hs a).2 h)
      rw [if_neg ha]
      have h1 : (done ++ a :: r).idxOf a = done.length := by
        rw [List.idxOf_append_of_notMem had, List.idxOf_cons_self]; rfl
      simp only [h1, decide_true, if_true, List.map_cons]
      rw [removeDuplicates_eq r (done ++ [a]) (a :: seen) (by
        intro x; simp only [List.mem_cons, hs, List.mem_append, List.mem_singleton, List.not_mem_nil, or_false]
        exact or_comm)]
      rw [e]; simp

/-! ## Unnecessary commands -/

theorem mem_laterPairs {α} : ∀ {l : List α} {a b : α}, (a, b) ∈ laterPairs l → a ∈ l ∧ b ∈ l
  | [], a, b, h => by simp [laterPairs] at h
  | x :: r, a, b, h => by
    unfold laterPairs at h
    rcases List.mem_append.1 h with h | h
    · simp only [List.mem_map, Prod.mk.injEq] at h
      obtain ⟨c, hc, rfl, rfl⟩ := h
      exact ⟨List.mem_cons_self, List.mem_cons_of_mem _ hc⟩
    · obtain ⟨h1, h2⟩ := mem_laterPairs h
      exact ⟨List.mem_cons_of_mem _ h1, List.mem_cons_of_mem _ h2⟩

theorem laterPairs_ne {β} {f : α → β} : ∀ {l : List α}, (l.map f).Nodup → ∀ {a b : α},
    (a, b) ∈ laterPairs l → f a ≠ f b
  | [], _, a, b, h => by simp [laterPairs] at h
  | x :: r, hn, a, b, h => by
    rw [List.map_cons, List.nodup_cons] at hn
    unfold laterPairs at h
    rcases List.mem_append.1 h with h | h
    · simp only [List.mem_map, Prod.mk.injEq] at h
      obtain ⟨c, hc, rfl, rfl⟩ := h
      intro e; exact hn.1 (by rw [e]; exact List.mem_map_of_mem hc)
    · exact laterPairs_ne hn.2 h

theorem laterPairs_total {α} : ∀ {l : List α} {a b : α}, a ∈ l → b ∈ l → a ≠ b →
    (a, b) ∈ laterPairs l ∨ (b, a) ∈ laterPairs l
  | [], a, b, h, _, _ => by simp at h
  | x :: r, a, b, ha, hb, hne => by
    unfold laterPairs
    simp only [List.mem_append, List.mem_map, Prod.mk.injEq]
    rcases List.mem_cons.1 ha with rfl | ha'
    · have hb : b ∈ r := (List.mem_cons.1 hb).resolve_left (Ne.symm hne)
      exact Or.inl (Or.inl ⟨b, hb, rfl, rfl⟩)
    · rcases List.mem_cons.1 hb with rfl | hb'
      · exact Or.inr (Or.inl ⟨a, ha', rfl, rfl⟩)
      · rcases laterPairs_total ha' hb' hne with h | h
        · exact Or.inl (Or.inr h)
        · exact Or.inr (Or.inr h)

/-- Dropping by position, when only the value decides. -/
theorem deleteAt_eq {l : List Str} {idx : List Nat} {p : Str → Bool}
    (h : ∀ c i, (c, i) ∈ l.zipIdx → (i ∈ idx ↔ p c = false)) : deleteAt l idx = l.filter p := by
  unfold deleteAt
  have : l.zipIdx.filter (fun q => decide (q.2 ∉ idx)) = l.zipIdx.filter (fun q => p q.1) := by
    apply List.filter_congr
    rintro ⟨c, i⟩ hm
    rw [Bool.eq_iff_iff, decide_eq_true_eq, h c i hm]; simp
  rw [this]
  have h2 := List.filter_map (f := Prod.fst) (p := p) (l := l.zipIdx)
  rw [List.zipIdx_map_fst] at h2
  exact h2.symm

theorem shorterPrefix_iff {a b : Str} : ShorterPrefix a b ↔ a.length < b.length ∧ a = b.take a.length := by
  constructor
  · rintro ⟨h, hne⟩
    have := h.length_le
    refine ⟨?_, List.prefix_iff_eq_take.1 h⟩
    rcases Nat.lt_or_ge a.length b.length with h' | h'
    · exact h'
    · exact absurd (h.eq_of_length (by omega)) hne
  · rintro ⟨h1, h2⟩
    refine ⟨List.prefix_iff_eq_take.2 h2, ?_⟩
    intro e; rw [e] at h1; omega

instance (a b : Str) : Decidable (ShorterPrefix a b) := decidable_of_iff _ shorterPrefix_iff.symm

/-- The choice made for a pair, in both clean-ups. -/
theorem choice_iff {p q : Str} {x y i : Nat} :
    (if p = q ∨ p.length = q.length then none
      else if p.length < q.length then
        if p = q.take p.length then some x else none
      else if p.take q.length = q then some y else none) = some i ↔
    (ShorterPrefix p q ∧ i = x) ∨ (ShorterPrefix q p ∧ i = y) := by
  rw [shorterPrefix_iff, shorterPrefix_iff]
  by_cases h0 : p = q ∨ p.length = q.length
  · have : p.length = q.length := by rcases h0 with h | h; rw [h]; exact h
    rw [if_pos h0]
    constructor
    · intro h; cases h
    · rintro (⟨⟨h, _⟩, _⟩ | ⟨⟨h, _⟩, _⟩) <;> omega
  · rw [if_neg h0]
    rw [not_or] at h0
    by_cases h1 : p.length < q.length
    · rw [if_pos h1]
      by_cases h2 : p = q.take p.length
      · rw [if_pos h2, Option.some.injEq]
        constructor
        · intro h; exact Or.inl ⟨⟨h1, h2⟩, h.symm⟩
        · rintro (⟨_, h⟩ | ⟨⟨h, _⟩, _⟩)
          · exact h.symm
          · omega
      · rw [if_neg h2]
        constructor
        · intro h; cases h
        · rintro (⟨⟨_, h⟩, _⟩ | ⟨⟨h, _⟩, _⟩)
          · exact absurd h h2
          · omega
    · rw [if_neg h1]
      by_cases h2 : p.take q.length = q
      · rw [if_pos h2, Option.some.injEq]
        constructor
        · intro h; exact Or.inr ⟨⟨by have := h0.2; omega, h2.symm⟩, h.symm⟩
        · rintro (⟨⟨h, _⟩, _⟩ | ⟨_, h⟩)
          · omega
          · exact h.symm
      · rw [if_neg h2]
        constructor
        · intro h; cases h
        · rintro (⟨⟨h, _⟩, _⟩ | ⟨⟨_, h⟩, _⟩)
          · omega
          · exact absurd h.symm h2

theorem zipIdx_filter_snd_nodup {l : List Str} {p : Str × Nat → Bool} :
    ((l.zipIdx.filter p).map Prod.snd).Nodup := by
  have h : (l.zipIdx.map Prod.snd).Nodup := by
    rw [List.zipIdx_map_snd]; exact List.nodup_range'
  exact h.sublist (List.filter_sublist.map _)

/-- Dropping by pairs: exactly the candidates that are bad with respect to another candidate. -/
theorem dropped_eq {l : List Str} {cand : Str → Bool} (f : (Str × Nat) × (Str × Nat) → Option Nat)
    (bad : Str → Str → Prop) [DecidableRel bad]
    (hf : ∀ p q i, f (p, q) = some i ↔ (bad p.1 q.1 ∧ i = p.2) ∨ (bad q.1 p.1 ∧ i = q.2))
    (hirr : ∀ a, ¬ bad a a) :
    deleteAt l ((laterPairs (l.zipIdx.filter (fun p => cand p.1))).filterMap f) =
    l.filter (fun c => !(cand c && l.any (fun c' => cand c' && decide (bad c c')))) := by
  refine deleteAt_eq ?_
  intro c i hci
  have hval : ∀ r ∈ l.zipIdx.filter (fun p => cand p.1), r.2 = i → r.1 = c ∧ cand c = true := by
    intro r hr he
    rw [List.mem_filter] at hr
    have h1 := List.mem_zipIdx_iff_getElem?.1 hr.1
    have h2 := List.mem_zipIdx_iff_getElem?.1 hci
    rw [he] at h1
    simp only at h2
    rw [h1] at h2
    have := Option.some.inj h2
    exact ⟨this, by rw [← this]; exact hr.2⟩
  have hmem : ∀ r ∈ l.zipIdx.filter (fun p => cand p.1), r.1 ∈ l ∧ cand r.1 = true := by
    intro r hr
    rw [List.mem_filter] at hr
    exact ⟨List.mem_of_getElem? (List.mem_zipIdx_iff_getElem?.1 hr.1), hr.2⟩
  rw [List.mem_filterMap, Bool.not_eq_false', Bool.and_eq_true, List.any_eq_true]
  constructor
  · rintro ⟨⟨p, q⟩, hpq, hfi⟩
    obtain ⟨hp, hq⟩ := mem_laterPairs hpq
    rcases (hf p q i).1 hfi with ⟨hb, he⟩ | ⟨hb, he⟩
    · obtain ⟨h1, h2⟩ := hval p hp he.symm
      exact ⟨h2, q.1, (hmem q hq).1, by rw [(hmem q hq).2, ← h1]; simpa using hb⟩
    · obtain ⟨h1, h2⟩ := hval q hq he.symm
      exact ⟨h2, p.1, (hmem p hp).1, by rw [(hmem p hp).2, ← h1]; simpa using hb⟩
  · rintro ⟨hc, c', hc', hb⟩
    rw [Bool.and_eq_true, decide_eq_true_eq] at hb
    obtain ⟨j, hj⟩ := List.mem_iff_getElem?.1 hc'
    have h1 : (c, i) ∈ l.zipIdx.filter (fun p => cand p.1) := List.mem_filter.2 ⟨hci, hc⟩
    have h2 : (c', j) ∈ l.zipIdx.filter (fun p => cand p.1) :=
      List.mem_filter.2 ⟨List.mem_zipIdx_iff_getElem?.2 hj, hb.1⟩
    have hne : (c, i) ≠ (c', j) := by
      intro e
      rw [Prod.mk.injEq] at e
      rw [e.1] at hb
      exact hirr _ hb.2
    rcases laterPairs_total h1 h2 hne with h | h
    · exact ⟨_, h, (hf _ _ _).2 (Or.inl ⟨hb.2, rfl⟩)⟩
    · exact ⟨_, h, (hf _ _ _).2 (Or.inr ⟨hb.2, rfl⟩)⟩

/-- Negative commands: exactly those one-line commands are dropped that have a strictly shorter
one-line prefix in the list. -/
theorem removeNegative_eq (l : List Str) : removeNegative l =
    l.filter (fun c => !((!c.contains '\n') && l.any (fun c' => (!c'.contains '\n') && decide (ShorterPrefix c' c)))) := by
  unfold removeNegative
  refine dropped_eq (cand := fun c => !c.contains '\n') _ (fun a b => ShorterPrefix b a) ?_ (fun a h => h.2 rfl)
  intro p q i
  dsimp only
  rw [choice_iff, or_comm]

/-- Positive commands: exactly those candidates are dropped that are a strictly shorter prefix of
another candidate. -/
theorem removePositive_eq (t : Tables) (l : List Str) : removePositive t l =
    l.filter (fun c => !((!c.contains '\n' && !t.coexist.contains c) && l.any (fun c' =>
      (!c'.contains '\n' && !t.coexist.contains c') && decide (ShorterPrefix c c')))) := by
  unfold removePositive
  refine dropped_eq (cand := fun c => !c.contains '\n' && !t.coexist.contains c) _ ShorterPrefix ?_ (fun a h => h.2 rfl)
  intro p q i
  dsimp only
  rw [choice_iff]

/-- Among the candidates that are worse than nothing else, one is left for every dropped one. -/
theorem exists_best {l : List Str} {cand : Str → Bool} {bad : Str → Str → Prop} [DecidableRel bad]
    (m : Str → Nat) (hm : ∀ a ∈ l, ∀ b ∈ l, bad a b → m b < m a) (htr : ∀ a b c, bad a b → bad b c → bad a c) :
    ∀ (n : Nat) (c : Str), m c ≤ n → c ∈ l → cand c = true → (∃ c' ∈ l, cand c' = true ∧ bad c c') →
    ∃ c' ∈ l.filter (fun c => !(cand c && l.any (fun c' => cand c' && decide (bad c c')))),
      cand c' = true ∧ bad c c'
  | 0, c, hn, hc, _, ⟨c', hc', _, hb⟩ => by have := hm c hc c' hc' hb; omega
  | n + 1, c, hn, hc, hcc, ⟨c', hc', hcc', hb⟩ => by
    by_cases h : ∃ c'' ∈ l, cand c'' = true ∧ bad c' c''
    · obtain ⟨x, hx, hx1, hx2⟩ := exists_best m hm htr n c' (by have := hm c hc c' hc' hb; omega) hc' hcc' h
      exact ⟨x, hx, hx1, htr _ _ _ hb hx2⟩
    · refine ⟨c', ?_, hcc', hb⟩
      rw [List.mem_filter]
      refine ⟨hc', ?_⟩
      rw [Bool.not_eq_true', Bool.and_eq_false_iff]
      refine Or.inr ?_
      rw [List.any_eq_false]
      intro x hx hxb
      rw [Bool.and_eq_true, decide_eq_true_eq] at hxb
      exact h ⟨x, hx, hxb⟩

end NcDiff.Running
