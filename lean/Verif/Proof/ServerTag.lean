import Verif.Proof.Server
/-!
# The server: the instances with one tag
-/

namespace NcDiff.Compile

/-- What identifies an instance. -/
abbrev Ident := List (List (Option String))

section
variable {p : Place} {q : QName} {o e : Elem} {l : List Elem}

theorem about_iff (ho : o.tag = q) {y : Elem} (hy : y.tag = q) : about p o y = true ↔ identity p y = identity p o := by
  unfold about
  simp [ho, hy]

/-- What `put` does to the siblings: `ks` are the identities of the result. -/
structure Puts (p : Place) (q : QName) (o e : Elem) (l l' : List Elem) (ks : List Ident) : Prop where
  mem : ∀ y, y ∈ l' ↔ y = e ∨ (y ∈ l ∧ identity p y ≠ identity p o)
  keys : l'.map (identity p) = ks

theorem others_keys (ho : o.tag = q) (hl : ∀ y ∈ l, y.tag = q) :
    (l.filter fun y => !about p o y).map (identity p) = (l.map (identity p)).filter fun u => u ≠ identity p o := by
  rw [List.filter_map]
  refine congrArg (List.map _) (List.filter_congr fun y hy => ?_)
  rw [Bool.eq_iff_iff]
  simp only [Bool.not_eq_true', Function.comp, decide_eq_true_eq]
  rw [← Bool.not_eq_true, about_iff ho (hl y hy)]

theorem mem_others (ho : o.tag = q) (hl : ∀ y ∈ l, y.tag = q) {y : Elem} :
    (y ∈ l.filter fun y => !about p o y) ↔ y ∈ l ∧ identity p y ≠ identity p o := by
  rw [List.mem_filter]
  constructor
  · rintro ⟨h1, h2⟩
    refine ⟨h1, fun h => ?_⟩
    rw [(about_iff ho (hl y h1)).2 h] at h2; cases h2
  · rintro ⟨h1, h2⟩
    refine ⟨h1, ?_⟩
    cases h : about p o y
    · rfl
    · exact absurd ((about_iff ho (hl y h1)).1 h) h2

theorem put_stay (ho : o.tag = q) (hl : ∀ y ∈ l, y.tag = q) (hn : (l.map (identity p)).Nodup)
    (hi : identity p e = identity p o) (hins : byUser p = true → o.get .insert = none) :
    ∃ l', put p o e l = some l' ∧ Puts p q o e l l'
      (if identity p o ∈ l.map (identity p) then l.map (identity p) else l.map (identity p) ++ [identity p o]) := by
  unfold put
  have h0 : (if byUser p = true then o.get .insert else none) = none := by
    split
    · exact hins (by assumption)
    · rfl
  simp only [h0]
  refine ⟨_, rfl, ?_⟩
  have hany : l.any (about p o) = true ↔ identity p o ∈ l.map (identity p) := by
    rw [List.any_eq_true, List.mem_map]
    exact ⟨fun ⟨y, hy, h⟩ => ⟨y, hy, (about_iff ho (hl y hy)).1 h⟩, fun ⟨y, hy, h⟩ => ⟨y, hy, (about_iff ho (hl y hy)).2 h⟩⟩
  by_cases ha : identity p o ∈ l.map (identity p)
  · rw [if_pos (hany.2 ha), if_pos ha]
    refine ⟨fun y => ?_, ?_⟩
    · rw [List.mem_map]
      constructor
      · rintro ⟨z, hz, rfl⟩
        split
        · exact Or.inl rfl
        · rename_i h
          exact Or.inr ⟨hz, fun hh => h ((about_iff ho (hl z hz)).2 hh)⟩
      · rintro (rfl | ⟨h1, h2⟩)
        · obtain ⟨z, hz, h⟩ := List.mem_map.1 ha
          exact ⟨z, hz, by rw [if_pos ((about_iff ho (hl z hz)).2 h)]⟩
        · exact ⟨y, h1, by rw [if_neg fun h => h2 ((about_iff ho (hl y h1)).1 h)]⟩
    · rw [List.map_map]
      refine List.map_congr_left fun y hy => ?_
      simp only [Function.comp]
      split
      · rename_i h
        rw [hi, (about_iff ho (hl y hy)).1 h]
      · rfl
  · rw [if_neg fun h => ha (hany.1 h), if_neg ha]
    refine ⟨fun y => ?_, by rw [List.map_append, List.map_cons, List.map_nil, hi]⟩
    rw [List.mem_append, List.mem_singleton]
    constructor
    · rintro (h | h)
      · exact Or.inr ⟨h, fun hh => ha (List.mem_map.2 ⟨y, h, hh⟩)⟩
      · exact Or.inl h
    · rintro (h | h)
      · exact Or.inr h
      · exact Or.inl h.1

theorem put_first (ho : o.tag = q) (hl : ∀ y ∈ l, y.tag = q) (hi : identity p e = identity p o) (hu : byUser p = true)
    (hins : o.get .insert = some (.str "first")) :
    ∃ l', put p o e l = some l' ∧ Puts p q o e l l'
      (identity p o :: (l.map (identity p)).filter fun u => u ≠ identity p o) := by
  unfold put
  simp only [hu, if_true, hins]
  refine ⟨_, rfl, fun y => ?_, ?_⟩
  · rw [List.mem_cons, mem_others ho hl]
  · rw [List.map_cons, others_keys ho hl, hi]

theorem putAfter_split {P : Elem → Bool} {v : Ident} : ∀ {m : List Elem} {a b : List Ident}, (∀ y ∈ m, P y = true ↔ identity p y = v) →
    v ∉ a → m.map (identity p) = a ++ v :: b → ∃ m', putAfter P e m = some m' ∧
      (∀ y, y ∈ m' ↔ y = e ∨ y ∈ m) ∧ m'.map (identity p) = a ++ v :: identity p e :: b := by
  intro m
  induction m with
  | nil => intro a b _ _ h; simp at h
  | cons y r ih =>
    intro a b hP ha h
    rw [putAfter]
    by_cases hy : P y = true
    · rw [if_pos hy]
      refine ⟨_, rfl, fun z => ?_, ?_⟩
      · simp only [List.mem_cons]; tauto
      · have h1 := (hP y (by simp)).1 hy
        cases a with
        | nil =>
          rw [List.map_cons, List.nil_append, List.cons.injEq] at h
          rw [List.map_cons, List.map_cons, h.1, h.2]; rfl
        | cons w a =>
          rw [List.map_cons, List.cons_append, List.cons.injEq] at h
          exact absurd (by rw [← h1, h.1]; simp) ha
    · rw [if_neg hy]
      cases a with
      | nil =>
        rw [List.map_cons, List.nil_append, List.cons.injEq] at h
        exact absurd ((hP y (by simp)).2 h.1) hy
      | cons w a =>
        rw [List.map_cons, List.cons_append, List.cons.injEq] at h
        obtain ⟨m', h1, h2, h3⟩ := ih (fun z hz => hP z (by simp [hz])) (fun hh => ha (by simp [hh])) h.2
        refine ⟨y :: m', by rw [h1]; rfl, fun z => ?_, by rw [List.map_cons, h3, h.1]; rfl⟩
        simp only [List.mem_cons, h2]; tauto

theorem put_after (ho : o.tag = q) (hl : ∀ y ∈ l, y.tag = q) (hi : identity p e = identity p o) (hu : byUser p = true)
    (hins : o.get .insert = some (.str "after")) {v : Ident} {a b : List Ident}
    (hv : ∀ y, y.tag = q → (anchored p o y = true ↔ identity p y = v))
    (hk : ((l.map (identity p)).filter fun u => u ≠ identity p o) = a ++ v :: b) (ha : v ∉ a) :
    ∃ l', put p o e l = some l' ∧ Puts p q o e l l' (a ++ v :: identity p o :: b) := by
  unfold put
  simp only [hu, if_true, hins]
  rw [← others_keys ho hl] at hk
  obtain ⟨m', h1, h2, h3⟩ := putAfter_split (e := e) (P := anchored p o) (fun y hy => hv y (hl y (List.mem_filter.1 hy).1)) ha hk
  simp only [show ¬ ("after" = "first") by decide, show ¬ ("after" = "last") by decide, show ¬ ("after" = "before") by decide,
    if_false]
  refine ⟨m', h1, fun y => ?_, by rw [h3, hi]⟩
  rw [h2, mem_others ho hl]

end

/-! ## A run over the instances with one tag -/

/-- What is known about the nodes `D` of an edit-config with one tag, for the instances `m` that the server has and the
instances `T` that it should have. -/
structure TagRun (pl : List Place) (p : Place) (q : QName) (Fine : Elem → Prop) (D T m : List Elem) : Prop where
  tagD : ∀ o ∈ D, o.tag = q
  tagM : ∀ y ∈ m, y.tag = q
  onceD : (D.map (identity p)).Nodup
  onceT : (T.map (identity p)).Nodup
  onceM : (m.map (identity p)).Nodup
  /-- what a node does -/
  step : ∀ o ∈ D,
    (identity p o ∉ T.map (identity p) ∧ identity p o ∈ m.map (identity p) ∧
      ∀ l, (l.find? (about p o)).isSome → serveOne pl o l = some (l.filter fun y => !about p o y)) ∨
    ∃ e, e.tag = q ∧ identity p e = identity p o ∧ Fine e ∧
      (∀ l, l.find? (about p o) = m.find? (about p o) → serveOne pl o l = put p o e l) ∧
      (byUser p = true → identity p o ∈ T.map (identity p) ∧
        ((o.get .insert = some (.str "first") ∧ ∃ r, T.map (identity p) = identity p o :: r) ∨
        (o.get .insert = some (.str "after") ∧ ∃ v, (∀ y, y.tag = q → (anchored p o y = true ↔ identity p y = v)) ∧
          ∃ a b, T.map (identity p) = a ++ v :: identity p o :: b) ∨
        (o.get .insert = none ∧ (m = [] ∨ m.map (identity p) = T.map (identity p)))))
  full : byUser p = true → (∀ u ∈ T.map (identity p), u ∈ D.map (identity p)) ∨ m.map (identity p) = T.map (identity p)
  seq : byUser p = true → ((D.map (identity p)).filter fun u => u ∈ T.map (identity p)).Sublist (T.map (identity p))
  rest : ∀ y ∈ m, identity p y ∉ D.map (identity p) → Fine y
  stays : byUser p = true → ∀ y ∈ m, identity p y ∉ D.map (identity p) → identity p y ∈ T.map (identity p)
  new : ∀ u ∈ T.map (identity p), u ∉ D.map (identity p) → u ∈ m.map (identity p)

/-- What holds after the nodes `P`. -/
structure TagInv (p : Place) (q : QName) (Fine : Elem → Prop) (D T m P l : List Elem) : Prop where
  tags : ∀ y ∈ l, y.tag = q
  once : (l.map (identity p)).Nodup
  keep : ∀ y ∈ m, identity p y ∉ P.map (identity p) → y ∈ l
  fine : ∀ y ∈ l, (identity p y ∉ P.map (identity p) ∧ y ∈ m) ∨ (identity p y ∈ P.map (identity p) ∧ Fine y)
  done : ∀ o ∈ P, identity p o ∈ T.map (identity p) → identity p o ∈ l.map (identity p)
  full : byUser p = true → (∀ u ∈ T.map (identity p), u ∈ D.map (identity p)) →
    l.map (identity p) = ((P.map (identity p)).filter fun u => u ∈ T.map (identity p)) ++
      (m.map (identity p)).filter fun u => u ∉ P.map (identity p)
  stay : byUser p = true → m.map (identity p) = T.map (identity p) → l.map (identity p) = T.map (identity p)

section
variable {pl : List Place} {p : Place} {q : QName} {Fine : Elem → Prop} {D T m : List Elem}

theorem find_eq {o : Elem} (ho : o.tag = q) {a b : List Elem} (ha : ∀ y ∈ a, y.tag = q) (hb : ∀ y ∈ b, y.tag = q)
    (na : (a.map (identity p)).Nodup) (nb : (b.map (identity p)).Nodup)
    (h : ∀ y, identity p y = identity p o → (y ∈ a ↔ y ∈ b)) : a.find? (about p o) = b.find? (about p o) := by
  have one : ∀ {a : List Elem}, (∀ y ∈ a, y.tag = q) → (a.map (identity p)).Nodup → ∀ {y}, y ∈ a → identity p y = identity p o →
      a.find? (about p o) = some y := by
    intro a ha na y hy hyo
    cases hf : a.find? (about p o) with
    | none => exact absurd ((about_iff ho (ha y hy)).2 hyo) (by simpa using List.find?_eq_none.1 hf y hy)
    | some z =>
      have hz := List.mem_of_find?_eq_some hf
      have := (about_iff ho (ha z hz)).1 (List.find?_some hf)
      rw [List.inj_on_of_nodup_map na hz hy (this.trans hyo.symm)]
  cases hf : b.find? (about p o) with
  | some y =>
    have hy := List.mem_of_find?_eq_some hf
    have hyo := (about_iff ho (hb y hy)).1 (List.find?_some hf)
    exact one ha na ((h y hyo).2 hy) hyo
  | none =>
    rw [List.find?_eq_none]
    intro y hy hyo
    have hyo := (about_iff ho (ha y hy)).1 hyo
    have := one hb nb ((h y hyo).1 hy) hyo
    rw [hf] at this; cases this

theorem filter_self {u : Ident} {l : List Ident} (h : u ∉ l) : (l.filter fun w => decide (w ≠ u)) = l := by
  rw [List.filter_eq_self]
  intro w hw
  simp only [decide_eq_true_eq]
  rintro rfl
  exact h hw

theorem nodup_append_cons {α : Type} {a b c d : List α} {x : α} (h : a ++ x :: b = c ++ x :: d) (hn : (a ++ x :: b).Nodup) :
    a = c ∧ b = d := by
  have h1 : x ∉ a := by
    intro hx
    exact (List.nodup_append.1 hn).2.2 x hx x (by simp) rfl
  have h2 : x ∉ c := by
    rw [h] at hn
    intro hx
    exact (List.nodup_append.1 hn).2.2 x hx x (by simp) rfl
  clear hn
  induction a generalizing c with
  | nil =>
    cases c with
    | nil => simp at h; exact ⟨rfl, h⟩
    | cons y c => simp at h; exact absurd (by simp [h.1]) h2
  | cons z a ih =>
    cases c with
    | nil => simp at h; exact absurd (by simp [h.1]) h1
    | cons y c =>
      rw [List.cons_append, List.cons_append, List.cons.injEq] at h
      obtain ⟨h3, h4⟩ := ih h.2 (fun h => h1 (by simp [h])) (fun h => h2 (by simp [h]))
      exact ⟨by rw [h.1, h3], h4⟩

/-- One step. -/
theorem TagRun.next (h : TagRun pl p q Fine D T m) {P R l : List Elem} {o : Elem} (hD : D = P ++ o :: R)
    (hI : TagInv p q Fine D T m P l) : ∃ l', serveOne pl o l = some l' ∧ TagInv p q Fine D T m (P ++ [o]) l' := by
  have hoD : o ∈ D := by rw [hD]; simp
  have ho := h.tagD o hoD
  have hnD := h.onceD
  rw [hD, List.map_append, List.map_cons] at hnD
  have huP : identity p o ∉ P.map (identity p) := fun hx => (List.nodup_append.1 hnD).2.2 _ hx _ (by simp) rfl
  have huR : identity p o ∉ R.map (identity p) := (List.nodup_cons.1 (List.nodup_append.1 hnD).2.1).1
  have hP' : ∀ u, u ∈ (P ++ [o]).map (identity p) ↔ u ∈ P.map (identity p) ∨ u = identity p o := by
    intro u; simp [eq_comm]
  have hrest : (m.map (identity p)).filter (fun u => decide (u ∉ (P ++ [o]).map (identity p))) =
      ((m.map (identity p)).filter fun u => u ∉ P.map (identity p)).filter fun u => decide (u ≠ identity p o) := by
    rw [List.filter_filter]
    refine List.filter_congr fun u _ => ?_
    rw [Bool.eq_iff_iff]
    simp only [decide_eq_true_eq, hP', Bool.and_eq_true]
    tauto
  rcases h.step o hoD with ⟨hT, hm, hrun⟩ | ⟨e, het, hei, hef, hrun, hpos⟩
  · -- a deletion
    obtain ⟨y, hy, hyo⟩ := List.mem_map.1 hm
    have hyl := hI.keep y hy (by rw [hyo]; exact huP)
    refine ⟨_, hrun l ?_, ?_⟩
    · rw [List.find?_isSome]
      exact ⟨y, hyl, (about_iff ho (hI.tags y hyl)).2 hyo⟩
    have hmem := fun y => mem_others (p := p) (y := y) ho hI.tags
    refine ⟨fun y hy => hI.tags y (List.mem_filter.1 hy).1, ?_, fun y hy hno => ?_, fun y hy => ?_, fun o' ho' hT' => ?_, fun hu hfull => ?_, fun hu hst => ?_⟩
    · rw [others_keys ho hI.tags]; exact hI.once.filter _
    · rw [hP'] at hno
      exact (hmem y).2 ⟨hI.keep y hy fun h => hno (Or.inl h), fun h => hno (Or.inr h)⟩
    · obtain ⟨h1, h2⟩ := (hmem y).1 hy
      rw [hP']
      rcases hI.fine y h1 with h3 | h3
      · exact Or.inl ⟨fun h => h.elim h3.1 h2, h3.2⟩
      · exact Or.inr ⟨Or.inl h3.1, h3.2⟩
    · rcases List.mem_append.1 ho' with h1 | h1
      · rw [others_keys ho hI.tags, List.mem_filter]
        refine ⟨hI.done o' h1 hT', ?_⟩
        simp only [decide_eq_true_eq]
        intro heq
        exact hT (by rw [← heq]; exact hT')
      · rw [List.mem_singleton.1 h1] at hT'
        exact absurd hT' hT
    · rw [others_keys ho hI.tags, hI.full hu hfull, List.filter_append, hrest, List.map_append, List.filter_append]
      congr 1
      rw [List.filter_filter, List.map_cons, List.map_nil, List.filter_cons, if_neg (by simpa using hT), List.filter_nil, List.append_nil]
      refine List.filter_congr fun u hu => ?_
      rw [Bool.eq_iff_iff]
      simp only [decide_eq_true_eq, Bool.and_eq_true]
      exact ⟨fun h => h.2, fun h => ⟨fun h1 => hT (by rw [← h1]; exact h), h⟩⟩
    · rw [hst] at hm
      exact absurd hm hT
  · -- something is put
    have hfind : l.find? (about p o) = m.find? (about p o) := by
      refine find_eq ho hI.tags h.tagM hI.once h.onceM fun y hy => ⟨fun h1 => ?_, fun h1 => hI.keep y h1 (by rw [hy]; exact huP)⟩
      rcases hI.fine y h1 with h2 | h2
      · exact h2.2
      · exact absurd (by rw [← hy]; exact h2.1) huP
    have hulm : identity p o ∈ l.map (identity p) ↔ identity p o ∈ m.map (identity p) := by
      simp only [List.mem_map]
      constructor
      · rintro ⟨y, hy, hyo⟩
        rcases hI.fine y hy with h2 | h2
        · exact ⟨y, h2.2, hyo⟩
        · exact absurd (by rw [← hyo]; exact h2.1) huP
      · rintro ⟨y, hy, hyo⟩
        exact ⟨y, hI.keep y hy (by rw [hyo]; exact huP), hyo⟩
    -- what does not depend on the order
    have all : ∀ {l' ks}, Puts p q o e l l' ks → ks.Nodup →
        (byUser p = true → (∀ u ∈ T.map (identity p), u ∈ D.map (identity p)) →
          ks = (((P ++ [o]).map (identity p)).filter fun u => u ∈ T.map (identity p)) ++
            (m.map (identity p)).filter fun u => u ∉ (P ++ [o]).map (identity p)) →
        (byUser p = true → m.map (identity p) = T.map (identity p) → ks = T.map (identity p)) →
        TagInv p q Fine D T m (P ++ [o]) l' := by
      intro l' ks hp hn h1 h2
      refine ⟨fun y hy => ?_, by rw [hp.keys]; exact hn, fun y hy hno => ?_, fun y hy => ?_, fun o' ho' hT' => ?_,
        fun hu hf => by rw [hp.keys]; exact h1 hu hf, fun hu hf => by rw [hp.keys]; exact h2 hu hf⟩
      · rcases (hp.mem y).1 hy with rfl | h3
        · exact het
        · exact hI.tags y h3.1
      · rw [hP'] at hno
        exact (hp.mem y).2 (Or.inr ⟨hI.keep y hy fun h => hno (Or.inl h), fun h => hno (Or.inr h)⟩)
      · rw [hP']
        rcases (hp.mem y).1 hy with rfl | h3
        · exact Or.inr ⟨Or.inr hei, hef⟩
        · rcases hI.fine y h3.1 with h4 | h4
          · exact Or.inl ⟨fun h => h.elim h4.1 h3.2, h4.2⟩
          · exact Or.inr ⟨Or.inl h4.1, h4.2⟩
      · rcases List.mem_append.1 ho' with h3 | h3
        · obtain ⟨y, hy, hyo⟩ := List.mem_map.1 (hI.done o' h3 hT')
          refine List.mem_map.2 ⟨y, (hp.mem y).2 (Or.inr ⟨hy, ?_⟩), hyo⟩
          rw [hyo]
          intro heq
          exact huP (List.mem_map.2 ⟨o', h3, heq⟩)
        · rw [List.mem_singleton.1 h3]
          exact List.mem_map.2 ⟨e, (hp.mem e).2 (Or.inl rfl), hei⟩
    rw [hrun l hfind]
    have hstay : (if identity p o ∈ l.map (identity p) then l.map (identity p) else l.map (identity p) ++ [identity p o]).Nodup := by
      split
      · exact hI.once
      · rename_i hno
        rw [List.nodup_append]
        refine ⟨hI.once, by simp, fun a ha b hb => ?_⟩
        rw [List.mem_singleton.1 hb]
        rintro rfl
        exact hno ha
    by_cases hu : byUser p = true
    · obtain ⟨huT, hpos⟩ := hpos hu
      -- the target, when all of it is in the edit-config
      have hsplit : (∀ u ∈ T.map (identity p), u ∈ D.map (identity p)) → T.map (identity p) =
          ((P.map (identity p)).filter fun u => u ∈ T.map (identity p)) ++ identity p o ::
            (R.map (identity p)).filter fun u => u ∈ T.map (identity p) := by
        intro hfull
        have e1 : ((D.map (identity p)).filter fun u => u ∈ T.map (identity p)) = T.map (identity p) := by
          refine (h.seq hu).eq_of_length ?_
          refine Nat.le_antisymm (h.seq hu).length_le ?_
          refine (List.subperm_of_subset h.onceT fun u hu' => ?_).length_le
          exact List.mem_filter.2 ⟨hfull u hu', by simpa using hu'⟩
        conv_lhs => rw [← e1, hD, List.map_append, List.map_cons, List.filter_append, List.filter_cons,
          if_pos (by simpa using huT)]
      have hB' : (((P ++ [o]).map (identity p)).filter fun u => u ∈ T.map (identity p)) =
          ((P.map (identity p)).filter fun u => u ∈ T.map (identity p)) ++ [identity p o] := by
        rw [List.map_append, List.filter_append, List.map_cons, List.map_nil, List.filter_cons, if_pos (by simpa using huT),
          List.filter_nil]
      have hBu : identity p o ∉ ((P.map (identity p)).filter fun u => decide (u ∈ T.map (identity p))) :=
        fun h => huP (List.mem_filter.1 h).1
      rcases hpos with ⟨hins, r, hr⟩ | ⟨hins, v, hv, a, b, hab⟩ | ⟨hins, hm⟩
      · obtain ⟨l', h1, h2⟩ := put_first (e := e) ho hI.tags hei hu hins
        refine ⟨l', h1, all h2 ?_ (fun _ hfull => ?_) fun _ hst => ?_⟩
        · rw [List.nodup_cons]
          exact ⟨by simp, hI.once.filter _⟩
        · have hs := hsplit hfull
          have : ((P.map (identity p)).filter fun u => u ∈ T.map (identity p)) = [] := by
            have h3 := h.onceT
            have h4 : [] ++ identity p o :: r = ((P.map (identity p)).filter fun u => u ∈ T.map (identity p)) ++ identity p o ::
              (R.map (identity p)).filter fun u => u ∈ T.map (identity p) := by
              rw [List.nil_append, ← hr]; exact hs
            rw [hr] at h3
            exact (nodup_append_cons h4 h3).1.symm
          rw [hB', this, hrest, hI.full hu hfull, this]
          rfl
        · rw [hI.stay hu hst, hr, List.filter_cons, if_neg (by simp)]
          congr 1
          have := h.onceT
          rw [hr, List.nodup_cons] at this
          exact filter_self this.1
      · have hT := h.onceT
        rw [hab] at hT
        have hva : v ∉ a := fun hx => (List.nodup_append.1 hT).2.2 _ hx _ (by simp) rfl
        have hua : identity p o ∉ a := fun hx => (List.nodup_append.1 hT).2.2 _ hx _ (by simp) rfl
        have hT2 := (List.nodup_append.1 hT).2.1
        have huv : v ≠ identity p o := by
          rintro rfl
          exact (List.nodup_cons.1 hT2).1 (by simp)
        have hub : identity p o ∉ b := (List.nodup_cons.1 (List.nodup_cons.1 hT2).2).1
        have go : ∀ {c : List Ident}, l.map (identity p) = a ++ v :: c →
            ((l.map (identity p)).filter fun u => u ≠ identity p o) = a ++ v :: c.filter (fun u => decide (u ≠ identity p o)) := by
          intro c hc
          rw [hc, List.filter_append, filter_self hua, List.filter_cons, if_pos (by simpa using huv)]
        have nod : ∀ {c : List Ident}, l.map (identity p) = a ++ v :: c →
            (a ++ v :: identity p o :: c.filter (fun u => decide (u ≠ identity p o))).Nodup := by
          intro c hc
          have h1 := hI.once
          rw [hc] at h1
          have h2 : (a ++ v :: c.filter (fun u => decide (u ≠ identity p o))).Nodup := by
            rw [← go hc]; exact hI.once.filter _
          have hperm : (identity p o :: (a ++ v :: c.filter (fun u => decide (u ≠ identity p o)))).Perm
              (a ++ v :: identity p o :: c.filter (fun u => decide (u ≠ identity p o))) := by
            have := (List.perm_middle (a := identity p o) (l₁ := a ++ [v]) (l₂ := c.filter (fun u => decide (u ≠ identity p o)))).symm
            simpa using this
          refine hperm.nodup_iff.1 (List.nodup_cons.2 ⟨?_, h2⟩)
          simp only [List.mem_append, List.mem_cons, List.mem_filter, decide_eq_true_eq]
          rintro (h3 | h3 | h3)
          · exact hua h3
          · exact huv h3.symm
          · exact h3.2 rfl
        rcases h.full hu with hfull | hst
        · have hs := hsplit hfull
          have hB : ((P.map (identity p)).filter fun u => u ∈ T.map (identity p)) = a ++ [v] := by
            have h4 : (a ++ [v]) ++ identity p o :: b = ((P.map (identity p)).filter fun u => u ∈ T.map (identity p)) ++ identity p o ::
              (R.map (identity p)).filter fun u => u ∈ T.map (identity p) := by
              rw [List.append_assoc]; exact hab.symm.trans hs
            exact (nodup_append_cons h4 (by rw [List.append_assoc]; exact hT)).1.symm
          have hl := hI.full hu hfull
          rw [hB, List.append_assoc, List.singleton_append] at hl
          obtain ⟨l', h1, h2⟩ := put_after (e := e) ho hI.tags hei hu hins hv (go hl) hva
          refine ⟨l', h1, all h2 (nod hl) (fun _ _ => ?_) fun _ hst => ?_⟩
          · rw [hB', hB, hrest]; simp
          · rw [hI.stay hu hst, hab] at hl
            have := (nodup_append_cons hl hT).2
            rw [← this, List.filter_cons, if_neg (by simp), filter_self hub, hab]
        · have hl := (hI.stay hu hst).trans hab
          obtain ⟨l', h1, h2⟩ := put_after (e := e) ho hI.tags hei hu hins hv (go hl) hva
          refine ⟨l', h1, all h2 (nod hl) (fun _ hfull => ?_) fun _ _ => ?_⟩
          · have hs := hsplit hfull
            have hB : ((P.map (identity p)).filter fun u => u ∈ T.map (identity p)) = a ++ [v] := by
              have h4 : (a ++ [v]) ++ identity p o :: b = ((P.map (identity p)).filter fun u => u ∈ T.map (identity p)) ++ identity p o ::
                (R.map (identity p)).filter fun u => u ∈ T.map (identity p) := by
                rw [List.append_assoc]; exact hab.symm.trans hs
              exact (nodup_append_cons h4 (by rw [List.append_assoc]; exact hT)).1.symm
            have hl2 := hI.full hu hfull
            rw [hB, List.append_assoc, List.singleton_append, hl] at hl2
            rw [hB', hB, hrest, ← (nodup_append_cons hl2 hT).2]
            simp
          · rw [List.filter_cons, if_neg (by simp), filter_self hub, hab]
      · obtain ⟨l', h1, h2⟩ := put_stay (e := e) ho hI.tags hI.once hei (fun _ => hins)
        refine ⟨l', h1, all h2 hstay (fun _ hfull => ?_) fun _ hst => ?_⟩
        · rcases hm with hm | hm
          · rw [if_neg (by rw [hulm, hm]; simp), hI.full hu hfull, hB', hm]
            simp
          · rw [if_pos (by rw [hulm, hm]; exact huT), hI.stay hu hm, hB', hrest, hm]
            have hs := hsplit hfull
            have hI2 := hI.full hu hfull
            rw [hI.stay hu hm, hm] at hI2
            have h5 : ((T.map (identity p)).filter fun u => u ∉ P.map (identity p)) = identity p o ::
                (R.map (identity p)).filter fun u => u ∈ T.map (identity p) := by
              have := hI2.symm.trans hs
              exact List.append_cancel_left this
            rw [h5, List.filter_cons, if_neg (by simp), filter_self (fun h => huR (List.mem_filter.1 h).1),
              List.append_assoc, List.singleton_append]
            exact hs
        · rw [if_pos (by rw [hulm, hst]; exact huT), hI.stay hu hst]
    · obtain ⟨l', h1, h2⟩ := put_stay (e := e) ho hI.tags hI.once hei (fun h => absurd h hu)
      exact ⟨l', h1, all h2 hstay (fun h => absurd h hu) fun h => absurd h hu⟩

/-- All steps. -/
theorem TagRun.run (h : TagRun pl p q Fine D T m) : ∃ r, serve pl D m = some r ∧ TagInv p q Fine D T m D r := by
  have key : ∀ (R P l : List Elem), D = P ++ R → TagInv p q Fine D T m P l →
      ∃ r, serve pl R l = some r ∧ TagInv p q Fine D T m D r := by
    intro R
    induction R with
    | nil =>
      intro P l hD hI
      rw [List.append_nil] at hD
      exact ⟨l, by rw [serve], by rw [← hD] at hI; exact hI⟩
    | cons o R ih =>
      intro P l hD hI
      obtain ⟨l', h1, h2⟩ := h.next hD hI
      obtain ⟨r, h3, h4⟩ := ih (P ++ [o]) l' (by rw [hD]; simp) h2
      exact ⟨r, by rw [serve, h1]; exact h3, h4⟩
  refine key D [] m rfl ⟨h.tagM, h.onceM, fun y hy _ => hy, fun y hy => Or.inl ⟨by simp, hy⟩, by simp, fun _ _ => ?_, fun _ h => h⟩
  simp

/-- The result. -/
theorem TagRun.result (h : TagRun pl p q Fine D T m) : ∃ r, serve pl D m = some r ∧ (∀ y ∈ r, y.tag = q) ∧
    (r.map (identity p)).Nodup ∧ (∀ y ∈ r, Fine y) ∧ (∀ u ∈ T.map (identity p), u ∈ r.map (identity p)) ∧
    (byUser p = true → r.map (identity p) = T.map (identity p)) := by
  obtain ⟨r, hr, hI⟩ := h.run
  have hT : ∀ u ∈ T.map (identity p), u ∈ r.map (identity p) := by
    intro u hu
    by_cases hD : u ∈ D.map (identity p)
    · obtain ⟨o, ho, rfl⟩ := List.mem_map.1 hD
      exact hI.done o ho hu
    · obtain ⟨y, hy, rfl⟩ := List.mem_map.1 (h.new u hu hD)
      exact List.mem_map_of_mem (hI.keep y hy hD)
  refine ⟨r, hr, hI.tags, hI.once, fun y hy => ?_, hT, fun hu => ?_⟩
  · rcases hI.fine y hy with h1 | h1
    · exact h.rest y h1.2 h1.1
    · exact h1.2
  · rcases h.full hu with hf | hs
    · have e1 := hI.full hu hf
      have e2 : ((D.map (identity p)).filter fun u => u ∈ T.map (identity p)) = T.map (identity p) := by
        refine (h.seq hu).eq_of_length (Nat.le_antisymm (h.seq hu).length_le ?_)
        refine (List.subperm_of_subset h.onceT fun u hu' => ?_).length_le
        exact List.mem_filter.2 ⟨hf u hu', by simpa using hu'⟩
      rw [e1, e2]
      have e3 : ((m.map (identity p)).filter fun u => u ∉ D.map (identity p)) = [] := by
        rw [List.filter_eq_nil_iff]
        intro u hu' hno
        obtain ⟨y, hy, rfl⟩ := List.mem_map.1 hu'
        have hno : identity p y ∉ D.map (identity p) := by simpa using hno
        exact hno (hf _ (h.stays hu y hy hno))
      rw [e3, List.append_nil]
    · exact hI.stay hu hs

end
end NcDiff.Compile
