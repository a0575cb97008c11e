import Verif.Proof.CliTree
import Verif.Proof.Reorder
/-!
# Typing the commands of a diff
-/

namespace NcDiff.Running

/-! ## Paths -/

theorem hasPath_nil (l : List Item) : ¬ hasPath l [] := by cases l <;> simp [hasPath]

theorem hasPath_cons (l : List Item) (k : Str) (q : Path) :
    hasPath l (k :: q) ↔ ∃ i ∈ l, i.key = k ∧ (q = [] ∨ hasPath i.inner q) := by
  cases q with
  | nil => simp [hasPath]
  | cons k' q =>
    simp only [hasPath, reduceCtorEq, false_or]
    constructor
    · rintro ⟨i, hi, hk, s, hs, h⟩
      exact ⟨i, hi, hk, by unfold Item.inner; rw [hs]; exact h⟩
    · rintro ⟨i, hi, hk, h⟩
      cases hs : i.sub with
      | none =>
        unfold Item.inner at h
        rw [hs, Option.getD_none, hasPath_cons] at h
        obtain ⟨j, hj, _⟩ := h
        simp at hj
      | some s => exact ⟨i, hi, hk, s, hs, by unfold Item.inner at h; rw [hs] at h; exact h⟩

theorem hasPath_append (a b : List Item) (p : Path) : hasPath (a ++ b) p ↔ hasPath a p ∨ hasPath b p := by
  cases p with
  | nil => simp [hasPath_nil]
  | cons k q =>
    rw [hasPath_cons, hasPath_cons, hasPath_cons]
    constructor
    · rintro ⟨i, hi, h⟩
      rcases List.mem_append.1 hi with hi | hi
      · exact Or.inl ⟨i, hi, h⟩
      · exact Or.inr ⟨i, hi, h⟩
    · rintro (⟨i, hi, h⟩ | ⟨i, hi, h⟩)
      · exact ⟨i, List.mem_append.2 (Or.inl hi), h⟩
      · exact ⟨i, List.mem_append.2 (Or.inr hi), h⟩

/-- In a section that does not repeat lines, the paths below a line. -/
theorem hasPath_at {l : List Item} (hn : (l.map Item.key).Nodup) {i : Item} (hi : i ∈ l) (q : Path) :
    hasPath l (i.key :: q) ↔ q = [] ∨ hasPath i.inner q := by
  rw [hasPath_cons]
  constructor
  · rintro ⟨j, hj, hk, h⟩
    have : j = i := List.inj_on_of_nodup_map hn hj hi hk
    rw [this] at h; exact h
  · intro h; exact ⟨i, hi, rfl, h⟩

/-! ## Typing -/

/-- The same lines. -/
def Agree (a b : State) : Prop := ∀ k q, a (k :: q) ↔ b (k :: q)

/-- A line that the commands take away. -/
def covers (dev : Device) : List Item → Path → Prop
  | _, [] => False
  | l, k :: q => ∃ x ∈ l, (x.sub = none ∧ dev.clears x.key k) ∨ (x.key = k ∧ ∃ s, x.sub = some s ∧ covers dev s q)

/-- A line that the commands configure. -/
def shown (dev : Device) : List Item → Path → Prop
  | _, [] => False
  | l, k :: q => ∃ x ∈ l, x.key = k ∧ ((x.sub = none ∧ q = [] ∧ dev.shows k) ∨ ∃ s, x.sub = some s ∧ (q = [] ∨ shown dev s q))

theorem covers_nil {dev : Device} (p : Path) : ¬ covers dev [] p := by cases p <;> simp [covers]

theorem shown_nil {dev : Device} (p : Path) : ¬ shown dev [] p := by cases p <;> simp [shown]

theorem covers_append {dev : Device} (a b : List Item) (p : Path) : covers dev (a ++ b) p ↔ covers dev a p ∨ covers dev b p := by
  cases p with
  | nil => simp [covers]
  | cons k q =>
    simp only [covers, List.mem_append]
    constructor
    · rintro ⟨x, hx | hx, h⟩
      · exact Or.inl ⟨x, hx, h⟩
      · exact Or.inr ⟨x, hx, h⟩
    · rintro (⟨x, hx, h⟩ | ⟨x, hx, h⟩)
      · exact ⟨x, Or.inl hx, h⟩
      · exact ⟨x, Or.inr hx, h⟩

theorem shown_append {dev : Device} (a b : List Item) (p : Path) : shown dev (a ++ b) p ↔ shown dev a p ∨ shown dev b p := by
  cases p with
  | nil => simp [shown]
  | cons k q =>
    simp only [shown, List.mem_append]
    constructor
    · rintro ⟨x, hx | hx, h⟩
      · exact Or.inl ⟨x, hx, h⟩
      · exact Or.inr ⟨x, hx, h⟩
    · rintro (⟨x, hx, h⟩ | ⟨x, hx, h⟩)
      · exact ⟨x, Or.inl hx, h⟩
      · exact ⟨x, Or.inr hx, h⟩

mutual
/-- Commands that do not get into each other's way take away what they cover and configure what they show. -/
theorem typeAll_calm {dev : Device} : ∀ (l : List Item), Calm dev l → ∀ (st : State) (k : Str) (q : Path),
    typeAll dev l st (k :: q) ↔ (st (k :: q) ∧ ¬ covers dev l (k :: q)) ∨ shown dev l (k :: q)
  | [], _, st, k, q => by rw [typeAll]; simp [covers_nil, shown_nil]
  | x :: l, hc, st, k, q => by
    obtain ⟨c1, c2, c3⟩ := hc
    obtain ⟨n1, n2⟩ := List.nodup_cons.1 (List.map_cons .. ▸ c1)
    have e1 := typeItem_calm x (c3 x (by simp)) st k q
    rw [typeAll, typeAll_calm l
      ⟨n2, fun i hi j hj => c2 i (by simp [hi]) j (by simp [hj]), fun i hi => c3 i (by simp [hi])⟩, e1]
    have : x :: l = [x] ++ l := rfl
    rw [this, shown_append, covers_append]
    have key : shown dev [x] (k :: q) → ¬ covers dev l (k :: q) := by
      rintro ⟨i, hi, rfl, hp⟩ hcv
      rw [List.mem_singleton] at hi
      subst hi
      obtain ⟨y, hy, ⟨hn, hr⟩ | ⟨e, _⟩⟩ := hcv
      · refine c2 y (by simp [hy]) i (by simp) hn ?_ hr
        rcases hp with ⟨_, _, h⟩ | ⟨s, h, _⟩
        · exact Or.inr h
        · exact Or.inl (by simp [h])
      · exact n1 (e ▸ List.mem_map_of_mem hy)
    constructor
    · rintro (⟨⟨h1, h2⟩ | h1, h3⟩ | h1)
      · exact Or.inl ⟨h1, fun h => h.elim h2 h3⟩
      · exact Or.inr (Or.inl h1)
      · exact Or.inr (Or.inr h1)
    · rintro (⟨h1, h2⟩ | h1 | h1)
      · exact Or.inl ⟨Or.inl ⟨h1, fun h => h2 (Or.inl h)⟩, fun h => h2 (Or.inr h)⟩
      · exact Or.inl ⟨Or.inr h1, key h1⟩
      · exact Or.inr h1
theorem typeItem_calm {dev : Device} : ∀ (x : Item), (∀ s, x.sub = some s → Calm dev s) →
    ∀ (st : State) (k : Str) (q : Path),
    typeItem dev x st (k :: q) ↔ (st (k :: q) ∧ ¬ covers dev [x] (k :: q)) ∨ shown dev [x] (k :: q)
  | .mk k' none i, _, st, k, q => by
    rw [typeItem, typeSub]
    have hcv : covers dev [.mk k' none i] (k :: q) ↔ dev.clears k' k := by
      simp [covers, Item.sub, Item.key]
    have hsh : shown dev [.mk k' none i] (k :: q) ↔ k' = k ∧ q = [] ∧ dev.shows k := by
      simp [shown, Item.sub, Item.key]
    rw [hcv, hsh]
    simp only [List.cons.injEq]
    constructor
    · rintro (⟨h1, h2⟩ | ⟨⟨h1, h2⟩, h3⟩)
      · exact Or.inl ⟨h1, h2 k q ⟨rfl, rfl⟩⟩
      · exact Or.inr ⟨h1.symm, h2, h1 ▸ h3⟩
    · rintro (⟨h1, h2⟩ | ⟨h1, h2, h3⟩)
      · exact Or.inl ⟨h1, fun a b e => e.1 ▸ h2⟩
      · exact Or.inr ⟨⟨h1.symm, h2⟩, h1 ▸ h3⟩
  | .mk k' (some l) i, hc, st, k, q => by
    rw [typeItem, typeSub]
    have hcv : covers dev [.mk k' (some l) i] (k :: q) ↔ k' = k ∧ covers dev l q := by
      simp [covers, Item.sub, Item.key]
    have hsh : shown dev [.mk k' (some l) i] (k :: q) ↔ k' = k ∧ (q = [] ∨ shown dev l q) := by
      simp [shown, Item.sub, Item.key]
    rw [hcv, hsh]
    simp only
    by_cases hk : k = k'
    · subst hk
      rw [if_pos rfl]
      cases q with
      | nil => simp
      | cons a b =>
        rw [typeAll_calm l (hc l rfl)]
        simp
    · rw [if_neg hk]
      simp [Ne.symm hk]
end

theorem AllLines.imp {P Q : Str → Prop} (h : ∀ k, P k → Q k) {l : List Item} (hl : AllLines P l) : AllLines Q l := by
  induction hl with
  | mk h1 _ ih => exact ⟨fun i hi => h _ (h1 i hi), ih⟩

/-- Typing lines of a config shows all of them. -/
theorem shown_plain {t : Tables} {on : Str → Prop} {l : List Item} (h : AllLines (DeviceLine t on) l) (p : Path) :
    shown (deviceOf t on) l p ↔ hasPath l p := by
  induction h generalizing p with
  | mk h1 _ ih =>
    cases p with
    | nil => simp [shown, hasPath_nil]
    | cons k q =>
      rw [hasPath_cons]
      constructor
      · rintro ⟨x, hx, rfl, ⟨_, rfl, _⟩ | ⟨s, hs, h⟩⟩
        · exact ⟨x, hx, rfl, Or.inl rfl⟩
        · refine ⟨x, hx, rfl, h.imp id fun h => ?_⟩
          have : x.inner = s := by unfold Item.inner; rw [hs]; rfl
          rw [this]
          exact (ih x hx s hs q).1 h
      · rintro ⟨x, hx, rfl, h⟩
        refine ⟨x, hx, rfl, ?_⟩
        cases hs : x.sub with
        | none =>
          refine Or.inl ⟨rfl, ?_, (h1 x hx).shows⟩
          have : x.inner = [] := by unfold Item.inner; rw [hs]; rfl
          rw [this] at h
          rcases h with h | h
          · exact h
          · cases q with
            | nil => rfl
            | cons a b => rw [hasPath_cons] at h; obtain ⟨_, h, _⟩ := h; cases h
        | some s =>
          have : x.inner = s := by unfold Item.inner; rw [hs]; rfl
          rw [this] at h
          exact Or.inr ⟨s, rfl, h.imp id (ih x hx s hs q).2⟩

/-- A removed negation for which a command is printed is not also added. -/
theorem not_skipped {d : List Item} {x y : Item} (hx : ¬ Skipped d x) (hn : x.sub = none) (hy : y ∈ d) (ha : y.info = .add)
    (hs : y.sub = none) : y.key ≠ x.key :=
  fun e => hx ⟨hn, y, hy, ha, hs, e ▸ List.prefix_refl _⟩

/-- The commands of a diff do not get into each other's way. -/
theorem tree_calm {t : Tables} {on : Str → Prop} {d : List Item} (h : DiffOk t on d) : ∀ b, Calm (deviceOf t on) (tree t b d) := by
  induction h with
  | @mk d hl _ ih =>
    intro b
    refine ⟨tree_nodup hl b, ?_, ?_⟩
    · intro i hi j hj hn hsh hcl
      obtain ⟨⟨x, hx, hi⟩, _⟩ := mem_tree.1 hi
      obtain ⟨⟨y, hy, hj⟩, _⟩ := mem_tree.1 hj
      -- what stays is a line of the second config
      have hy' : y.info ≠ .del ∧ j.key = y.key := by
        rcases sideItem_key hj with h | ⟨_, e, e'⟩
        · exact h
        · rcases hsh with h | h
          · exact absurd e' h
          · rw [e] at h; exact absurd h (hl.line y hy).undo_hidden
      rw [hy'.2] at hcl
      rcases mem_sideItem.1 hi with ⟨h1, _, _, rfl⟩ | ⟨h1, hsk, hb, rfl⟩ | ⟨_, _, l, _, rfl⟩ | ⟨_, l, _, _, rfl⟩
      · exact (hl.line x hx).not_clears (hl.line y hy) (hl.same2 x hx y hy (by simp [h1]) hy'.1) hcl
      · replace hcl : (deviceOf t on).clears (undo t x.key) y.key := hcl
        by_cases hya : y.info = .add
        · rw [(hl.line x hx).isNo_undo] at hb
          rcases mem_sideItem.1 hj with ⟨_, hys, hyb, _⟩ | ⟨hd, _⟩ | ⟨_, hyb, l, hys, _⟩ | ⟨hc, _⟩
          · cases hl.line x hx with
            | line px =>
              rw [notNo px.positive] at hb
              simp only [Bool.not_false] at hb
              cases hl.line y hy with
              | line py => rw [notNo py.positive, ← hb] at hyb; cases hyb
              | toggle py => exact px.undo_toggle py hcl
            | toggle px =>
              exact not_skipped hsk (hl.leaf x hx (Or.inr px.negative)) hy hya hys (px.undo_only hcl)
          · exact hy'.1 hd
          · cases hl.line x hx with
            | line px =>
              rw [notNo px.positive, hyb] at hb
              cases hb
            | toggle px =>
              have e := px.undo_only hcl
              have := hl.leaf y hy (Or.inr (e ▸ px.negative))
              rw [hys] at this; cases this
          · rw [hya] at hc; cases hc
        · have e := (hl.line x hx).undo_only (hl.single1 x hx y hy (by simp [h1]) hya) hcl
          have : x = y := List.inj_on_of_nodup_map hl.nodup1 (List.mem_filter.2 ⟨hx, by simp [h1]⟩)
            (List.mem_filter.2 ⟨hy, by simpa using hya⟩) e
          subst this
          exact hy'.1 h1
      · cases hn
      · cases hn
    · intro i hi s hs
      obtain ⟨⟨x, hx, hi⟩, _⟩ := mem_tree.1 hi
      rcases mem_sideItem.1 hi with ⟨_, _, _, rfl⟩ | ⟨_, _, _, rfl⟩ | ⟨h1, _, l, h2, rfl⟩ | ⟨h1, l, h2, _, rfl⟩
      · cases hs
      · cases hs
      · cases hs; exact hl.addCalm x hx h1 _ h2
      · cases hs; exact ih x hx h1 l h2 b

/-- The commands of a section of a diff. -/
theorem covers_tree {t : Tables} {on : Str → Prop} {b : Bool} {d : List Item} {k : Str} {q : Path} :
    covers (deviceOf t on) (tree t b d) (k :: q) ↔
    (∃ y ∈ tree t b d, y.sub = none ∧ (deviceOf t on).clears y.key k) ∨
    (∃ x ∈ d, x.key = k ∧ ((x.info = .add ∧ b = false ∧ ∃ l, x.sub = some l ∧ covers (deviceOf t on) l q) ∨
      (x.info = .ctx ∧ ∃ l, x.sub = some l ∧ covers (deviceOf t on) (tree t b l) q))) := by
  constructor
  · rintro ⟨y, hy, h | ⟨e, s, hs, h⟩⟩
    · exact Or.inl ⟨y, hy, h⟩
    · refine Or.inr ?_
      obtain ⟨⟨x, hx, hi⟩, _⟩ := mem_tree.1 hy
      rcases mem_sideItem.1 hi with ⟨_, _, _, rfl⟩ | ⟨_, _, _, rfl⟩ | ⟨h1, hb, l, h2, rfl⟩ | ⟨h1, l, h2, _, rfl⟩
      · cases hs
      · cases hs
      · cases hs; exact ⟨x, hx, e, Or.inl ⟨h1, hb, _, h2, h⟩⟩
      · cases hs; exact ⟨x, hx, e, Or.inr ⟨h1, _, h2, h⟩⟩
  · rintro (⟨y, hy, h⟩ | ⟨x, hx, e, ⟨h1, hb, l, h2, h⟩ | ⟨h1, l, h2, h⟩⟩)
    · exact ⟨y, hy, Or.inl h⟩
    · refine ⟨.mk x.key (some l) .ctx, mem_tree.2 ⟨⟨x, hx, mem_sideItem.2 (Or.inr (Or.inr (Or.inl ⟨h1, hb, l, h2, rfl⟩)))⟩,
        fun _ => rfl⟩, Or.inr ⟨e, l, rfl, h⟩⟩
    · refine ⟨.mk x.key (some (tree t b l)) .ctx, mem_tree.2 ⟨⟨x, hx, mem_sideItem.2 (Or.inr (Or.inr (Or.inr ⟨h1, l, h2, ?_, rfl⟩)))⟩,
        fun _ => rfl⟩, Or.inr ⟨e, _, rfl, h⟩⟩
      intro hn
      rw [hn] at h
      exact covers_nil q h

/-- What the commands of a section of a diff show. -/
theorem shown_tree {t : Tables} {on : Str → Prop} {b : Bool} {d : List Item} {k : Str} {q : Path} (hl : LevelOk t on d) :
    shown (deviceOf t on) (tree t b d) (k :: q) ↔
    (q = [] ∧ ∃ x ∈ d, x.key = k ∧ x.info = .add ∧ x.sub = none ∧ "no ".toList.isPrefixOf k = b) ∨
    (∃ x ∈ d, x.key = k ∧ ((x.info = .add ∧ b = false ∧ ∃ l, x.sub = some l ∧ (q = [] ∨ hasPath l q)) ∨
      (x.info = .ctx ∧ ∃ l, x.sub = some l ∧ tree t b l ≠ [] ∧ (q = [] ∨ shown (deviceOf t on) (tree t b l) q)))) := by
  constructor
  · rintro ⟨y, hy, e, h⟩
    obtain ⟨⟨x, hx, hi⟩, _⟩ := mem_tree.1 hy
    rcases mem_sideItem.1 hi with ⟨h1, h2, h3, rfl⟩ | ⟨_, _, _, rfl⟩ | ⟨h1, hb, l, h2, rfl⟩ | ⟨h1, l, h2, hne, rfl⟩
    · rcases h with ⟨_, hq, _⟩ | ⟨s, hs, _⟩
      · replace e : x.key = k := e
        exact Or.inl ⟨hq, x, hx, e, h1, h2, e ▸ h3⟩
      · cases hs
    · rcases h with ⟨_, _, hs⟩ | ⟨s, hs, _⟩
      · replace e : undo t x.key = k := e
        rw [← e] at hs
        exact absurd hs (hl.line x hx).undo_hidden
      · cases hs
    · rcases h with ⟨hs, _⟩ | ⟨s, hs, h⟩
      · cases hs
      · cases hs
        exact Or.inr ⟨x, hx, e, Or.inl ⟨h1, hb, l, h2, h.imp id (shown_plain (hl.addLines x hx h1 l h2) q).1⟩⟩
    · rcases h with ⟨hs, _⟩ | ⟨s, hs, h⟩
      · cases hs
      · cases hs
        exact Or.inr ⟨x, hx, e, Or.inr ⟨h1, _, h2, hne, h⟩⟩
  · rintro (⟨rfl, x, hx, rfl, h1, h2, h3⟩ | ⟨x, hx, rfl, ⟨h1, hb, l, h2, h⟩ | ⟨h1, l, h2, hne, h⟩⟩)
    · refine ⟨.mk x.key none .ctx, mem_tree.2 ⟨⟨x, hx, mem_sideItem.2 (Or.inl ⟨h1, h2, h3, rfl⟩)⟩, ?_⟩, rfl,
        Or.inl ⟨rfl, rfl, (hl.line x hx).shows⟩⟩
      rintro rfl
      cases hl.line x hx with
      | line px => rw [notNo px.positive] at h3; cases h3
      | toggle px =>
        unfold keepNeg
        simp only [Item.sub, Item.key, Option.isSome_none, Bool.false_or, Bool.not_eq_true']
        rw [Bool.eq_false_iff]
        intro hd
        unfold dropped at hd
        rw [List.any_eq_true] at hd
        obtain ⟨key, hkey, hd⟩ := hd
        rw [List.any_eq_true] at hd
        obtain ⟨m, hm, hd⟩ := hd
        obtain ⟨z, hz, _, _, rfl⟩ := mem_positiveKeys.1 hkey
        have pz := (hl.line z hz).of_found (List.ne_nil_of_mem hm)
        have hd' : "no ".toList ++ lstrip m <+: x.key := List.isPrefixOf_iff_prefix.1 hd
        rw [px.eq] at hd'
        exact px.free _ pz m hm ((List.prefix_append_right_inj _).1 hd')
    · exact ⟨.mk x.key (some l) .ctx, mem_tree.2 ⟨⟨x, hx, mem_sideItem.2 (Or.inr (Or.inr (Or.inl ⟨h1, hb, l, h2, rfl⟩)))⟩,
        fun _ => rfl⟩, rfl, Or.inr ⟨l, rfl, h.imp id (shown_plain (hl.addLines x hx h1 l h2) q).2⟩⟩
    · exact ⟨.mk x.key (some (tree t b l)) .ctx, mem_tree.2 ⟨⟨x, hx, mem_sideItem.2 (Or.inr (Or.inr (Or.inr ⟨h1, l, h2, hne, rfl⟩)))⟩,
        fun _ => rfl⟩, rfl, Or.inr ⟨_, rfl, h⟩⟩

/-- A removed line is taken away, unless it is also added without a section. -/
theorem removed_covered {t : Tables} {on : Str → Prop} {d : List Item} (hl : LevelOk t on d) {x : Item} (hx : x ∈ d)
    (hd : x.info = .del) (q : Path) :
    covers (deviceOf t on) (tree t true d) (x.key :: q) ∨ covers (deviceOf t on) (tree t false d) (x.key :: q) ∨
    (x.sub = none ∧ ∃ y ∈ d, y.info = .add ∧ y.sub = none ∧ y.key = x.key) := by
  -- a line that replaces it takes it away
  have rep : ∀ y ∈ d, y.info = .add → y.sub = none → sameHead t y.key x.key → y.key ≠ x.key →
      covers (deviceOf t on) (tree t false d) (x.key :: q) := by
    intro y hy h1 h2 hsh hne
    have py := (hl.line y hy).of_found (by obtain ⟨m, hm, _⟩ := hsh; exact List.ne_nil_of_mem hm)
    refine covers_tree.2 (Or.inl ⟨.mk y.key none .ctx, mem_tree.2 ⟨⟨y, hy, mem_sideItem.2 (Or.inl
      ⟨h1, h2, notNo py.positive, rfl⟩)⟩, fun h => by cases h⟩, rfl, ?_⟩)
    show (deviceOf t on).clears y.key x.key
    unfold Device.clears
    rw [notNo py.positive]
    exact Or.inl ⟨hne.symm, hsh⟩
  by_cases hsk : Skipped d x
  · obtain ⟨hs, y, hy, h1, h2, hp⟩ := hsk
    by_cases he : y.key = x.key
    · exact Or.inr (Or.inr ⟨hs, y, hy, h1, h2, he⟩)
    · rcases hl.both x hx y hy hd h1 hp with e | e
      · exact absurd e.symm he
      · exact Or.inr (Or.inl (rep y hy h1 h2 e he))
  · have emit : ∀ b, "no ".toList.isPrefixOf (undo t x.key) = b →
        (b = true → keepNeg t (positiveKeys d) (.mk (undo t x.key) none .ctx) = true) →
        covers (deviceOf t on) (tree t b d) (x.key :: q) := fun b hb hk =>
      covers_tree.2 (Or.inl ⟨.mk (undo t x.key) none .ctx, mem_tree.2 ⟨⟨x, hx, mem_sideItem.2 (Or.inr (Or.inl
        ⟨hd, hsk, hb, rfl⟩))⟩, hk⟩, rfl, (hl.line x hx).undo_clears⟩)
    cases hl.line x hx with
    | toggle px =>
      refine Or.inr (Or.inl (emit false ?_ (fun h => by cases h)))
      rw [px.undo, notNo px.positive]
    | line px =>
      have hb : "no ".toList.isPrefixOf (undo t x.key) = true := by rw [px.undo, List.isPrefixOf_iff_prefix.2 px.negative]
      by_cases hkp : keepNeg t (positiveKeys d) (.mk (undo t x.key) none .ctx) = true
      · exact Or.inl (emit true hb fun _ => hkp)
      · unfold keepNeg at hkp
        simp only [Item.sub, Item.key, Option.isSome_none, Bool.false_or, Bool.not_eq_true', Bool.not_eq_false] at hkp
        unfold dropped at hkp
        rw [List.any_eq_true] at hkp
        obtain ⟨key, hkey, hkp⟩ := hkp
        rw [List.any_eq_true] at hkp
        obtain ⟨m, hm, hkp⟩ := hkp
        obtain ⟨y, hy, h1, h2, rfl⟩ := mem_positiveKeys.1 hkey
        have py := (hl.line y hy).of_found (List.ne_nil_of_mem hm)
        replace hkp : ("no ".toList ++ lstrip m).isPrefixOf (undo t x.key) = true := hkp
        rw [px.undo] at hkp
        obtain ⟨n, hn, e⟩ := hl.heads.known _ _ py px m hm (List.isPrefixOf_iff_prefix.1 hkp)
        refine Or.inr (Or.inl (rep y hy h1 h2 ⟨m, hm, n, hn, e⟩ ?_))
        exact not_skipped hsk (hl.leaf x hx (Or.inl (List.ne_nil_of_mem hn))) hy h1 h2

end NcDiff.Running
