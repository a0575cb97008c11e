import Verif.Proof.Paste
/-!
# Typing the commands of the diff of two configs gives the second config
-/

namespace NcDiff.Running

/-! ## Members of a script and of a report -/

theorem Script.mem {l1 l2 s : List Item} (h : Script l1 l2 s) : ∀ x ∈ s,
    (x.info = .del → ∃ i ∈ l1, i.key = x.key ∧ i.sub = x.sub) ∧
    (x.info = .add → ∃ j ∈ l2, j.key = x.key ∧ j.sub = x.sub) ∧
    (x.info = .same → ∃ i ∈ l1, ∃ j ∈ l2, i.key = x.key ∧ j.key = x.key ∧ i.sub = j.sub ∧ Plain i.sub x.sub) ∧
    (x.info = .ctx → ∃ i ∈ l1, ∃ j ∈ l2, ∃ y, i.key = x.key ∧ j.key = x.key ∧ x.sub = some y ∧
      ScriptSub i.sub j.sub y) := by
  induction s generalizing l1 l2 with
  | nil => simp
  | cons a s ih =>
    have lift : ∀ {m1 m2 : List Item}, (∀ i ∈ m1, i ∈ l1) → (∀ j ∈ m2, j ∈ l2) → Script m1 m2 s → ∀ x ∈ s,
        (x.info = .del → ∃ i ∈ l1, i.key = x.key ∧ i.sub = x.sub) ∧
        (x.info = .add → ∃ j ∈ l2, j.key = x.key ∧ j.sub = x.sub) ∧
        (x.info = .same → ∃ i ∈ l1, ∃ j ∈ l2, i.key = x.key ∧ j.key = x.key ∧ i.sub = j.sub ∧ Plain i.sub x.sub) ∧
        (x.info = .ctx → ∃ i ∈ l1, ∃ j ∈ l2, ∃ y, i.key = x.key ∧ j.key = x.key ∧ x.sub = some y ∧
          ScriptSub i.sub j.sub y) := by
      intro m1 m2 h1 h2 hs x hx
      obtain ⟨a1, a2, a3, a4⟩ := ih hs x hx
      refine ⟨fun h => ?_, fun h => ?_, fun h => ?_, fun h => ?_⟩
      · obtain ⟨i, hi, hr⟩ := a1 h; exact ⟨i, h1 i hi, hr⟩
      · obtain ⟨i, hi, hr⟩ := a2 h; exact ⟨i, h2 i hi, hr⟩
      · obtain ⟨i, hi, j, hj, hr⟩ := a3 h; exact ⟨i, h1 i hi, j, h2 j hj, hr⟩
      · obtain ⟨i, hi, j, hj, hr⟩ := a4 h; exact ⟨i, h1 i hi, j, h2 j hj, hr⟩
    intro x hx
    cases h with
    | @del k s' i l1' l2' d h =>
      rcases List.mem_cons.1 hx with rfl | hx
      · exact ⟨fun _ => ⟨_, List.mem_cons_self, rfl, rfl⟩, by simp [Item.info], by simp [Item.info], by simp [Item.info]⟩
      · exact lift (fun i hi => List.mem_cons_of_mem _ hi) (fun i hi => hi) h x hx
    | @add k s' i l1' l2' d h =>
      rcases List.mem_cons.1 hx with rfl | hx
      · exact ⟨by simp [Item.info], fun _ => ⟨_, List.mem_cons_self, rfl, rfl⟩, by simp [Item.info], by simp [Item.info]⟩
      · exact lift (fun i hi => hi) (fun i hi => List.mem_cons_of_mem _ hi) h x hx
    | @same k s' s'' i j l1' l2' d hp h =>
      rcases List.mem_cons.1 hx with rfl | hx
      · exact ⟨by simp [Item.info], by simp [Item.info],
          fun _ => ⟨_, List.mem_cons_self, _, List.mem_cons_self, rfl, rfl, rfl, hp⟩, by simp [Item.info]⟩
      · exact lift (fun i hi => List.mem_cons_of_mem _ hi) (fun i hi => List.mem_cons_of_mem _ hi) h x hx
    | @changed k s' s'' y i j l1' l2' d hp h =>
      rcases List.mem_cons.1 hx with rfl | hx
      · exact ⟨by simp [Item.info], by simp [Item.info], by simp [Item.info],
          fun _ => ⟨_, List.mem_cons_self, _, List.mem_cons_self, y, rfl, rfl, rfl, hp⟩⟩
      · exact lift (fun i hi => List.mem_cons_of_mem _ hi) (fun i hi => List.mem_cons_of_mem _ hi) h x hx

theorem Report.mem {s d : List Item} (h : Report s d) {x : Item} (hx : x ∈ d) :
    ∃ z ∈ s, (z.info ≠ .same ∧ x = z) ∨ (z.info = .same ∧ x = z.withInfo .ctx) := by
  obtain ⟨shown, _, rfl⟩ := h
  obtain ⟨z, hz, rfl⟩ := List.mem_map.1 hx
  obtain ⟨p, hp, rfl⟩ := List.mem_map.1 hz
  refine ⟨p.1, List.fst_mem_of_mem_zipIdx (List.mem_filter.1 hp).1, ?_⟩
  by_cases h : p.1.info = .same
  · exact Or.inr ⟨h, if_pos h⟩
  · exact Or.inl ⟨h, if_neg h⟩

theorem Report.of_mem {s d : List Item} (h : Report s d) {z : Item} (hz : z ∈ s) (hi : z.info ≠ .same) : z ∈ d := by
  obtain ⟨shown, h1, rfl⟩ := h
  obtain ⟨n, hn⟩ := List.mem_iff_getElem?.1 hz
  refine List.mem_map.2 ⟨z, List.mem_map.2 ⟨(z, n), List.mem_filter.2 ⟨?_, ?_⟩, rfl⟩, if_neg hi⟩
  · rw [List.mem_zipIdx_iff_getElem?]; exact hn
  · refine (h1 n).2 ?_
    intro x hx hs
    rw [hn] at hx
    cases hx
    exact absurd hs hi

theorem Report.keys_sublist {s d : List Item} (h : Report s d) {m : Info} (hm : m = .del ∨ m = .add) :
    ((d.filter (fun x => x.info ≠ m)).map Item.key).Sublist ((s.filter (fun x => x.info ≠ m)).map Item.key) := by
  obtain ⟨shown, _, rfl⟩ := h
  have h1 : ((s.zipIdx.filter (fun p => shown p.2)).map Prod.fst).Sublist s := by
    have := (List.filter_sublist (p := fun p : Item × Nat => shown p.2) (l := s.zipIdx)).map Prod.fst
    rwa [List.zipIdx_map_fst] at this
  generalize (s.zipIdx.filter (fun p => shown p.2)).map Prod.fst = r at h1
  have e : ((r.map (fun x => if x.info = .same then x.withInfo .ctx else x)).filter (fun x => x.info ≠ m)).map Item.key =
      (r.filter (fun x => x.info ≠ m)).map Item.key := by
    rw [List.filter_map, List.map_map]
    have e1 : ((fun x : Item => decide (x.info ≠ m)) ∘ fun x => if x.info = .same then x.withInfo .ctx else x) =
        fun x => decide (x.info ≠ m) := by
      funext x
      obtain ⟨k, y, i⟩ := x
      rcases hm with rfl | rfl <;> cases i <;> rfl
    have e2 : (Item.key ∘ fun x => if x.info = .same then x.withInfo .ctx else x) = Item.key := by
      funext x
      obtain ⟨k, y, i⟩ := x
      cases i <;> rfl
    rw [e1, e2]
  rw [e]
  exact (h1.filter _).map _

theorem Marked.script_del {s x : List Item} (h : Marked .del s x) : Script s [] x ∧ ∀ z ∈ x, z.info ≠ .same := by
  induction h with
  | nil => exact ⟨.nil, by simp⟩
  | cons _ ih =>
    refine ⟨.del ih.1, ?_⟩
    intro z hz
    rcases List.mem_cons.1 hz with rfl | hz
    · simp [Item.info]
    · exact ih.2 z hz

theorem Marked.script_add {s x : List Item} (h : Marked .add s x) : Script [] s x ∧ ∀ z ∈ x, z.info ≠ .same := by
  induction h with
  | nil => exact ⟨.nil, by simp⟩
  | cons _ ih =>
    refine ⟨.add ih.1, ?_⟩
    intro z hz
    rcases List.mem_cons.1 hz with rfl | hz
    · simp [Item.info]
    · exact ih.2 z hz

/-- A changed sub-section, as a diff of two sections. -/
theorem ScriptSub.faithful {a b : Option (List Item)} {y : List Item} (h : ScriptSub a b y) :
    Faithful (a.getD []) (b.getD []) y := by
  have rep : ∀ (y : List Item), (∀ x ∈ y, x.info ≠ .same) → Report y y := by
    intro y hy
    refine ⟨fun _ => true, ?_, ?_⟩
    · intro n
      refine ⟨fun _ x hx hs => absurd hs (hy x (List.mem_of_getElem? hx)), fun _ => rfl⟩
    · rw [List.filter_true, List.zipIdx_map_fst]
      conv_lhs => rw [← List.map_id y]
      apply List.map_congr_left
      intro x hx
      rw [if_neg (hy x hx)]; rfl
  cases h with
  | both _ hs hr => exact ⟨_, hs, hr⟩
  | gone hm => exact ⟨_, hm.script_del.1, rep _ hm.script_del.2⟩
  | new hm => exact ⟨_, hm.script_add.1, rep _ hm.script_add.2⟩

/-! ## Plain sections -/

theorem GoodText.mem {t : Tables} {l : List Item} (h : GoodText t l) : ∀ i ∈ l, i.info = .ctx ∧
    GoodLine t i.key ∧ ∀ s, i.sub = some s → s ≠ [] ∧ GoodText t s := by
  induction h with
  | nil => simp
  | leaf hk _ ih =>
    intro i hi
    rcases List.mem_cons.1 hi with rfl | hi
    · exact ⟨rfl, hk, by simp [Item.sub]⟩
    · exact ih i hi
  | node hk hs hg _ _ ih =>
    intro i hi
    rcases List.mem_cons.1 hi with rfl | hi
    · refine ⟨rfl, hk, ?_⟩
      intro s e
      cases e
      exact ⟨hs, hg⟩
    · exact ih i hi

theorem GoodText.inner {t : Tables} {l : List Item} (h : GoodText t l) {i : Item} (hi : i ∈ l) : GoodText t i.inner := by
  unfold Item.inner
  cases hs : i.sub with
  | none => exact .nil
  | some s => exact ((h.mem i hi).2.2 s hs).2

theorem Distinct.inner {l : List Item} (h : Distinct l) {i : Item} (hi : i ∈ l) : Distinct i.inner := by
  obtain ⟨_, h2⟩ := h
  unfold Item.inner
  cases hs : i.sub with
  | none => exact ⟨by simp, by simp⟩
  | some s => exact h2 i hi s hs

theorem AllLines.inner {P : Str → Prop} {l : List Item} (h : AllLines P l) {i : Item} (hi : i ∈ l) : AllLines P i.inner := by
  obtain ⟨_, h2⟩ := h
  unfold Item.inner
  cases hs : i.sub with
  | none => exact ⟨by simp, by simp⟩
  | some s => exact h2 i hi s hs

/-- A section without marks has no commands. -/
theorem GoodText.plain {t : Tables} {l : List Item} (h : GoodText t l) : ∀ b keys, sideList t b keys l = [] := by
  induction h with
  | nil => exact fun _ _ => rfl
  | leaf _ _ ih =>
    intro b keys
    rw [sideList, ih, sideItem, sideSub]; simp
  | node _ _ _ _ ih1 ih2 =>
    intro b keys
    rw [sideList, ih2, sideItem, sideSub_ctx]
    unfold tree
    rw [ih1, if_pos]
    · rfl
    · unfold tidy; cases b <;> rfl

theorem GoodText.tree_nil {t : Tables} {l : List Item} (h : GoodText t l) (b : Bool) : tree t b l = [] := by
  unfold tree tidy
  rw [h.plain]
  cases b <;> rfl

theorem Single.inner {t : Tables} {on : Str → Prop} {l : List Item} (h : Single t on l) {i : Item} (hi : i ∈ l) :
    Single t on i.inner := by
  obtain ⟨_, _, _, h2⟩ := h
  unfold Item.inner
  cases hs : i.sub with
  | none => exact ⟨by simp, by simp, by simp, by simp⟩
  | some s => exact h2 i hi s hs

theorem calm_of {t : Tables} {on : Str → Prop} {l : List Item} (h : Distinct l) : AllLines (DeviceLine t on) l → Single t on l →
    Calm (deviceOf t on) l := by
  induction h with
  | mk h1 _ ih =>
    rintro ⟨a1, a2⟩ ⟨s1, _, _, s4⟩
    exact ⟨h1, fun i hi j hj _ _ => (a1 i hi).not_clears (a1 j hj) (s1 i hi j hj),
      fun i hi s hs => ih i hi s hs (a2 i hi s hs) (s4 i hi s hs)⟩

theorem plain_eq {t : Tables} {a b : Option (List Item)} (h : Plain a b) (hg : ∀ s, a = Option.some s → GoodText t s) : b = a := by
  cases h with
  | none => rfl
  | @some s s' hm =>
    replace hg := hg s rfl
    have : s' = s := by
      induction hm with
      | nil => rfl
      | @cons k x i l l' _ ih =>
        have h1 := (hg.mem _ List.mem_cons_self).1
        simp only [Item.info] at h1
        subst h1
        rw [ih]
        cases hg with
        | leaf _ h => exact h
        | node _ _ _ h => exact h
    rw [this]

theorem DiffOk.plain {t : Tables} {on : Str → Prop} {l : List Item} (hh : HeadsOk t) (ha : AllLines (DeviceLine t on) l) :
    GoodText t l → Distinct l → Single t on l → DiffOk t on l := by
  induction ha with
  | @mk l h1 _ ih =>
    intro hg hd hsg
    obtain ⟨d1, d2⟩ := hd
    obtain ⟨s1, s2, s3, s4⟩ := hsg
    have hctx := fun i hi => (hg.mem i hi).1
    have no : ∀ x ∈ l, ∀ m : Info, m ≠ .ctx → x.info ≠ m := fun x hx m hm e => hm (by rw [← e, hctx x hx])
    refine .mk ⟨h1, ?_, ?_, ?_, d1.sublist (List.filter_sublist.map _), d1.sublist (List.filter_sublist.map _),
      fun x hx y hy _ _ => s1 x hx y hy, fun x hx y hy _ _ => s1 x hx y hy, fun x hx y hy _ _ => s2 x hx y hy, s3,
      ?_, ?_, hh⟩ ?_
    · intro x hx h; exact absurd h (no x hx _ (by decide))
    · intro x hx h; exact absurd h (no x hx _ (by decide))
    · intro x hx h; exact absurd h (no x hx _ (by decide))
    · intro x hx y hy h
      simp [Item.marked, hctx x hx] at h
    · intro x hx y hy h; exact absurd h (no x hx _ (by decide))
    · intro x hx _ s hs
      exact ih x hx s hs ((hg.mem x hx).2.2 s hs).2 (d2 x hx s hs) (s4 x hx s hs)

/-! ## The diff of two configs -/

theorem PasteOk.inner {t : Tables} {on : Str → Prop} {l1 l2 : List Item} (h : PasteOk t on l1 l2) {i j : Item} (hi : i ∈ l1)
    (hj : j ∈ l2) (he : i.key = j.key) : PasteOk t on i.inner j.inner where
  good1 := h.good1.inner hi
  good2 := h.good2.inner hj
  lines1 := h.lines1.inner hi
  lines2 := h.lines2.inner hj
  distinct1 := h.distinct1.inner hi
  distinct2 := h.distinct2.inner hj
  single1 := h.single1.inner hi
  single2 := h.single2.inner hj
  heads := h.heads

theorem sub_size {d : List Item} {x : Item} (hx : x ∈ d) {y : List Item} (hs : x.sub = some y) : sizeOf y < sizeOf d := by
  have h1 := List.sizeOf_lt_of_mem hx
  obtain ⟨k, s, i⟩ := x
  simp only [Item.sub] at hs
  subst hs
  simp at h1
  omega

theorem diffOk_of {t : Tables} {on : Str → Prop} {l1 l2 d : List Item} (hp : PasteOk t on l1 l2) (hf : Faithful l1 l2 d)
    (hfr : PrefixFree t d) : DiffOk t on d := by
  obtain ⟨s, hs, hr⟩ := hf
  have hd1 : (l1.map Item.key).Nodup := by obtain ⟨h, _⟩ := hp.distinct1; exact h
  have hd2 : (l2.map Item.key).Nodup := by obtain ⟨h, _⟩ := hp.distinct2; exact h
  have ha1 : ∀ i ∈ l1, DeviceLine t on i.key := by obtain ⟨h, _⟩ := hp.lines1; exact h
  have ha2 : ∀ i ∈ l2, DeviceLine t on i.key := by obtain ⟨h, _⟩ := hp.lines2; exact h
  obtain ⟨s11, s12, s13, s14⟩ := hp.single1
  obtain ⟨s21, s22, s23, s24⟩ := hp.single2
  obtain ⟨hf1, hf3, hf4⟩ := hfr
  -- where a line of the diff comes from
  have from_ : ∀ x ∈ d, (x.info ≠ .add → ∃ i ∈ l1, i.key = x.key) ∧ (x.info ≠ .del → ∃ j ∈ l2, j.key = x.key) ∧
      (found t x.key ≠ [] ∨ "no ".toList <+: x.key → x.sub = none) := by
    intro x hx
    obtain ⟨z, hz, ⟨hne, rfl⟩ | ⟨hsm, rfl⟩⟩ := hr.mem hx
    · obtain ⟨a1, a2, a3, a4⟩ := hs.mem _ hz
      cases hi : x.info with
      | del =>
        obtain ⟨i, h, e, e'⟩ := a1 hi
        exact ⟨fun _ => ⟨i, h, e⟩, fun h => absurd rfl h, fun hf => e' ▸ s13 i h (by rw [e]; exact hf)⟩
      | add =>
        obtain ⟨j, h, e, e'⟩ := a2 hi
        exact ⟨fun h => absurd rfl h, fun _ => ⟨j, h, e⟩, fun hf => e' ▸ s23 j h (by rw [e]; exact hf)⟩
      | same => exact absurd hi hne
      | ctx =>
        obtain ⟨i, h, j, h', y, e, e', e3, hsub⟩ := a4 hi
        refine ⟨fun _ => ⟨i, h, e⟩, fun _ => ⟨j, h', e'⟩, fun hf => ?_⟩
        have n1 := s13 i h (by rw [e]; exact hf)
        have n2 := s23 j h' (by rw [e']; exact hf)
        rw [n1, n2] at hsub
        cases hsub
    · obtain ⟨i, h, j, h', e, e', e3, hpl⟩ := (hs.mem _ hz).2.2.1 hsm
      have e4 : (z.withInfo .ctx).sub = z.sub := by cases z; rfl
      have e6 : (z.withInfo .ctx).key = z.key := by cases z; rfl
      have e5 := plain_eq (t := t) hpl (fun s hs => ((hp.good1.mem i h).2.2 s hs).2)
      rw [e6, e4, e5]
      exact ⟨fun _ => ⟨i, h, e⟩, fun _ => ⟨j, h', e'⟩, fun hf => s13 i h (by rw [e]; exact hf)⟩
  have added : ∀ x ∈ d, x.info = .add → ∃ j ∈ l2, j.key = x.key ∧ j.sub = x.sub := by
    intro x hx hi
    obtain ⟨z, hz, ⟨_, rfl⟩ | ⟨_, rfl⟩⟩ := hr.mem hx
    · exact (hs.mem _ hz).2.1 hi
    · cases z; simp [Item.withInfo, Item.info] at hi
  refine .mk ⟨?_, ?_, ?_, ?_, ?_, ?_, ?_, ?_, ?_, fun x hx => (from_ x hx).2.2, hf1, hf3, hp.heads⟩ ?_
  · intro x hx
    by_cases hi : x.info = .add
    · obtain ⟨j, hj, e⟩ := (from_ x hx).2.1 (by simp [hi])
      rw [← e]; exact ha2 j hj
    · obtain ⟨i, hi, e⟩ := (from_ x hx).1 hi
      rw [← e]; exact ha1 i hi
  · intro x hx hi y hy
    obtain ⟨j, hj, _, e⟩ := added x hx hi
    exact (hp.good2.mem j hj).2.2 y (by rw [e, hy])
  · intro x hx hi y hy
    obtain ⟨j, hj, _, e⟩ := added x hx hi
    obtain ⟨_, h⟩ := hp.lines2
    exact h j hj y (by rw [e, hy])
  · intro x hx hi y hy
    obtain ⟨j, hj, _, e⟩ := added x hx hi
    obtain ⟨_, h⟩ := hp.distinct2
    obtain ⟨_, h'⟩ := hp.lines2
    exact calm_of (h j hj y (by rw [e, hy])) (h' j hj y (by rw [e, hy])) (s24 j hj y (by rw [e, hy]))
  · refine List.Nodup.sublist (hr.keys_sublist (Or.inl rfl)) ?_
    rw [← hs.keys.2]; exact hd2
  · refine List.Nodup.sublist (hr.keys_sublist (Or.inr rfl)) ?_
    rw [← hs.keys.1]; exact hd1
  · intro x hx y hy nx ny hsh
    obtain ⟨i, hi, e⟩ := (from_ x hx).2.1 nx
    obtain ⟨j, hj, e'⟩ := (from_ y hy).2.1 ny
    rw [← e, ← e'] at hsh ⊢
    exact s21 i hi j hj hsh
  · intro x hx y hy nx ny hsh
    obtain ⟨i, hi, e⟩ := (from_ x hx).1 nx
    obtain ⟨j, hj, e'⟩ := (from_ y hy).1 ny
    rw [← e, ← e'] at hsh ⊢
    exact s11 i hi j hj hsh
  · intro x hx y hy nx ny hsh
    obtain ⟨i, hi, e⟩ := (from_ x hx).1 nx
    obtain ⟨j, hj, e'⟩ := (from_ y hy).1 ny
    rw [← e, ← e'] at hsh ⊢
    exact s12 i hi j hj hsh
  · intro x hx hi y hy
    obtain ⟨z, hz, ⟨_, rfl⟩ | ⟨hi', rfl⟩⟩ := hr.mem hx
    · obtain ⟨i, h1, j, h2, y', e1, e2, e3, hsub⟩ := (hs.mem _ hz).2.2.2 hi
      rw [hy] at e3
      cases e3
      have : sizeOf y < sizeOf d := sub_size hx hy
      exact diffOk_of (hp.inner h1 h2 (e1.trans e2.symm)) hsub.faithful (hf4 _ hx hi y hy)
    · obtain ⟨i, h1, j, h2, e1, e2, e3, hpl⟩ := (hs.mem _ hz).2.2.1 hi'
      have e4 : (z.withInfo .ctx).sub = z.sub := by cases z; rfl
      have e5 := plain_eq (t := t) hpl (fun s hs => ((hp.good1.mem i h1).2.2 s hs).2)
      rw [e4, e5] at hy
      have h3 := hp.inner h1 h2 (e1.trans e2.symm)
      have ei : i.inner = y := by unfold Item.inner; rw [hy]; rfl
      have ej : j.inner = y := by unfold Item.inner; rw [← e3, hy]; rfl
      rw [ei, ej] at h3
      exact DiffOk.plain hp.heads h3.lines1 h3.good1 h3.distinct1 h3.single1
termination_by sizeOf d

/-- Typing the commands of the diff gives the second config. -/
theorem paste_agree {t : Tables} {on : Str → Prop} {l1 l2 d : List Item} (hp : PasteOk t on l1 l2) (hf : Faithful l1 l2 d)
    (hfr : PrefixFree t d) :
    Agree (typeAll (deviceOf t on) (tree t false d) (typeAll (deviceOf t on) (tree t true d) (hasPath l1))) (hasPath l2) := by
  have hok := diffOk_of hp hf hfr
  obtain ⟨s, hs, hr⟩ := hf
  have hd1 : (l1.map Item.key).Nodup := by obtain ⟨h, _⟩ := hp.distinct1; exact h
  have hd2 : (l2.map Item.key).Nodup := by obtain ⟨h, _⟩ := hp.distinct2; exact h
  have hk1 := hs.keys.1
  have hk2 := hs.keys.2
  have n1 : ((s.filter (fun x => x.info ≠ .add)).map Item.key).Nodup := by rw [← hk1]; exact hd1
  have n2 : ((s.filter (fun x => x.info ≠ .del)).map Item.key).Nodup := by rw [← hk2]; exact hd2
  have u1 : ∀ x ∈ s, ∀ y ∈ s, x.info ≠ .add → y.info ≠ .add → x.key = y.key → x = y := fun x hx y hy h1 h2 e =>
    List.inj_on_of_nodup_map n1 (List.mem_filter.2 ⟨hx, by simpa using h1⟩) (List.mem_filter.2 ⟨hy, by simpa using h2⟩) e
  have u2 : ∀ x ∈ s, ∀ y ∈ s, x.info ≠ .del → y.info ≠ .del → x.key = y.key → x = y := fun x hx y hy h1 h2 e =>
    List.inj_on_of_nodup_map n2 (List.mem_filter.2 ⟨hx, by simpa using h1⟩) (List.mem_filter.2 ⟨hy, by simpa using h2⟩) e
  have in1 : ∀ i ∈ l1, ∃ x ∈ s, x.key = i.key ∧ x.info ≠ .add := by
    intro i hi
    have : i.key ∈ (s.filter (fun x => x.info ≠ .add)).map Item.key := by rw [← hk1]; exact List.mem_map_of_mem hi
    obtain ⟨x, hx, e⟩ := List.mem_map.1 this
    obtain ⟨hx, h⟩ := List.mem_filter.1 hx
    exact ⟨x, hx, e, by simpa using h⟩
  have in2 : ∀ i ∈ l2, ∃ x ∈ s, x.key = i.key ∧ x.info ≠ .del := by
    intro i hi
    have : i.key ∈ (s.filter (fun x => x.info ≠ .del)).map Item.key := by rw [← hk2]; exact List.mem_map_of_mem hi
    obtain ⟨x, hx, e⟩ := List.mem_map.1 this
    obtain ⟨hx, h⟩ := List.mem_filter.1 hx
    exact ⟨x, hx, e, by simpa using h⟩
  have hl : LevelOk t on d := by obtain ⟨h, _⟩ := hok; exact h
  intro k q
  rw [typeAll_calm _ (tree_calm hok false), typeAll_calm _ (tree_calm hok true)]
  have ha1 : ∀ i ∈ l1, DeviceLine t on i.key := by obtain ⟨h, _⟩ := hp.lines1; exact h
  have ha2 : ∀ i ∈ l2, DeviceLine t on i.key := by obtain ⟨h, _⟩ := hp.lines2; exact h
  obtain ⟨s11, s12, s13, s14⟩ := hp.single1
  obtain ⟨s21, s22, s23, s24⟩ := hp.single2
  have addIn : ∀ x ∈ d, x.info = .add → x ∈ s ∧ ∃ j ∈ l2, j.key = x.key ∧ j.sub = x.sub := by
    intro x hx hi
    obtain ⟨z, hz, ⟨_, rfl⟩ | ⟨_, rfl⟩⟩ := hr.mem hx
    · exact ⟨hz, (hs.mem _ hz).2.1 hi⟩
    · cases z; simp [Item.withInfo, Item.info] at hi
  have delIn : ∀ x ∈ d, x.info = .del → x ∈ s ∧ ∃ j ∈ l1, j.key = x.key ∧ j.sub = x.sub := by
    intro x hx hi
    obtain ⟨z, hz, ⟨_, rfl⟩ | ⟨_, rfl⟩⟩ := hr.mem hx
    · exact ⟨hz, (hs.mem _ hz).1 hi⟩
    · cases z; simp [Item.withInfo, Item.info] at hi
  -- where the line occurs in the account
  by_cases hboth : ∃ z ∈ s, z.key = k ∧ (z.info = .same ∨ z.info = .ctx)
  · obtain ⟨z, hz, rfl, hzi⟩ := hboth
    have zna : z.info ≠ .add := by rcases hzi with h | h <;> simp [h]
    have znd : z.info ≠ .del := by rcases hzi with h | h <;> simp [h]
    obtain ⟨i, hi, j, hj, ei, ej⟩ : ∃ i ∈ l1, ∃ j ∈ l2, i.key = z.key ∧ j.key = z.key := by
      rcases hzi with hzi | hzi
      · obtain ⟨i, hi, j, hj, e1, e2, _⟩ := (hs.mem z hz).2.2.1 hzi
        exact ⟨i, hi, j, hj, e1, e2⟩
      · obtain ⟨i, hi, j, hj, y, e1, e2, _⟩ := (hs.mem z hz).2.2.2 hzi
        exact ⟨i, hi, j, hj, e1, e2⟩
    -- any line of the diff with this text comes from it
    have only : ∀ x ∈ d, x.key = z.key → (z.info = .ctx ∧ x = z) ∨ (z.info = .same ∧ x = z.withInfo .ctx) := by
      intro x hx hxk
      obtain ⟨z', hz', h⟩ := hr.mem hx
      have hk : x.key = z'.key := by
        rcases h with ⟨_, rfl⟩ | ⟨_, rfl⟩
        · rfl
        · cases z'; rfl
      have : z' = z := by
        by_cases h1 : z'.info = .add
        · exact u2 _ hz' _ hz (by simp [h1]) znd (by rw [← hk, hxk])
        · exact u1 _ hz' _ hz h1 zna (by rw [← hk, hxk])
      subst this
      rcases h with ⟨h, rfl⟩ | ⟨h, rfl⟩
      · exact Or.inl ⟨hzi.resolve_left h, rfl⟩
      · exact Or.inr ⟨h, rfl⟩
    have onlyCtx : ∀ x ∈ d, x.key = z.key → x.info = .ctx := by
      intro x hx hxk
      rcases only x hx hxk with ⟨h, rfl⟩ | ⟨_, rfl⟩
      · exact h
      · cases z; rfl
    -- no command takes the line away
    have noLeaf : ∀ b, ¬ ∃ y ∈ tree t b d, y.sub = none ∧ (deviceOf t on).clears y.key z.key := by
      rintro b ⟨y, hy, hn, hc⟩
      obtain ⟨⟨x, hx, hy⟩, _⟩ := mem_tree.1 hy
      rcases mem_sideItem.1 hy with ⟨h1, _, _, rfl⟩ | ⟨h1, _, _, rfl⟩ | ⟨_, _, l, _, rfl⟩ | ⟨_, l, _, _, rfl⟩
      · replace hc : (deviceOf t on).clears x.key z.key := hc
        obtain ⟨_, j', hj', e, _⟩ := addIn x hx h1
        rw [← e, ← ej] at hc
        exact (ha2 j' hj').not_clears (ha2 j hj) (s21 j' hj' j hj) hc
      · replace hc : (deviceOf t on).clears (undo t x.key) z.key := hc
        obtain ⟨_, i', hi', e, _⟩ := delIn x hx h1
        rw [← e, ← ei] at hc
        have e' := (ha1 i' hi').undo_only (s12 i' hi' i hi) hc
        have := onlyCtx x hx (by rw [← e, e', ei])
        rw [h1] at this; cases this
      · cases hn
      · cases hn
    have hcv : ∀ b, covers (deviceOf t on) (tree t b d) (z.key :: q) ↔
        ∃ x ∈ d, x.key = z.key ∧ ∃ l, x.sub = some l ∧ covers (deviceOf t on) (tree t b l) q := by
      intro b
      rw [covers_tree]
      constructor
      · rintro (h | ⟨x, hx, e, ⟨h1, _⟩ | ⟨_, h⟩⟩)
        · exact absurd h (noLeaf b)
        · have := onlyCtx x hx e
          rw [h1] at this; cases this
        · exact ⟨x, hx, e, h⟩
      · rintro ⟨x, hx, e, h⟩
        exact Or.inr ⟨x, hx, e, Or.inr ⟨onlyCtx x hx e, h⟩⟩
    have hsh : ∀ b, shown (deviceOf t on) (tree t b d) (z.key :: q) ↔
        ∃ x ∈ d, x.key = z.key ∧ ∃ l, x.sub = some l ∧ tree t b l ≠ [] ∧ (q = [] ∨ shown (deviceOf t on) (tree t b l) q) := by
      intro b
      rw [shown_tree hl]
      constructor
      · rintro (⟨_, x, hx, e, h1, _⟩ | ⟨x, hx, e, ⟨h1, _⟩ | ⟨_, h⟩⟩)
        · have := onlyCtx x hx e
          rw [h1] at this; cases this
        · have := onlyCtx x hx e
          rw [h1] at this; cases this
        · exact ⟨x, hx, e, h⟩
      · rintro ⟨x, hx, e, h⟩
        exact Or.inr ⟨x, hx, e, Or.inr ⟨onlyCtx x hx e, h⟩⟩
    rw [hcv, hcv, hsh, hsh]
    rcases hzi with hzi | hzi
    · obtain ⟨i, hi, j, hj, e1, e2, e3, hpl⟩ := (hs.mem z hz).2.2.1 hzi
      have e5 := plain_eq (t := t) hpl (fun s hs => ((hp.good1.mem i hi).2.2 s hs).2)
      have hx : ∀ x ∈ d, x.key = z.key → ∀ b l, x.sub = some l → tree t b l = [] := by
        intro x hx hxk b l hl
        rcases only x hx hxk with ⟨h, _⟩ | ⟨_, rfl⟩
        · rw [hzi] at h; cases h
        · have : (z.withInfo .ctx).sub = z.sub := by cases z; rfl
          rw [this, e5] at hl
          exact ((hp.good1.mem i hi).2.2 l hl).2.tree_nil b
      have e6 : hasPath l1 (z.key :: q) ↔ hasPath l2 (z.key :: q) := by
        conv_lhs => rw [← e1]
        rw [hasPath_at hd1 hi]
        conv_rhs => rw [← e2]
        rw [hasPath_at hd2 hj]
        have : i.inner = j.inner := by unfold Item.inner; rw [e3]
        rw [this]
      rw [e6]
      constructor
      · rintro (⟨h | ⟨x, hxd, hxk, l, hl, hne, _⟩, _⟩ | ⟨x, hxd, hxk, l, hl, hne, _⟩)
        · exact h.1
        · exact absurd (hx x hxd hxk _ l hl) hne
        · exact absurd (hx x hxd hxk _ l hl) hne
      · intro h
        refine Or.inl ⟨Or.inl ⟨h, ?_⟩, ?_⟩
        all_goals
          rintro ⟨x, hxd, hxk, l, hl, hc⟩
          rw [hx x hxd hxk _ l hl] at hc
          exact covers_nil q hc
    · obtain ⟨i, hi, j, hj, y, e1, e2, e3, hsub⟩ := (hs.mem z hz).2.2.2 hzi
      have hzd : z ∈ d := hr.of_mem hz (by simp [hzi])
      have : sizeOf y < sizeOf d := sub_size hzd e3
      have hfy : PrefixFree t y := by obtain ⟨_, _, h⟩ := hfr; exact h z hzd hzi y e3
      have ih := paste_agree (hp.inner hi hj (e1.trans e2.symm)) hsub.faithful hfy
      have hyok : DiffOk t on y := diffOk_of (hp.inner hi hj (e1.trans e2.symm)) hsub.faithful hfy
      have hzx : ∀ {P : List Item → Prop}, (∃ x ∈ d, x.key = z.key ∧ ∃ l, x.sub = some l ∧ P l) ↔ P y := by
        intro P
        constructor
        · rintro ⟨x, hxd, hxk, l, hl, h⟩
          rcases only x hxd hxk with ⟨_, rfl⟩ | ⟨h', _⟩
          · rw [e3] at hl
            cases hl
            exact h
          · rw [hzi] at h'; cases h'
        · exact fun h => ⟨z, hzd, rfl, y, e3, h⟩
      rw [hzx, hzx, hzx, hzx, ← e2, hasPath_at hd2 hj, e2, ← e1, hasPath_at hd1 hi]
      cases q with
      | nil => simp [covers]
      | cons k' q =>
        have h1 := ih k' q
        rw [typeAll_calm _ (tree_calm hyok false), typeAll_calm _ (tree_calm hyok true)] at h1
        simp only [reduceCtorEq, false_or]
        rw [← h1]
        have hne : ∀ b, (tree t b y ≠ [] ∧ shown (deviceOf t on) (tree t b y) (k' :: q)) ↔
            shown (deviceOf t on) (tree t b y) (k' :: q) := by
          intro b
          refine ⟨fun h => h.2, fun h => ⟨fun hn => ?_, h⟩⟩
          rw [hn] at h
          exact shown_nil _ h
        rw [hne, hne]
  · -- removed or added lines
    have hinfo : ∀ z ∈ s, z.key = k → z.info = .add ∨ z.info = .del := by
      intro z hz hk
      cases hi : z.info with
      | add => exact Or.inl rfl
      | del => exact Or.inr rfl
      | same => exact absurd ⟨z, hz, hk, Or.inl hi⟩ hboth
      | ctx => exact absurd ⟨z, hz, hk, Or.inr hi⟩ hboth
    have noCtx : ∀ x ∈ d, x.key = k → x.info ≠ .ctx := by
      intro x hx hk hc
      obtain ⟨z, hz, ⟨h, rfl⟩ | ⟨h, rfl⟩⟩ := hr.mem hx
      · rcases hinfo _ hz hk with h | h <;> rw [hc] at h <;> cases h
      · exact absurd ⟨z, hz, by cases z; exact hk, Or.inl h⟩ hboth
    have target : hasPath l2 (k :: q) ↔ ∃ x ∈ d, x.key = k ∧ x.info = .add ∧ (q = [] ∨ hasPath x.inner q) := by
      constructor
      · intro h
        rw [hasPath_cons] at h
        obtain ⟨j, hj, hk, h⟩ := h
        obtain ⟨x, hx, e, hnd⟩ := in2 j hj
        have hi : x.info = .add := (hinfo x hx (e.trans hk)).resolve_right hnd
        obtain ⟨j', hj', e1, e2⟩ := (hs.mem x hx).2.1 hi
        have : j' = j := List.inj_on_of_nodup_map hd2 hj' hj (e1.trans e)
        subst this
        refine ⟨x, hr.of_mem hx (by simp [hi]), e.trans hk, hi, ?_⟩
        have : j'.inner = x.inner := by unfold Item.inner; rw [e2]
        rw [← this]; exact h
      · rintro ⟨x, hx, hk, hi, h⟩
        obtain ⟨_, j, hj, e1, e2⟩ := addIn x hx hi
        rw [hasPath_cons]
        refine ⟨j, hj, by rw [e1, hk], ?_⟩
        have : j.inner = x.inner := by unfold Item.inner; rw [e2]
        rw [this]; exact h
    have innerNone : ∀ {x : Item}, x.sub = none → (q = [] ∨ hasPath x.inner q) → q = [] := by
      intro x hn h
      have : x.inner = [] := by unfold Item.inner; rw [hn]; rfl
      rw [this] at h
      rcases h with h | h
      · exact h
      · cases q with
        | nil => rfl
        | cons a b => rw [hasPath_cons] at h; obtain ⟨_, h, _⟩ := h; cases h
    -- what is shown is in the second config
    have shownIn : ∀ b, shown (deviceOf t on) (tree t b d) (k :: q) → hasPath l2 (k :: q) := by
      intro b h
      rw [target]
      rcases (shown_tree hl).1 h with ⟨hq, x, hx, e, h1, h2, _⟩ | ⟨x, hx, e, ⟨h1, _, l, h2, h⟩ | ⟨h1, _⟩⟩
      · exact ⟨x, hx, e, h1, Or.inl hq⟩
      · refine ⟨x, hx, e, h1, ?_⟩
        have : x.inner = l := by unfold Item.inner; rw [h2]; rfl
        rw [this]; exact h
      · exact absurd h1 (noCtx x hx e)
    constructor
    · rintro (⟨⟨h, hn⟩ | h, hn'⟩ | h)
      · have h' := h
        rw [hasPath_cons] at h
        obtain ⟨i, hi, rfl, h⟩ := h
        obtain ⟨x, hx, e, hna⟩ := in1 i hi
        have hd' : x.info = .del := (hinfo x hx e).resolve_left hna
        have hxd := hr.of_mem hx (by simp [hd'])
        rw [← e] at hn hn'
        rcases removed_covered hl hxd hd' q with h1 | h1 | ⟨hxn, y, hy, h1, h2, h3⟩
        · exact absurd h1 hn
        · exact absurd h1 hn'
        · rw [target]
          refine ⟨y, hy, h3.trans e, h1, Or.inl ?_⟩
          obtain ⟨_, i', hi', e1, e2⟩ := delIn x hxd hd'
          have : i' = i := List.inj_on_of_nodup_map hd1 hi' hi (e1.trans e)
          subst this
          exact innerNone (e2.trans hxn) h
      · exact shownIn true h
      · exact shownIn false h
    · intro h
      obtain ⟨x, hx, rfl, h1, h⟩ := target.1 h
      cases h2 : x.sub with
      | some l =>
        refine Or.inr ((shown_tree hl).2 (Or.inr ⟨x, hx, rfl, Or.inl ⟨h1, rfl, l, h2, ?_⟩⟩))
        have : x.inner = l := by unfold Item.inner; rw [h2]; rfl
        rw [← this]; exact h
      | none =>
        have hq := innerNone h2 h
        cases hb : "no ".toList.isPrefixOf x.key with
        | false => exact Or.inr ((shown_tree hl).2 (Or.inl ⟨hq, x, hx, rfl, h1, h2, hb⟩))
        | true =>
          refine Or.inl ⟨Or.inr ((shown_tree hl).2 (Or.inl ⟨hq, x, hx, rfl, h1, h2, hb⟩)), ?_⟩
          intro hc
          rcases covers_tree.1 hc with ⟨y, hy, hn, hcl⟩ | ⟨y, hy, e, ⟨h3, _, l, h4, _⟩ | ⟨h3, _⟩⟩
          · obtain ⟨⟨w, hw, hy⟩, _⟩ := mem_tree.1 hy
            rcases mem_sideItem.1 hy with ⟨g1, _, _, rfl⟩ | ⟨g1, g2, g3, rfl⟩ | ⟨_, _, l, _, rfl⟩ | ⟨_, l, _, _, rfl⟩
            · replace hcl : (deviceOf t on).clears w.key x.key := hcl
              exact (hl.line w hw).not_clears (hl.line x hx) (hl.same2 w hw x hx (by simp [g1]) (by simp [h1])) hcl
            · replace hcl : (deviceOf t on).clears (undo t w.key) x.key := hcl
              rw [(hl.line w hw).isNo_undo] at g3
              cases hl.line w hw with
              | line pw => rw [notNo pw.positive] at g3; cases g3
              | toggle pw =>
                exact not_skipped g2 (hl.leaf w hw (Or.inr pw.negative)) hx h1 h2 (pw.undo_only hcl)
            · cases hn
            · cases hn
          · have : y = x := u2 _ (addIn y hy h3).1 _ (addIn x hx h1).1 (by simp [h3]) (by simp [h1]) e
            subst this
            rw [h2] at h4; cases h4
          · exact noCtx y hy e h3
termination_by sizeOf d

end NcDiff.Running
