import Verif.Spec.Running
import Mathlib.Data.List.Nodup
/-!
# `ListDiff.compare` gives a faithful account
-/

namespace NcDiff.Running

theorem splitKey_some {proj : α → Str} {k : Str} : ∀ {l p q : List α} {x : α},
    splitKey proj k l = some (p, x, q) → l = p ++ x :: q ∧ proj x = k ∧ ∀ a ∈ p, proj a ≠ k
  | [], p, q, x, h => by simp [splitKey] at h
  | a :: r, p, q, x, h => by
    unfold splitKey at h
    split at h
    · rename_i ha
      simp only [Option.some.injEq, Prod.mk.injEq] at h
      obtain ⟨rfl, rfl, rfl⟩ := h
      exact ⟨rfl, ha, by simp⟩
    · rename_i ha
      split at h
      · rename_i p' x' q' hr
        simp only [Option.some.injEq, Prod.mk.injEq] at h
        obtain ⟨rfl, rfl, rfl⟩ := h
        obtain ⟨h1, h2, h3⟩ := splitKey_some hr
        refine ⟨by rw [h1]; rfl, h2, ?_⟩
        intro b hb
        rcases List.mem_cons.1 hb with rfl | hb
        · exact ha
        · exact h3 b hb
      · cases h

theorem splitKey_sublist {proj : α → Str} {k : Str} {c : List Str} : ∀ {l : List α},
    (k :: c).Sublist (l.map proj) → ∃ p x q, splitKey proj k l = some (p, x, q) ∧ c.Sublist (q.map proj)
  | [], h => by simp at h
  | a :: r, h => by
    unfold splitKey
    by_cases ha : proj a = k
    · rw [if_pos ha]
      refine ⟨[], a, r, rfl, ?_⟩
      rw [List.map_cons] at h
      cases h with
      | cons _ h => exact (List.sublist_cons_self k c).trans h
      | cons_cons _ h => exact h
    · rw [if_neg ha]
      rw [List.map_cons] at h
      have h' : (k :: c).Sublist (r.map proj) := by
        cases h with
        | cons _ h => exact h
        | cons_cons _ h => exact absurd rfl ha
      obtain ⟨p, x, q, hs, hq⟩ := splitKey_sublist h'
      rw [hs]
      exact ⟨a :: p, x, q, rfl, hq⟩

theorem afterFirst_sublist {k : Str} : ∀ {l r : List Str}, afterFirst k l = some r →
    (k :: r).Sublist l
  | [], r, h => by simp [afterFirst] at h
  | a :: l, r, h => by
    unfold afterFirst at h
    split at h
    · rename_i ha
      simp only [Option.some.injEq] at h
      subst h; subst ha; exact List.Sublist.refl _
    · exact (afterFirst_sublist h).trans (List.sublist_cons_self _ _)

theorem commonKeys_sublist : ∀ (l2 l1 : List Str),
    (commonKeys l1 l2).Sublist l1 ∧ (commonKeys l1 l2).Sublist l2
  | [], l1 => by simp [commonKeys]
  | k :: r, l1 => by
    unfold commonKeys
    cases h : afterFirst k l1 with
    | none =>
      obtain ⟨h1, h2⟩ := commonKeys_sublist r l1
      exact ⟨h1, h2.trans (List.sublist_cons_self _ _)⟩
    | some l1' =>
      obtain ⟨h1, h2⟩ := commonKeys_sublist r l1'
      exact ⟨(h1.cons_cons k).trans (afterFirst_sublist h), h2.cons_cons k⟩

/-- Any subsequence relation is one that `Script` can express by removing and adding. -/
theorem Script.prepend_del {l1 l2 d : List Item} : ∀ {p : List Item}, Script l1 l2 d →
    Script (p ++ l1) l2 (p.map (Item.withInfo .del) ++ d)
  | [], h => h
  | .mk k s i :: p, h => Script.del (Script.prepend_del h)

theorem Script.prepend_add {l1 l2 d : List Item} : ∀ {p : List Item}, Script l1 l2 d →
    Script l1 (p ++ l2) (p.map (Item.withInfo .add) ++ d)
  | [], h => h
  | .mk k s i :: p, h => Script.add (Script.prepend_add h)

theorem marked_map (m : Info) : ∀ l : List Item, Marked m l (l.map (Item.withInfo m))
  | [] => .nil
  | .mk _ _ _ :: l => .cons (marked_map m l)

/-- The comparison function of an item is good: it accounts for the sub-section. -/
def GoodCmp (p : Item × CmpFn) : Prop :=
  ∀ l, p.1.sub = some l → ∀ l2, ∃ d, p.2 l2 = some d ∧ Faithful l l2 d

theorem alignLoop_ok : ∀ (c : List Str) (l1 : List (Item × CmpFn)) (l2 : List Item),
    (∀ p ∈ l1, GoodCmp p) → c.Sublist (l1.map (fun p => p.1.key)) → c.Sublist (l2.map Item.key) →
    ∃ d, alignLoop c l1 l2 = some d ∧ Script (l1.map Prod.fst) l2 d
  | [], l1, l2, _, _, _ => by
    refine ⟨_, rfl, ?_⟩
    have h0 := Script.prepend_del (p := l1.map Prod.fst) (Script.prepend_add (p := l2) Script.nil)
    simpa [List.map_map, Function.comp_def] using h0
  | key :: r, l1, l2, hg, h1, h2 => by
    obtain ⟨p1, x1, q1, e1, s1⟩ := splitKey_sublist (proj := fun p : Item × CmpFn => p.1.key) h1
    obtain ⟨p2, x2, q2, e2, s2⟩ := splitKey_sublist h2
    obtain ⟨f1, k1, _⟩ := splitKey_some e1
    obtain ⟨f2, k2, _⟩ := splitKey_some e2
    obtain ⟨rest, hr, hs⟩ := alignLoop_ok r q1 q2
      (fun p hp => hg p (by rw [f1]; simp [hp])) s1 s2
    have hgx : GoodCmp x1 := hg x1 (by rw [f1]; simp)
    obtain ⟨⟨k, s, i⟩, cmp⟩ := x1
    obtain ⟨k', s', j⟩ := x2
    simp only [Item.key] at k1 k2
    subst k1; subst k2
    -- the common item
    have hc : ∃ c, commonItem k' cmp s s' = some c ∧
        Script ((Item.mk k' s i) :: q1.map Prod.fst) (.mk k' s' j :: q2) (c :: rest) := by
      unfold commonItem
      split
      · rename_i he
        subst he
        refine ⟨_, rfl, Script.same ?_ hs⟩
        cases s with
        | none => exact .none
        | some l => exact .some (marked_map _ l)
      · rename_i hne
        cases s with
        | none =>
          cases s' with
          | none => exact absurd rfl hne
          | some b => exact ⟨_, rfl, Script.changed (.new (marked_map _ b)) hs⟩
        | some a =>
          cases s' with
          | none => exact ⟨_, rfl, Script.changed (.gone (marked_map _ a)) hs⟩
          | some b =>
            obtain ⟨d, hd, sd, h3, h4⟩ := hgx a rfl b
            simp only at hd ⊢
            refine ⟨.mk k' (some d) .ctx, by rw [hd]; rfl, Script.changed (.both (fun e => hne (by rw [e])) h3 h4) hs⟩
    obtain ⟨c, hc, hsc⟩ := hc
    refine ⟨p1.map (fun p => p.1.withInfo .del) ++ p2.map (Item.withInfo .add) ++ c :: rest, ?_, ?_⟩
    · unfold alignLoop
      rw [e1, e2]
      simp only [Option.bind_eq_bind, Option.bind_some, Item.sub, hc, hr]
      rfl
    · rw [f1, f2]
      have := Script.prepend_del (p := p1.map Prod.fst) (Script.prepend_add (p := p2) hsc)
      simpa [List.map_map, Function.comp_def] using this

/-- `cleanup` as a filter, by positions. -/
theorem cleanup_eq (all : List Item) (shown : Nat → Bool)
    (hsh : ∀ n, shown n = true ↔ ∀ x, all[n]? = some x → x.info = .same →
      ∃ i j a b, i < n ∧ n < j ∧ all[i]? = some a ∧ all[j]? = some b ∧ a.key = b.key) :
    ∀ (r done : List Item) (before : List Str), all = done ++ r →
      (∀ k, k ∈ before ↔ k ∈ done.map Item.key) →
      cleanup before r = (((r.zipIdx done.length).filter (fun p => shown p.2)).map Prod.fst).map
        (fun x => if x.info = .same then x.withInfo .ctx else x)
  | [], done, before, _, _ => by simp [cleanup]
  | it :: r, done, before, he, hb => by
    have ih := cleanup_eq all shown hsh r (done ++ [it]) (it.key :: before) (by simp [he]) (by
      intro k; simp [hb, or_comm, eq_comm])
    have hn : all[done.length]? = some it := by rw [he]; simp
    unfold cleanup
    simp only [ih, List.length_append, List.length_singleton]
    rw [List.zipIdx_cons, List.filter_cons]
    have hs := hsh done.length
    by_cases hi : it.info = .same
    · rw [if_pos hi]
      have key : (before.any fun k => (r.map Item.key).contains k) = shown done.length := by
        rw [Bool.eq_iff_iff, hs, List.any_eq_true]
        constructor
        · rintro ⟨k, hk, hkr⟩ x hx hxi
          rw [hb] at hk
          obtain ⟨a, ha, rfl⟩ := List.mem_map.1 hk
          have hkr : a.key ∈ r.map Item.key := by simpa using hkr
          obtain ⟨b, hb', hab⟩ := List.mem_map.1 hkr
          obtain ⟨i, hi⟩ := List.mem_iff_getElem?.1 ha
          obtain ⟨j, hj⟩ := List.mem_iff_getElem?.1 hb'
          obtain ⟨hil, -⟩ := List.getElem?_eq_some_iff.1 hi
          refine ⟨i, done.length + 1 + j, a, b, hil, by omega, ?_, ?_, hab.symm⟩
          · rw [he, List.getElem?_append_left hil, hi]
          · rw [he, List.getElem?_append_right (by omega)]
            have : done.length + 1 + j - done.length = j + 1 := by omega
            rw [this, List.getElem?_cons_succ, hj]
        · intro h
          obtain ⟨i, j, a, b, h1, h2, h3, h4, h5⟩ := h it hn hi
          refine ⟨a.key, ?_, ?_⟩
          · rw [hb]
            rw [he, List.getElem?_append_left h1] at h3
            exact List.mem_map_of_mem (List.mem_of_getElem? h3)
          · rw [he, List.getElem?_append_right (by omega)] at h4
            have : j - done.length = (j - done.length - 1) + 1 := by omega
            rw [this, List.getElem?_cons_succ] at h4
            simp only [List.contains_iff_mem]
            rw [h5]; exact List.mem_map_of_mem (List.mem_of_getElem? h4)
      rw [key]
      cases shown done.length with
      | true => simp [hi]
      | false => simp
    · rw [if_neg hi]
      have : shown done.length = true := by
        rw [hs]; intro x hx hxi
        rw [hn] at hx; cases hx; exact absurd hxi hi
      rw [this]
      simp [hi]

theorem report_cleanup (s : List Item) : Report s (cleanup [] s) := by
  classical
  obtain ⟨shown, hs⟩ : ∃ shown : Nat → Bool, ∀ n, shown n = true ↔ ∀ x, s[n]? = some x →
      x.info = .same → ∃ i j a b, i < n ∧ n < j ∧ s[i]? = some a ∧ s[j]? = some b ∧ a.key = b.key :=
    ⟨fun n => decide (∀ x, s[n]? = some x → x.info = .same →
      ∃ i j a b, i < n ∧ n < j ∧ s[i]? = some a ∧ s[j]? = some b ∧ a.key = b.key), fun n => by simp⟩
  exact ⟨shown, hs, cleanup_eq s shown hs s [] [] rfl (by simp)⟩

theorem compareBody_ok {tbl : List (Item × CmpFn)} (h : ∀ p ∈ tbl, GoodCmp p) (l2 : List Item) :
    ∃ d, compareBody tbl l2 = some d ∧ Faithful (tbl.map Prod.fst) l2 d := by
  obtain ⟨h1, h2⟩ := commonKeys_sublist (l2.map Item.key) (tbl.map (fun p => p.1.key))
  obtain ⟨d, hd, hs⟩ := alignLoop_ok _ tbl l2 h h1 h2
  refine ⟨cleanup [] d, ?_, d, hs, report_cleanup d⟩
  unfold compareBody
  rw [hd]; rfl

theorem cmpTable_fst : ∀ l, (cmpTable l).map Prod.fst = l
  | [] => rfl
  | a :: r => by rw [cmpTable, List.map_cons, cmpTable_fst r]

mutual
theorem cmpTable_good : ∀ l : List Item, ∀ p ∈ cmpTable l, GoodCmp p
  | [], p, hp => by simp [cmpTable] at hp
  | a :: r, p, hp => by
    rw [cmpTable] at hp
    rcases List.mem_cons.1 hp with rfl | hp
    · exact cmpItem_good a
    · exact cmpTable_good r p hp
theorem cmpItem_good : ∀ a : Item, GoodCmp (a, cmpItem a)
  | .mk k s i => by
    intro l hl l2
    exact cmpSub_good s l hl l2
theorem cmpSub_good : ∀ (s : Option (List Item)) (l : List Item), s = some l → ∀ l2,
    ∃ d, cmpSub s l2 = some d ∧ Faithful l l2 d
  | none, l, h, _ => by cases h
  | some s, l, h, l2 => by
    obtain ⟨d, hd, hf⟩ := compareBody_ok (cmpTable_good s) l2
    rw [cmpTable_fst] at hf
    cases h
    exact ⟨d, by rw [cmpSub]; exact hd, hf⟩
end

/-- `ListDiff.compare` never fails and its result is faithful. -/
theorem compare_faithful (l1 l2 : List Item) : ∃ d, compare l1 l2 = some d ∧ Faithful l1 l2 d := by
  obtain ⟨d, hd, hf⟩ := compareBody_ok (cmpTable_good l1) l2
  rw [cmpTable_fst] at hf
  exact ⟨d, by rw [compare]; exact hd, hf⟩

/-! ## Consequences of a faithful diff -/

/-- Line and sub-section, without the mark. -/
def Item.data (i : Item) : Str × Option (List Item) := (i.key, i.sub)

/-- The lines of the first list are the script's lines that are not added, those of the second the
ones that are not removed. -/
theorem Script.keys {l1 l2 s : List Item} (h : Script l1 l2 s) :
    l1.map Item.key = (s.filter (fun i => i.info ≠ .add)).map Item.key ∧
    l2.map Item.key = (s.filter (fun i => i.info ≠ .del)).map Item.key := by
  induction s generalizing l1 l2 with
  | nil => cases h; exact ⟨rfl, rfl⟩
  | cons a s ih =>
    cases h with
    | del h => obtain ⟨h1, h2⟩ := ih h; constructor <;> simp_all [Item.info, Item.key]
    | add h => obtain ⟨h1, h2⟩ := ih h; constructor <;> simp_all [Item.info, Item.key]
    | same _ h => obtain ⟨h1, h2⟩ := ih h; constructor <;> simp_all [Item.info, Item.key]
    | changed _ h => obtain ⟨h1, h2⟩ := ih h; constructor <;> simp_all [Item.info, Item.key]

/-- Removed lines are lines of the first list, with their sub-sections and in order; added ones are
lines of the second list. -/
theorem Script.marked_sublist {l1 l2 s : List Item} (h : Script l1 l2 s) :
    ((s.filter (fun i => i.info = .del)).map Item.data).Sublist (l1.map Item.data) ∧
    ((s.filter (fun i => i.info = .add)).map Item.data).Sublist (l2.map Item.data) := by
  induction s generalizing l1 l2 with
  | nil => exact ⟨List.nil_sublist _, List.nil_sublist _⟩
  | cons a s ih =>
    cases h with
    | del h =>
      obtain ⟨h1, h2⟩ := ih h
      exact ⟨by simpa [Item.info, Item.data, Item.key, Item.sub] using h1, by simpa [Item.info] using h2⟩
    | add h =>
      obtain ⟨h1, h2⟩ := ih h
      exact ⟨by simpa [Item.info] using h1, by simpa [Item.info, Item.data, Item.key, Item.sub] using h2⟩
    | same _ h =>
      obtain ⟨h1, h2⟩ := ih h
      exact ⟨by simpa [Item.info] using h1.trans (List.sublist_cons_self _ _),
        by simpa [Item.info] using h2.trans (List.sublist_cons_self _ _)⟩
    | changed _ h =>
      obtain ⟨h1, h2⟩ := ih h
      exact ⟨by simpa [Item.info] using h1.trans (List.sublist_cons_self _ _),
        by simpa [Item.info] using h2.trans (List.sublist_cons_self _ _)⟩

/-- Marked lines are all shown, and nothing else has a mark. -/
theorem Report.filter {s d : List Item} (h : Report s d) {m : Info} (hm : m = .del ∨ m = .add) :
    d.filter (fun i => i.info = m) = s.filter (fun i => i.info = m) := by
  obtain ⟨shown, h1, rfl⟩ := h
  have key : ∀ (r : List Item) (n : Nat), (∀ i, r[i]? = s[n + i]?) →
      ((((r.zipIdx n).filter (fun p => shown p.2)).map Prod.fst).map
        (fun x => if x.info = .same then x.withInfo .ctx else x)).filter (fun i => i.info = m) =
      r.filter (fun i => i.info = m) := by
    intro r
    induction r with
    | nil => intro n _; rfl
    | cons a r ih =>
      intro n hr
      have hn : s[n]? = some a := by have := hr 0; simpa using this.symm
      have ih' := ih (n + 1) (fun i => by
        have := hr (i + 1)
        simpa [Nat.add_assoc, Nat.add_comm 1 i] using this)
      rw [List.zipIdx_cons, List.filter_cons]
      by_cases ha : a.info = .same
      · have hm' : decide (a.info = m) = false := by
          rcases hm with rfl | rfl <;> simp [ha]
        have hm2 : decide ((a.withInfo .ctx).info = m) = false := by
          rcases hm with rfl | rfl <;> (cases a; simp [Item.withInfo, Item.info])
        simp only
        split
        · simp only [List.map_cons, if_pos ha, List.filter_cons, hm2, hm', Bool.false_eq_true, if_false]
          exact ih'
        · simp only [List.filter_cons, hm', Bool.false_eq_true, if_false]
          exact ih'
      · have : shown n = true := by
          rw [h1]; intro x hx hxi
          rw [hn] at hx; cases hx; exact absurd hxi ha
        simp only [this, if_true, List.map_cons, if_neg ha, List.filter_cons, ih']
  exact key s 0 (fun i => by simp)

/-- An empty report comes from a script in which everything is unchanged. -/
theorem Report.nil {s : List Item} (h : Report s []) : ∀ x ∈ s, x.info = .same := by
  intro x hx
  by_contra hne
  obtain ⟨shown, h1, h2⟩ := h
  obtain ⟨n, hn⟩ := List.mem_iff_getElem?.1 hx
  have hs : shown n = true := by
    rw [h1]; intro y hy hyi
    rw [hn] at hy; cases hy; exact absurd hyi hne
  have : (x, n) ∈ s.zipIdx.filter (fun p => shown p.2) := by
    rw [List.mem_filter]; exact ⟨List.mem_zipIdx_iff_getElem?.2 hn, hs⟩
  have h2 := h2.symm
  rw [List.map_eq_nil_iff, List.map_eq_nil_iff] at h2
  rw [h2] at this; simp at this

theorem Script.all_same {l1 l2 s : List Item} (h : Script l1 l2 s) (hs : ∀ x ∈ s, x.info = .same) :
    l1.map Item.data = l2.map Item.data := by
  induction s generalizing l1 l2 with
  | nil => cases h; rfl
  | cons a s ih =>
    have ha := hs a (by simp)
    cases h with
    | del h => simp [Item.info] at ha
    | add h => simp [Item.info] at ha
    | changed _ h => simp [Item.info] at ha
    | same _ h =>
      have := ih h (fun x hx => hs x (by simp [hx]))
      simp [Item.data, Item.key, Item.sub] at this ⊢
      exact this

theorem Faithful.empty {l1 l2 : List Item} (h : Faithful l1 l2 []) :
    l1.map Item.data = l2.map Item.data := by
  obtain ⟨s, hs, hr⟩ := h
  exact hs.all_same hr.nil

/-! ## A list compared with itself -/

theorem commonKeys_self : ∀ l, commonKeys l l = l
  | [] => rfl
  | a :: l => by
    unfold commonKeys
    simp [afterFirst, commonKeys_self l]

theorem alignLoop_self : ∀ (tbl : List (Item × CmpFn)),
    alignLoop (tbl.map (fun p => p.1.key)) tbl (tbl.map Prod.fst) =
      some (tbl.map (fun p => .mk p.1.key (p.1.sub.map (·.map (Item.withInfo .ctx))) .same))
  | [] => rfl
  | a :: r => by
    simp only [List.map_cons]
    unfold alignLoop
    simp only [splitKey, if_true, Option.bind_eq_bind, Option.bind_some, commonItem, List.map_nil,
      List.nil_append, alignLoop_self r]
    rfl

/-- A list compared with itself: only lines between two equal lines are shown. -/
theorem compare_self (l : List Item) : compare l l =
    some (cleanup [] (l.map (fun i => .mk i.key (i.sub.map (·.map (Item.withInfo .ctx))) .same))) := by
  have h1 : (cmpTable l).map (fun p => p.1.key) = l.map Item.key := by
    conv_rhs => rw [← cmpTable_fst l, List.map_map]
    rfl
  have h2 := alignLoop_self (cmpTable l)
  rw [cmpTable_fst] at h2
  rw [compare, compareBody, h1, commonKeys_self, ← h1, h2]
  have h3 : (cmpTable l).map (fun p => Item.mk p.1.key (p.1.sub.map (·.map (Item.withInfo .ctx))) .same) =
      l.map (fun i => .mk i.key (i.sub.map (·.map (Item.withInfo .ctx))) .same) := by
    conv_rhs => rw [← cmpTable_fst l, List.map_map]
    rfl
  simp only [Option.bind_eq_bind, Option.bind_some, h3]
  rfl

theorem cleanup_same_nodup : ∀ (l : List Item) (before : List Str), (∀ i ∈ l, i.info = .same) →
    (l.map Item.key).Nodup → (∀ k ∈ before, k ∉ l.map Item.key) → cleanup before l = []
  | [], _, _, _, _ => rfl
  | a :: l, before, h1, h2, h3 => by
    rw [List.map_cons, List.nodup_cons] at h2
    unfold cleanup
    have h : (before.any fun k => (l.map Item.key).contains k) = false := by
      rw [List.any_eq_false]
      intro k hk hc
      exact h3 k hk (by simp only [List.contains_iff_mem] at hc; simp only [List.map_cons, List.mem_cons]; exact Or.inr hc)
    simp only [h1 a (by simp), if_true, h, Bool.false_eq_true, if_false]
    refine cleanup_same_nodup l _ (fun i hi => h1 i (by simp [hi])) h2.2 ?_
    intro k hk
    rcases List.mem_cons.1 hk with rfl | hk
    · exact h2.1
    · intro hc; exact h3 k hk (by simp only [List.map_cons, List.mem_cons]; exact Or.inr hc)

theorem compare_self_nodup {l : List Item} (h : (l.map Item.key).Nodup) : compare l l = some [] := by
  rw [compare_self, cleanup_same_nodup]
  · intro i hi
    obtain ⟨j, _, rfl⟩ := List.mem_map.1 hi
    rfl
  · rw [List.map_map]
    have : (Item.key ∘ fun i : Item => Item.mk i.key (i.sub.map (·.map (Item.withInfo .ctx))) .same) = Item.key := rfl
    rw [this]; exact h
  · simp

end NcDiff.Running
