import Verif.Proof.Orderless
/-!
# `handle_orderless` undoes a reordering of orderless lines
-/

namespace NcDiff.Running

/-! ## Lines that are reordered -/

theorem pair_sublist_cons {x n k : Str} {l : List Str} :
    [x, n].Sublist (k :: l) ↔ [x, n].Sublist l ∨ (x = k ∧ n ∈ l) := by
  constructor
  · intro h
    cases h with
    | cons _ h => exact Or.inl h
    | cons_cons _ h => exact Or.inr ⟨rfl, List.singleton_sublist.1 h⟩
  · rintro (h | ⟨rfl, h⟩)
    · exact h.trans (List.sublist_cons_self _ _)
    · exact (List.singleton_sublist.2 h).cons_cons _

theorem pair_sublist_iff {l : List Str} (hn : l.Nodup) {x n : Str} (hx : x ∈ l) (hm : n ∈ l) :
    [x, n].Sublist l ↔ l.idxOf x < l.idxOf n := by
  induction l with
  | nil => simp at hx
  | cons k l ih =>
    rw [List.nodup_cons] at hn
    rw [pair_sublist_cons]
    by_cases hxk : x = k
    · subst hxk
      by_cases hnx : n = x
      · subst hnx
        constructor
        · rintro (h | ⟨_, h⟩)
          · exact absurd (h.subset (by simp)) hn.1
          · exact absurd h hn.1
        · intro h; omega
      · have hnl : n ∈ l := (List.mem_cons.1 hm).resolve_left hnx
        rw [List.idxOf_cons_self, List.idxOf_cons_ne _ (Ne.symm hnx)]
        exact ⟨fun _ => by omega, fun _ => Or.inr ⟨rfl, hnl⟩⟩
    · have hxl : x ∈ l := (List.mem_cons.1 hx).resolve_left hxk
      by_cases hnk : n = k
      · subst hnk
        rw [List.idxOf_cons_self]
        constructor
        · rintro (h | ⟨h, _⟩)
          · exact absurd (h.subset (by simp)) hn.1
          · exact absurd h hxk
        · intro h; omega
      · have hnl : n ∈ l := (List.mem_cons.1 hm).resolve_left hnk
        rw [List.idxOf_cons_ne _ (Ne.symm hxk), List.idxOf_cons_ne _ (Ne.symm hnk), ih hn.2 hxl hnl]
        simp [hxk]

/-- The keys of two sections that only differ in the order of orderless lines. -/
structure KeyReordered (ord : Str → Bool) (k1 k2 : List Str) : Prop where
  perm : k1.Perm k2
  pairs : ∀ x n, ord n = false → ([x, n].Sublist k1 ↔ [x, n].Sublist k2)
  rest : k1.filter (fun s => !ord s) = k2.filter (fun s => !ord s)

theorem OnlyReordered.keys {t : Tables} {n : Nat} {l1 l2 : List Item} (h : OnlyReordered t n l1 l2) :
    KeyReordered (fun s => t.orderless s n) (l1.map Item.key) (l2.map Item.key) := by
  induction h with
  | nil => exact ⟨.refl _, fun _ _ _ => Iff.rfl, rfl⟩
  | leaf _ ih =>
    refine ⟨by simpa [Item.key] using ih.perm, ?_, ?_⟩
    · intro x n hn
      simp only [List.map_cons, Item.key, pair_sublist_cons, ih.pairs x n hn, ih.perm.mem_iff]
    · simp only [List.map_cons, Item.key, List.filter_cons, ih.rest]
  | node _ _ _ ih =>
    refine ⟨by simpa [Item.key] using ih.perm, ?_, ?_⟩
    · intro x n hn
      simp only [List.map_cons, Item.key, pair_sublist_cons, ih.pairs x n hn, ih.perm.mem_iff]
    · simp only [List.map_cons, Item.key, List.filter_cons, ih.rest]
  | swap ha hb =>
    rename_i n a b l
    refine ⟨List.Perm.swap _ _ _, ?_, ?_⟩
    · intro x m hm
      have h1 : m ≠ a.key := fun e => by rw [e, ha] at hm; cases hm
      have h2 : m ≠ b.key := fun e => by rw [e, hb] at hm; cases hm
      simp only [List.map_cons, pair_sublist_cons, List.mem_cons, h1, h2, false_or]
      constructor <;> rintro ((h | h) | h) <;> simp [h]
    · simp [ha, hb]
  | trans _ _ ih1 ih2 =>
    exact ⟨ih1.perm.trans ih2.perm, fun x n hn => (ih1.pairs x n hn).trans (ih2.pairs x n hn),
      ih1.rest.trans ih2.rest⟩

theorem commonKeys_filter (p : Str → Bool) : ∀ l : List Str, commonKeys (l.filter p) l = l.filter p
  | [] => rfl
  | k :: r => by
    unfold commonKeys
    by_cases hk : p k = true
    · rw [List.filter_cons_of_pos hk]
      simp [afterFirst, commonKeys_filter p r]
    · rw [List.filter_cons_of_neg hk]
      have : afterFirst k (r.filter p) = none := by
        cases h : afterFirst k (r.filter p) with
        | none => rfl
        | some s =>
          have := (afterFirst_sublist h).subset (List.mem_cons_self)
          exact absurd (List.mem_filter.1 this).2 hk
      rw [this]
      exact commonKeys_filter p r

/-! ## The loop -/

/-- The environment for two lists that differ only in the order of orderless lines. -/
structure EnvRe (env : OrderEnv) : Prop extends EnvOk env where
  perm : env.lines1.Perm env.lines2
  order : ∀ x ∈ env.lines1, ∀ n ∈ env.lines1, env.isMatch n = false →
    (env.lines1.idxOf x < env.lines1.idxOf n ↔ env.lines2.idxOf x < env.lines2.idxOf n)
  all : ∀ n ∈ env.lines1, env.isMatch n = false → n ∈ env.common

/-- The first list, so far, is a prefix of the second followed by the lines that are not orderless. -/
structure Exact (env : OrderEnv) (p r : List Str) (st : OrderState) : Prop where
  le : st.offset2 ≤ env.lines2.length
  off : st.offset1 = st.offset2
  keys : st.list1.map Item.key = env.lines2.take st.offset2 ++ r.filter (fun s => !env.isMatch s)
  ins : ∀ x, x ∈ st.inserted ↔ x ∈ env.lines2.take st.offset2 ∧ env.isMatch x = true
  done : ∀ x ∈ p, x ∈ env.lines2.take st.offset2
  only : ∀ x ∈ env.lines2.take st.offset2, env.isMatch x = false → x ∈ p

theorem mem_take_iff {l : List Str} (hn : l.Nodup) {m : Nat} {x : Str} :
    x ∈ l.take m ↔ x ∈ l ∧ l.idxOf x < m := by
  have := mem_slice hn (a := 0) (b := some m) (x := x)
  simpa [slice] using this

theorem take_append_slice {l : List Str} {a b : Nat} (h : a ≤ b) :
    l.take a ++ slice l a (some b) = l.take b := by
  have h1 := List.take_append_drop a (l.take b)
  rw [List.take_take, Nat.min_eq_left h] at h1
  exact h1

theorem orderStep_exact {env : OrderEnv} (he : EnvRe env) {p r : List Str} {x : Str}
    (hl : env.lines1 = p ++ x :: r) {st : OrderState} {cp cr : List Str}
    (w : Window env p (x :: r) st cp cr) (h : Exact env p (x :: r) st) :
    Exact env (p ++ [x]) r (orderStep env st x) := by
  have hn1 := he.nodup1
  have hx1 : env.lines1.idxOf x = p.length := by
    have hlt : p.length < env.lines1.length := by rw [hl]; simp
    have : env.lines1[p.length] = x := by simp [hl]
    rw [← this, hn1.idxOf_getElem]
  have hxl1 : x ∈ env.lines1 := by rw [hl]; simp
  have hxl2 : x ∈ env.lines2 := he.perm.mem_iff.1 hxl1
  have hlt2 := List.idxOf_lt_length_iff.2 hxl2
  have hxp : x ∉ p := by
    rw [hl] at hn1
    exact fun hxp => (List.nodup_append.1 hn1).2.2 x hxp x (by simp) rfl
  have hbefore : ∀ y ∈ env.lines1, env.lines1.idxOf y < p.length → y ∈ p := by
    intro y hy hlt
    by_contra hyp
    rw [hl, List.idxOf_append_of_notMem hyp] at hlt
    omega
  -- anchors
  have hmemc : ∀ c ∈ cp ++ cr, c ∈ env.lines1 ∧ env.isMatch c = false := by
    intro c hc
    rw [← w.common] at hc
    exact ⟨he.common1.subset hc, he.commonNot c hc⟩
  have hlast1 : ∀ c ∈ cp.getLast?, env.lines1.idxOf c < p.length := by
    intro c hc
    have hcp := w.done c (getLast?_mem hc)
    rw [hl, List.idxOf_append_of_mem hcp]
    exact List.idxOf_lt_length_iff.2 hcp
  have htake := fun y => mem_take_iff he.nodup2 (m := st.offset2) (x := y)
  unfold orderStep
  by_cases hm : env.isMatch x = true
  · rw [if_pos hm]
    have hfil : (x :: r).filter (fun s => !env.isMatch s) = r.filter (fun s => !env.isMatch s) := by
      rw [List.filter_cons_of_neg]; simp [hm]
    by_cases hin : x ∈ st.inserted
    · rw [if_pos hin]
      refine ⟨h.le, h.off, by rw [h.keys, hfil], h.ins, ?_, ?_⟩
      · intro y hy
        rcases List.mem_append.1 hy with hy | hy
        · exact h.done y hy
        · rw [List.mem_singleton] at hy; subst hy; exact ((h.ins y).1 hin).1
      · intro y hy hym
        exact List.mem_append_left _ (h.only y hy hym)
    · rw [if_neg hin]
      simp only [w.lastLine he.toEnvOk, w.nextLine he.toEnvOk]
      have hxt : x ∉ env.lines2.take st.offset2 := fun hx => hin ((h.ins x).2 ⟨hx, hm⟩)
      have hoff : st.offset2 ≤ env.lines2.idxOf x := by
        by_contra hlt
        exact hxt ((htake x).2 ⟨hxl2, by omega⟩)
      have hxc : x ∉ env.common := fun hc => by rw [he.commonNot x hc] at hm; cases hm
      have hnext1 : ∀ c ∈ cr.head?, env.lines1.idxOf x < env.lines1.idxOf c := by
        intro c hc
        have hcl := hmemc c (List.mem_append_right _ (head?_mem hc))
        have hcx : c ≠ x := fun e => by rw [e] at hcl; rw [hcl.2] at hm; cases hm
        have hcr' : c ∈ r := (List.mem_cons.1 (w.todo c (head?_mem hc))).resolve_left hcx
        have hcp : c ∉ p := by
          intro hcp
          rw [hl] at hn1
          exact (List.nodup_append.1 hn1).2.2 c hcp c (by simp [hcr']) rfl
        rw [hx1, hl, List.idxOf_append_of_notMem hcp, List.idxOf_cons_ne _ (Ne.symm hcx)]
        omega
      have hlast2 : ∀ c ∈ cp.getLast?, ∀ y ∈ env.lines1, ¬ env.lines1.idxOf y < env.lines1.idxOf c →
          env.lines2.idxOf c ≤ env.lines2.idxOf y := by
        intro c hc y hy hlt
        have hcl := hmemc c (List.mem_append_left _ (getLast?_mem hc))
        rw [he.order y hy c hcl.1 hcl.2] at hlt
        omega
      have hnext2 : ∀ c ∈ cr.head?, env.lines2.idxOf x < env.lines2.idxOf c := by
        intro c hc
        have hcl := hmemc c (List.mem_append_right _ (head?_mem hc))
        rw [← he.order x hxl1 c hcl.1 hcl.2]; exact hnext1 c hc
      have hsl : x ∈ slice env.lines2 (st.lastAnchor.getD 0) (cr.head?.map (env.lines2.idxOf ·)) := by
        rw [mem_slice he.nodup2]
        refine ⟨hxl2, ?_, ?_⟩
        · rw [w.anchor]
          cases hc : cp.getLast? with
          | none => simp
          | some c =>
            have := hlast2 c hc x hxl1 (by have := hlast1 c hc; omega)
            simpa using this
        · intro b hb
          cases hc : cr.head? with
          | none => rw [hc] at hb; cases hb
          | some c => rw [hc] at hb; cases hb; exact hnext2 c hc
      rw [if_pos hsl]
      have hnew : (slice env.lines2 st.offset2 (some (env.lines2.idxOf x + 1))).filter
          (fun i => env.isMatch i && decide (i ∈ slice env.lines1
              ((cp.getLast?.map (env.lines1.idxOf ·)).getD 0) (cr.head?.map (env.lines1.idxOf ·)))
            && decide (i ∉ st.inserted)) = slice env.lines2 st.offset2 (some (env.lines2.idxOf x + 1)) := by
        rw [List.filter_eq_self]
        intro y hy
        rw [mem_slice he.nodup2] at hy
        obtain ⟨hy2, hya, hyb⟩ := hy
        have hyb := hyb _ rfl
        have hy1 : y ∈ env.lines1 := he.perm.mem_iff.2 hy2
        have hyt : y ∉ env.lines2.take st.offset2 := fun hy => by
          have := ((htake y).1 hy).2; omega
        have hym : env.isMatch y = true := by
          by_contra hym
          have hym : env.isMatch y = false := by simpa using hym
          have hyx : y ≠ x := fun e => by rw [e, hm] at hym; cases hym
          have hne : env.lines2.idxOf y ≠ env.lines2.idxOf x := by
            intro e
            have e1 := List.getElem_idxOf (List.idxOf_lt_length_iff.2 hy2)
            have e2 := List.getElem_idxOf (List.idxOf_lt_length_iff.2 hxl2)
            apply hyx
            rw [← e1, ← e2]; congr 1
          have h3 : ¬ env.lines1.idxOf x < env.lines1.idxOf y := by
            rw [he.order x hxl1 y hy1 hym]; omega
          have hne1 : env.lines1.idxOf y ≠ env.lines1.idxOf x := by
            intro e
            have e1 := List.getElem_idxOf (List.idxOf_lt_length_iff.2 hy1)
            have e2 := List.getElem_idxOf (List.idxOf_lt_length_iff.2 hxl1)
            apply hyx
            rw [← e1, ← e2]; congr 1
          exact hyt (h.done y (hbefore y hy1 (by omega)))
        have hyi : y ∉ st.inserted := fun hyi => hyt ((h.ins y).1 hyi).1
        simp only [hym, Bool.true_and, Bool.and_eq_true, decide_eq_true_eq]
        refine ⟨?_, hyi⟩
        rw [mem_slice he.nodup1]
        refine ⟨hy1, ?_, ?_⟩
        · cases hc : cp.getLast? with
          | none => simp
          | some c =>
            have hlow := w.lower c hc
            have hcl := hmemc c (List.mem_append_left _ (getLast?_mem hc))
            have : ¬ env.lines1.idxOf y < env.lines1.idxOf c := by
              rw [he.order y hy1 c hcl.1 hcl.2]; omega
            simp only [Option.map_some, Option.getD_some]; omega
        · intro b hb
          cases hc : cr.head? with
          | none => rw [hc] at hb; cases hb
          | some c =>
            rw [hc] at hb; cases hb
            have hcl := hmemc c (List.mem_append_right _ (head?_mem hc))
            have := hnext2 c hc
            rw [he.order y hy1 c hcl.1 hcl.2]; omega
      rw [hnew]
      have hts := take_append_slice (l := env.lines2) (a := st.offset2) (b := env.lines2.idxOf x + 1) (by omega)
      have hrm : (slice env.lines2 st.offset2 (some (env.lines2.idxOf x + 1))).map (Item.key ∘ env.removed) =
          slice env.lines2 st.offset2 (some (env.lines2.idxOf x + 1)) := by
        conv_rhs => rw [← List.map_id (slice env.lines2 st.offset2 (some (env.lines2.idxOf x + 1)))]
        apply List.map_congr_left
        intro y hy
        rw [← hnew, List.mem_filter] at hy
        simp only [Bool.and_eq_true] at hy
        exact he.removed y hy.2.1.1
      have hmem : ∀ y, y ∈ slice env.lines2 st.offset2 (some (env.lines2.idxOf x + 1)) → env.isMatch y = true := by
        intro y hy
        rw [← hnew, List.mem_filter] at hy
        simp only [Bool.and_eq_true] at hy
        exact hy.2.1.1
      have hlen : (slice env.lines2 st.offset2 (some (env.lines2.idxOf x + 1))).length =
          env.lines2.idxOf x + 1 - st.offset2 := by
        simp only [slice, List.length_drop, List.length_take]
        omega
      refine ⟨by simp only; omega, by simp only [hlen, h.off]; omega, ?_, ?_, ?_, ?_⟩
      · show (insertAll _ _ _).map Item.key = _
        have htk : (st.list1.map Item.key).take st.offset2 = env.lines2.take st.offset2 := by
          rw [h.keys, List.take_append_of_le_length (by rw [List.length_take]; have := h.le; omega), List.take_take,
            Nat.min_self]
        have hdk : (st.list1.map Item.key).drop st.offset2 = r.filter (fun s => !env.isMatch s) := by
          rw [h.keys, List.drop_append, List.length_take, Nat.min_eq_left h.le, Nat.sub_self, List.drop_zero,
            List.drop_of_length_le (by rw [List.length_take]; omega), List.nil_append, hfil]
        rw [insertAll_eq, List.map_append, List.map_append, List.map_map, hrm, List.map_take, List.map_drop, h.off,
          htk, hdk, hts]
      · intro y
        show y ∈ st.inserted ++ _ ↔ y ∈ env.lines2.take (env.lines2.idxOf x + 1) ∧ _
        rw [← hts, List.mem_append, List.mem_append, h.ins]
        constructor
        · rintro (⟨h1, h2⟩ | h1)
          · exact ⟨Or.inl h1, h2⟩
          · exact ⟨Or.inr h1, hmem y h1⟩
        · rintro ⟨h1 | h1, h2⟩
          · exact Or.inl ⟨h1, h2⟩
          · exact Or.inr h1
      · intro y hy
        show y ∈ env.lines2.take (env.lines2.idxOf x + 1)
        rcases List.mem_append.1 hy with hy | hy
        · rw [← hts]; exact List.mem_append_left _ (h.done y hy)
        · rw [List.mem_singleton] at hy; subst hy
          exact (mem_take_iff he.nodup2).2 ⟨hxl2, by omega⟩
      · intro y hy hym
        change y ∈ env.lines2.take (env.lines2.idxOf x + 1) at hy
        rw [← hts] at hy
        rcases List.mem_append.1 hy with hy | hy
        · exact List.mem_append_left _ (h.only y hy hym)
        · rw [hmem y hy] at hym; cases hym
  · rw [if_neg hm]
    have hm' : env.isMatch x = false := by simpa using hm
    have hc := he.all x hxl1 hm'
    rw [if_pos hc]
    dsimp only
    have hfil : (x :: r).filter (fun s => !env.isMatch s) = x :: r.filter (fun s => !env.isMatch s) := by
      rw [List.filter_cons_of_pos]; simp [hm']
    have hxt : x ∉ env.lines2.take st.offset2 := fun hx => hxp (h.only x hx hm')
    have hle : st.offset2 ≤ env.lines2.idxOf x := by
      by_contra hlt
      exact hxt ((htake x).2 ⟨hxl2, by omega⟩)
    have hge : env.lines2.idxOf x ≤ st.offset2 := by
      by_contra hlt
      have hlt' : st.offset2 < env.lines2.length := by omega
      have hy2 : env.lines2[st.offset2] ∈ env.lines2 := List.getElem_mem _
      have hyi : env.lines2.idxOf env.lines2[st.offset2] = st.offset2 := he.nodup2.idxOf_getElem _ _
      have hy1 := he.perm.mem_iff.2 hy2
      have := (he.order _ hy1 x hxl1 hm').2 (by omega)
      have := h.done _ (hbefore _ hy1 (by omega))
      have := ((htake _).1 this).2
      omega
    have heq : env.lines2.idxOf x = st.offset2 := by omega
    have hnew : (if st.offset2 ≤ env.lines2.idxOf x then
        (slice env.lines2 st.offset2 (some (env.lines2.idxOf x))).filter
          (fun i => env.isMatch i && decide (i ∈ slice env.lines1 st.offset1 (some (env.lines1.idxOf x)))
            && decide (i ∉ st.inserted))
      else []) = [] := by
      rw [if_pos hle, heq]
      have : slice env.lines2 st.offset2 (some st.offset2) = [] := by
        simp only [slice]
        exact List.drop_of_length_le (by rw [List.length_take]; omega)
      rw [this]; rfl
    rw [hnew]
    have hl1 : insertAll st.list1 st.offset1 (([] : List Str).map env.removed) = st.list1 := rfl
    rw [hl1]
    have hoff : (if st.offset2 < env.lines2.idxOf x + 1 then env.lines2.idxOf x + 1 else st.offset2) =
        st.offset2 + 1 := by rw [if_pos (by omega), heq]
    rw [hoff]
    have hts : env.lines2.take (st.offset2 + 1) = env.lines2.take st.offset2 ++ [x] := by
      rw [List.take_succ, ← heq, List.getElem?_eq_getElem hlt2, List.getElem_idxOf]; rfl
    refine ⟨by simp only; omega, ?_, ?_, ?_, ?_, ?_⟩
    · show (st.list1.map Item.key).idxOf x + 1 = st.offset2 + 1
      rw [h.keys, hfil, List.idxOf_append_of_notMem hxt, List.idxOf_cons_self, List.length_take,
        Nat.min_eq_left h.le]
    · show st.list1.map Item.key = env.lines2.take (st.offset2 + 1) ++ _
      rw [h.keys, hfil, hts]; simp
    · intro y
      show y ∈ st.inserted ++ [] ↔ y ∈ env.lines2.take (st.offset2 + 1) ∧ _
      rw [List.append_nil, h.ins, hts, List.mem_append, List.mem_singleton]
      constructor
      · rintro ⟨h1, h2⟩; exact ⟨Or.inl h1, h2⟩
      · rintro ⟨h1 | rfl, h2⟩
        · exact ⟨h1, h2⟩
        · exact absurd h2 hm
    · intro y hy
      show y ∈ env.lines2.take (st.offset2 + 1)
      rw [hts]
      rcases List.mem_append.1 hy with hy | hy
      · exact List.mem_append_left _ (h.done y hy)
      · exact List.mem_append_right _ hy
    · intro y hy hym
      change y ∈ env.lines2.take (st.offset2 + 1) at hy
      rw [hts] at hy
      rcases List.mem_append.1 hy with hy | hy
      · exact List.mem_append_left _ (h.only y hy hym)
      · exact List.mem_append_right _ hy

theorem orderLoop_exact {env : OrderEnv} (he : EnvRe env) {rest : List Item} :
    ∀ (r p : List Str) (st : OrderState) (cp cr : List Str), env.lines1 = p ++ r →
      Window env p r st cp cr → OInv env rest p st → Exact env p r st →
      Exact env (p ++ r) [] (r.foldl (orderStep env) st)
  | [], p, st, _, _, _, _, _, h => by simpa using h
  | x :: r, p, st, cp, cr, hl, w, h, hx => by
    obtain ⟨cp', cr', w', h'⟩ := orderStep_inv he.toEnvOk hl w h
    have := orderLoop_exact he r (p ++ [x]) _ cp' cr' (by simp [hl]) w' h' (orderStep_exact he hl w hx)
    simpa using this

/-- The result has the keys of the second list. -/
theorem orderTop_keys {t : Tables} {l1 l2 : List Item} {depth : Nat}
    (hk : KeyReordered (fun s => t.orderless s depth) (l1.map Item.key) (l2.map Item.key))
    (h1 : (l1.map Item.key).Nodup) :
    (orderTop t l1 l2 depth).map Item.key = l2.map Item.key := by
  have h2 : (l2.map Item.key).Nodup := hk.perm.nodup_iff.1 h1
  have he := topEnv_ok (t := t) (depth := depth) h1 h2
  have hM : ∀ s ∈ l1.map Item.key, (topEnv t l1 l2 depth).isMatch s = t.orderless s depth := by
    intro s hs
    have hs2 := hk.perm.mem_iff.1 hs
    simp only [topEnv, decide_eq_true hs, decide_eq_true hs2, Bool.and_true]
  have hcommon : (topEnv t l1 l2 depth).common =
      (l1.map Item.key).filter (fun s => !(topEnv t l1 l2 depth).isMatch s) := by
    have e1 : (l1.map Item.key).filter (fun s => !(topEnv t l1 l2 depth).isMatch s) =
        (l2.map Item.key).filter (fun s => !t.orderless s depth) := by
      rw [← hk.rest]
      apply List.filter_congr
      intro s hs; rw [hM s hs]
    have e2 : (l1.filter (fun i => !(topEnv t l1 l2 depth).isMatch i.key)).map Item.key =
        (l1.map Item.key).filter (fun s => !(topEnv t l1 l2 depth).isMatch s) := by
      rw [List.filter_map]; rfl
    show commonKeys ((l1.filter (fun i => !(topEnv t l1 l2 depth).isMatch i.key)).map Item.key) (l2.map Item.key) = _
    rw [e2, e1, commonKeys_filter]
  have hre : EnvRe (topEnv t l1 l2 depth) := by
    refine ⟨he, hk.perm, ?_, ?_⟩
    · intro x hx n hn hm
      rw [hM n hn] at hm
      have := hk.pairs x n hm
      rw [pair_sublist_iff h1 hx hn, pair_sublist_iff h2 (hk.perm.mem_iff.1 hx) (hk.perm.mem_iff.1 hn)] at this
      exact this
    · intro n hn hm
      rw [hcommon, List.mem_filter]
      exact ⟨hn, by rw [hm]; rfl⟩
  have hx := orderLoop_exact hre (rest := l1.filter (fun i => !(topEnv t l1 l2 depth).isMatch i.key))
    (l1.map Item.key) []
    ⟨l1.filter (fun i => !(topEnv t l1 l2 depth).isMatch i.key), 0, 0, [], none⟩ []
    (topEnv t l1 l2 depth).common rfl
    ⟨rfl, by simp, fun c hc => he.common1.subset hc, rfl, by simp, by simp, by simp⟩
    ⟨by simp, by simp [List.filter_filter], by simp, by simp, by simp⟩
    ⟨by simp, rfl, by simp only [List.take_zero, List.nil_append]; rw [List.filter_map]; rfl, by simp, by simp, by simp⟩
  rw [orderTop_eq h1 h2]
  have hx : Exact (topEnv t l1 l2 depth) (l1.map Item.key) [] (topState t l1 l2 depth) := hx
  rw [hx.keys]
  show (l2.map Item.key).take _ ++ [] = l2.map Item.key
  rw [List.append_nil]
  apply List.take_of_length_le
  by_contra hlt
  have hlt : (topState t l1 l2 depth).offset2 < (l2.map Item.key).length := by omega
  have hy2 : (l2.map Item.key)[(topState t l1 l2 depth).offset2] ∈ l2.map Item.key := List.getElem_mem _
  have := hx.done _ (hk.perm.mem_iff.2 hy2)
  have := ((mem_take_iff h2).1 this).2
  rw [h2.idxOf_getElem] at this
  omega

/-! ## All levels -/

mutual
theorem OnlyReordered.refl (t : Tables) : ∀ (l : List Item) (n : Nat), OnlyReordered t n l l
  | [], n => .nil
  | a :: r, n => OnlyReordered.consRefl t a n (OnlyReordered.refl t r n)
theorem OnlyReordered.consRefl (t : Tables) : ∀ (a : Item) (n : Nat) {r r' : List Item},
    OnlyReordered t n r r' → OnlyReordered t n (a :: r) (a :: r')
  | .mk k s i, n, _, _, h => OnlyReordered.subRefl t s n k i h
theorem OnlyReordered.subRefl (t : Tables) : ∀ (s : Option (List Item)) (n : Nat) (k : Str) (i : Info)
    {r r' : List Item}, OnlyReordered t n r r' → OnlyReordered t n (.mk k s i :: r) (.mk k s i :: r')
  | none, _, _, _, _, _, h => .leaf h
  | some s, n, _, _, _, _, h => .node (OnlyReordered.refl t s (n + 1)) h
end

/-- Sub-sections that correspond. -/
inductive SubReordered (t : Tables) (n : Nat) : Option (List Item) → Option (List Item) → Prop
  | none : SubReordered t n none none
  | some {s s'} : OnlyReordered t n s s' → SubReordered t n (some s) (some s')

theorem OnlyReordered.items {t : Tables} {n : Nat} {l1 l2 : List Item} (h : OnlyReordered t n l1 l2) :
    ∀ a ∈ l1, ∃ b ∈ l2, a.key = b.key ∧ a.info = b.info ∧ SubReordered t (n + 1) a.sub b.sub := by
  have hrefl : ∀ a : Item, ∀ n, SubReordered t n a.sub a.sub := by
    rintro ⟨k, s, i⟩ n
    cases s with
    | none => exact .none
    | some s => exact .some (OnlyReordered.refl t s n)
  induction h with
  | nil => intro a ha; simp at ha
  | leaf _ ih =>
    intro a ha
    rcases List.mem_cons.1 ha with rfl | ha
    · exact ⟨_, List.mem_cons_self, rfl, rfl, .none⟩
    · obtain ⟨b, hb, h⟩ := ih a ha
      exact ⟨b, List.mem_cons_of_mem _ hb, h⟩
  | node hs _ _ ih =>
    intro a ha
    rcases List.mem_cons.1 ha with rfl | ha
    · exact ⟨_, List.mem_cons_self, rfl, rfl, .some hs⟩
    · obtain ⟨b, hb, h⟩ := ih a ha
      exact ⟨b, List.mem_cons_of_mem _ hb, h⟩
  | swap =>
    intro a ha
    exact ⟨a, by simp only [List.mem_cons] at ha ⊢; rcases ha with h | h | h <;> simp [h], rfl, rfl, hrefl a _⟩
  | trans _ _ ih1 ih2 =>
    intro a ha
    obtain ⟨b, hb, h1, h2, h3⟩ := ih1 a ha
    obtain ⟨c, hc, h4, h5, h6⟩ := ih2 b hb
    refine ⟨c, hc, h1.trans h4, h2.trans h5, ?_⟩
    revert h3 h6
    generalize a.sub = x; generalize b.sub = y; generalize c.sub = z
    intro h3 h6
    cases h3 with
    | none => exact h6
    | some h => cases h6 with | some h' => exact .some (h.trans h')

theorem lastWith_none {k : Str} : ∀ {l : List Item}, k ∉ l.map Item.key → lastWith k l = none
  | [], _ => rfl
  | i :: r, h => by
    simp only [List.map_cons, List.mem_cons, not_or] at h
    unfold lastWith
    rw [lastWith_none h.2, if_neg (Ne.symm h.1)]

theorem lastWith_mem {k : Str} {s : List Item} : ∀ {l : List Item}, lastWith k l = some s →
    ∃ i ∈ l, i.key = k ∧ i.sub = some s
  | [], h => by simp [lastWith] at h
  | i :: r, h => by
    unfold lastWith at h
    cases hr : lastWith k r with
    | some s' =>
      rw [hr] at h; cases h
      obtain ⟨j, hj, h1⟩ := lastWith_mem hr
      exact ⟨j, List.mem_cons_of_mem _ hj, h1⟩
    | none =>
      rw [hr] at h
      simp only at h
      split at h
      · rename_i hk
        refine ⟨i, List.mem_cons_self, hk, ?_⟩
        unfold children at h
        split at h
        · rename_i a r' hs; rw [hs, h]
        · cases h
      · cases h

theorem lastWith_nodup {b : Item} : ∀ {l : List Item}, (l.map Item.key).Nodup → b ∈ l →
    lastWith b.key l = children b
  | [], _, h => by simp at h
  | i :: r, hn, h => by
    rw [List.map_cons, List.nodup_cons] at hn
    unfold lastWith
    rcases List.mem_cons.1 h with rfl | h
    · rw [lastWith_none hn.1, if_pos rfl]
    · rw [lastWith_nodup hn.2 h]
      have : i.key ≠ b.key := fun e => hn.1 (by rw [e]; exact List.mem_map_of_mem h)
      rw [if_neg this]
      cases children b <;> rfl

theorem height_mem {a : Item} : ∀ {l : List Item}, a ∈ l → a.height ≤ Item.heightList l
  | [], h => by simp at h
  | b :: l, h => by
    unfold Item.heightList
    rcases List.mem_cons.1 h with rfl | h
    · exact Nat.le_max_left _ _
    · exact Nat.le_trans (height_mem h) (Nat.le_max_right _ _)

theorem height_sub {a : Item} {s : List Item} (h : a.sub = some s) : a.height = Item.heightList s + 1 := by
  obtain ⟨k, s', i⟩ := a
  cases h
  simp [Item.height, Item.heightSub]

theorem Distinct.nodup {l : List Item} (h : Distinct l) : (l.map Item.key).Nodup := by
  cases h with | mk h _ => exact h

theorem Distinct.sub {l : List Item} (h : Distinct l) {i : Item} (hi : i ∈ l) {s : List Item}
    (hs : i.sub = some s) : Distinct s := by
  cases h with | mk _ h => exact h i hi s hs

/-- Elements with equal keys and corresponding sub-sections. -/
def ItemReordered (t : Tables) (n : Nat) (a b : Item) : Prop :=
  a.key = b.key ∧ a.info = b.info ∧ SubReordered t (n + 1) a.sub b.sub

theorem orderKids_eq {t : Tables} {n : Nat} {rec : List Item → List Item → List Item} {l2 : List Item}
    (h2 : (l2.map Item.key).Nodup) : ∀ {m m2 : List Item}, (m.map Item.key).Nodup →
    List.Forall₂ (ItemReordered t n) m m2 → (∀ b ∈ m2, b ∈ l2) →
    (∀ a ∈ m, ∀ s s', a.sub = some s → OnlyReordered t (n + 1) s s' → rec s s' = s') →
    orderKids rec l2 m = m2
  | _, _, _, .nil, _, _ => rfl
  | .mk k s i :: m, .mk k' s' i' :: m2, hn, .cons hab hr, hm2, hrec => by
    obtain ⟨h3, h4, h5⟩ := hab
    simp only [Item.key, Item.info, Item.sub] at h3 h4 h5
    subst h3; subst h4
    rw [List.map_cons, List.nodup_cons] at hn
    unfold orderKids
    rw [orderKids_eq h2 hn.2 hr (fun b hb => hm2 b (List.mem_cons_of_mem _ hb))
      (fun a ha => hrec a (List.mem_cons_of_mem _ ha))]
    have hlw : lastWith k m = none := lastWith_none hn.1
    have hlw2 : lastWith k l2 = children (.mk k s' i) :=
      lastWith_nodup (b := .mk k s' i) h2 (hm2 _ List.mem_cons_self)
    rw [hlw, hlw2]
    congr 2
    cases h5 with
    | none => simp [children, Item.sub]
    | some h5 =>
      rename_i s s'
      have hp := h5.keys.perm
      cases s with
      | nil =>
        have : s' = [] := by
          have := hp.length_eq
          simpa using this.symm
        subst this
        simp [children, Item.sub]
      | cons a r =>
        cases s' with
        | nil => have := hp.length_eq; simp at this
        | cons a' r' =>
          simp only [children, Item.sub]
          rw [hrec (.mk k (some (a :: r)) i) List.mem_cons_self _ _ rfl h5]

theorem forall₂_of_keys {t : Tables} {n : Nat} {l2 : List Item} (h2 : (l2.map Item.key).Nodup) :
    ∀ {m m2 : List Item}, m.map Item.key = m2.map Item.key → (∀ b ∈ m2, b ∈ l2) →
    (∀ a ∈ m, ∃ b ∈ l2, ItemReordered t n a b) → List.Forall₂ (ItemReordered t n) m m2
  | [], [], _, _, _ => .nil
  | [], _ :: _, h, _, _ => by simp at h
  | _ :: _, [], h, _, _ => by simp at h
  | a :: m, b :: m2, h, hm2, hi => by
    simp only [List.map_cons, List.cons.injEq] at h
    refine .cons ?_ (forall₂_of_keys h2 h.2 (fun b hb => hm2 b (List.mem_cons_of_mem _ hb))
      (fun a ha => hi a (List.mem_cons_of_mem _ ha)))
    obtain ⟨b', hb', hab⟩ := hi a List.mem_cons_self
    have : b' = b := List.inj_on_of_nodup_map h2 hb' (hm2 b List.mem_cons_self) (hab.1.symm.trans h.1)
    rw [← this]; exact hab

/-- Lists that differ only in the order of orderless lines become equal. -/
theorem orderlessFuel_eq {t : Tables} : ∀ (fuel depth : Nat) {l1 l2 : List Item},
    OnlyReordered t depth l1 l2 → Distinct l1 → Item.heightList l1 ≤ fuel →
    orderlessFuel t fuel depth l1 l2 = l2
  | 0, depth, l1, l2, h, _, hf => by
    have hl1 : l1 = [] := by
      cases l1 with
      | nil => rfl
      | cons a r =>
        have := height_mem (a := a) (l := a :: r) List.mem_cons_self
        obtain ⟨k, s, i⟩ := a
        simp only [Item.height] at this
        omega
    subst hl1
    have : l2 = [] := by simpa using h.keys.perm.length_eq.symm
    rw [this]; rfl
  | fuel + 1, depth, l1, l2, h, hd, hf => by
    have hn2 : (l2.map Item.key).Nodup := h.keys.perm.nodup_iff.1 hd.nodup
    have hkeys := orderTop_keys h.keys hd.nodup
    have hperm := (orderTop_perm (t := t) (depth := depth) hd.nodup hn2).1
    unfold orderlessFuel
    refine orderKids_eq (t := t) (n := depth) hn2 (by rw [hkeys]; exact hn2)
      (forall₂_of_keys hn2 hkeys (fun b hb => hb) ?_) (fun b hb => hb) ?_
    · intro a ha
      exact h.items a (hperm.mem_iff.1 ha)
    · intro a ha s s' hs hss
      have ha1 := hperm.mem_iff.1 ha
      refine orderlessFuel_eq fuel (depth + 1) hss (hd.sub ha1 hs) ?_
      have h1 := height_mem ha1
      have h2 := height_sub hs
      omega

theorem handleOrderless_eq {t : Tables} {depth : Nat} {l1 l2 : List Item}
    (h : OnlyReordered t depth l1 l2) (hd : Distinct l1) : handleOrderless t l1 l2 depth = l2 :=
  orderlessFuel_eq _ depth h hd (Nat.le_refl _)

/-! ## Nothing is lost -/

mutual
theorem SubShuffled.refl (t : Tables) : ∀ (l : List Item) (n : Nat), SubShuffled t n l l
  | [], _ => .nil
  | _ :: r, n => .same (SubShuffled.refl t r n)
end

theorem Shuffled.refl (t : Tables) (l : List Item) (n : Nat) : Shuffled t n l l :=
  .mk (.refl _) rfl (SubShuffled.refl t l n)

theorem orderKids_shuffled {t : Tables} {n : Nat} {rec : List Item → List Item → List Item} {l2 : List Item}
    : ∀ {m : List Item},
    (∀ a ∈ m, ∀ b ∈ l2, ∀ s s', a.sub = some s → b.sub = some s' → Shuffled t (n + 1) s (rec s s')) →
    SubShuffled t n m (orderKids rec l2 m)
  | [], _ => .nil
  | .mk k s i :: m, h => by
    unfold orderKids
    have ih := orderKids_shuffled (t := t) (n := n) (rec := rec) (l2 := l2) (m := m)
      (fun a ha => h a (List.mem_cons_of_mem _ ha))
    simp only
    cases hc : children (.mk k s i) with
    | none => exact .same ih
    | some c1 =>
      cases hm : lastWith k m with
      | some x => exact .same ih
      | none =>
        cases hl : lastWith k l2 with
        | none => exact .same ih
        | some c2 =>
          obtain ⟨b, hb, _, hb2⟩ := lastWith_mem hl
          have hs : s = some c1 := by
            cases s with
            | none => simp [children, Item.sub] at hc
            | some l =>
              cases l with
              | nil => simp [children, Item.sub] at hc
              | cons x y => simpa [children, Item.sub] using hc
          subst hs
          exact .sub (h _ List.mem_cons_self b hb c1 c2 rfl hb2) ih

theorem orderlessFuel_shuffled {t : Tables} : ∀ (fuel depth : Nat) {l1 l2 : List Item},
    Distinct l1 → Distinct l2 → Shuffled t depth l1 (orderlessFuel t fuel depth l1 l2)
  | 0, depth, l1, _, _, _ => Shuffled.refl t l1 depth
  | fuel + 1, depth, l1, l2, h1, h2 => by
    obtain ⟨hp, hf⟩ := orderTop_perm (t := t) (depth := depth) h1.nodup h2.nodup
    unfold orderlessFuel
    refine .mk hp ?_ (orderKids_shuffled ?_)
    · have hM : ∀ i : Item, (!t.orderless i.key depth) = true →
          (!(topEnv t l1 l2 depth).isMatch i.key) = true := by
        intro i hi
        simp only [Bool.not_eq_true'] at hi
        simp [topEnv, hi]
      have e : ∀ l : List Item, l.filter (fun i => !t.orderless i.key depth) =
          (l.filter (fun i => !(topEnv t l1 l2 depth).isMatch i.key)).filter
            (fun i => !t.orderless i.key depth) := by
        intro l
        rw [List.filter_filter]
        apply List.filter_congr
        intro i _
        by_cases hi : (!t.orderless i.key depth) = true
        · rw [hM i hi, hi]; rfl
        · simp only [Bool.not_eq_true] at hi; rw [hi]; rfl
      rw [e, hf, ← e]
    · intro a ha b hb s s' hs hs'
      exact orderlessFuel_shuffled fuel (depth + 1) (h1.sub (hp.mem_iff.1 ha) hs) (h2.sub hb hs')

end NcDiff.Running
