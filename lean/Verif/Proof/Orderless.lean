import Verif.Proof.ListDiff
import Mathlib.Data.List.Perm.Basic
import Mathlib.Data.List.Infix
/-!
# `handle_orderless` permutes the first list
-/

namespace NcDiff.Running

theorem insertAll_eq {α} : ∀ (xs l : List α) (i : Nat), insertAll l i xs = l.take i ++ xs ++ l.drop i
  | [], l, i => by simp [insertAll]
  | x :: xs, l, i => by
    rw [insertAll, insertAll_eq xs]
    unfold insertAt
    by_cases h : i ≤ l.length
    · have h1 : (l.take i ++ x :: l.drop i).take (i + 1) = l.take i ++ [x] := by
        rw [List.take_append, List.length_take, Nat.min_eq_left h]
        have : i + 1 - i = 1 := by omega
        rw [this, List.take_take]; simp
      have h2 : (l.take i ++ x :: l.drop i).drop (i + 1) = l.drop i := by
        rw [List.drop_append, List.length_take, Nat.min_eq_left h]
        have : i + 1 - i = 1 := by omega
        rw [this, List.drop_of_length_le (by rw [List.length_take]; omega)]; simp
      rw [h1, h2]; simp
    · have h3 : l.take i = l := List.take_of_length_le (by omega)
      have h4 : l.drop i = [] := List.drop_of_length_le (by omega)
      rw [h3, h4]
      have h5 : (l ++ [x]).take (i + 1) = l ++ [x] := List.take_of_length_le (by simp; omega)
      have h6 : (l ++ [x]).drop (i + 1) = [] := List.drop_of_length_le (by simp; omega)
      rw [h5, h6]; simp

theorem insertAt_eq {α} (l : List α) (i : Nat) (x : α) : insertAt l i x = insertAll l i [x] := rfl

theorem mem_slice {l : List Str} (hn : l.Nodup) {a : Nat} {b : Option Nat} {x : Str} :
    x ∈ slice l a b ↔ x ∈ l ∧ a ≤ l.idxOf x ∧ ∀ b' ∈ b, l.idxOf x < b' := by
  have key : ∀ n, x ∈ l.drop n ↔ x ∈ l ∧ n ≤ l.idxOf x := by
    intro n
    constructor
    · intro h
      refine ⟨List.mem_of_mem_drop h, ?_⟩
      obtain ⟨i, hi⟩ := List.mem_iff_getElem?.1 h
      rw [List.getElem?_drop] at hi
      obtain ⟨hlt, he⟩ := List.getElem?_eq_some_iff.1 hi
      rw [← he, hn.idxOf_getElem]; omega
    · rintro ⟨h, hle⟩
      have hlt := List.idxOf_lt_length_iff.2 h
      refine List.mem_iff_getElem?.2 ⟨l.idxOf x - n, ?_⟩
      rw [List.getElem?_drop, show n + (l.idxOf x - n) = l.idxOf x from by omega]
      rw [List.getElem?_eq_getElem hlt, List.getElem_idxOf]
  cases b with
  | none => simp [slice, key]
  | some b =>
    simp only [slice, Option.mem_def, Option.some.injEq, forall_eq']
    constructor
    · intro h
      obtain ⟨i, hi⟩ := List.mem_iff_getElem?.1 h
      rw [List.getElem?_drop] at hi
      obtain ⟨hlt, he⟩ := List.getElem?_eq_some_iff.1 hi
      rw [List.length_take] at hlt
      rw [List.getElem_take] at he
      have hx : l.idxOf x = a + i := by rw [← he, hn.idxOf_getElem]
      exact ⟨by rw [← he]; exact List.getElem_mem _, by omega, by omega⟩
    · rintro ⟨h, h1, h2⟩
      have hlt := List.idxOf_lt_length_iff.2 h
      refine List.mem_iff_getElem?.2 ⟨l.idxOf x - a, ?_⟩
      rw [List.getElem?_drop, show a + (l.idxOf x - a) = l.idxOf x from by omega]
      rw [List.getElem?_take_of_lt h2, List.getElem?_eq_getElem hlt, List.getElem_idxOf]

theorem slice_sublist {l : List α} {a : Nat} {b : Option Nat} : (slice l a b).Sublist l := by
  cases b with
  | none => exact List.drop_sublist _ _
  | some b => exact (List.drop_sublist _ _).trans (List.take_sublist _ _)

/-- What is known about the environment of the loop. -/
structure EnvOk (env : OrderEnv) : Prop where
  nodup1 : env.lines1.Nodup
  nodup2 : env.lines2.Nodup
  isMatch : ∀ s, env.isMatch s = true → s ∈ env.lines1 ∧ s ∈ env.lines2
  common1 : env.common.Sublist env.lines1
  common2 : env.common.Sublist env.lines2
  commonNot : ∀ c ∈ env.common, env.isMatch c = false
  removed : ∀ s, env.isMatch s = true → (env.removed s).key = s

/-- Order in a sublist is order of positions. -/
theorem idxOf_lt_of_sublist {c l : List Str} (h : c.Sublist l) (hn : l.Nodup) {a b : List Str}
    {x y : Str} (he : c = a ++ b) (hx : x ∈ a) (hy : y ∈ b) : l.idxOf x < l.idxOf y := by
  subst he
  have hp : l.Pairwise (fun u v => l.idxOf u < l.idxOf v) := by
    rw [List.pairwise_iff_getElem]
    intro i j hi hj hij
    rw [hn.idxOf_getElem, hn.idxOf_getElem]; exact hij
  have := hp.sublist h
  rw [List.pairwise_append] at this
  exact this.2.2 x hx y hy

/-- The position of the loop with respect to the anchors. -/
structure Window (env : OrderEnv) (p r : List Str) (st : OrderState) (cp cr : List Str) : Prop where
  common : env.common = cp ++ cr
  done : ∀ c ∈ cp, c ∈ p
  todo : ∀ c ∈ cr, c ∈ r
  anchor : st.lastAnchor = cp.getLast?.map (env.lines2.idxOf ·)
  lower : ∀ c ∈ cp.getLast?, env.lines2.idxOf c + 1 ≤ st.offset2
  upper : ∀ c ∈ cr.head?, st.offset2 ≤ env.lines2.idxOf c
  covered : ∀ x, env.isMatch x = true → (∀ c ∈ cp.getLast?, env.lines1.idxOf c ≤ env.lines1.idxOf x) →
    (∀ c ∈ cr.head?, env.lines1.idxOf x < env.lines1.idxOf c) →
    (∀ c ∈ cp.getLast?, env.lines2.idxOf c ≤ env.lines2.idxOf x) →
    env.lines2.idxOf x < st.offset2 → x ∈ st.inserted

theorem getLast?_mem {α} {l : List α} {x : α} (h : l.getLast? = some x) : x ∈ l :=
  List.mem_of_getLast? h

theorem head?_mem {α} {l : List α} {x : α} (h : l.head? = some x) : x ∈ l := List.mem_of_head? h

/-- `last_anchor_line`. -/
theorem Window.lastLine {env : OrderEnv} (he : EnvOk env) {p r st cp cr} (w : Window env p r st cp cr) :
    st.lastAnchor.map (fun i => env.lines2.getD i []) = cp.getLast? := by
  rw [w.anchor]
  cases hl : cp.getLast? with
  | none => rfl
  | some c =>
    have hc : c ∈ env.lines2 := he.common2.subset (by rw [w.common]; exact List.mem_append_left _ (getLast?_mem hl))
    simp only [Option.map_some, Option.some.injEq]
    rw [List.getD_eq_getElem?_getD, List.getElem?_eq_getElem (List.idxOf_lt_length_iff.2 hc), List.getElem_idxOf]
    rfl

/-- `next_anchor_line`. -/
theorem Window.nextLine {env : OrderEnv} (he : EnvOk env) {p r st cp cr} (w : Window env p r st cp cr) :
    nextAnchor env.common cp.getLast? = cr.head? := by
  unfold nextAnchor
  cases hl : cp.getLast? with
  | none =>
    rw [List.getLast?_eq_none_iff] at hl
    subst hl
    simp only [w.common, List.nil_append]
    rw [List.head?_eq_getElem?]
  | some c =>
    obtain ⟨cp', rfl⟩ := List.getLast?_eq_some_iff.1 hl
    have hn : env.common.Nodup := he.nodup2.sublist he.common2
    rw [w.common] at hn ⊢
    have hi : (cp' ++ [c] ++ cr).idxOf c = cp'.length := by
      have hlt : cp'.length < (cp' ++ [c] ++ cr).length := by simp
      have this : (cp' ++ [c] ++ cr)[cp'.length] = c := by simp
      have h2 := hn.idxOf_getElem cp'.length hlt
      rw [this] at h2; exact h2
    simp only [hi]
    rw [List.getElem?_append_right (by simp)]
    simp [List.head?_eq_getElem?]

/-- What is known about the state after the lines `p`. -/
structure OInv (env : OrderEnv) (rest : List Item) (p : List Str) (st : OrderState) : Prop where
  perm : st.list1.Perm (rest ++ st.inserted.map env.removed)
  keep : st.list1.filter (fun i => !env.isMatch i.key) = rest
  nodup : st.inserted.Nodup
  match_ : ∀ x ∈ st.inserted, env.isMatch x = true
  seen : ∀ x ∈ p, env.isMatch x = true → x ∈ st.inserted

/-- Inserting new matched lines keeps everything but `seen`. -/
theorem OInv.insert {env : OrderEnv} (he : EnvOk env) {rest p st} (h : OInv env rest p st) {new : List Str}
    (hn : new.Nodup) (hm : ∀ x ∈ new, env.isMatch x = true) (hd : ∀ x ∈ new, x ∉ st.inserted)
    (o1 o2 la) : OInv env rest p
      ⟨insertAll st.list1 st.offset1 (new.map env.removed), o1, o2, st.inserted ++ new, la⟩ where
  perm := by
    show (insertAll _ _ _).Perm _
    rw [insertAll_eq, List.map_append, ← List.append_assoc, List.append_assoc]
    refine (List.perm_append_comm_assoc _ _ _).trans ?_
    rw [List.take_append_drop]
    refine List.perm_append_comm.trans ?_
    exact List.Perm.append_right _ h.perm
  keep := by
    show (insertAll _ _ _).filter _ = _
    rw [insertAll_eq, List.filter_append, List.filter_append]
    have : (new.map env.removed).filter (fun i => !env.isMatch i.key) = [] := by
      rw [List.filter_eq_nil_iff]
      intro a ha
      obtain ⟨x, hx, rfl⟩ := List.mem_map.1 ha
      rw [he.removed x (hm x hx), hm x hx]; simp
    rw [this, List.append_nil, ← List.filter_append, List.take_append_drop, h.keep]
  nodup := by
    show (st.inserted ++ new).Nodup
    rw [List.nodup_append]
    refine ⟨h.nodup, hn, ?_⟩
    intro a ha b hb hab
    subst hab
    exact hd a hb ha
  match_ := by
    intro x hx
    rcases List.mem_append.1 hx with hx | hx
    · exact h.match_ x hx
    · exact hm x hx
  seen := fun x hx hxm => List.mem_append_left _ (h.seen x hx hxm)

theorem orderStep_inv {env : OrderEnv} (he : EnvOk env) {rest : List Item} {p r : List Str} {x : Str}
    (hl : env.lines1 = p ++ x :: r) {st : OrderState} {cp cr : List Str}
    (w : Window env p (x :: r) st cp cr) (h : OInv env rest p st) :
    ∃ cp' cr', Window env (p ++ [x]) r (orderStep env st x) cp' cr' ∧
      OInv env rest (p ++ [x]) (orderStep env st x) := by
  have hn1 := he.nodup1
  have hx1 : env.lines1.idxOf x = p.length := by
    have hlt : p.length < env.lines1.length := by rw [hl]; simp
    have : env.lines1[p.length] = x := by simp [hl]
    rw [← this, hn1.idxOf_getElem]
  have hxl1 : x ∈ env.lines1 := by rw [hl]; simp
  have hxr : x ∉ r := by
    rw [hl] at hn1
    have := (List.nodup_append.1 hn1).2.1
    exact (List.nodup_cons.1 this).1
  have hxp : x ∉ p := by
    rw [hl] at hn1
    exact fun hxp => (List.nodup_append.1 hn1).2.2 x hxp x (by simp) rfl
  -- positions in `lines1` of the anchors around `x`
  have hlast : ∀ c ∈ cp.getLast?, env.lines1.idxOf c < p.length := by
    intro c hc
    have hcp := w.done c (getLast?_mem hc)
    rw [hl, List.idxOf_append_of_mem hcp]
    exact List.idxOf_lt_length_iff.2 hcp
  unfold orderStep
  by_cases hm : env.isMatch x = true
  · rw [if_pos hm]
    have hxc : x ∉ env.common := fun hc => by rw [he.commonNot x hc] at hm; cases hm
    have hcr : ∀ c ∈ cr, c ∈ r := by
      intro c hc
      rcases List.mem_cons.1 (w.todo c hc) with rfl | h'
      · exact absurd (by rw [w.common]; exact List.mem_append_right _ hc) hxc
      · exact h'
    have hnext : ∀ c ∈ cr.head?, env.lines1.idxOf x < env.lines1.idxOf c := by
      intro c hc
      have hcr' := hcr c (head?_mem hc)
      rw [hx1]
      have hcp : c ∉ p := by
        intro hcp
        rw [hl] at hn1
        exact (List.nodup_append.1 hn1).2.2 c hcp c (by simp [hcr']) rfl
      have hcx : c ≠ x := fun e => hxr (e ▸ hcr')
      rw [hl, List.idxOf_append_of_notMem hcp, List.idxOf_cons_ne _ (Ne.symm hcx)]
      omega
    have wd : ∀ st' : OrderState, st'.lastAnchor = st.lastAnchor → st'.offset2 = st.offset2 →
        (∀ y ∈ st.inserted, y ∈ st'.inserted) → Window env (p ++ [x]) r st' cp cr := by
      intro st' h1 h2 h3
      refine ⟨w.common, fun c hc => List.mem_append_left _ (w.done c hc), hcr, by rw [h1]; exact w.anchor,
        by rw [h2]; exact w.lower, by rw [h2]; exact w.upper, ?_⟩
      intro y ym y1 y2 y3 y4
      rw [h2] at y4
      exact h3 y (w.covered y ym y1 y2 y3 y4)
    by_cases hin : x ∈ st.inserted
    · rw [if_pos hin]
      refine ⟨cp, cr, wd st rfl rfl (fun _ h => h), ?_⟩
      refine ⟨h.perm, h.keep, h.nodup, h.match_, ?_⟩
      intro y hy hym
      rcases List.mem_append.1 hy with hy | hy
      · exact h.seen y hy hym
      · rw [List.mem_singleton] at hy; subst hy; exact hin
    · rw [if_neg hin]
      simp only [w.lastLine he, w.nextLine he]
      -- `x` is in the window of the first list
      have hw1 : ∀ y, env.isMatch y = true → (y ∈ slice env.lines1
          ((cp.getLast?.map (env.lines1.idxOf ·)).getD 0) (cr.head?.map (env.lines1.idxOf ·)) ↔
          (∀ c ∈ cp.getLast?, env.lines1.idxOf c ≤ env.lines1.idxOf y) ∧
          (∀ c ∈ cr.head?, env.lines1.idxOf y < env.lines1.idxOf c)) := by
        intro y hy
        rw [mem_slice he.nodup1]
        constructor
        · rintro ⟨_, h2, h3⟩
          refine ⟨?_, ?_⟩
          · intro c hc; rw [hc] at h2; simpa using h2
          · intro c hc; exact h3 _ (by rw [hc]; rfl)
        · rintro ⟨h2, h3⟩
          refine ⟨(he.isMatch y hy).1, ?_, ?_⟩
          · cases hc : cp.getLast? with
            | none => simp
            | some c => simpa using h2 c hc
          · intro b hb
            cases hc : cr.head? with
            | none => rw [hc] at hb; cases hb
            | some c => rw [hc] at hb; cases hb; exact h3 c hc
      have hx2 := (he.isMatch x hm).2
      split
      · rename_i hsl
        rw [mem_slice he.nodup2] at hsl
        obtain ⟨_, hlo, hup⟩ := hsl
        rw [w.anchor] at hlo
        have hlo' : ∀ c ∈ cp.getLast?, env.lines2.idxOf c ≤ env.lines2.idxOf x := by
          intro c hc; rw [hc] at hlo; simpa using hlo
        have hup' : ∀ c ∈ cr.head?, env.lines2.idxOf x < env.lines2.idxOf c := by
          intro c hc; exact hup _ (by rw [hc]; rfl)
        have hoff : st.offset2 ≤ env.lines2.idxOf x := by
          by_contra hlt
          exact hin (w.covered x hm (fun c hc => by rw [hx1]; exact Nat.le_of_lt (hlast c hc)) hnext hlo' (by omega))
        generalize hnew : (slice env.lines2 st.offset2 (some (env.lines2.idxOf x + 1))).filter _ = new
        have hmem : ∀ y, y ∈ new ↔ (y ∈ env.lines2 ∧ st.offset2 ≤ env.lines2.idxOf y ∧
            env.lines2.idxOf y < env.lines2.idxOf x + 1) ∧ env.isMatch y = true ∧
            ((∀ c ∈ cp.getLast?, env.lines1.idxOf c ≤ env.lines1.idxOf y) ∧
             (∀ c ∈ cr.head?, env.lines1.idxOf y < env.lines1.idxOf c)) ∧ y ∉ st.inserted := by
          intro y
          rw [← hnew, List.mem_filter, mem_slice he.nodup2]
          simp only [Option.mem_def, Option.some.injEq, forall_eq', Bool.and_eq_true, decide_eq_true_eq]
          constructor
          · rintro ⟨h1, ⟨h2, h3⟩, h4⟩
            exact ⟨h1, h2, (hw1 y h2).1 h3, h4⟩
          · rintro ⟨h1, h2, h3, h4⟩
            exact ⟨h1, ⟨h2, (hw1 y h2).2 h3⟩, h4⟩
        have hxnew : x ∈ new := (hmem x).2 ⟨⟨hx2, hoff, by omega⟩, hm,
          ⟨fun c hc => by rw [hx1]; exact Nat.le_of_lt (hlast c hc), hnext⟩, hin⟩
        have hnd : new.Nodup := by
          rw [← hnew]
          exact (he.nodup2.sublist slice_sublist).filter _
        refine ⟨cp, cr, ?_, ?_⟩
        · refine ⟨w.common, fun c hc => List.mem_append_left _ (w.done c hc), hcr, w.anchor, ?_, ?_, ?_⟩
          · intro c hc
            have := hlo' c hc
            simp only; omega
          · intro c hc
            exact hup' c hc
          · intro y ym y1 y2 y3 y4
            simp only at y4 ⊢
            by_cases hyi : y ∈ st.inserted
            · exact List.mem_append_left _ hyi
            · by_cases hyo : env.lines2.idxOf y < st.offset2
              · exact List.mem_append_left _ (w.covered y ym y1 y2 y3 hyo)
              · exact List.mem_append_right _ ((hmem y).2 ⟨⟨(he.isMatch y ym).2, by omega, y4⟩, ym, ⟨y1, y2⟩, hyi⟩)
        · have := h.insert he hnd (fun y hy => ((hmem y).1 hy).2.1) (fun y hy => ((hmem y).1 hy).2.2.2)
            (st.offset1 + new.length) (env.lines2.idxOf x + 1) st.lastAnchor
          refine ⟨this.perm, this.keep, this.nodup, this.match_, ?_⟩
          intro y hy hym
          rcases List.mem_append.1 hy with hy | hy
          · exact this.seen y hy hym
          · rw [List.mem_singleton] at hy; subst hy; exact List.mem_append_right _ hxnew
      · have := h.insert he (new := [x]) (by simp) (by simpa using hm) (by simpa using hin)
          (st.offset1 + 1) st.offset2 st.lastAnchor
        rw [insertAt_eq]
        refine ⟨cp, cr, wd _ rfl rfl (fun y hy => List.mem_append_left _ hy), this.perm, this.keep,
          this.nodup, this.match_, ?_⟩
        intro y hy hym
        rcases List.mem_append.1 hy with hy | hy
        · exact this.seen y hy hym
        · rw [List.mem_singleton] at hy; subst hy; exact List.mem_append_right _ (by simp)
  · rw [if_neg hm]
    have hseen : ∀ (l : List Str), (∀ y ∈ p, env.isMatch y = true → y ∈ l) →
        ∀ y ∈ p ++ [x], env.isMatch y = true → y ∈ l := by
      intro l hl' y hy hym
      rcases List.mem_append.1 hy with hy | hy
      · exact hl' y hy hym
      · rw [List.mem_singleton] at hy; subst hy; exact absurd hym hm
    by_cases hc : x ∈ env.common
    · rw [if_pos hc]
      dsimp only
      -- `x` is the next anchor
      have hxcp : x ∉ cp := fun h' => hxp (w.done x h')
      have hxcr : x ∈ cr := by
        rw [w.common] at hc
        exact (List.mem_append.1 hc).resolve_left hxcp
      obtain ⟨cr', rfl⟩ : ∃ cr', cr = x :: cr' := by
        cases cr with
        | nil => simp at hxcr
        | cons c cr' =>
          by_cases hcx : c = x
          · exact ⟨cr', by rw [hcx]⟩
          · exfalso
            have hxcr' : x ∈ cr' := by
              rcases List.mem_cons.1 hxcr with e | h'
              · exact absurd e.symm hcx
              · exact h'
            have h1 : env.lines1.idxOf c < env.lines1.idxOf x :=
              idxOf_lt_of_sublist he.common1 he.nodup1 (a := cp ++ [c]) (b := cr') (by rw [w.common]; simp)
                (by simp) hxcr'
            have h2 : c ∈ r := by
              rcases List.mem_cons.1 (w.todo c (by simp)) with e | h'
              · exact absurd e hcx
              · exact h'
            have hcp : c ∉ p := by
              intro hcp
              rw [hl] at hn1
              exact (List.nodup_append.1 hn1).2.2 c hcp c (by simp [h2]) rfl
            rw [hx1, hl, List.idxOf_append_of_notMem hcp] at h1
            omega
      have hup := w.upper x rfl
      generalize hnew : (if st.offset2 ≤ env.lines2.idxOf x then _ else [] : List Str) = new
      have hmem : ∀ y ∈ new, env.isMatch y = true ∧ y ∉ st.inserted := by
        intro y hy
        rw [← hnew, if_pos hup, List.mem_filter] at hy
        simp only [Bool.and_eq_true, decide_eq_true_eq] at hy
        exact ⟨hy.2.1.1, hy.2.2⟩
      have hnd : new.Nodup := by
        rw [← hnew, if_pos hup]
        exact (he.nodup2.sublist slice_sublist).filter _
      have hoff : (if st.offset2 < env.lines2.idxOf x + 1 then env.lines2.idxOf x + 1 else st.offset2) =
          env.lines2.idxOf x + 1 := if_pos (by omega)
      rw [hoff]
      have := h.insert he hnd (fun y hy => (hmem y hy).1) (fun y hy => (hmem y hy).2)
        (((insertAll st.list1 st.offset1 (new.map env.removed)).map Item.key).idxOf x + 1)
        (env.lines2.idxOf x + 1) (some (env.lines2.idxOf x))
      refine ⟨cp ++ [x], cr', ?_, this.perm, this.keep, this.nodup, this.match_, hseen _ this.seen⟩
      refine ⟨by rw [w.common]; simp, ?_, ?_, by simp, ?_, ?_, ?_⟩
      · intro c hc
        rcases List.mem_append.1 hc with hc | hc
        · exact List.mem_append_left _ (w.done c hc)
        · exact List.mem_append_right _ hc
      · intro c hcc
        rcases List.mem_cons.1 (w.todo c (by simp [hcc])) with rfl | h'
        · exfalso
          have hn : env.common.Nodup := he.nodup2.sublist he.common2
          rw [w.common] at hn
          exact (List.nodup_cons.1 (List.nodup_append.1 hn).2.1).1 hcc
        · exact h'
      · intro c hc
        simp only [List.getLast?_append, List.getLast?_singleton, Option.some_or, Option.mem_def,
          Option.some.injEq] at hc
        subst hc; exact Nat.le_refl _
      · intro c hc
        have := idxOf_lt_of_sublist he.common2 he.nodup2 (a := cp ++ [x]) (b := cr') (by rw [w.common]; simp)
          (x := x) (y := c) (by simp) (head?_mem hc)
        exact this
      · intro y ym y1 y2 y3 y4
        have h3 := y3 x (by simp)
        simp only at y4
        have heq : env.lines2.idxOf y = env.lines2.idxOf x := by omega
        have hx2 : x ∈ env.lines2 := he.common2.subset hc
        have : y = x := by
          have hy2 := (he.isMatch y ym).2
          have e1 := List.getElem_idxOf (List.idxOf_lt_length_iff.2 hy2)
          have e2 := List.getElem_idxOf (List.idxOf_lt_length_iff.2 hx2)
          rw [← e1, ← e2]; congr 1
        subst this; exact absurd ym hm
    · rw [if_neg hc]
      refine ⟨cp, cr, ⟨w.common, fun c hc => List.mem_append_left _ (w.done c hc), ?_, w.anchor, w.lower,
        w.upper, w.covered⟩, h.perm, h.keep, h.nodup, h.match_, hseen _ h.seen⟩
      intro c hcc
      rcases List.mem_cons.1 (w.todo c hcc) with rfl | h'
      · exact absurd (by rw [w.common]; exact List.mem_append_right _ hcc) hc
      · exact h'

theorem orderLoop_inv {env : OrderEnv} (he : EnvOk env) {rest : List Item} :
    ∀ (r p : List Str) (st : OrderState) (cp cr : List Str), env.lines1 = p ++ r →
      Window env p r st cp cr → OInv env rest p st →
      OInv env rest (p ++ r) (r.foldl (orderStep env) st)
  | [], p, st, _, _, _, _, h => by simpa using h
  | x :: r, p, st, cp, cr, hl, w, h => by
    obtain ⟨cp', cr', w', h'⟩ := orderStep_inv he hl w h
    have := orderLoop_inv he r (p ++ [x]) _ cp' cr' (by simp [hl]) w' h'
    simpa using this

/-- The environment of `orderTop`. -/
def topEnv (t : Tables) (l1 l2 : List Item) (depth : Nat) : OrderEnv :=
  let isMatch := fun s => t.orderless s depth && decide (s ∈ l1.map Item.key) && decide (s ∈ l2.map Item.key)
  { lines1 := l1.map Item.key, lines2 := l2.map Item.key, isMatch
    common := commonKeys ((l1.filter (fun i => !isMatch i.key)).map Item.key) (l2.map Item.key)
    removed := fun s => (l1.find? (fun i => i.key = s)).getD default }

theorem topEnv_ok {t : Tables} {l1 l2 : List Item} {depth : Nat} (h1 : (l1.map Item.key).Nodup)
    (h2 : (l2.map Item.key).Nodup) : EnvOk (topEnv t l1 l2 depth) where
  nodup1 := h1
  nodup2 := h2
  isMatch := by
    intro s hs
    simp only [topEnv, Bool.and_eq_true, decide_eq_true_eq] at hs
    exact ⟨hs.1.2, hs.2⟩
  common1 := (commonKeys_sublist _ _).1.trans (List.filter_sublist.map _)
  common2 := (commonKeys_sublist _ _).2
  commonNot := by
    intro c hc
    have := (commonKeys_sublist _ _).1.subset hc
    obtain ⟨i, hi, rfl⟩ := List.mem_map.1 this
    have h3 := (List.mem_filter.1 hi).2
    rw [Bool.not_eq_true'] at h3; exact h3
  removed := by
    intro s hs
    simp only [topEnv, Bool.and_eq_true, decide_eq_true_eq] at hs ⊢
    obtain ⟨i, hi, he⟩ := List.mem_map.1 hs.1.2
    cases hf : l1.find? (fun i => decide (i.key = s)) with
    | none =>
      have := List.find?_eq_none.1 hf i hi
      simp [he] at this
    | some j => simpa using List.find?_some hf

/-- The state after the loop of `orderTop`. -/
def topState (t : Tables) (l1 l2 : List Item) (depth : Nat) : OrderState :=
  (l1.map Item.key).foldl (orderStep (topEnv t l1 l2 depth))
    ⟨l1.filter (fun i => !(topEnv t l1 l2 depth).isMatch i.key), 0, 0, [], none⟩

theorem topState_inv {t : Tables} {l1 l2 : List Item} {depth : Nat} (h1 : (l1.map Item.key).Nodup)
    (h2 : (l2.map Item.key).Nodup) :
    OInv (topEnv t l1 l2 depth) (l1.filter (fun i => !(topEnv t l1 l2 depth).isMatch i.key))
      (l1.map Item.key) (topState t l1 l2 depth) := by
  have he := topEnv_ok (t := t) (depth := depth) h1 h2
  have := orderLoop_inv he (rest := l1.filter (fun i => !(topEnv t l1 l2 depth).isMatch i.key))
    (l1.map Item.key) []
    ⟨l1.filter (fun i => !(topEnv t l1 l2 depth).isMatch i.key), 0, 0, [], none⟩ []
    (topEnv t l1 l2 depth).common rfl
    ⟨rfl, by simp, fun c hc => he.common1.subset hc, rfl, by simp, by simp, by simp⟩
    ⟨by simp, by simp [List.filter_filter], by simp, by simp, by simp⟩
  exact this

theorem orderTop_eq {t : Tables} {l1 l2 : List Item} {depth : Nat} (h1 : (l1.map Item.key).Nodup)
    (h2 : (l2.map Item.key).Nodup) : orderTop t l1 l2 depth = (topState t l1 l2 depth).list1 := by
  have hi := topState_inv (t := t) (depth := depth) h1 h2
  have he := topEnv_ok (t := t) (depth := depth) h1 h2
  have hnil : ((l2.map Item.key).drop (topState t l1 l2 depth).offset2).filter
      (fun i => (topEnv t l1 l2 depth).isMatch i && decide (i ∉ (topState t l1 l2 depth).inserted)) = [] := by
    rw [List.filter_eq_nil_iff]
    intro a _ ha
    simp only [Bool.and_eq_true, decide_eq_true_eq] at ha
    exact ha.2 (hi.seen a (he.isMatch a ha.1).1 ha.1)
  show insertAll (topState t l1 l2 depth).list1 (topState t l1 l2 depth).offset1
    ((((l2.map Item.key).drop (topState t l1 l2 depth).offset2).filter
      (fun i => (topEnv t l1 l2 depth).isMatch i && decide (i ∉ (topState t l1 l2 depth).inserted))).map _) = _
  rw [hnil]; rfl

/-- The result of the top level is a permutation, and lines that are not orderless lines of both lists
keep their order. -/
theorem orderTop_perm {t : Tables} {l1 l2 : List Item} {depth : Nat} (h1 : (l1.map Item.key).Nodup)
    (h2 : (l2.map Item.key).Nodup) : (orderTop t l1 l2 depth).Perm l1 ∧
    (orderTop t l1 l2 depth).filter (fun i => !(topEnv t l1 l2 depth).isMatch i.key) =
      l1.filter (fun i => !(topEnv t l1 l2 depth).isMatch i.key) := by
  have hi := topState_inv (t := t) (depth := depth) h1 h2
  have he := topEnv_ok (t := t) (depth := depth) h1 h2
  rw [orderTop_eq h1 h2]
  refine ⟨hi.perm.trans ?_, hi.keep⟩
  have hins : ((topState t l1 l2 depth).inserted.map (topEnv t l1 l2 depth).removed).Perm
      (l1.filter (fun i => (topEnv t l1 l2 depth).isMatch i.key)) := by
    have hp : (topState t l1 l2 depth).inserted.Perm
        ((l1.map Item.key).filter (topEnv t l1 l2 depth).isMatch) := by
      rw [List.perm_ext_iff_of_nodup hi.nodup (h1.filter _)]
      intro a
      rw [List.mem_filter]
      constructor
      · intro ha
        exact ⟨(he.isMatch a (hi.match_ a ha)).1, hi.match_ a ha⟩
      · rintro ⟨ha, hm⟩
        exact hi.seen a ha hm
    refine (hp.map _).trans ?_
    rw [List.filter_map, List.map_map]
    refine List.Perm.of_eq ?_
    conv_rhs => rw [← List.map_id (l1.filter _)]
    apply List.map_congr_left
    intro i hi'
    have him := (List.mem_filter.1 hi').1
    simp only [topEnv, Function.comp, id]
    cases hf : l1.find? (fun j => decide (j.key = i.key)) with
    | none =>
      have := List.find?_eq_none.1 hf i him
      simp at this
    | some j =>
      have hjk : j.key = i.key := by simpa using List.find?_some hf
      exact List.inj_on_of_nodup_map h1 (List.mem_of_find?_eq_some hf) him hjk
  refine (List.Perm.append_left _ hins).trans ?_
  refine (List.perm_append_comm).trans ?_
  have := List.filter_append_perm (fun i => (topEnv t l1 l2 depth).isMatch i.key) l1
  simpa using this

end NcDiff.Running
