import Verif.Model.NodeAdd
import Mathlib.Data.List.Basic
/-!
# Facts about the insertion primitives of `node_add`
-/

namespace NcDiff

/-- `st'` is `st` with `c` inserted somewhere. -/
def Ins (c : Cell) (st st' : List Cell) : Prop := ∃ l r, st = l ++ r ∧ st' = l ++ c :: r

theorem insertBefore_some {p : Cell → Bool} {c : Cell} : ∀ {st st' : List Cell},
    insertBefore p c st = some st' →
    ∃ l x r, st = l ++ x :: r ∧ (∀ y ∈ l, p y = false) ∧ p x = true ∧ st' = l ++ c :: x :: r
  | [], _, h => by simp [insertBefore] at h
  | a :: r, st', h => by
    unfold insertBefore at h
    by_cases hp : p a = true
    · simp only [hp, if_true, Option.some.injEq] at h
      exact ⟨[], a, r, rfl, by simp, hp, h.symm⟩
    · simp only [hp, Bool.false_eq_true, if_false, Option.map_eq_some_iff] at h
      obtain ⟨t, ht, rfl⟩ := h
      obtain ⟨l, x, r', h1, h2, h3, h4⟩ := insertBefore_some ht
      exact ⟨a :: l, x, r', by simp [h1], by simpa [hp] using h2, h3, by simp [h4]⟩

theorem insertBefore_none {p : Cell → Bool} {c : Cell} : ∀ {st : List Cell},
    insertBefore p c st = none ↔ ∀ y ∈ st, p y = false
  | [] => by simp [insertBefore]
  | a :: r => by
    unfold insertBefore
    by_cases hp : p a = true
    · simp [hp]
    · simp [hp, insertBefore_none (st := r)]

theorem insertAfter_some {p : Cell → Bool} {c : Cell} : ∀ {st st' : List Cell},
    insertAfter p c st = some st' →
    ∃ l x r, st = l ++ x :: r ∧ (∀ y ∈ l, p y = false) ∧ p x = true ∧ st' = l ++ x :: c :: r
  | [], _, h => by simp [insertAfter] at h
  | a :: r, st', h => by
    unfold insertAfter at h
    by_cases hp : p a = true
    · simp only [hp, if_true, Option.some.injEq] at h
      exact ⟨[], a, r, rfl, by simp, hp, h.symm⟩
    · simp only [hp, Bool.false_eq_true, if_false, Option.map_eq_some_iff] at h
      obtain ⟨t, ht, rfl⟩ := h
      obtain ⟨l, x, r', h1, h2, h3, h4⟩ := insertAfter_some ht
      exact ⟨a :: l, x, r', by simp [h1], by simpa [hp] using h2, h3, by simp [h4]⟩

theorem insertAfter_none {p : Cell → Bool} {c : Cell} : ∀ {st : List Cell},
    insertAfter p c st = none ↔ ∀ y ∈ st, p y = false
  | [] => by simp [insertAfter]
  | a :: r => by
    unfold insertAfter
    by_cases hp : p a = true
    · simp [hp]
    · simp [hp, insertAfter_none (st := r)]

theorem insertAfterLast_none {p : Cell → Bool} {c : Cell} : ∀ {st : List Cell},
    insertAfterLast p c st = none ↔ ∀ y ∈ st, p y = false
  | [] => by simp [insertAfterLast]
  | a :: r => by
    unfold insertAfterLast
    cases h : insertAfterLast p c r with
    | none =>
      have := (insertAfterLast_none (p := p) (c := c) (st := r)).1 h
      by_cases hp : p a = true
      · simp [hp]
      · simpa [hp] using this
    | some r' =>
      have : ¬ ∀ y ∈ r, p y = false := fun hh => by
        rw [insertAfterLast_none.2 hh] at h; cases h
      constructor
      · intro h; cases h
      · intro hh; exact absurd (fun y hy => hh y (by simp [hy])) this

theorem insertAfterLast_some {p : Cell → Bool} {c : Cell} : ∀ {st st' : List Cell},
    insertAfterLast p c st = some st' →
    ∃ l x r, st = l ++ x :: r ∧ (∀ y ∈ r, p y = false) ∧ p x = true ∧ st' = l ++ x :: c :: r
  | [], _, h => by simp [insertAfterLast] at h
  | a :: r, st', h => by
    unfold insertAfterLast at h
    cases hr : insertAfterLast p c r with
    | some t =>
      simp only [hr, Option.some.injEq] at h
      obtain ⟨l, x, r', h1, h2, h3, h4⟩ := insertAfterLast_some hr
      exact ⟨a :: l, x, r', by simp [h1], h2, h3, by rw [← h, h4]; simp⟩
    | none =>
      simp only [hr] at h
      by_cases hp : p a = true
      · simp only [hp, if_true, Option.some.injEq] at h
        exact ⟨[], a, r, rfl, insertAfterLast_none.1 hr, hp, h.symm⟩
      · simp [hp] at h

theorem Ins.mem {c : Cell} {st st' : List Cell} (h : Ins c st st') {x : Cell} :
    x ∈ st' ↔ x = c ∨ x ∈ st := by
  obtain ⟨l, r, rfl, rfl⟩ := h
  simp only [List.mem_append, List.mem_cons]; tauto

theorem Ins.append (c : Cell) (st : List Cell) : Ins c st (st ++ [c]) := ⟨st, [], by simp, by simp⟩

theorem Ins.filter_neg {c : Cell} {st st' : List Cell} (h : Ins c st st') {p : Cell → Bool}
    (hp : p c = false) : st'.filter p = st.filter p := by
  obtain ⟨l, r, rfl, rfl⟩ := h
  simp [hp]

theorem ins_insertBefore {p : Cell → Bool} {c : Cell} {st st' : List Cell}
    (h : insertBefore p c st = some st') : Ins c st st' := by
  obtain ⟨l, x, r, rfl, _, _, rfl⟩ := insertBefore_some h
  exact ⟨l, x :: r, rfl, rfl⟩

theorem ins_insertAfter {p : Cell → Bool} {c : Cell} {st st' : List Cell}
    (h : insertAfter p c st = some st') : Ins c st st' := by
  obtain ⟨l, x, r, rfl, _, _, rfl⟩ := insertAfter_some h
  exact ⟨l ++ [x], r, by simp, by simp⟩

theorem ins_insertAfterLast {p : Cell → Bool} {c : Cell} {st st' : List Cell}
    (h : insertAfterLast p c st = some st') : Ins c st st' := by
  obtain ⟨l, x, r, rfl, _, _, rfl⟩ := insertAfterLast_some h
  exact ⟨l ++ [x], r, by simp, by simp⟩

theorem ins_putFirst (tag : QName) (c : Cell) (st : List Cell) : Ins c st (putFirst tag c st) := by
  unfold putFirst
  cases h : insertBefore (hasTag tag) c st with
  | none => exact Ins.append c st
  | some s => exact ins_insertBefore h

theorem ins_putLast (tag : QName) (c : Cell) (st : List Cell) : Ins c st (putLast tag c st) := by
  unfold putLast
  cases h : insertAfterLast (hasTag tag) c st with
  | none => exact Ins.append c st
  | some s => exact ins_insertAfterLast h

theorem orWrong_ok {α : Type} {r : Option α} {x : α} (h : orWrong r = .ok x) : r = some x := by
  cases r <;> simp [orWrong] at h; rw [h]

theorem placeNew_ins {sn : SNode} {anchor : Except Err (Cell → Bool)} {o : Elem} {c : Cell}
    {st st' : List Cell} (h : placeNew sn anchor o c st = .ok st') : st' = st ∨ Ins c st st' := by
  unfold placeNew at h
  split at h
  · cases h; exact Or.inr (ins_putLast ..)
  · split at h
    · cases h; exact Or.inr (ins_putFirst ..)
    split at h
    · cases h; exact Or.inr (ins_putLast ..)
    split at h
    · cases ha : anchor with
      | error e => simp [ha, bind, Except.bind] at h
      | ok p =>
        simp only [ha, bind, Except.bind] at h
        exact Or.inr (ins_insertBefore (orWrong_ok h))
    split at h
    · cases ha : anchor with
      | error e => simp [ha, bind, Except.bind] at h
      | ok p =>
        simp only [ha, bind, Except.bind] at h
        exact Or.inr (ins_insertAfter (orWrong_ok h))
    · cases h; exact Or.inl rfl

theorem moveCell_ins {ins : (Cell → Bool) → Cell → List Cell → Option (List Cell)}
    (hins : ∀ p c st st', ins p c st = some st' → Ins c st st')
    {p : Cell → Bool} {h : Nat} {e : Elem} {st st' : List Cell}
    (hm : moveCell ins p h e st = .ok st') : st' = st ∨ Ins (some h, e) (removeCell h st) st' := by
  unfold moveCell at hm
  split at hm
  · cases hm
  · split at hm
    · cases hm; exact Or.inl rfl
    · exact Or.inr (hins _ _ _ _ (orWrong_ok hm))

theorem placeOld_ins {sn : SNode} {anchor : Except Err (Cell → Bool)} {o : Elem} {h : Nat} {e : Elem}
    {st st' : List Cell} (hp : placeOld sn anchor o h e st = .ok st') :
    st' = st ∨ Ins (some h, e) (removeCell h st) st' := by
  unfold placeOld at hp
  split at hp
  · cases hp; exact Or.inl rfl
  · split at hp
    · split at hp
      · cases hp
      · split at hp
        · cases hp; exact Or.inl rfl
        · cases hp; exact Or.inr (ins_putFirst ..)
    split at hp
    · split at hp
      · cases hp
      · split at hp
        · cases hp; exact Or.inl rfl
        · cases hp; exact Or.inr (ins_putLast ..)
    split at hp
    · cases ha : anchor with
      | error e => simp [ha, bind, Except.bind] at hp
      | ok p =>
        simp only [ha, bind, Except.bind] at hp
        exact moveCell_ins (fun _ _ _ _ => ins_insertBefore) hp
    split at hp
    · cases ha : anchor with
      | error e => simp [ha, bind, Except.bind] at hp
      | ok p =>
        simp only [ha, bind, Except.bind] at hp
        exact moveCell_ins (fun _ _ _ _ => ins_insertAfter) hp
    · cases hp; exact Or.inl rfl

/-- An invariant of a loop that may raise. -/
theorem foldlM_inv {σ α : Type} {f : σ → α → Except Err σ} {P : σ → Prop} : ∀ {l : List α} {s s' : σ},
    (∀ a ∈ l, ∀ s s', P s → f s a = .ok s' → P s') → P s → l.foldlM f s = .ok s' → P s'
  | [], s, s', _, hP, h => by
    simp only [List.foldlM_nil, pure, Except.pure] at h; cases h; exact hP
  | a :: l, s, s', hstep, hP, h => by
    rw [List.foldlM_cons] at h
    cases hf : f s a with
    | error e => simp [hf, bind, Except.bind] at h
    | ok t =>
      simp only [hf, bind, Except.bind] at h
      exact foldlM_inv (fun b hb => hstep b (by simp [hb])) (hstep a (by simp) s t hP hf) h

end NcDiff
