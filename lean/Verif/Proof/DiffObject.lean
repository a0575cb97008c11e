import Verif.Spec.DiffObject
import Verif.Proof.Printed
/-!
# A running-config diff as an object: proofs
-/

namespace NcDiff.Running

/-! ## Histories -/

theorem listOrNone_eq (l : List Item) : listOrNone l = if l = [] then none else some l := by
  cases l <;> simp [listOrNone]

/-- The two lists of two texts. -/
structure Lists (t : Tables) (s1 s2 : Str) (a b : List Item) : Prop where
  forward : getDiff t s1 s2 false = some a
  backward : getDiff t s1 s2 true = some b

theorem lists_exist (t : Tables) (s1 s2 : Str) : ∃ a b, Lists t s1 s2 a b := by
  obtain ⟨a, ha, _⟩ := compare_faithful (handleSibling t (running2list t s1 s2).1) (handleSibling t (running2list t s1 s2).2)
  obtain ⟨b, hb, _⟩ := compare_faithful (handleSibling t (running2list t s1 s2).2) (handleSibling t (running2list t s1 s2).1)
  exact ⟨a, b, by simpa [getDiff] using ha, by simpa [getDiff] using hb⟩

theorem Lists.compare {t : Tables} {s1 s2 : Str} {a b : List Item} (h : Lists t s1 s2 a b) :
    Running.compare (handleSibling t (running2list t s1 s2).1) (handleSibling t (running2list t s1 s2).2) = some a ∧
    Running.compare (handleSibling t (running2list t s1 s2).2) (handleSibling t (running2list t s1 s2).1) = some b :=
  ⟨by simpa [getDiff] using h.forward, by simpa [getDiff] using h.backward⟩

theorem getDiff_new {t : Tables} {s1 s2 : Str} {a b : List Item} (h : Lists t s1 s2 a b) (reverse : Bool) :
    DiffObj.getDiff t ⟨s1, s2, none⟩ reverse = some (⟨s1, s2, some (a, b)⟩, listOrNone (if reverse then b else a)) := by
  unfold DiffObj.getDiff
  simp only [h.compare.1, h.compare.2]
  rfl

theorem commandText_eq (t : Tables) (l : List Item) : commandText t (listOrNone l) = if l = [] then [] else
      let r := list2cli t l
      if r.1 ≠ [] then if r.2 ≠ [] then r.2 ++ "\n!\n".toList ++ r.1 else r.1 else r.2 := by
  rw [listOrNone_eq]
  split <;> rfl

/-- What is kept gives the answer for the texts it was made from. -/
theorem look_answer {t : Tables} {s1 s2 : Str} {a b : List Item} (h : Lists t s1 s2 a b) {o o' : DiffObj}
    (ho : ∀ r, o.getDiff t r = some (o', listOrNone (if r then b else a))) (l : Look) :
    ∃ v, o.look t l = some (o', v) ∧ answerFor t s1 s2 l = some v := by
  have hs : ∀ {x : List Item}, (listOrNone x).elim ([] : Str) (list2config (some .ctx)) = list2config (some .ctx) x := by
    intro x
    cases x <;> simp [listOrNone, list2config]
  have hb : ∀ {x : List Item}, (listOrNone x).isSome = !x.isEmpty := by
    intro x
    cases x <;> simp [listOrNone]
  cases l
  · exact ⟨_, by simp only [DiffObj.look, ho]; rfl, by simp only [answerFor, h.forward, Option.map_some, listOrNone_eq]; rfl⟩
  · exact ⟨_, by simp only [DiffObj.look, ho]; rfl, by simp only [answerFor, h.backward, Option.map_some, listOrNone_eq]; rfl⟩
  · exact ⟨_, by simp only [DiffObj.look, ho]; rfl, by simp only [answerFor, getCli, h.forward, Option.map_some, commandText_eq]; rfl⟩
  · exact ⟨_, by simp only [DiffObj.look, ho]; rfl, by simp only [answerFor, getCli, h.backward, Option.map_some, commandText_eq]; rfl⟩
  · exact ⟨_, by simp only [DiffObj.look, ho]; rfl, by simp only [answerFor, diffStr, h.forward, Option.map_some]; rw [← hs]; rfl⟩
  · exact ⟨_, by simp only [DiffObj.look, ho]; rfl, by simp only [answerFor, diffBool, h.forward, Option.map_some]; rw [← hb]; rfl⟩

/-- After the first look. -/
theorem run_kept {t : Tables} {s1 s2 : Str} {a b : List Item} (h : Lists t s1 s2 a b) : ∀ (us : List Use) (x1 x2 : Str),
    ∃ vs, DiffObj.run t ⟨x1, x2, some (a, b)⟩ us = some vs ∧ vs.map some = (looks us).map (answerFor t s1 s2)
  | [], _, _ => ⟨[], rfl, rfl⟩
  | .assign1 s :: r, _, x2 => run_kept h r s x2
  | .assign2 s :: r, x1, _ => run_kept h r x1 s
  | .look l :: r, x1, x2 => by
    obtain ⟨v, e1, e2⟩ := look_answer (o := ⟨x1, x2, some (a, b)⟩) h (fun _ => rfl) l
    obtain ⟨vs, f1, f2⟩ := run_kept h r x1 x2
    refine ⟨v :: vs, ?_, ?_⟩
    · rw [DiffObj.run, e1]
      simp only [f1, Option.map_some]
    · rw [List.map_cons, f2]
      show _ = answerFor t s1 s2 l :: _
      rw [e2]
      rfl

theorem run_new (t : Tables) : ∀ (us : List Use) (s1 s2 : Str), ∃ vs, DiffObj.run t (.new s1 s2) us = some vs ∧
    vs.map some = (looks us).map (answerFor t (textsAtFirstLook s1 s2 us).1 (textsAtFirstLook s1 s2 us).2)
  | [], _, _ => ⟨[], rfl, rfl⟩
  | .assign1 s :: r, _, s2 => run_new t r s s2
  | .assign2 s :: r, s1, _ => run_new t r s1 s
  | .look l :: r, s1, s2 => by
    obtain ⟨a, b, h⟩ := lists_exist t s1 s2
    obtain ⟨v, e1, e2⟩ := look_answer (o := .new s1 s2) h (getDiff_new h) l
    obtain ⟨vs, f1, f2⟩ := run_kept h r s1 s2
    refine ⟨v :: vs, ?_, ?_⟩
    · rw [DiffObj.run, e1]
      simp only [f1, Option.map_some]
    · rw [List.map_cons, f2]
      show _ = answerFor t s1 s2 l :: _
      rw [e2]
      rfl

/-! ## Equality -/

theorem unlines_inj : ∀ {a b : List Str}, (∀ l ∈ a, '\n' ∉ l) → (∀ l ∈ b, '\n' ∉ l) → unlines a = unlines b → a = b := by
  have split : ∀ {u v s t : Str}, '\n' ∉ u → '\n' ∉ v → u ++ '\n' :: s = v ++ '\n' :: t → u = v ∧ s = t := by
    intro u
    induction u with
    | nil =>
      intro v s t _ hv h
      cases v with
      | nil => exact ⟨rfl, (List.cons.inj h).2⟩
      | cons c r =>
        rw [List.nil_append, List.cons_append] at h
        exact absurd (by rw [(List.cons.inj h).1]; simp) hv
    | cons c r ih =>
      intro v s t hu hv h
      cases v with
      | nil =>
        rw [List.nil_append, List.cons_append] at h
        exact absurd (by rw [(List.cons.inj h).1]; simp) hu
      | cons c' r' =>
        rw [List.cons_append, List.cons_append] at h
        obtain ⟨a1, a2⟩ := List.cons.inj h
        obtain ⟨b1, b2⟩ := ih (fun h => hu (by simp [h])) (fun h => hv (by simp [h])) a2
        exact ⟨by rw [a1, b1], b2⟩
  intro a
  induction a with
  | nil =>
    intro b _ _ h
    cases b with
    | nil => rfl
    | cons y b =>
      have := congrArg List.length h
      simp [unlines] at this
  | cons x a ih =>
    intro b ha hb h
    cases b with
    | nil =>
      have := congrArg List.length h
      simp [unlines] at this
    | cons y b =>
      have e : ∀ (z : Str) (l : List Str), unlines (z :: l) = z ++ '\n' :: unlines l := by
        intro z l
        simp [unlines]
      rw [e, e] at h
      obtain ⟨h1, h2⟩ := split (ha x (by simp)) (hb y (by simp)) h
      rw [h1, ih (fun l hl => ha l (by simp [hl])) (fun l hl => hb l (by simp [hl])) h2]

theorem subEntries_eq (m : Info) (n : Nat) (s : Option (List Item)) : subEntries m n s = entries m n (s.getD []) := by
  cases s <;> simp [subEntries, entries]

theorem NoEmptySection.of_cons {a : Item} {r : List Item} (h : NoEmptySection (a :: r)) :
    a.sub ≠ some [] ∧ NoEmptySection (a.sub.getD []) ∧ NoEmptySection r := by
  cases h with
  | mk h1 h2 =>
    refine ⟨h1 a (by simp), ?_, .mk (fun i hi => h1 i (by simp [hi])) fun i hi => h2 i (by simp [hi])⟩
    cases hs : a.sub with
    | none => exact .mk (by simp) (by simp)
    | some s => exact h2 a (by simp) s hs

/-- The lines of a diff with their depths tell the diff. -/
theorem entries_inj (m : Info) (hm : m ≠ .same) (n : Nat) (l l' : List Item) (rest rest' : List (Info × Nat × Str)) (hb : Below m l) (hb' : Below m l')
    (hf : NoEmptySection l) (hf' : NoEmptySection l') (hr : ∀ e ∈ rest.head?, e.2.1 < n) (hr' : ∀ e ∈ rest'.head?, e.2.1 < n)
    (h : entries m n l ++ rest = entries m n l' ++ rest') : l = l' ∧ rest = rest' :=
  match l, l' with
  | [], [] => ⟨rfl, by simpa [entries] using h⟩
  | [], .mk k s i :: r' => by
    exfalso
    rw [entries, entries, itemEntries, List.nil_append] at h
    rw [h] at hr
    exact Nat.lt_irrefl _ (hr _ rfl)
  | .mk k s i :: r, [] => by
    exfalso
    rw [entries, entries, itemEntries, List.nil_append] at h
    rw [← h] at hr'
    exact Nat.lt_irrefl _ (hr' _ rfl)
  | .mk k s i :: r, .mk k' s' i' :: r' => by
    rw [entries, entries, itemEntries, itemEntries, subEntries_eq, subEntries_eq] at h
    simp only [List.cons_append, List.append_assoc, List.cons.injEq, Prod.mk.injEq, true_and] at h
    obtain ⟨⟨e1, e2⟩, e3⟩ := h
    have hi : i = i' := by
      unfold markIn at e1
      split at e1
      · exact e1
      · rename_i hc
        unfold Below at hb hb'
        rw [if_neg hc] at hb hb'
        have h1 := (parsed_iff.1 hb (.mk k s i) (by simp)).1.2
        have h2 := (parsed_iff.1 hb' (.mk k' s' i') (by simp)).1.2
        exact h1.trans h2.symm
    subst hi e2
    have i1 := hb.item hm (i := .mk k s i) (by simp)
    have i2 := hb'.item hm (i := .mk k s' i) (by simp)
    have c1 := hf.of_cons
    have c2 := hf'.of_cons
    have sub : ∀ {s : Option (List Item)}, (∀ x, s = some x → Below (markIn m i) x) → Below (markIn m i) (s.getD []) := by
      intro s hs
      cases s with
      | none =>
        show Below _ []
        unfold Below
        split
        · exact .mk (by simp) (by simp) (by simp)
        · exact .mk (by simp) (by simp)
      | some x => exact hs x rfl
    have low : ∀ {r : List Item} {rest : List (Info × Nat × Str)}, (∀ e ∈ rest.head?, e.2.1 < n) →
        ∀ e ∈ (entries m n r ++ rest).head?, e.2.1 < n + 1 := by
      intro r rest hr e he
      cases r with
      | nil =>
        rw [entries, List.nil_append] at he
        have := hr e he
        omega
      | cons a r =>
        obtain ⟨k, s, i⟩ := a
        rw [entries, itemEntries] at he
        simp only [List.cons_append, List.head?_cons, Option.mem_def, Option.some.injEq] at he
        subst he
        simp
    have hlt : sizeOf (s.getD []) < sizeOf (Item.mk k s i :: r) := by
      cases s with
      | none => simp; omega
      | some x => simp; omega
    obtain ⟨g1, g2⟩ := entries_inj (markIn m i) i1.2.1 (n + 1) (s.getD []) (s'.getD []) (entries m n r ++ rest) (entries m n r' ++ rest')
      (sub i1.2.2) (sub i2.2.2) c1.2.1 c2.2.1 (low hr) (low hr') e3
    obtain ⟨g3, g4⟩ := entries_inj m hm n r r' rest rest' hb.tail hb'.tail c1.2.2 c2.2.2 hr hr' g2
    have hs : s = s' := by
      have d1 := c1.1
      have d2 := c2.1
      simp only [Item.sub] at d1 d2
      cases s with
      | none =>
        cases s' with
        | none => rfl
        | some x => simp only [Option.getD_none, Option.getD_some] at g1; exact absurd (by rw [← g1]) d2
      | some y =>
        cases s' with
        | none => simp only [Option.getD_none, Option.getD_some] at g1; exact absurd (by rw [g1]) d1
        | some x => simp only [Option.getD_some] at g1; rw [g1]
    exact ⟨by rw [hs, g3], g4⟩
termination_by sizeOf l
decreasing_by
  · exact hlt
  · simp_wf; omega

end NcDiff.Running
