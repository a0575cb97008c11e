import Verif.Proof.SameNodes
/-!
# The server: all nodes of an edit-config at once

Without order by the user, each node of an edit-config changes its own instance and nothing else.
-/

namespace NcDiff.Compile

section
variable {pl : List Place} {p : Place} {o e : Elem} {l : List Elem} {ins : List Elem → Option (List Elem)}

/-- What becomes of the instance of a node: an error, nothing or a new instance. -/
def eff (p : Place) (o : Elem) (ins : List Elem → Option (List Elem)) (old : Option Elem) : Option (Option Elem) :=
  if opOf o = "delete" then if old.isSome then some none else none
  else if opOf o = "remove" then some none
  else if opOf o = "merge" ∨ opOf o = "replace" ∨ (opOf o = "create" ∧ old = none) then
    if p.2.info.keyword = "leaf" ∨ p.2.info.keyword = "leaf-list" then some (some (.mk o.tag o.nsmap [] o.text []))
    else (ins (startOf p o old)).map fun r => some (.mk o.tag o.nsmap [] none r)
  else none

theorem map_ite_perm {P : Elem → Bool} : ∀ l : List Elem,
    (l.map fun y => if P y then e else y).Perm (l.filter (fun y => !P y) ++ (l.filter P).map fun _ => e)
  | [] => .nil
  | y :: r => by
    have ih := map_ite_perm (P := P) r
    cases h : P y with
    | true =>
      rw [List.map_cons, List.filter_cons_of_pos h, List.filter_cons_of_neg (by simp [h]), List.map_cons]
      simp only [h, if_true]
      exact (ih.cons e).trans List.perm_middle.symm
    | false =>
      rw [List.map_cons, List.filter_cons_of_pos (p := fun y => !P y) (by simp [h]),
        List.filter_cons_of_neg (p := P) (by simp [h])]
      simp only [h, Bool.false_eq_true, if_false, List.cons_append]
      exact ih.cons y

theorem put_perm (hu : byUser p = false) (hl : (l.filter (about p o)).length ≤ 1) :
    ∃ r, put p o e l = some r ∧ r.Perm (l.filter (fun y => !about p o y) ++ [e]) := by
  unfold put
  simp only [hu, Bool.false_eq_true, if_false]
  refine ⟨_, rfl, ?_⟩
  split
  · rename_i h
    refine (map_ite_perm l).trans ?_
    obtain ⟨y, hy, hya⟩ := List.any_eq_true.1 h
    have hm : y ∈ l.filter (about p o) := List.mem_filter.2 ⟨hy, hya⟩
    match hf : l.filter (about p o), hl with
    | [], _ => rw [hf] at hm; cases hm
    | [z], _ => exact .rfl
  · rename_i h
    simp only [Bool.not_eq_true, List.any_eq_false] at h
    rw [List.filter_eq_self.2 fun y hy => by simpa using h y hy]

theorem change_eff (hu : byUser p = false) (hl : (l.filter (about p o)).length ≤ 1) :
    match eff p o ins (l.find? (about p o)) with
    | none => change p o ins l = none
    | some n => ∃ r, change p o ins l = some r ∧ r.Perm (l.filter (fun y => !about p o y) ++ n.toList) := by
  rw [change_eq]
  unfold eff
  split_ifs
  · exact ⟨_, rfl, by simp⟩
  · rfl
  · exact ⟨_, rfl, by simp⟩
  · exact put_perm hu hl
  · cases ins (startOf p o (l.find? (about p o))) with
    | none => rfl
    | some r => exact put_perm hu hl
  · rfl

/-- No two of the siblings are the same instance. -/
def Apart (pl : List Place) (m : List Elem) : Prop := m.Pairwise fun y y' => ∀ p, placeOf pl y.tag = some p → about p y y' = false

theorem about_both {y : Elem} : about p o y = true ↔ y.tag = o.tag ∧ identity p y = identity p o := by
  unfold about
  exact decide_eq_true_iff

theorem about_congr {o' : Elem} (h : about p o o' = true) (y : Elem) : about p o' y = about p o y := by
  obtain ⟨h1, h2⟩ := about_both.1 h
  rw [Bool.eq_iff_iff, about_both, about_both, h1, h2]

theorem about_swap (a b : Elem) : about p a b = about p b a := by
  rw [Bool.eq_iff_iff, about_both, about_both]
  exact ⟨fun h => ⟨h.1.symm, h.2.symm⟩, fun h => ⟨h.1.symm, h.2.symm⟩⟩

theorem apart_symm {y y' : Elem} (h : ∀ p, placeOf pl y.tag = some p → about p y y' = false) :
    ∀ p, placeOf pl y'.tag = some p → about p y' y = false := by
  intro p hp
  rw [← Bool.not_eq_true]
  intro ha
  have ht := about_tag ha
  have := h p (by rw [ht]; exact hp)
  rw [about_swap, ha] at this
  cases this

theorem Apart.perm {m m' : List Elem} (h : Apart pl m) (hp : m.Perm m') : Apart pl m' :=
  (hp.pairwise_iff (fun h => apart_symm h)).1 h

/-- There is at most one instance. -/
theorem Apart.few {m : List Elem} (h : Apart pl m) (hp : placeOf pl o.tag = some p) : (m.filter (about p o)).length ≤ 1 := by
  match hf : m.filter (about p o) with
  | [] => simp
  | [x] => simp
  | x :: y :: r =>
    have hs : (x :: y :: r).Sublist m := by rw [← hf]; exact List.filter_sublist
    have h1 := (List.pairwise_cons.1 (h.sublist hs)).1 y (by simp)
    have hx : about p o x = true := (List.mem_filter.1 (show x ∈ m.filter (about p o) by rw [hf]; simp)).2
    have hy : about p o y = true := (List.mem_filter.1 (show y ∈ m.filter (about p o) by rw [hf]; simp)).2
    have := h1 p (by rw [about_tag hx]; exact hp)
    rw [about_congr hx, hy] at this
    cases this

/-- What becomes of the instance of a node of the edit-config. -/
def effIn (pl : List Place) (m : List Elem) (o : Elem) : Option (Option Elem) :=
  match placeOf pl o.tag with
  | none => none
  | some p => eff p o (fun l' => serve (places p.1 p.2.kids) o.kids l') (m.find? (about p o))

/-- What no node of the edit-config is about. -/
def keep (pl : List Place) (D m : List Elem) : List Elem := m.filter fun y => D.all fun o => !aboutIn pl o y

/-- What the nodes of the edit-config bring. -/
def fresh (pl : List Place) (D m : List Elem) : List Elem := D.filterMap fun o => (effIn pl m o).join

/-- What is asked of a node of the edit-config. -/
def Fair (p : Place) (o : Elem) : Prop :=
  KeysFree p ∧ byUser p = false ∧ (deletes o = false → p.2.info.keyword = "list" → Entry p o)

/-- A new instance is one of the node. -/
theorem eff_about (hf : Fair p o) {n : Elem} {m : List Elem}
    (h : eff p o (fun l' => serve (places p.1 p.2.kids) o.kids l') (m.find? (about p o)) = some (some n)) : about p o n = true := by
  unfold eff at h
  split_ifs at h with h1 h2 h3 h4 h5
  · cases h
  · cases h
  · have := Option.some.inj (Option.some.inj h)
    rw [← this, about_both]
    refine ⟨Elem.tag_mk .., ?_⟩
    unfold identity
    rcases h5 with h5 | h5
    · simp [h5]
    · simp [h5, Elem.text_mk]
  · cases hr : serve (places p.1 p.2.kids) o.kids (startOf p o (m.find? (about p o))) with
    | none => simp only [hr] at h; cases h
    | some r =>
      simp only [hr] at h
      have := Option.some.inj (Option.some.inj h)
      rw [← this, about_both]
      refine ⟨Elem.tag_mk .., identity_serve hf.1 (hf.2.2 ?_) h5 hr⟩
      unfold deletes
      rw [operation_eq]
      exact decide_eq_false fun h => h.elim h1 h3

theorem find_filter_of {P Q : Elem → Bool} (h : ∀ y, P y = true → Q y = true) (l : List Elem) :
    (l.filter Q).find? P = l.find? P := by
  rw [List.find?_filter]
  congr 1
  funext y
  rw [Bool.eq_iff_iff]
  simp only [decide_eq_true_eq, Bool.and_eq_true]
  exact ⟨fun h => h.2, fun hp => ⟨h y hp, hp⟩⟩

/-- The result is the nodes that the edit-config is not about, and what its nodes bring. -/
theorem serve_flat : ∀ (D m : List Elem), Apart pl D → (∀ o ∈ D, ∀ p, placeOf pl o.tag = some p → Fair p o) → Apart pl m →
    (∀ r, serve pl D m = some r → (∀ o ∈ D, (effIn pl m o).isSome) ∧ r.Perm (keep pl D m ++ fresh pl D m)) ∧
    ((∀ o ∈ D, (effIn pl m o).isSome) → ∃ r, serve pl D m = some r)
  | [], m, _, _, _ => by
    refine ⟨fun r hr => ⟨by simp, ?_⟩, fun _ => ⟨m, by rw [serve]⟩⟩
    rw [serve] at hr
    rw [← Option.some.inj hr]
    unfold keep fresh
    simp
  | o :: D, m, hD, hF, hm => by
    rw [serve]
    cases hp : placeOf pl o.tag with
    | none =>
      rw [serveOne_none hp]
      refine ⟨fun r hr => (by cases hr), fun h => ?_⟩
      have := h o (by simp)
      unfold effIn at this
      rw [hp] at this
      cases this
    | some p =>
      have hfair := hF o (by simp) p hp
      have hin : effIn pl m o = eff p o (fun l' => serve (places p.1 p.2.kids) o.kids l') (m.find? (about p o)) := by
        unfold effIn; rw [hp]
      have hch := change_eff (ins := fun l' => serve (places p.1 p.2.kids) o.kids l') hfair.2.1 (hm.few hp)
      rw [serveOne_eq hp]
      rw [← hin] at hch
      obtain ⟨hoD, hD'⟩ := List.pairwise_cons.1 hD
      cases hn : effIn pl m o with
      | none =>
        rw [hn] at hch
        simp only at hch
        rw [hch]
        refine ⟨fun r hr => (by cases hr), fun h => ?_⟩
        have := h o (by simp)
        rw [hn] at this
        cases this
      | some n =>
        rw [hn] at hch
        simp only at hch
        obtain ⟨m1, h1, h2⟩ := hch
        rw [h1]
        have hnew : ∀ e ∈ n.toList, about p o e = true := by
          intro e he
          rw [Option.mem_toList] at he
          cases he
          exact eff_about hfair (hin.symm.trans hn)
        have hnot : ∀ {y : Elem}, about p o y = true → ∀ o' ∈ D, aboutIn pl o' y = false := by
          intro y hy o' ho'
          rw [← Bool.not_eq_true]
          intro h
          have := about_same hp hy h
          rw [hoD o' ho' p hp] at this
          cases this
        have hm1 : Apart pl m1 := by
          refine Apart.perm ?_ h2.symm
          refine List.pairwise_append.2 ⟨hm.sublist List.filter_sublist, ?_, ?_⟩
          · cases n <;> simp
          · intro y hy e he
            refine apart_symm fun p' hp' => ?_
            have hea := hnew e he
            rw [about_tag hea, hp] at hp'
            cases hp'
            rw [about_congr hea]
            simpa using (List.mem_filter.1 hy).2
        have hsame : ∀ o' ∈ D, effIn pl m1 o' = effIn pl m o' := by
          intro o' ho'
          unfold effIn
          cases hp' : placeOf pl o'.tag with
          | none => rfl
          | some p' =>
            simp only
            congr 1
            rw [find_perm h2 (hm1.few hp'), List.find?_append, find_filter_of]
            · have : n.toList.find? (about p' o') = none := by
                refine List.find?_eq_none.2 fun e he => ?_
                have := hnot (hnew e he) o' ho'
                unfold aboutIn at this
                rw [hp'] at this
                simp only at this
                rw [this]
                simp
              rw [this, Option.or_none]
            · intro y hy
              cases hoy : about p o y with
              | false => rfl
              | true =>
                have := hnot hoy o' ho'
                unfold aboutIn at this
                rw [hp'] at this
                simp only at this
                rw [hy] at this
                cases this
        obtain ⟨ih1, ih2⟩ := serve_flat D m1 hD' (fun o' ho' => hF o' (by simp [ho'])) hm1
        constructor
        · intro r hr
          obtain ⟨h3, h4⟩ := ih1 r hr
          refine ⟨fun o' ho' => ?_, h4.trans ?_⟩
          · rcases List.mem_cons.1 ho' with rfl | ho'
            · rw [hn]; rfl
            · rw [← hsame o' ho']; exact h3 o' ho'
          · have hfr : fresh pl D m1 = fresh pl D m := by
              unfold fresh
              exact List.filterMap_congr fun o' ho' => by rw [hsame o' ho']
            have hfr' : fresh pl (o :: D) m = n.toList ++ fresh pl D m := by
              unfold fresh
              rw [List.filterMap_cons, hn]
              cases n <;> rfl
            have hkeep : (keep pl D m1).Perm (keep pl (o :: D) m ++ n.toList) := by
              unfold keep
              refine (h2.filter _).trans ?_
              rw [List.filter_append, List.filter_filter]
              have e1 : n.toList.filter (fun y => D.all fun o => !aboutIn pl o y) = n.toList :=
                List.filter_eq_self.2 fun e he => List.all_eq_true.2 fun o' ho' => by rw [hnot (hnew e he) o' ho']; rfl
              rw [e1]
              have e2 : (m.filter fun y => (D.all fun o => !aboutIn pl o y) && !about p o y) =
                  m.filter fun y => (o :: D).all fun o => !aboutIn pl o y := by
                refine List.filter_congr fun y _ => ?_
                rw [List.all_cons, Bool.and_comm]
                congr 1
                unfold aboutIn
                rw [hp]
              rw [e2]
            rw [hfr, hfr', ← List.append_assoc]
            exact hkeep.append_right _
        · intro h
          exact ih2 fun o' ho' => by rw [hsame o' ho']; exact h o' (by simp [ho'])

end
end NcDiff.Compile
