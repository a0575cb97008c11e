import Verif.Proof.Step
import Verif.Spec.Sum
/-!
# The sum has no attributes
-/

namespace NcDiff

theorem delAttrib_noAttrs : ∀ e : Elem, NoAttrs e.delAttrib := by
  intro e
  induction e using Elem.ind with
  | h t n a x ks ih =>
    rw [Elem.delAttrib, Elem.delAttribList_eq]
    refine NoAttrs.mk rfl ?_
    intro k hk
    obtain ⟨k', hk', rfl⟩ := List.mem_map.1 hk
    exact ih k' hk'

theorem mapM_ok_mem {α β : Type} {f : α → Except Err β} : ∀ {l : List α} {r : List β},
    l.mapM f = .ok r → ∀ y ∈ r, ∃ x ∈ l, f x = .ok y
  | [], r, h => by
    simp only [List.mapM_nil, pure, Except.pure, Except.ok.injEq] at h
    subst h; simp
  | a :: l, r, h => by
    rw [List.mapM_cons] at h
    cases ha : f a with
    | error e => simp [ha, bind, Except.bind] at h
    | ok b =>
      cases hl : l.mapM f with
      | error e => simp [ha, hl, bind, Except.bind] at h
      | ok bs =>
        simp only [ha, hl, bind, Except.bind, pure, Except.pure, Except.ok.injEq] at h
        subst h
        intro y hy
        cases hy with
        | head => exact ⟨a, by simp, ha⟩
        | tail _ hy =>
          obtain ⟨x, hx, hxy⟩ := mapM_ok_mem hl y hy
          exact ⟨x, by simp [hx], hxy⟩

theorem listSkeleton_noAttrs {keys : List QName} {o sk : Elem} (h : listSkeleton keys o = .ok sk) :
    NoAttrs sk := by
  unfold listSkeleton at h
  simp only [bind, Except.bind] at h
  split at h
  · cases h
  · rename_i ks hks
    cases h
    refine NoAttrs.mk rfl ?_
    intro k hk
    obtain ⟨q, _, hq⟩ := mapM_ok_mem hks k hk
    split at hq
    · cases hq; exact delAttrib_noAttrs _
    · cases hq

theorem mergeText_ok {d : Device} {sn : SNode} {src dst e : Elem}
    (h : mergeText d sn src dst = .ok e) : ∃ t, e = dst.setText t := by
  unfold mergeText at h
  split at h
  · cases h; exact ⟨_, rfl⟩
  · split at h
    · simp only [bind, Except.bind] at h
      split at h
      · cases h
      · cases h; exact ⟨_, rfl⟩
    · simp only [bind, Except.bind] at h
      split at h
      · cases h
      · cases h; exact ⟨_, rfl⟩
    · cases h; exact ⟨_, rfl⟩

theorem NoAttrs.kid {e k : Elem} (h : NoAttrs e) (hk : k ∈ e.kids) : NoAttrs k := by
  cases h with | mk _ h => exact h k hk

theorem NoAttrs.setText {e : Elem} (h : NoAttrs e) (t : Option String) : NoAttrs (e.setText t) := by
  cases h with | mk h1 h2 => exact .mk h1 h2

theorem mem_removeCell {h : Nat} {st : List Cell} {c : Cell} (hc : c ∈ removeCell h st) : c ∈ st :=
  (List.mem_filter.1 hc).1

/-- The functions in the table are `node_add` of the children. -/
theorem mem_onlyTwo {α β : Type} {f : α → UID} {g : β → UID} {as : List α} {bs : List β} {b : β}
    (h : b ∈ (groupsOf f g as bs).onlyTwo) : b ∈ bs := (List.mem_filter.1 h).1

theorem mem_onlyTwo_iff {α β : Type} {f : α → UID} {g : β → UID} {as : List α} {bs : List β} {b : β} :
    b ∈ (groupsOf f g as bs).onlyTwo ↔ b ∈ bs ∧ ∀ a ∈ as, f a ≠ g b := by
  unfold groupsOf
  simp only [List.mem_filter, Option.isNone_iff_eq_none, List.find?_eq_none, decide_eq_true_eq, ne_eq]

theorem mem_onlyOne_iff {α β : Type} {f : α → UID} {g : β → UID} {as : List α} {bs : List β} {a : α} :
    a ∈ (groupsOf f g as bs).onlyOne ↔ a ∈ as ∧ ∀ b ∈ bs, g b ≠ f a := by
  unfold groupsOf
  simp only [List.mem_filter, Option.isNone_iff_eq_none, List.find?_eq_none, decide_eq_true_eq, ne_eq]

theorem mem_both {α β : Type} {f : α → UID} {g : β → UID} {as : List α} {bs : List β} {a : α} {b : β}
    (h : (a, b) ∈ (groupsOf f g as bs).both) : a ∈ as ∧ b ∈ bs ∧ g b = f a := by
  obtain ⟨x, hx, h⟩ := List.mem_filterMap.1 h
  rw [Option.map_eq_some_iff] at h
  obtain ⟨y, hy, h⟩ := h
  cases h
  exact ⟨hx, List.mem_of_find?_eq_some hy, by simpa using List.find?_some hy⟩

theorem nodeAdd_noAttrs (d : Device) : ∀ (o : Elem) (sc : Scope) (sum r : Elem), NoAttrs sum →
    nodeAdd d o sc sum = .ok r → NoAttrs r := by
  intro o
  induction o using Elem.ind with
  | h t n a x ks ih =>
    intro sc sum r hs h
    obtain ⟨_, _, st1, st2, h1, h2, rfl⟩ := nodeAdd_inv h
    have p0 : ∀ c ∈ sum.kids.zipIdx.map (fun p => ((some p.2, p.1) : Cell)), NoAttrs c.2 := by
      intro c hc
      obtain ⟨⟨k, i⟩, hp, rfl⟩ := List.mem_map.1 hc
      exact hs.kid (List.mem_of_getElem? (List.mem_zipIdx_iff_getElem?.1 hp))
    have p1 : ∀ c ∈ st1, NoAttrs c.2 := by
      refine foldlM_inv (P := fun st => ∀ c ∈ st, NoAttrs c.2) ?_ p0 h1
      rintro ⟨k, rec⟩ hk s s' hP hstep
      obtain ⟨k', hk', hke⟩ := List.mem_map.1 (mem_onlyTwo hk)
      cases hke
      rcases addWithoutPeer_inv hstep with rfl | ⟨e, hi, hn⟩
      · exact hP
      · intro c hc
        rcases hi.mem.1 hc with rfl | hc
        · cases hn with
          | copy h => rw [h]; exact delAttrib_noAttrs _
          | container f hf hn hop hr => exact ih k hk' _ _ _ (NoAttrs.mk rfl (by simp [Elem.new])) hr
          | list f sk hf hn hop hs hr => exact ih k hk' _ _ _ (listSkeleton_noAttrs hs) hr
        · exact hP c hc
    have p2 : ∀ c ∈ st2, NoAttrs c.2 := by
      refine foldlM_inv (P := fun st => ∀ c ∈ st, NoAttrs c.2) ?_ p1 h2
      rintro ⟨⟨e, i⟩, ⟨k, rec⟩⟩ hk s s' hP hstep
      obtain ⟨ha, hb, _⟩ := mem_both hk
      obtain ⟨k', hk', hke⟩ := List.mem_map.1 hb
      cases hke
      have he : NoAttrs e := hs.kid (List.mem_of_getElem? (List.mem_zipIdx_iff_getElem?.1 ha))
      obtain ⟨st1, hst1, hout⟩ := addWithPeer_inv hstep
      have hP1 : ∀ c ∈ st1, NoAttrs c.2 := by
        rcases hst1 with rfl | hi
        · exact hP
        · intro c hc
          rcases hi.mem.1 hc with rfl | hc
          · exact he
          · exact hP c (mem_removeCell hc)
      rcases hout with rfl | rfl | ⟨e', rfl, hp⟩ | ⟨_, rfl⟩
      · exact hP1
      · exact fun c hc => hP1 c (mem_removeCell hc)
      · have he' : NoAttrs e' := by
          cases hp with
          | leaf f hf hn hm => obtain ⟨t, rfl⟩ := mergeText_ok hm; exact he.setText t
          | merge f hf hn hop hr => exact ih k hk' _ _ _ he hr
        intro c hc
        obtain ⟨c', hc', rfl⟩ := List.mem_map.1 hc
        split
        · exact he'
        · exact hP1 c' hc'
      · intro c hc
        obtain ⟨c', hc', rfl⟩ := List.mem_map.1 hc
        split
        · exact delAttrib_noAttrs _
        · exact hP1 c' hc'
    cases hs with
    | mk h3 _ =>
      refine NoAttrs.mk h3 ?_
      intro k hk
      obtain ⟨c, hc, rfl⟩ := List.mem_map.1 hk
      exact p2 c hc

end NcDiff
