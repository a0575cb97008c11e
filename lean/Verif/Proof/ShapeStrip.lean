import Verif.Proof.Shape
import Verif.Proof.Strip
/-!
# Attributes that are not edit-config attributes do not change what a delta looks like
-/

namespace NcDiff

section
variable {d : Device} {sc : Scope} {S T x y o o' D D' : Elem}

theorem strip_tag_eq (h : strip o = strip o') : o.tag = o'.tag := by
  rw [← strip_tag o, h, strip_tag]

theorem strip_get_eq {n : AName} (hn : n.isEdit = true) (h : strip o = strip o') : o.get n = o'.get n := by
  rw [← strip_get hn o, h, strip_get hn]

theorem strip_isDelete (h : strip o = strip o') : IsDelete o ↔ IsDelete o' := by
  unfold IsDelete HasOp
  rw [strip_get_eq rfl h]

theorem strip_del_eq (h : strip o = strip o') : o.delAttrib = o'.delAttrib := by
  rw [← strip_delAttrib o, h, strip_delAttrib]

theorem strip_keyTexts (e : Elem) (k : QName) : keyTexts (strip e) k = keyTexts e k := by
  unfold keyTexts
  rw [strip_childrenWith, List.map_map]
  refine List.map_congr_left ?_
  intro c _; simp

theorem strip_sameInstance : SameInstance d sc x (strip o) ↔ SameInstance d sc x o := by
  unfold SameInstance
  simp only [strip_tag, strip_parseText, strip_keyTexts]

theorem strip_instance_eq (h : strip o = strip o') : SameInstance d sc x o ↔ SameInstance d sc x o' := by
  rw [← strip_sameInstance, h, strip_sameInstance]

/-- The children of two such trees correspond. -/
theorem strip_kids_eq (h : strip D = strip D') : D.kids.map strip = D'.kids.map strip := by
  rw [← strip_kids, ← strip_kids, h]

theorem strip_kid (h : strip D = strip D') (ho : o' ∈ D'.kids) : ∃ o ∈ D.kids, strip o = strip o' := by
  have : strip o' ∈ D.kids.map strip := by rw [strip_kids_eq h]; exact List.mem_map_of_mem ho
  obtain ⟨o, h1, h2⟩ := List.mem_map.1 this
  exact ⟨o, h1, h2⟩

theorem strip_noDelete (hn : NoDelete D) : ∀ {D' : Elem}, strip D = strip D' → NoDelete D' := by
  induction hn with
  | @mk o here _ ih =>
    intro D' h
    refine ⟨fun hd => here ((strip_isDelete h).2 hd), ?_⟩
    intro k' hk'
    obtain ⟨k, hk, hs⟩ := strip_kid h hk'
    exact ih k hk hs

theorem strip_erased {sn : SNode} {s m : Elem} (he : Erased d sn s m) : ∀ {m' : Elem}, strip m = strip m' →
    Erased d sn s m' := by
  induction he with
  | marked h => intro m' hs; exact .marked ((strip_isDelete hs).1 h)
  | @inside sn s m np all sub only ih =>
    intro m' hs
    refine .inside np ?_ ?_ ?_
    · intro x hx
      obtain ⟨y, hy, h⟩ := all x hx
      obtain ⟨y', hy', hys⟩ := strip_kid hs.symm hy
      exact ⟨y', hy', (strip_instance_eq hys).2 h⟩
    · intro x hx y' hy' hxy f hf
      obtain ⟨y, hy, hys⟩ := strip_kid hs hy'
      exact ih x hx y hy ((strip_instance_eq hys).2 hxy) f hf hys
    · intro y' hy'
      obtain ⟨y, hy, hys⟩ := strip_kid hs hy'
      obtain ⟨x, hx, h⟩ := only y hy
      exact ⟨x, hx, (strip_instance_eq hys).1 h⟩

theorem strip_deletes {w : Prop} (hd : DeletesMissing d w sc S T D) : ∀ {D' : Elem}, strip D = strip D' →
    DeletesMissing d w sc S T D' := by
  induction hd with
  | replaced hw h copy no =>
    intro D' hs
    refine .replaced hw ?_ (by rw [← strip_del_eq hs]; exact copy) (strip_noDelete no hs)
    unfold HasOp at h ⊢
    rw [← strip_get_eq rfl hs]; exact h
  | @level sc S T D marked gone new both only ih =>
    intro D' hs
    refine .level ?_ ?_ ?_ ?_ ?_
    · intro o' ho' hd'
      obtain ⟨o, ho, hos⟩ := strip_kid hs ho'
      obtain ⟨s, h1, h2, h3⟩ := marked o ho ((strip_isDelete hos).2 hd')
      exact ⟨s, h1, (strip_instance_eq hos).1 h2, h3⟩
    · intro s hsm habs
      obtain ⟨m, hm, h1, h2⟩ := gone s hsm habs
      obtain ⟨m', hm', hms⟩ := strip_kid hs.symm hm
      exact ⟨m', hm', (strip_instance_eq hms).2 h1, fun f hf => strip_erased (h2 f hf) hms.symm⟩
    · intro k hk habs
      obtain ⟨o, ho, h1, h2, h3⟩ := new k hk habs
      obtain ⟨o', ho', hos⟩ := strip_kid hs.symm ho
      exact ⟨o', ho', (strip_instance_eq hos).2 h1, by rw [strip_del_eq hos]; exact h2, strip_noDelete h3 hos.symm⟩
    · intro s hsm k hk hsk o' ho' hko f hf hn
      obtain ⟨o, ho, hos⟩ := strip_kid hs ho'
      exact ih s hsm k hk hsk o ho ((strip_instance_eq hos).2 hko) f hf hn hos
    · intro o' ho'
      obtain ⟨o, ho, hos⟩ := strip_kid hs ho'
      rcases only o ho with ⟨k, hk, h⟩ | ⟨k, hk, h⟩
      · exact Or.inl ⟨k, hk, (strip_instance_eq hos).1 h⟩
      · exact Or.inr ⟨k, hk, (strip_instance_eq hos).1 h⟩

theorem strip_placed {sn : SNode} {k : Elem} (h : strip o = strip o') : Placed sn T o k ↔ Placed sn T o' k := by
  have hm : o.nsmap = o'.nsmap := by rw [← strip_nsmap o, h, strip_nsmap]
  unfold Placed NamesEntry
  rw [strip_get_eq (n := .insert) rfl h, strip_get_eq (n := .value) rfl h, strip_get_eq (n := .key) rfl h, hm]

theorem strip_strip (e : Elem) : strip (strip e) = strip e := by
  induction e using Elem.ind with
  | h t n a x ks ih =>
    rw [strip, strip, List.filter_filter, stripList_eq, stripList_eq, List.map_map]
    congr 1
    · simp
    · exact List.map_congr_left ih

theorem strip_order {w : Prop} (hd : OrderMarked d w sc S T D) : ∀ {D' : Elem}, strip D = strip D' →
    OrderMarked d w sc S T D' := by
  induction hd with
  | replaced hw h copy =>
    intro D' hs
    refine .replaced hw ?_ (by rw [← strip_del_eq hs]; exact copy)
    unfold HasOp at h ⊢
    rw [← strip_get_eq rfl hs]; exact h
  | same h keys =>
    intro D' hs
    refine .same h ?_
    intro o' ho'
    obtain ⟨o, ho, hos⟩ := strip_kid hs ho'
    obtain ⟨h1, h2, h3⟩ := keys o ho
    rw [← strip_del_eq hos, ← strip_isDelete hos, ← strip_tag_eq hos]
    exact ⟨h1, h2, h3⟩
  | @level sc S T D entries both ih =>
    intro D' hs
    refine .level ?_ ?_
    · intro t f hf hu hn
      have h := entries t f hf hu hn
      have key : ∀ {E : Elem}, List.Forall₂ (fun k o => SameInstance d sc k o ∧ Placed f.node T o k) (siblings T t)
            (E.kids.filter (fun o => o.tag = t ∧ ¬ IsDelete o)) ↔
          List.Forall₂ (fun k o => SameInstance d sc k o ∧ Placed f.node T o k) (siblings T t)
            ((E.kids.map strip).filter (fun o => o.tag = t ∧ ¬ IsDelete o)) := by
        intro E
        rw [List.filter_map, List.forall₂_map_right_iff]
        have h1 : ((fun o => decide (o.tag = t ∧ ¬ IsDelete o)) ∘ strip) =
            (fun o => decide (o.tag = t ∧ ¬ IsDelete o)) := by
          funext o
          simp only [Function.comp_apply, strip_tag, strip_isDelete (strip_strip o)]
        have h2 : (fun k o => SameInstance d sc k (strip o) ∧ Placed f.node T (strip o) k) =
            (fun k o => SameInstance d sc k o ∧ Placed f.node T o k) := by
          funext k o
          rw [strip_sameInstance, strip_placed (strip_strip o)]
        rw [h1, h2]
      rw [key, ← strip_kids_eq hs, ← key]
      exact h
    · intro s hsm k hk hsk o' ho' hko f hf hn
      obtain ⟨o, ho, hos⟩ := strip_kid hs ho'
      exact ih s hsm k hk hsk o ho ((strip_instance_eq hos).2 hko) f hf hn hos

end

end NcDiff
