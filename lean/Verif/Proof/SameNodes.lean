import Verif.Spec.SameNodes
import Verif.Proof.CasesDelta
import Mathlib.Data.List.Perm.Basic
/-!
# The same nodes in another order: lists
-/

namespace NcDiff.Compile

/-- Two nodes with the same nodes inside. -/
structure Like (x y : Elem) : Prop where
  tag : x.tag = y.tag
  nsmap : x.nsmap = y.nsmap
  attrs : x.attrs = y.attrs
  text : x.text = y.text
  kids : SameNodes x.kids y.kids

theorem sameNodes_refl_of {l : List Elem} (h : ∀ x ∈ l, SameNodes x.kids x.kids) : SameNodes l l := by
  induction l with
  | nil => exact .nil
  | cons x r ih => exact .cons rfl rfl rfl rfl (h x (by simp)) (ih fun y hy => h y (by simp [hy]))

theorem Like.refl (x : Elem) : Like x x := by
  induction x using Elem.ind with
  | h t n a x ks ih => exact ⟨rfl, rfl, rfl, rfl, sameNodes_refl_of fun k hk => (ih k hk).kids⟩

theorem SameNodes.refl (l : List Elem) : SameNodes l l := sameNodes_refl_of fun x _ => (Like.refl x).kids

theorem SameNodes.symm {l l' : List Elem} (h : SameNodes l l') : SameNodes l' l := by
  induction h with
  | nil => exact .nil
  | cons h1 h2 h3 h4 _ _ ih1 ih2 => exact .cons h1.symm h2.symm h3.symm h4.symm ih1 ih2
  | swap x y r => exact .swap y x r
  | trans _ _ ih1 ih2 => exact ih2.trans ih1

theorem Like.symm {x y : Elem} (h : Like x y) : Like y x := ⟨h.tag.symm, h.nsmap.symm, h.attrs.symm, h.text.symm, h.kids.symm⟩

theorem Like.trans {x y z : Elem} (h : Like x y) (h' : Like y z) : Like x z :=
  ⟨h.tag.trans h'.tag, h.nsmap.trans h'.nsmap, h.attrs.trans h'.attrs, h.text.trans h'.text, h.kids.trans h'.kids⟩

theorem SameNodes.of_perm {l l' : List Elem} (h : l.Perm l') : SameNodes l l' := by
  induction h with
  | nil => exact .nil
  | cons x _ ih => exact .cons rfl rfl rfl rfl (Like.refl x).kids ih
  | swap x y r => exact .swap y x r
  | trans _ _ ih1 ih2 => exact ih1.trans ih2

theorem SameNodes.of_forall₂ {l l' : List Elem} (h : List.Forall₂ Like l l') : SameNodes l l' := by
  induction h with
  | nil => exact .nil
  | cons h _ ih => exact .cons h.tag h.nsmap h.attrs h.text h.kids ih

theorem like_trans : ∀ {a b c : List Elem}, List.Forall₂ Like a b → List.Forall₂ Like b c → List.Forall₂ Like a c
  | _, _, _, .nil, .nil => .nil
  | _, _, _, .cons h t, .cons h' t' => .cons (h.trans h') (like_trans t t')

/-- A permutation, and then node by node. -/
theorem SameNodes.split {l l' : List Elem} (h : SameNodes l l') : ∃ u, l.Perm u ∧ List.Forall₂ Like u l' := by
  induction h with
  | nil => exact ⟨[], .nil, .nil⟩
  | @cons x y r r' h1 h2 h3 h4 h5 _ _ ih2 =>
    obtain ⟨u, hu, hf⟩ := ih2
    exact ⟨x :: u, hu.cons x, .cons ⟨h1, h2, h3, h4, h5⟩ hf⟩
  | swap x y r =>
    refine ⟨y :: x :: r, .swap y x r, List.forall₂_same.2 fun z _ => Like.refl z⟩
  | trans _ _ ih1 ih2 =>
    obtain ⟨u, hu, hf⟩ := ih1
    obtain ⟨v, hv, hg⟩ := ih2
    obtain ⟨w, hw1, hw2⟩ : (Relation.Comp List.Perm (List.Forall₂ Like)) u v := by
      rw [← List.forall₂_comp_perm_eq_perm_comp_forall₂]
      exact ⟨_, hf, hv⟩
    exact ⟨w, hu.trans hw1, like_trans hw2 hg⟩

theorem SameNodes.mem {l l' : List Elem} (h : SameNodes l l') {y : Elem} (hy : y ∈ l') : ∃ x ∈ l, Like x y := by
  obtain ⟨u, hu, hf⟩ := h.split
  obtain ⟨x, hx, hxy⟩ : ∃ x ∈ u, Like x y := by
    clear hu h
    induction hf with
    | nil => cases hy
    | cons h _ ih =>
      rcases List.mem_cons.1 hy with rfl | hy
      · exact ⟨_, by simp, h⟩
      · obtain ⟨x, hx, hxy⟩ := ih hy
        exact ⟨x, by simp [hx], hxy⟩
  exact ⟨x, hu.mem_iff.2 hx, hxy⟩

theorem SameNodes.append {a a' b b' : List Elem} (h : SameNodes a a') (h' : SameNodes b b') : SameNodes (a ++ b) (a' ++ b') := by
  obtain ⟨u, hu, hf⟩ := h.split
  obtain ⟨v, hv, hg⟩ := h'.split
  exact (SameNodes.of_perm (hu.append hv)).trans (.of_forall₂ (List.rel_append hf hg))

theorem forall₂_filterMap {φ ψ : Elem → Option Elem} {u l : List Elem} (h : List.Forall₂ Like u l)
    (hφ : ∀ x ∈ u, ∀ y ∈ l, Like x y → (φ x = none ∧ ψ y = none) ∨ ∃ a b, φ x = some a ∧ ψ y = some b ∧ Like a b) :
    List.Forall₂ Like (u.filterMap φ) (l.filterMap ψ) := by
  induction h with
  | nil => exact .nil
  | @cons x y u l hxy _ ih =>
    have ih := ih fun x hx y hy => hφ x (by simp [hx]) y (by simp [hy])
    rcases hφ x (by simp) y (by simp) hxy with ⟨h1, h2⟩ | ⟨a, b, h1, h2, h3⟩
    · rw [List.filterMap_cons_none h1, List.filterMap_cons_none h2]; exact ih
    · rw [List.filterMap_cons_some h1, List.filterMap_cons_some h2]; exact .cons h3 ih

theorem SameNodes.filterMap {φ ψ : Elem → Option Elem} {l l' : List Elem} (h : SameNodes l l')
    (hφ : ∀ x ∈ l, ∀ y ∈ l', Like x y → (φ x = none ∧ ψ y = none) ∨ ∃ a b, φ x = some a ∧ ψ y = some b ∧ Like a b) :
    SameNodes (l.filterMap φ) (l'.filterMap ψ) := by
  obtain ⟨u, hu, hf⟩ := h.split
  exact (SameNodes.of_perm (hu.filterMap φ)).trans
    (.of_forall₂ (forall₂_filterMap hf fun x hx => hφ x (hu.mem_iff.2 hx)))

theorem SameNodes.filter {P Q : Elem → Bool} {l l' : List Elem} (h : SameNodes l l')
    (hP : ∀ x ∈ l, ∀ y ∈ l', Like x y → P x = Q y) : SameNodes (l.filter P) (l'.filter Q) := by
  rw [← List.filterMap_eq_filter, ← List.filterMap_eq_filter]
  refine h.filterMap fun x hx y hy hxy => ?_
  have := hP x hx y hy hxy
  cases hq : Q y with
  | false => left; rw [hq] at this; simp [Option.guard, this, hq]
  | true => right; rw [hq] at this; exact ⟨x, y, by simp [Option.guard, this], by simp [Option.guard, hq], hxy⟩

theorem SameNodes.map {φ ψ : Elem → Elem} {l l' : List Elem} (h : SameNodes l l')
    (hφ : ∀ x ∈ l, ∀ y ∈ l', Like x y → Like (φ x) (ψ y)) : SameNodes (l.map φ) (l'.map ψ) := by
  rw [← List.filterMap_eq_map, ← List.filterMap_eq_map]
  exact h.filterMap fun x hx y hy hxy => .inr ⟨_, _, rfl, rfl, hφ x hx y hy hxy⟩

theorem SameNodes.tagged {l l' : List Elem} (h : SameNodes l l') (q : QName) : SameNodes (Compile.tagged q l) (Compile.tagged q l') :=
  h.filter fun x _ y _ hxy => by rw [hxy.tag]

theorem SameNodes.length {l l' : List Elem} (h : SameNodes l l') : l.length = l'.length := by
  obtain ⟨u, hu, hf⟩ := h.split
  rw [hu.length_eq, hf.length_eq]

theorem SameNodes.single {x : Elem} {l : List Elem} (h : SameNodes [x] l) : ∃ y, l = [y] ∧ Like x y := by
  obtain ⟨u, hu, hf⟩ := h.split
  rw [List.perm_singleton.1 hu.symm] at hf
  cases hf with
  | cons h0 t => cases t; exact ⟨_, rfl, h0⟩

theorem SameNodes.nil_left {l : List Elem} (h : SameNodes [] l) : l = [] := by
  have := h.length
  exact List.length_eq_zero_iff.1 this.symm

/-- At most one of a kind. -/
theorem SameNodes.few {l l' : List Elem} (h : SameNodes l l') (hl : l.length ≤ 1) :
    (l = [] ∧ l' = []) ∨ ∃ x y, l = [x] ∧ l' = [y] ∧ Like x y := by
  match l, hl, h with
  | [], _, h => exact .inl ⟨rfl, h.nil_left⟩
  | [x], _, h =>
    obtain ⟨y, hy, hxy⟩ := h.single
    exact .inr ⟨x, y, rfl, hy, hxy⟩

theorem find_head {P : Elem → Bool} (l : List Elem) : l.find? P = (l.filter P).head? := (List.head?_filter (l := l) (p := P)).symm

theorem SameNodes.find {P Q : Elem → Bool} {l l' : List Elem} (h : SameNodes l l')
    (hP : ∀ x ∈ l, ∀ y ∈ l', Like x y → P x = Q y) (hl : (l.filter P).length ≤ 1) :
    (l.find? P = none ∧ l'.find? Q = none) ∨ ∃ x y, l.find? P = some x ∧ l'.find? Q = some y ∧ Like x y := by
  rw [find_head, find_head]
  rcases (h.filter hP).few hl with ⟨h1, h2⟩ | ⟨x, y, h1, h2, h3⟩
  · left; rw [h1, h2]; exact ⟨rfl, rfl⟩
  · right; rw [h1, h2]; exact ⟨x, y, rfl, rfl, h3⟩

theorem find_perm {P : Elem → Bool} {l l' : List Elem} (h : l.Perm l') (hl : (l.filter P).length ≤ 1) :
    l.find? P = l'.find? P := by
  rw [find_head, find_head]
  have hp := h.filter P
  match hf : l.filter P, hl with
  | [], _ => rw [hf] at hp; rw [List.perm_nil.1 hp.symm]
  | [x], _ => rw [hf] at hp; rw [List.perm_singleton.1 hp.symm]

end NcDiff.Compile
