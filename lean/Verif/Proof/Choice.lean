import Verif.Spec.Choice
import Verif.Proof.SubMain
import Verif.Proof.StandIn
import Verif.Proof.Strip
/-!
# Changing the case of a choice
-/

namespace NcDiff

variable {d : Device} {sc : Scope}

/-! ## Positions of nodes in cases -/

/-- Is there a case? -/
def caseAt (ks : List SNode) (p : List Nat) : Bool :=
  match nodeAt ks p with
  | some n => n.info.ntype = .case
  | none => false

theorem caseAt_cons {ks : List SNode} {i : Nat} {n : SNode} (h : ks[i]? = some n) {p : List Nat} (hp : p ≠ []) :
    caseAt ks (i :: p) = caseAt n.kids p := by
  cases p with
  | nil => exact absurd rfl hp
  | cons j p => simp only [caseAt, nodeAt, h, Option.bind]

theorem caseAt_succ {ks : List SNode} {n : SNode} {i : Nat} {p : List Nat} :
    caseAt (n :: ks) ((i + 1) :: p) = caseAt ks (i :: p) := by
  cases p with
  | nil => simp [caseAt, nodeAt]
  | cons j p => simp [caseAt, nodeAt]

/-- A node that is found directly, or below a case if its parent is one. -/
def PathOk (ks : List SNode) (ic : Bool) (f : Found) (q : List Nat) : Prop :=
  q ≠ [] ∧ (q.dropLast = [] → f.underCase = ic) ∧ (q.dropLast ≠ [] → f.underCase = true → caseAt ks q.dropLast = true)

mutual
theorem dataNode_path {tag : QName} : ∀ (s : SNode) (pre : List Nat) (ic : Bool) (i : Nat) (f : Found),
    f ∈ dataNode tag pre ic i s → ∃ p, f.path = pre.reverse ++ i :: p ∧ PathOk [s] ic f (0 :: p)
  | .mk info kids, pre, ic, i, f, h => by
    rw [dataNode] at h
    have key : ∀ b, f ∈ dataNodes tag (i :: pre) b 0 kids → (b = true → info.ntype = .case) →
        ∃ p, f.path = pre.reverse ++ i :: p ∧ PathOk [.mk info kids] ic f (0 :: p) := by
      intro b h hb
      obtain ⟨j, p, h1, h2, h3, h4⟩ := dataNodes_path kids (i :: pre) b 0 f h
      refine ⟨j :: p, by rw [h1]; simp, by simp, by simp, ?_⟩
      intro _ hu
      by_cases hp : p = []
      · subst hp
        rw [h3 rfl] at hu
        simp only [List.dropLast_cons_cons, List.dropLast_singleton, caseAt, nodeAt, List.getElem?_cons_zero]
        exact decide_eq_true (hb hu)
      · have hne : (j :: p).dropLast ≠ [] := by
          cases p with
          | nil => exact absurd rfl hp
          | cons a p => simp
        have := h4 hne hu
        rw [List.dropLast_cons_of_ne_nil (by simp), caseAt_cons (n := .mk info kids) (by simp) hne]
        exact this
    split at h
    · exact key false h (by simp)
    · split at h
      · rename_i hc
        exact key true h (fun _ => hc)
      · split at h
        · simp only [List.mem_singleton] at h
          subst h
          exact ⟨[], by simp, by simp, by simp, by simp⟩
        · cases h
theorem dataNodes_path {tag : QName} : ∀ (ks : List SNode) (pre : List Nat) (ic : Bool) (i : Nat) (f : Found),
    f ∈ dataNodes tag pre ic i ks → ∃ j p, f.path = pre.reverse ++ (i + j) :: p ∧ PathOk ks ic f (j :: p)
  | [], _, _, _, f, h => by simp [dataNodes] at h
  | s :: r, pre, ic, i, f, h => by
    rw [dataNodes, List.mem_append] at h
    rcases h with h | h
    · obtain ⟨p, h1, h2, h3, h4⟩ := dataNode_path s pre ic i f h
      refine ⟨0, p, h1, h2, h3, ?_⟩
      intro hne hu
      have := h4 hne hu
      cases p with
      | nil => simp at hne
      | cons a p =>
        rw [List.dropLast_cons_of_ne_nil (by simp)] at this ⊢
        cases hd : (a :: p).dropLast with
        | nil => rw [hd] at this; simpa [caseAt, nodeAt] using this
        | cons b q => rw [hd] at this; simpa [caseAt, nodeAt] using this
    · obtain ⟨j, p, h1, h2, h3, h4⟩ := dataNodes_path r pre ic (i + 1) f h
      refine ⟨j + 1, p, by rw [h1]; simp [Nat.add_assoc, Nat.add_comm 1 j], by simp, ?_, ?_⟩
      · intro he
        refine h3 ?_
        cases p with
        | nil => rfl
        | cons a p => simp at he
      · intro hne hu
        cases p with
        | nil => simp at hne
        | cons a p =>
          have := h4 (by simp) hu
          rw [List.dropLast_cons_of_ne_nil (by simp)] at this ⊢
          rw [caseAt_succ]; exact this
end

theorem models_findIdx {l : List (String × List SNode)} {m : String} {t : List SNode} (h : l.lookup m = some t) :
    ∃ n, l[l.findIdx (fun p => p.1 = m)]? = some (n, t) := by
  induction l with
  | nil => simp at h
  | cons p r ih =>
    rw [List.lookup_cons] at h
    by_cases he : p.1 = m
    · have : (m == p.1) = true := by simp [he]
      rw [this] at h
      simp only [Option.some.injEq] at h
      subst h
      exact ⟨p.1, by subst he; rw [List.findIdx_cons]; simp⟩
    · have : (m == p.1) = false := by simpa using fun h => he h.symm
      rw [this] at h
      obtain ⟨n, hn⟩ := ih h
      exact ⟨n, by simpa [List.findIdx_cons, he] using hn⟩

/-- Where a node is found. -/
theorem lookup_path {tag : QName} {f : Found} (hsc : ∀ n, sc = .node n → n.ntype ≠ .case)
    (h : d.lookup sc tag = .ok f) (hu : f.underCase = true) :
    f.path.dropLast.dropLast.length + 2 = f.path.length ∧ d.isCase sc f.path.dropLast = true := by
  have key : ∀ {q : List Nat}, q.dropLast ≠ [] → q.dropLast.dropLast.length + 2 = q.length := by
    intro q hq
    simp only [List.length_dropLast]
    have := List.length_pos_iff.2 hq
    rw [List.length_dropLast] at this
    omega
  cases sc with
  | node s =>
    rw [Device.lookup] at h
    have hm : f ∈ dataNodes tag [] (s.info.ntype = .case) 0 s.kids := by
      split at h
      · cases h
      · rename_i g hg; cases h; rw [hg]; simp
      · cases h
    obtain ⟨j, p, h1, h2, h3, h4⟩ := dataNodes_path _ _ _ _ _ hm
    rw [h1]
    simp only [List.reverse_nil, List.nil_append, Nat.zero_add]
    have hne : (j :: p).dropLast ≠ [] := by
      intro he
      rw [h3 he] at hu
      exact hsc s rfl (of_decide_eq_true hu)
    exact ⟨key hne, h4 hne hu⟩
  | root =>
    rw [Device.lookup] at h
    split at h
    · cases h
    · rename_i m hm
      split at h
      · cases h
      · rename_i tree ht
        have hm : f ∈ dataNodes tag [d.models.findIdx (fun p => p.1 = m)] false 0 tree := by
          split at h
          · cases h
          · rename_i g hg; cases h; rw [hg]; simp
          · cases h
        obtain ⟨j, p, h1, h2, h3, h4⟩ := dataNodes_path _ _ _ _ _ hm
        rw [h1]
        simp only [List.reverse_singleton, List.singleton_append, Nat.zero_add]
        have hne : (j :: p).dropLast ≠ [] := by
          intro he
          rw [h3 he] at hu
          cases hu
        obtain ⟨n, hn⟩ := models_findIdx ht
        refine ⟨key (by simp), ?_⟩
        rw [List.dropLast_cons_of_ne_nil (by simp)]
        have := h4 hne hu
        unfold Device.isCase
        simp only [hn, Option.bind]
        exact this

theorem partAt_append {isCase : List Nat → Bool} : ∀ (c pre : List Nat) {i j : Nat} {p q : List Nat}, i ≠ j →
    partAt isCase pre (c ++ i :: p) (c ++ j :: q) = (isCase (pre ++ c ++ [i]) && isCase (pre ++ c ++ [j]))
  | [], pre, i, j, p, q, h => by simp [partAt, h]
  | a :: c, pre, i, j, p, q, h => by
    rw [List.cons_append, List.cons_append, partAt, if_pos rfl, partAt_append c (pre ++ [a]) h]
    simp

theorem partAt_self {isCase : List Nat → Bool} : ∀ (p pre : List Nat), partAt isCase pre p p = false
  | [], _ => rfl
  | i :: p, pre => by rw [partAt, if_pos rfl]; exact partAt_self p _

theorem partAt_comm {isCase : List Nat → Bool} : ∀ (p q pre : List Nat), partAt isCase pre p q = partAt isCase pre q p
  | [], [], _ => rfl
  | [], _ :: _, _ => rfl
  | _ :: _, [], _ => rfl
  | i :: p, j :: q, pre => by
    rw [partAt, partAt]
    by_cases h : i = j
    · subst h
      rw [if_pos rfl, if_pos rfl]
      exact partAt_comm p q _
    · rw [if_neg h, if_neg (Ne.symm h), Bool.and_comm]

theorem apart_self (f : Found) : apart d sc f f = false := partAt_self _ _
theorem apart_comm (f g : Found) : apart d sc f g = apart d sc g f := partAt_comm _ _ _

theorem split_two {q : List Nat} (h : q.dropLast.dropLast.length + 2 = q.length) :
    ∃ i p, q.dropLast = q.dropLast.dropLast ++ [i] ∧ q = q.dropLast.dropLast ++ i :: p := by
  have h2 : q ≠ [] := by rintro rfl; simp at h
  have h1 : q.dropLast ≠ [] := by
    intro he; rw [he] at h
    have : q.length = 1 := by
      have := congrArg List.length he
      simp only [List.length_dropLast, List.length_nil] at this
      have := List.length_pos_iff.2 h2
      omega
    simp [this] at h
  refine ⟨q.dropLast.getLast h1, [q.getLast h2], (List.dropLast_append_getLast h1).symm, ?_⟩
  conv_lhs => rw [← List.dropLast_append_getLast h2, ← List.dropLast_append_getLast h1]
  simp

/-- Nodes in different cases of the same choice are apart. -/
theorem apart_of_cases {a b : QName} {f g : Found} (hsc : ∀ n, sc = .node n → n.ntype ≠ .case)
    (hf : d.lookup sc a = .ok f) (hg : d.lookup sc b = .ok g) (h : ¬ SameCase f g) : apart d sc f g = true := by
  simp only [SameCase, not_forall] at h
  obtain ⟨h1, h2, h3, h4⟩ := h
  obtain ⟨l1, c1⟩ := lookup_path hsc hf h1
  obtain ⟨l2, c2⟩ := lookup_path hsc hg h2
  obtain ⟨i, p, e1, e2⟩ := split_two l1
  obtain ⟨j, q, e3, e4⟩ := split_two l2
  rw [h3] at e1 e2
  have hij : i ≠ j := by
    rintro rfl
    rw [← e3] at e1
    exact h4 e1
  have := partAt_append (isCase := d.isCase sc) g.path.dropLast.dropLast [] (p := p) (q := q) hij
  rw [← e2, ← e4, List.nil_append, ← e1, ← e3, c1, c2] at this
  exact this

/-! ## Clearing one level -/

/-- What becomes of one child. -/
def clearKid (d : Device) (sc : Scope) (X : Elem) (s : Elem) : Option Elem :=
  match d.lookup sc s.tag with
  | .error _ => some s
  | .ok f =>
    if outcased d sc X f then none
    else
      match X.kids.find? (fun x => sameB d sc x s) with
      | none => some s
      | some x => some (if puts x then clear d (.node f.node) x s else s)

theorem clearKids_eq {X : Elem} : ∀ ks : List Elem, clearKids d sc X ks = ks.filterMap (clearKid d sc X)
  | [] => by rw [clearKids, List.filterMap_nil]
  | s :: r => by
    rw [clearKids, List.filterMap_cons, clearKids_eq r]
    unfold clearKid
    cases d.lookup sc s.tag with
    | error e => rfl
    | ok f =>
      simp only
      split
      · rfl
      · cases X.kids.find? (fun x => sameB d sc x s) <;> rfl

section
variable {X e : Elem}

theorem clear_tag : (clear d sc X e).tag = e.tag := by cases e; rw [clear]; rfl
theorem clear_nsmap : (clear d sc X e).nsmap = e.nsmap := by cases e; rw [clear]; rfl
theorem clear_attrs : (clear d sc X e).attrs = e.attrs := by cases e; rw [clear]; rfl
theorem clear_text : (clear d sc X e).text = e.text := by cases e; rw [clear]; rfl
theorem clear_kids : (clear d sc X e).kids = e.kids.filterMap (clearKid d sc X) := by
  cases e; rw [clear]; exact clearKids_eq _

theorem clear_of_kids (h : ∀ s ∈ e.kids, clearKid d sc X s = some s) : clear d sc X e = e := by
  have : (clear d sc X e).kids = e.kids := by
    rw [clear_kids, List.filterMap_congr h]
    exact List.filterMap_some
  cases e
  rw [clear] at this ⊢
  simp only [Elem.kids] at this
  rw [this]

theorem clear_congr {Y : Elem} (h : X.kids = Y.kids) : clear d sc X e = clear d sc Y e := by
  have key : ∀ f, outcased d sc X f = outcased d sc Y f := fun f => by unfold outcased; rw [h]
  have : clearKid d sc X = clearKid d sc Y := by
    funext s
    unfold clearKid
    simp only [key, h]
  cases e
  rw [clear, clear, clearKids_eq, clearKids_eq, this]

theorem clear_leaf (h : e.kids = []) : clear d sc X e = e := clear_of_kids (by simp [h])

end

/-- What a child that stays has in common with what it was. -/
structure SameOuter (s r : Elem) : Prop where
  tag : s.tag = r.tag
  nsmap : s.nsmap = r.nsmap
  attrs : s.attrs = r.attrs
  text : s.text = r.text

theorem SameOuter.clear {X e : Elem} : SameOuter (clear d sc X e) e := ⟨clear_tag, clear_nsmap, clear_attrs, clear_text⟩
theorem SameOuter.refl {e : Elem} : SameOuter e e := ⟨rfl, rfl, rfl, rfl⟩

theorem clearKid_outer {X r s : Elem} (h : clearKid d sc X r = some s) : SameOuter s r := by
  unfold clearKid at h
  split at h
  · cases h; exact .refl
  · split at h
    · cases h
    · split at h
      · cases h; exact .refl
      · cases h
        split
        · exact .clear
        · exact .refl

theorem outcased_iff {X : Elem} {f : Found} : outcased d sc X f = true ↔
    ∃ x ∈ X.kids, puts x = true ∧ ∃ g, d.lookup sc x.tag = .ok g ∧ apart d sc f g = true := by
  unfold outcased
  rw [List.any_eq_true]
  refine exists_congr fun x => and_congr_right fun _ => ?_
  rw [Bool.and_eq_true]
  refine and_congr_right fun _ => ?_
  cases d.lookup sc x.tag with
  | error e => simp
  | ok g => simp

section
variable {X r : Elem} {f : Found}

theorem clearKid_none (hf : d.lookup sc r.tag = .ok f) (h : outcased d sc X f = true) : clearKid d sc X r = none := by
  unfold clearKid
  simp only [hf, h, if_true]

/-- A child that `X` does not have stays as it is. -/
theorem clearKid_alone (hf : d.lookup sc r.tag = .ok f) (h : outcased d sc X f = false)
    (ha : ∀ x ∈ X.kids, ¬ SameInstance d sc x r) : clearKid d sc X r = some r := by
  unfold clearKid
  have : X.kids.find? (fun x => sameB d sc x r) = none := by
    rw [List.find?_eq_none]
    intro x hx hs
    exact ha x hx ((sameB_iff ..).1 hs)
  simp only [hf, h, this, Bool.false_eq_true, if_false]

/-- A child that `X` has. -/
theorem clearKid_with (hf : d.lookup sc r.tag = .ok f) (h : outcased d sc X f = false) {x : Elem} (hx : x ∈ X.kids)
    (hs : SameInstance d sc x r) (hu : ∀ y ∈ X.kids, SameInstance d sc y r → y = x) :
    clearKid d sc X r = some (if puts x then clear d (.node f.node) x r else r) := by
  unfold clearKid
  have : X.kids.find? (fun x => sameB d sc x r) = some x := by
    cases hfi : X.kids.find? (fun x => sameB d sc x r) with
    | none =>
      rw [List.find?_eq_none] at hfi
      exact absurd ((sameB_iff ..).2 hs) (hfi x hx)
    | some y =>
      rw [hu y (List.mem_of_find?_eq_some hfi) ((sameB_iff ..).1 (by simpa using List.find?_some hfi))]
  simp only [hf, h, this, Bool.false_eq_true, if_false]

/-- A leaf stays as it is. -/
theorem clearKid_leaf (hf : d.lookup sc r.tag = .ok f) (h : outcased d sc X f = false) (hk : r.kids = []) :
    clearKid d sc X r = some r := by
  unfold clearKid
  simp only [hf, h, Bool.false_eq_true, if_false]
  split
  · rfl
  · split
    · rw [clear_leaf hk]
    · rfl

theorem clearKid_cases (hf : d.lookup sc r.tag = .ok f) {s : Elem} (h : clearKid d sc X r = some s) :
    outcased d sc X f = false := by
  cases ho : outcased d sc X f with
  | false => rfl
  | true => rw [clearKid_none hf ho] at h; cases h

end

theorem filter_filterMap {α : Type} {g : α → Option α} {p : α → Bool} : ∀ {l : List α},
    (∀ x ∈ l, p x = true → g x = some x) → (∀ x ∈ l, ∀ y, g x = some y → p y = true → p x = true) →
    (l.filterMap g).filter p = l.filter p
  | [], _, _ => rfl
  | x :: l, h1, h2 => by
    have ih := filter_filterMap (l := l) (fun y hy => h1 y (by simp [hy])) (fun y hy => h2 y (by simp [hy]))
    rw [List.filterMap_cons]
    by_cases hp : p x = true
    · rw [h1 x (by simp) hp]
      simp only [List.filter_cons, hp, if_true, ih]
    · simp only [List.filter_cons, hp]
      cases hg : g x with
      | none => simpa using ih
      | some y =>
        have : p y ≠ true := fun hy => hp (h2 x (by simp) y hg hy)
        simp only [List.filter_cons, this]
        simpa using ih

theorem puts_bare {x : Elem} (h : x.attrs = []) : puts x = true := by
  have : opOf x = "merge" := by
    cases x
    simp only [Elem.attrs] at h
    subst h
    rfl
  unfold puts
  rw [this]
  decide

/-! ## Clearing the source for the target -/

/-- The keys of a list are leaves: no case. -/
theorem kid_notCase {f : Found} {k : Elem} (h : KidOk d f.node k) : f.node.ntype ≠ .case := by
  intro hn
  unfold KidOk at h
  simp [hn] at h

section
variable {R T : Elem}

/-- A child whose tag the target has as well is not cleared. -/
theorem not_outcased (hT : OneCase d sc T) {r k : Elem} {f : Found} (hf : d.lookup sc r.tag = .ok f) (hk : k ∈ T.kids)
    (ht : r.tag = k.tag) : outcased d sc T f = false := by
  cases h : outcased d sc T f with
  | false => rfl
  | true =>
    obtain ⟨x, hx, _, g, hg, ha⟩ := outcased_iff.1 h
    rw [hT k hk x hx f g (by rw [← ht]; exact hf) hg] at ha
    cases ha

/-- What becomes of a child that the target has. -/
theorem clearKid_peer (hR : Side d sc R) (hT : Side d sc T) (h1 : OneCase d sc T) {r k : Elem} (hr : r ∈ R.kids)
    (hk : k ∈ T.kids) (hu : uid d sc r = uid d sc k) {f : Found} (hf : d.lookup sc r.tag = .ok f) :
    clearKid d sc T r = some (clear d (.node f.node) k r) := by
  rw [clearKid_with hf (not_outcased h1 hf hk (tag_of_uid hu)) hk ((same_uid hT.valid hR.valid hk hr).1 hu.symm) (by
    intro y hy hs
    refine List.inj_on_of_nodup_map hT.valid.indexable.nodup hy hk ?_
    exact ((same_uid hT.valid hR.valid hy hr).2 hs).trans hu), puts_bare (hT.attrs hk), if_pos rfl]

/-- A child that the target does not have. -/
theorem clearKid_gone (hR : Side d sc R) (hT : Side d sc T) {r : Elem} (hr : r ∈ R.kids)
    (ha : ∀ k ∈ T.kids, uid d sc k ≠ uid d sc r) {f : Found} (hf : d.lookup sc r.tag = .ok f)
    (ho : outcased d sc T f = false) : clearKid d sc T r = some r :=
  clearKid_alone hf ho (fun x hx hs => ha x hx ((same_uid hT.valid hR.valid hx hr).2 hs))

/-- The keys of a list entry stay. -/
theorem clear_keys {sn : SNode} {r k : Elem} (h1 : OneCase d (.node sn) k) {q : QName} (hq : ∃ c, k.childrenWith q = [c])
    {g : Found} (hg : d.lookup (.node sn) q = .ok g) (hl : ∀ c ∈ r.childrenWith q, c.kids = []) :
    (clear d (.node sn) k r).childrenWith q = r.childrenWith q := by
  obtain ⟨c, hc⟩ := hq
  obtain ⟨hcm, hct⟩ := childrenWith_single hc
  show (clear d (.node sn) k r).kids.filter (fun c => c.tag = q) = r.kids.filter (fun c => c.tag = q)
  rw [clear_kids]
  refine filter_filterMap ?_ ?_
  · intro x hx hxt
    have hxt' : x.tag = q := by simpa using hxt
    have hfx : d.lookup (.node sn) x.tag = .ok g := by rw [hxt']; exact hg
    exact clearKid_leaf hfx (not_outcased h1 hfx hcm (by rw [hxt', hct])) (hl x (List.mem_filter.2 ⟨hx, hxt⟩))
  · intro x _ y hy hyt
    have := (clearKid_outer hy).tag
    simpa [← this] using hyt

/-- What a child is after clearing: itself, or cleared with its counterpart. -/
theorem clearKid_what (hR : Side d sc R) (hT : Side d sc T) (h1 : OneCase d sc T) {r s : Elem} (hr : r ∈ R.kids)
    (hs : clearKid d sc T r = some s) {f : Found} (hf : d.lookup sc r.tag = .ok f) :
    s = r ∨ ∃ k ∈ T.kids, uid d sc r = uid d sc k ∧ s = clear d (.node f.node) k r ∧
      (f.node.ntype = .container ∨ f.node.ntype = .list) := by
  by_cases hex : ∃ k ∈ T.kids, uid d sc r = uid d sc k
  · obtain ⟨k, hk, hu⟩ := hex
    rw [clearKid_peer hR hT h1 hr hk hu hf] at hs
    cases hs
    have hkid := hR.kid hr hf
    have leaf : r.kids = [] → clear d (.node f.node) k r = r := fun h => clear_leaf h
    unfold KidOk at hkid
    cases hn : f.node.ntype with
    | container => exact Or.inr ⟨k, hk, hu, rfl, Or.inl rfl⟩
    | list => exact Or.inr ⟨k, hk, hu, rfl, Or.inr rfl⟩
    | leaf => simp only [hn] at hkid; exact Or.inl (leaf hkid.1)
    | leafList => simp only [hn] at hkid; exact Or.inl (leaf hkid.1)
    | choice => simp [hn] at hkid
    | case => simp [hn] at hkid
    | other => simp [hn] at hkid
  · rw [clearKid_gone hR hT hr (fun k hk he => hex ⟨k, hk, he.symm⟩) hf (clearKid_cases hf hs)] at hs
    cases hs
    exact Or.inl rfl

theorem clear_lists {r k : Elem} (hR : Side d sc R) (hT : Side d sc T) (hr : r ∈ R.kids)
    (hk : k ∈ T.kids) (hu : uid d sc r = uid d sc k) {f : Found} (hf : d.lookup sc r.tag = .ok f)
    (h1 : OneCase d (.node f.node) k) (hn : f.node.ntype = .list) {q : QName} (hq : q ∈ f.node.keys) :
    (clear d (.node f.node) k r).childrenWith q = r.childrenWith q := by
  obtain ⟨g, hg, hgl, _⟩ := hR.level.here'.keys r hr f hf hn q hq
  have hkid := hT.kid hk (by rw [← tag_of_uid hu]; exact hf)
  unfold KidOk at hkid
  simp only [hn] at hkid
  refine clear_keys h1 (hkid.2.2.1 q hq) hg ?_
  intro c hc
  have hc' := List.mem_filter.1 hc
  have hct : c.tag = q := by simpa using hc'.2
  have := (hR.sub hr hf).kid (f := g) hc'.1 (by rw [hct]; exact hg)
  unfold KidOk at this
  simp only [hgl] at this
  exact this.1

theorem clear_kidOk {r s : Elem} (hR : Side d sc R) (hT : Side d sc T) (h1 : Deep d (OneCase d) sc T) (hr : r ∈ R.kids)
    (hs : clearKid d sc T r = some s) {f : Found} (hf : d.lookup sc r.tag = .ok f) :
    KidOk d f.node s ∧ uid d sc s = uid d sc r := by
  rcases clearKid_what hR hT h1.here' hr hs hf with rfl | ⟨k, hk, hu, rfl, hn⟩
  · exact ⟨hR.kid hr hf, rfl⟩
  · have hkid := hR.kid hr hf
    have hfk : d.lookup sc k.tag = .ok f := by rw [← tag_of_uid hu]; exact hf
    have hO := clearKid_outer hs
    have hfs : d.lookup sc (clear d (.node f.node) k r).tag = .ok f := by rw [clear_tag]; exact hf
    rcases hn with hn | hn
    · have hk' : KidOk d f.node (clear d (.node f.node) k r) := by
        unfold KidOk at hkid ⊢
        simpa only [hn] using hkid
      refine ⟨hk', (uid_eq_iff' hfs hk' hf hkid).2 ⟨clear_tag, ?_⟩⟩
      intro g hg
      rw [hfs] at hg; cases hg
      simp [hn]
    · have key : ∀ q ∈ f.node.keys, (clear d (.node f.node) k r).childrenWith q = r.childrenWith q := fun q hq =>
        clear_lists hR hT hr hk hu hf (h1.sub' k hk f hfk).here' hn hq
      have hk' : KidOk d f.node (clear d (.node f.node) k r) := by
        unfold KidOk at hkid ⊢
        simp only [hn] at hkid ⊢
        exact ⟨by rw [clear_text]; exact hkid.1, hkid.2.1, fun q hq => by rw [key q hq]; exact hkid.2.2.1 q hq, hkid.2.2.2⟩
      refine ⟨hk', (uid_eq_iff' hfs hk' hf hkid).2 ⟨clear_tag, ?_⟩⟩
      intro g hg
      rw [hfs] at hg; cases hg
      simp only [hn]
      intro q hq
      unfold keyTexts
      rw [key q hq]

theorem mem_clear {s : Elem} : s ∈ (clear d sc T R).kids ↔ ∃ r ∈ R.kids, clearKid d sc T r = some s := by
  rw [clear_kids, List.mem_filterMap]

end

/-- The cleared source is a config. -/
theorem clear_side : ∀ (R : Elem) {sc : Scope} {T : Elem}, Side d sc R → Side d sc T → Deep d (OneCase d) sc T →
    Side d sc (clear d sc T R) := by
  intro R
  induction R using Elem.ind with
  | h t n a x ks ih =>
    intro sc T hR hT h1
    set R := Elem.mk t n a x ks with hRd
    have hsub : ∀ s ∈ (clear d sc T R).kids, ∀ f, d.lookup sc s.tag = .ok f → Side d (.node f.node) s := by
      intro s hs f hf
      obtain ⟨r, hr, hrs⟩ := mem_clear.1 hs
      have hfr : d.lookup sc r.tag = .ok f := by rw [← (clearKid_outer hrs).tag]; exact hf
      rcases clearKid_what hR hT h1.here' hr hrs hfr with rfl | ⟨k, hk, hu, rfl, _⟩
      · exact hR.sub hr hfr
      · have hfk : d.lookup sc k.tag = .ok f := by rw [← tag_of_uid hu]; exact hfr
        exact ih r hr (hR.sub hr hfr) (hT.sub hk hfk) (h1.sub' k hk f hfk)
    have hout : ∀ s ∈ (clear d sc T R).kids, ∀ f, d.lookup sc s.tag = .ok f → ∃ r ∈ R.kids,
        clearKid d sc T r = some s ∧ SameOuter s r ∧ d.lookup sc r.tag = .ok f ∧
        (f.node.ntype ≠ .container → f.node.ntype ≠ .list → s = r) ∧
        (f.node.ntype = .list → ∀ q ∈ f.node.keys, s.childrenWith q = r.childrenWith q) := by
      intro s hs f hf
      obtain ⟨r, hr, hrs⟩ := mem_clear.1 hs
      have hfr : d.lookup sc r.tag = .ok f := by rw [← (clearKid_outer hrs).tag]; exact hf
      refine ⟨r, hr, hrs, clearKid_outer hrs, hfr, ?_, ?_⟩
      · intro n1 n2
        rcases clearKid_what hR hT h1.here' hr hrs hfr with h | ⟨k, hk, hu, h, h' | h'⟩
        · exact h
        · exact absurd h' n1
        · exact absurd h' n2
      · intro hn q hq
        rcases clearKid_what hR hT h1.here' hr hrs hfr with h | ⟨k, hk, hu, h, _⟩
        · rw [h]
        · have hfk : d.lookup sc k.tag = .ok f := by rw [← tag_of_uid hu]; exact hfr
          rw [h]
          exact clear_lists hR hT hr hk hu hfr (h1.sub' k hk f hfk).here' hn hq
    refine ⟨⟨?_, ?_, ?_, fun s hs f hf => (hsub s hs f hf).valid⟩, ⟨?_, ?_⟩, ⟨⟨?_, ?_, ?_, ?_, ?_, ?_, ?_, ?_, ?_, ?_⟩,
      fun s hs f hf => (hsub s hs f hf).level⟩⟩
    · rw [clear_attrs, hR.bare.here']; simp
    · intro s hs
      obtain ⟨r, hr, hrs⟩ := mem_clear.1 hs
      obtain ⟨f, hf, _⟩ := hR.valid.shape' r hr
      exact ⟨f, by rw [(clearKid_outer hrs).tag]; exact hf, (clear_kidOk hR hT h1 hr hrs hf).1⟩
    · rw [clear_kids, List.pairwise_filterMap]
      have hun : R.kids.Pairwise (fun x y => ¬ SameInstance d sc x y) := by
        cases hR.valid; assumption
      refine hun.imp_of_mem ?_
      intro r r' hr hr' hne s hs s' hs' hsame
      obtain ⟨f, hf, kf⟩ := hR.valid.shape' r hr
      obtain ⟨g, hg, kg⟩ := hR.valid.shape' r' hr'
      obtain ⟨k1, u1⟩ := clear_kidOk hR hT h1 hr hs hf
      obtain ⟨k2, u2⟩ := clear_kidOk hR hT h1 hr' hs' hg
      have e1 : d.lookup sc s.tag = .ok f := by rw [(clearKid_outer hs).tag]; exact hf
      have e2 : d.lookup sc s'.tag = .ok g := by rw [(clearKid_outer hs').tag]; exact hg
      have := (uid_eq_iff' e1 k1 e2 k2).2 hsame
      rw [u1, u2] at this
      exact hne ((uid_eq_iff' hf kf hg kg).1 this)
    · rw [clear_attrs]; exact hR.bare.here'
    · intro s hs
      obtain ⟨r, hr, hrs⟩ := mem_clear.1 hs
      obtain ⟨f, hf, _⟩ := hR.valid.shape' r hr
      exact (hsub s hs f (by rw [(clearKid_outer hrs).tag]; exact hf)).bare
    · rw [clear_nsmap]; exact hR.level.here'.nsmap
    · intro s hs f hf
      obtain ⟨r, hr, _, _, hfr, _, hk⟩ := hout s hs f hf
      intro hn q hq
      rw [hk hn q hq]
      exact hR.level.here'.keys r hr f hfr hn q hq
    · intro s hs f hf
      obtain ⟨r, hr, _, _, hfr, _⟩ := hout s hs f hf
      exact hR.level.here'.keysOnce r hr f hfr
    · intro s hs f hf hkey
      obtain ⟨r, hr, _, _, hfr, he, _⟩ := hout s hs f hf
      have hl := hR.level.here'.keyLeaf r hr f hfr hkey
      rw [he (by rw [hl.1]; decide) (by rw [hl.1]; decide)]
      exact hl
    · intro s hs f hf hn
      obtain ⟨r, hr, _, _, hfr, he, _⟩ := hout s hs f hf
      rw [he (by rcases hn with h | h <;> rw [h] <;> decide) (by rcases hn with h | h <;> rw [h] <;> decide)]
      exact hR.level.here'.values r hr f hfr hn
    · intro s hs f hf hn
      obtain ⟨r, hr, _, ho, hfr, _⟩ := hout s hs f hf
      rw [ho.text]
      exact hR.level.here'.noText r hr f hfr hn
    · intro s hs f hf hn
      obtain ⟨r, hr, _, _, hfr, he, _⟩ := hout s hs f hf
      rw [he (by rw [hn]; decide) (by rw [hn]; decide)]
      exact hR.level.here'.own r hr f hfr hn
    · intro s hs f hf hu hn
      obtain ⟨r, hr, _, _, hfr, he, _⟩ := hout s hs f hf
      rw [he (by rw [hn]; decide) (by rw [hn]; decide)]
      exact hR.level.here'.orderedValues r hr f hfr hu hn
    · intro s hs f hf hu hn q hq c hc
      obtain ⟨r, hr, _, _, hfr, _, hk⟩ := hout s hs f hf
      rw [hk hn q hq] at hc
      exact hR.level.here'.orderedKeys r hr f hfr hu hn q hq c hc
    · intro s hs s' hs' hss f hf hu hn q hq c hc
      obtain ⟨r, hr, _, ho, hfr, _, hk⟩ := hout s hs f hf
      obtain ⟨r', hr', _, ho', _, _, _⟩ := hout s' hs' f (by rw [← hss]; exact hf)
      rw [hk hn q hq] at hc
      rw [ho'.nsmap]
      exact hR.level.here'.orderedPrefixes r hr r' hr' (by rw [← ho.tag, ← ho'.tag]; exact hss) f hfr hu hn q hq c hc

/-- A source that is the same as the target keeps everything. -/
theorem clear_same : ∀ (R : Elem) {sc : Scope} {T : Elem}, Side d sc R → Side d sc T → Deep d (OneCase d) sc T →
    SameConfig d sc R T → clear d sc T R = R := by
  intro R
  induction R using Elem.ind with
  | h t n a x ks ih =>
    intro sc T hR hT h1 hs
    refine clear_of_kids ?_
    intro r hr
    obtain ⟨f, hf, _⟩ := hR.valid.shape' r hr
    obtain ⟨k, hk, hu, hsub⟩ : ∃ k ∈ T.kids, uid d sc r = uid d sc k ∧ SameConfig d (.node f.node) r k := by
      obtain ⟨k, hk, hi⟩ := hs.left hr
      exact ⟨k, hk, (same_uid hR.valid hT.valid hr hk).2 hi, hs.sub' hr hk hi hf⟩
    have hfk : d.lookup sc k.tag = .ok f := by rw [← tag_of_uid hu]; exact hf
    rw [clearKid_peer hR hT h1.here' hr hk hu hf,
      ih r hr (hR.sub hr hf) (hT.sub hk hfk) (h1.sub' k hk f hfk) hsub]

/-- Nothing was cleared if the result is the same as the target. -/
theorem same_clear : ∀ (R : Elem) {sc : Scope} {T : Elem}, Side d sc R → Side d sc T → Deep d (OneCase d) sc T →
    Deep d (OneCase d) sc R → SameConfig d sc (clear d sc T R) T → clear d sc T R = R := by
  intro R
  induction R using Elem.ind with
  | h t n a x ks ih =>
    intro sc T hR hT h1 h2 hs
    set R := Elem.mk t n a x ks with hRd
    have hC := clear_side R hR hT h1
    refine clear_of_kids ?_
    intro r hr
    obtain ⟨f, hf, _⟩ := hR.valid.shape' r hr
    have hno : outcased d sc T f = false := by
      cases ho : outcased d sc T f with
      | false => rfl
      | true =>
        obtain ⟨k, hk, _, g, hg, ha⟩ := outcased_iff.1 ho
        obtain ⟨s, hsm, hi⟩ := hs.symm.left hk
        obtain ⟨r', hr', hrs⟩ := mem_clear.1 hsm
        have ht : r'.tag = k.tag := by rw [← (clearKid_outer hrs).tag]; exact hi.1.symm
        rw [h2.here' r hr r' hr' f g hf (by rw [ht]; exact hg)] at ha
        cases ha
    by_cases hex : ∃ k ∈ T.kids, uid d sc r = uid d sc k
    · obtain ⟨k, hk, hu⟩ := hex
      have hfk : d.lookup sc k.tag = .ok f := by rw [← tag_of_uid hu]; exact hf
      have hk' := clearKid_peer hR hT h1.here' hr hk hu hf
      rw [hk']
      have hm : clear d (.node f.node) k r ∈ (clear d sc T R).kids := mem_clear.2 ⟨r, hr, hk'⟩
      have hus := (clear_kidOk hR hT h1 hr hk' hf).2
      rw [ih r hr (hR.sub hr hf) (hT.sub hk hfk) (h1.sub' k hk f hfk) (h2.sub' r hr f hf) (hs.sub' hm hk
        ((same_uid hC.valid hT.valid hm hk).1 (hus.trans hu)) (by rw [clear_tag]; exact hf))]
    · exact clearKid_gone hR hT hr (fun k hk he => hex ⟨k, hk, he.symm⟩) hf hno

/-- See `Switch`; the order counts if `ω`. -/
inductive SwitchW (ω : Prop) (d : Device) : Scope → Elem → Elem → Prop
  | mk {sc : Scope} {S T : Elem}
      (choice : ∀ s ∈ S.kids, ∀ k ∈ T.kids, Absent d sc T.kids s → Absent d sc S.kids k →
        ∀ f g, d.lookup sc s.tag = .ok f → d.lookup sc k.tag = .ok g → apart d sc f g = true → ¬ SameCase f g)
      (order : ω → ∀ t, UserOrdered d sc t → OrderSettles d sc t S.kids T.kids)
      (values : ∀ s ∈ S.kids, ∀ k ∈ T.kids, SameInstance d sc s k → ∀ f, d.lookup sc k.tag = .ok f →
        f.node.ntype = .leaf → (f.node.info.isKey = true ∧ s.text ≠ k.text) ∨ parseText d s f.node ≠ parseText d k f.node →
        Writable d f.node k s.nsmap)
      (sub : ∀ s ∈ S.kids, ∀ k ∈ T.kids, SameInstance d sc s k → ∀ f, d.lookup sc k.tag = .ok f →
        f.node.ntype = .container ∨ f.node.ntype = .list → SwitchW ω d (.node f.node) s k) :
      SwitchW ω d sc S T

theorem Switch.loose {R T : Elem} (h : Switch d sc R T) : SwitchW ω d sc R T := by
  induction h with
  | mk choice order values _ ih => exact ⟨choice, fun _ => order, values, ih⟩

section
variable {R T : Elem}

theorem SwitchW.choice' (h : SwitchW ω d sc R T) {s k : Elem} (hs : s ∈ R.kids) (hk : k ∈ T.kids)
    (h1 : Absent d sc T.kids s) (h2 : Absent d sc R.kids k) {f g : Found} (hf : d.lookup sc s.tag = .ok f)
    (hg : d.lookup sc k.tag = .ok g) (ha : apart d sc f g = true) : ¬ SameCase f g := by
  cases h with
  | mk choice _ _ _ => exact choice s hs k hk h1 h2 f g hf hg ha

theorem SwitchW.sub' (h : SwitchW ω d sc R T) {s k : Elem} (hs : s ∈ R.kids) (hk : k ∈ T.kids)
    (h1 : SameInstance d sc s k) {f : Found} (hf : d.lookup sc k.tag = .ok f)
    (hn : f.node.ntype = .container ∨ f.node.ntype = .list) : SwitchW ω d (.node f.node) s k := by
  cases h with
  | mk _ _ _ sub => exact sub s hs k hk h1 f hf hn

/-- The cleared form of a child that the target has. -/
theorem clear_peer (hR : Side d sc R) (hT : Side d sc T) (h1 : Deep d (OneCase d) sc T) {r s k : Elem} (hr : r ∈ R.kids)
    (hs : s ∈ (clear d sc T R).kids) (hk : k ∈ T.kids) (hu : uid d sc r = uid d sc k) (hsu : uid d sc s = uid d sc k)
    {f : Found} (hf : d.lookup sc r.tag = .ok f) : s = clear d (.node f.node) k r := by
  obtain ⟨r', hr', hrs⟩ := mem_clear.1 hs
  obtain ⟨f', hf', _⟩ := hR.valid.shape' r' hr'
  have hu' := (clear_kidOk hR hT h1 hr' hrs hf').2
  obtain rfl : r' = r := List.inj_on_of_nodup_map hR.valid.indexable.nodup hr' hr (by rw [← hu', hsu, hu])
  rw [clearKid_peer hR hT h1.here' hr hk hu hf] at hrs
  exact (Option.some.inj hrs).symm

end

/-- The difference that is computed for the source is one for the cleared source. -/
theorem clear_sheds : ∀ (R : Elem) {sc : Scope} {T : Elem}, (∀ n, sc = .node n → n.ntype ≠ .case) → Side d sc R →
    Side d sc T → Deep d (OneCase d) sc R → Deep d (OneCase d) sc T → SwitchW ω d sc R T → Deep d (FilledLevel d) sc R →
    Sheds d sc R (clear d sc T R) T := by
  intro R
  induction R using Elem.ind with
  | h t n a x ks ih =>
    intro sc T hsc hR hT h1 h2 hsw hfill
    set R := Elem.mk t n a x ks with hRd
    refine ⟨?_, ?_, ?_, ?_, ?_, ?_⟩
    · intro s hs
      obtain ⟨r, hr, hrs⟩ := mem_clear.1 hs
      obtain ⟨f, hf, _⟩ := hR.valid.shape' r hr
      have hu := (clear_kidOk hR hT h2 hr hrs hf).2
      refine ⟨r, hr, hu.symm, fun ha => ?_⟩
      rw [clearKid_gone hR hT hr (by rw [← hu]; exact ha) hf (clearKid_cases hf hrs)] at hrs
      exact Option.some.inj hrs
    · intro r hr k hk hu
      obtain ⟨f, hf, _⟩ := hR.valid.shape' r hr
      have hrs := clearKid_peer hR hT h2.here' hr hk hu hf
      exact ⟨_, mem_clear.2 ⟨r, hr, hrs⟩, (clear_kidOk hR hT h2 hr hrs hf).2.trans hu⟩
    · intro r hr ha
      obtain ⟨f, hf, _⟩ := hR.valid.shape' r hr
      cases ho : outcased d sc T f with
      | false => exact Or.inl (mem_clear.2 ⟨r, hr, clearKid_gone hR hT hr ha hf ho⟩)
      | true =>
        right
        obtain ⟨k, hk, _, g, hg, hap⟩ := outcased_iff.1 ho
        have hfresh : ∀ s ∈ R.kids, uid d sc s ≠ uid d sc k := by
          intro s hs he
          have := h1.here' r hr s hs f g hf (by rw [tag_of_uid he]; exact hg)
          rw [hap] at this; cases this
        have hns : ¬ SameCase f g := by
          refine hsw.choice' hr hk ?_ ?_ hf hg hap
          · intro y hy hs
            exact ha y hy ((same_uid hT.valid hR.valid hy hr).2 hs)
          · intro y hy hs
            exact hfresh y hy ((same_uid hR.valid hT.valid hy hk).2 hs)
        have hto : ∀ s ∈ (clear d sc T R).kids, ∃ r ∈ R.kids, uid d sc s = uid d sc r := by
          intro s hs
          obtain ⟨r', hr', hrs⟩ := mem_clear.1 hs
          obtain ⟨f', hf', _⟩ := hR.valid.shape' r' hr'
          exact ⟨r', hr', (clear_kidOk hR hT h2 hr' hrs hf').2⟩
        have hns' := hns
        simp only [SameCase, not_forall] at hns'
        obtain ⟨c1, c2, c3, c4⟩ := hns'
        refine ⟨?_, ?_, ?_, ?_, ?_⟩
        · intro f' hf'
          exact hfill.full hr hf'
        · intro k' hk' ht
          have := not_outcased h2.here' hf hk' ht.symm
          rw [ho] at this; cases this
        · intro s hs ht
          obtain ⟨r', hr', hrs⟩ := mem_clear.1 hs
          have := clearKid_cases (f := f) (by rw [← (clearKid_outer hrs).tag, ht]; exact hf) hrs
          rw [ho] at this; cases this
        · intro f' hf'
          obtain rfl : f = f' := Except.ok.inj (hf.symm.trans hf')
          refine ⟨c1, k, hk, ?_, g, hg, c2, c3.symm⟩
          intro s hs he
          obtain ⟨r', hr', he'⟩ := hto s hs
          exact hfresh r' hr' (he'.symm.trans he)
        · intro f' hf' k' hk' _ g' hg' hgu' hgc' heq
          obtain rfl : f = f' := Except.ok.inj (hf.symm.trans hf')
          have hno : ¬ SameCase g g' := by
            intro h
            have := h c2 hgu' (by rw [hgc', c3])
            exact c4 (by rw [this, heq])
          have := apart_of_cases hsc hg hg' hno
          rw [h2.here' k hk k' hk' g g' hg hg'] at this
          cases this
    · intro k hk f hf hn
      rw [clear_kids]
      refine (filter_filterMap ?_ ?_).symm
      · intro r hr ht
        have ht' : r.tag = k.tag := by simpa using ht
        have hfr : d.lookup sc r.tag = .ok f := by rw [ht']; exact hf
        have hkid := hR.kid hr hfr
        unfold KidOk at hkid
        simp only [hn] at hkid
        exact clearKid_leaf hfr (not_outcased h2.here' hfr hk ht') hkid.1
      · intro r _ s hs ht
        simpa [← (clearKid_outer hs).tag] using ht
    · intro r hr s hs k hk hu hsu f hf
      have hfr : d.lookup sc r.tag = .ok f := by rw [tag_of_uid hu]; exact hf
      have hse := clear_peer hR hT h2 hr hs hk hu hsu hfr
      rcases clearKid_what hR hT h2.here' hr (clearKid_peer hR hT h2.here' hr hk hu hfr) hfr with h | ⟨_, _, _, _, hn⟩
      · exact Or.inl (hse.trans h).symm
      · by_cases hsame : SameConfig d (.node f.node) r k
        · exact Or.inl (by rw [hse, clear_same r (hR.sub hr hfr) (hT.sub hk hf) (h2.sub' k hk f hf) hsame])
        · by_cases hsame' : SameConfig d (.node f.node) s k
          · rw [hse] at hsame'
            exact Or.inl (by rw [hse, same_clear r (hR.sub hr hfr) (hT.sub hk hf) (h2.sub' k hk f hf)
              (h1.sub' r hr f hfr) hsame'])
          · exact Or.inr ⟨hn, hsame, hsame'⟩
    · intro r hr s hs k hk hu hsu f hf hn
      have hfr : d.lookup sc r.tag = .ok f := by rw [tag_of_uid hu]; exact hf
      rw [clear_peer hR hT h2 hr hs hk hu hsu hfr]
      refine ih r hr ?_ (hR.sub hr hfr) (hT.sub hk hf) (h1.sub' r hr f hfr) (h2.sub' k hk f hf)
        (hsw.sub' hr hk ((same_uid hR.valid hT.valid hr hk).1 hu) hf hn) (hfill.sub' r hr f hfr)
      intro n hn'
      cases hn'
      rcases hn with h | h <;> rw [h] <;> decide

theorem forall2_filterMap {α β : Type} {P : α → β → Prop} {g : α → Option α} {l : List α} {l' : List β}
    (h : List.Forall₂ P l l') : (∀ x ∈ l, ∃ y, g x = some y ∧ ∀ j, P x j → P y j) → List.Forall₂ P (l.filterMap g) l' := by
  induction h with
  | nil => intro _; exact .nil
  | cons h _ ih =>
    intro hg
    obtain ⟨y, hy, hP⟩ := hg _ List.mem_cons_self
    rw [List.filterMap_cons_some hy]
    exact .cons (hP _ h) (ih (fun x hx => hg x (by simp [hx])))

/-- The cleared source and the target satisfy the conditions of the round trip. -/
theorem clear_compat : ∀ (R : Elem) {sc : Scope} {T : Elem}, (∀ n, sc = .node n → n.ntype ≠ .case) → Side d sc R →
    Side d sc T → Deep d (OneCase d) sc T → SwitchW ω d sc R T → Deep d (FilledLevel d) sc R →
    Deep d (FilledLevel d) sc T → CompatW ω d sc (clear d sc T R) T := by
  intro R
  induction R using Elem.ind with
  | h t n a x ks ih =>
    intro sc T hsc hR hT h2 hsw hfill hfull
    set R := Elem.mk t n a x ks with hRd
    have hC := clear_side R hR hT h2
    have hfrom : ∀ s ∈ (clear d sc T R).kids, ∀ f, d.lookup sc s.tag = .ok f → ∃ r ∈ R.kids,
        clearKid d sc T r = some s ∧ d.lookup sc r.tag = .ok f ∧ uid d sc s = uid d sc r := by
      intro s hs f hf
      obtain ⟨r, hr, hrs⟩ := mem_clear.1 hs
      have hfr : d.lookup sc r.tag = .ok f := by rw [← (clearKid_outer hrs).tag]; exact hf
      exact ⟨r, hr, hrs, hfr, (clear_kidOk hR hT h2 hr hrs hfr).2⟩
    refine ⟨?_, ?_, ?_, ?_, ?_, hfull⟩
    · intro s hs k hk _ _ f g hf hg
      by_contra hno
      obtain ⟨r, hr, hrs, hfr, _⟩ := hfrom s hs f hf
      have ho : outcased d sc T f = true :=
        outcased_iff.2 ⟨k, hk, puts_bare (hT.attrs hk), g, hg, apart_of_cases hsc hf hg hno⟩
      rw [clearKid_none hfr ho] at hrs
      cases hrs
    · intro hω t' ht'
      have hord : OrderSettles d sc t' R.kids T.kids := by
        cases hsw with
        | mk _ order _ _ => exact order hω t' ht'
      obtain ⟨σ, ⟨m, hsub, hmem, hfor⟩, hset⟩ := hord
      refine ⟨σ, ⟨m.filterMap (clearKid d sc T), ?_, ?_, ?_⟩, hset⟩
      · rw [clear_kids]
        exact hsub.filterMap _
      · intro s hs
        obtain ⟨f, hf, _⟩ := hC.valid.shape' s hs
        obtain ⟨r, hr, hrs, hfr, hu⟩ := hfrom s hs f hf
        have key : (∃ k ∈ T.kids, SameInstance d sc s k) ↔ (∃ k ∈ T.kids, SameInstance d sc r k) := by
          refine exists_congr fun k => and_congr_right fun hk => ?_
          rw [← same_uid hC.valid hT.valid hs hk, ← same_uid hR.valid hT.valid hr hk, hu]
        rw [key, (clearKid_outer hrs).tag, ← hmem r hr, List.mem_filterMap]
        refine ⟨?_, fun h => ⟨r, h, hrs⟩⟩
        rintro ⟨r', hr', hrs'⟩
        have hrR' := hsub.subset hr'
        obtain ⟨f', hf', _⟩ := hR.valid.shape' r' hrR'
        have hu' := (clear_kidOk hR hT h2 hrR' hrs' hf').2
        obtain rfl : r' = r := List.inj_on_of_nodup_map hR.valid.indexable.nodup hrR' hr (hu'.symm.trans hu)
        exact hr'
      · refine forall2_filterMap hfor ?_
        intro r hr
        have hrR := hsub.subset hr
        obtain ⟨f, hf, _⟩ := hR.valid.shape' r hrR
        obtain ⟨_, k, hk, hi⟩ := (hmem r hrR).1 hr
        have hrs := clearKid_peer hR hT h2.here' hrR hk ((same_uid hR.valid hT.valid hrR hk).2 hi) hf
        refine ⟨_, hrs, ?_⟩
        rintro j ⟨k', hk', hi'⟩
        have hkT : k' ∈ T.kids := (List.mem_filter.1 (List.mem_of_getElem? hk')).1
        have hs := mem_clear.2 ⟨r, hrR, hrs⟩
        refine ⟨k', hk', (same_uid hC.valid hT.valid hs hkT).1 ?_⟩
        rw [(clear_kidOk hR hT h2 hrR hrs hf).2]
        exact (same_uid hR.valid hT.valid hrR hkT).2 hi'
    · intro s hs k hk hi f hf hn hne
      have hfs : d.lookup sc s.tag = .ok f := by rw [hi.1]; exact hf
      obtain ⟨r, hr, hrs, hfr, hu⟩ := hfrom s hs f hfs
      have hsr : s = r := by
        rcases clearKid_what hR hT h2.here' hr hrs hfr with h | ⟨_, _, _, _, h | h⟩
        · exact h
        · rw [hn] at h; cases h
        · rw [hn] at h; cases h
      subst hsr
      cases hsw with
      | mk _ _ values _ => exact values s hr k hk hi f hf hn hne
    · intro s hs k hk hi f hf hn
      have hfs : d.lookup sc s.tag = .ok f := by rw [hi.1]; exact hf
      obtain ⟨r, hr, hrs, hfr, hu⟩ := hfrom s hs f hfs
      have hsu := (same_uid hC.valid hT.valid hs hk).2 hi
      have hru := hu.symm.trans hsu
      rw [clear_peer hR hT h2 hr hs hk hru hsu hfr]
      refine ih r hr ?_ (hR.sub hr hfr) (hT.sub hk hf) (h2.sub' k hk f hf)
        (hsw.sub' hr hk ((same_uid hR.valid hT.valid hr hk).1 hru) hf hn) (hfill.sub' r hr f hfr) (hfull.sub' k hk f hf)
      intro n hn'
      cases hn'
      rcases hn with h | h <;> rw [h] <;> decide
    · intro s hs ha f hf
      obtain ⟨r, hr, hrs, hfr, hu⟩ := hfrom s hs f hf
      have hsr : s = r := by
        rcases clearKid_what hR hT h2.here' hr hrs hfr with h | ⟨k, hk, hku, _, _⟩
        · exact h
        · exact absurd ((same_uid hT.valid hC.valid hk hs).1 (hu.trans hku).symm) (ha k hk)
      subst hsr
      exact hfill.full hr hf

/-! ## Clearing the source for the delta -/

theorem clearKid_found {X r x : Elem} (hR : Valid d sc R) (hX : Valid d sc X) (hr : r ∈ R.kids) (hx : x ∈ X.kids)
    (hu : uid d sc x = uid d sc r) {f : Found} (hf : d.lookup sc r.tag = .ok f) (ho : outcased d sc X f = false) :
    clearKid d sc X r = some (if puts x then clear d (.node f.node) x r else r) := by
  refine clearKid_with hf ho hx ((same_uid hX hR hx hr).1 hu) ?_
  intro y hy hs
  exact List.inj_on_of_nodup_map hX.indexable.nodup hy hx (((same_uid hX hR hy hr).2 hs).trans hu.symm)

theorem puts_of_op {x : Elem} {s : String} (h : opOf x = s) (h1 : s ≠ "delete") (h2 : s ≠ "remove") : puts x = true := by
  unfold puts
  rw [h]
  simp [h1, h2]

theorem not_puts {x : Elem} (h : opOf x = "delete" ∨ opOf x = "remove") : puts x = false := by
  unfold puts
  rcases h with h | h <;> rw [h] <;> decide

/-- A delta that empties a container clears nothing by itself. -/
theorem clear_marker : ∀ (R : Elem) {sc : Scope} {m : Elem}, Deep d (OneCase d) sc R →
    Diff ω d sc R (R.setKids []) m → clear d sc m R = R := by
  intro R
  induction R using Elem.ind with
  | h t n a x ks ih =>
    intro sc m h1 hd
    set R := Elem.mk t n a x ks with hRd
    have B := hd.base'
    refine clear_of_kids ?_
    intro r hr
    obtain ⟨f, hf, _⟩ := B.vS.shape' r hr
    have ho : outcased d sc m f = false := by
      cases ho : outcased d sc m f with
      | false => rfl
      | true =>
        obtain ⟨o, hom, _, g, hg, hap⟩ := outcased_iff.1 ho
        rcases B.only o hom with ⟨k, hk, _⟩ | ⟨s, hs, hu⟩
        · simp [Elem.kids_setKids] at hk
        · rw [h1.here' r hr s hs f g hf (by rw [tag_of_uid hu]; exact hg)] at hap
          cases hap
    have hno : ∀ k ∈ (R.setKids []).kids, uid d sc k ≠ uid d sc r := by simp [Elem.kids_setKids]
    obtain ⟨o, hom, hu⟩ := B.gone r hr hno
    rw [clearKid_found B.vS B.vD hr hom hu hf ho]
    rcases B.goneOp r hr hno o hom hu f hf with ⟨h, _⟩ | ⟨h, _⟩
    · rw [not_puts h]; rfl
    · rw [puts_of_op h (by decide) (by decide), if_pos rfl]
      refine congrArg some (ih r hr (h1.sub' r hr f hf) ?_)
      cases hd with
      | mk _ gone _ _ _ => exact gone r hr hno o hom hu h f hf

/-- The delta clears what the target clears. -/
theorem clear_delta : ∀ (R : Elem) {sc : Scope} {T D : Elem}, Side d sc R → Side d sc T → Deep d (OneCase d) sc R →
    Deep d (OneCase d) sc T → Diff ω d sc (clear d sc T R) T D → clear d sc D R = clear d sc T R := by
  intro R
  induction R using Elem.ind with
  | h t n a x ks ih =>
    intro sc T D hR hT h1 h2 hd
    set R := Elem.mk t n a x ks with hRd
    have B := hd.base'
    have hC := clear_side R hR hT h2
    suffices hk : ∀ r ∈ R.kids, clearKid d sc D r = clearKid d sc T r by
      have : (clear d sc D R).kids = (clear d sc T R).kids := by
        rw [clear_kids, clear_kids, List.filterMap_congr hk]
      rw [hRd] at this ⊢
      rw [clear, clear] at this ⊢
      simp only [Elem.kids] at this
      rw [this]
    have hto : ∀ s ∈ (clear d sc T R).kids, ∃ r ∈ R.kids, uid d sc s = uid d sc r := by
      intro s hs
      obtain ⟨r', hr', hrs⟩ := mem_clear.1 hs
      obtain ⟨f', hf', _⟩ := hR.valid.shape' r' hr'
      exact ⟨r', hr', (clear_kidOk hR hT h2 hr' hrs hf').2⟩
    intro r hr
    obtain ⟨f, hf, _⟩ := hR.valid.shape' r hr
    have ho : outcased d sc D f = outcased d sc T f := by
      rw [Bool.eq_iff_iff, outcased_iff, outcased_iff]
      constructor
      · rintro ⟨o, hoD, hp, g, hg, hap⟩
        by_cases hex : ∃ k ∈ T.kids, uid d sc k = uid d sc o
        · obtain ⟨k, hk, hu⟩ := hex
          exact ⟨k, hk, puts_bare (hT.attrs hk), g, by rw [tag_of_uid hu]; exact hg, hap⟩
        · rcases B.only o hoD with h | ⟨s, hs, hu⟩
          · exact absurd h hex
          · obtain ⟨r', hr', hu'⟩ := hto s hs
            rw [h1.here' r hr r' hr' f g hf (by rw [← tag_of_uid hu', tag_of_uid hu]; exact hg)] at hap
            cases hap
      · rintro ⟨k, hk, _, g, hg, hap⟩
        have hfresh : ∀ s ∈ (clear d sc T R).kids, uid d sc s ≠ uid d sc k := by
          intro s hs he
          obtain ⟨r', hr', hu'⟩ := hto s hs
          rw [h1.here' r hr r' hr' f g hf (by rw [← tag_of_uid hu', tag_of_uid he]; exact hg)] at hap
          cases hap
        obtain ⟨o, hoD, hu⟩ := B.new k hk hfresh
        refine ⟨o, hoD, ?_, g, by rw [tag_of_uid hu]; exact hg, hap⟩
        rcases (B.newOp k hk hfresh o hoD hu g hg).1 with h | h | h
        · exact puts_of_op h (by decide) (by decide)
        · exact puts_of_op h (by decide) (by decide)
        · exact puts_of_op h (by decide) (by decide)
    cases hoT : outcased d sc T f with
    | true => rw [clearKid_none hf hoT, clearKid_none hf (ho.trans hoT)]
    | false =>
      have hoD := ho.trans hoT
      by_cases hex : ∃ k ∈ T.kids, uid d sc r = uid d sc k
      · obtain ⟨k, hk, hu⟩ := hex
        have hfk : d.lookup sc k.tag = .ok f := by rw [← tag_of_uid hu]; exact hf
        have hrs := clearKid_peer hR hT h2.here' hr hk hu hf
        rw [hrs]
        have hs := mem_clear.2 ⟨r, hr, hrs⟩
        have hsu := (clear_kidOk hR hT h2 hr hrs hf).2.trans hu
        by_cases hexD : ∃ o ∈ D.kids, uid d sc o = uid d sc k
        · obtain ⟨o, hom, huo⟩ := hexD
          rw [clearKid_found hR.valid B.vD hr hom (huo.trans hu.symm) hf hoD]
          obtain ⟨_, _, b3⟩ := B.bothOp _ hs k hk o hom hsu huo f hfk
          rcases clearKid_what hR hT h2.here' hr hrs hf with hleaf | ⟨_, _, _, _, hn⟩
          · by_cases hn : f.node.ntype = .container ∨ f.node.ntype = .list
            · rcases b3 hn with ⟨hop, _⟩ | ⟨hop, _, _, hkk⟩
              · rw [puts_of_op hop (by decide) (by decide), if_pos rfl]
                refine congrArg some (ih r hr (hR.sub hr hf) (hT.sub hk hfk) (h1.sub' r hr f hf) (h2.sub' k hk f hfk) ?_)
                cases hd with
                | mk _ _ _ _ both => exact both _ hs k hk o hom hsu huo hop f hfk hn
              · rw [puts_of_op hop (by decide) (by decide), if_pos rfl]
                exact congrArg some (clear_congr hkk)
            · have hkid := hR.kid hr hf
              have hnil : r.kids = [] := by
                unfold KidOk at hkid
                cases hn' : f.node.ntype with
                | container => exact absurd (Or.inl hn') hn
                | list => exact absurd (Or.inr hn') hn
                | leaf => simp only [hn'] at hkid; exact hkid.1
                | leafList => simp only [hn'] at hkid; exact hkid.1
                | choice => simp [hn'] at hkid
                | case => simp [hn'] at hkid
                | other => simp [hn'] at hkid
              rw [clear_leaf hnil, clear_leaf hnil, ite_self]
          · rcases b3 hn with ⟨hop, _⟩ | ⟨hop, _, _, hkk⟩
            · rw [puts_of_op hop (by decide) (by decide), if_pos rfl]
              refine congrArg some (ih r hr (hR.sub hr hf) (hT.sub hk hfk) (h1.sub' r hr f hf) (h2.sub' k hk f hfk) ?_)
              cases hd with
              | mk _ _ _ _ both => exact both _ hs k hk o hom hsu huo hop f hfk hn
            · rw [puts_of_op hop (by decide) (by decide), if_pos rfl]
              exact congrArg some (clear_congr hkk)
        · have hsame := B.out _ hs k hk hsu (fun o ho he => hexD ⟨o, ho, he⟩) f hfk
          rw [same_clear r (hR.sub hr hf) (hT.sub hk hfk) (h2.sub' k hk f hfk) (h1.sub' r hr f hf) hsame]
          refine clearKid_alone hf hoD ?_
          intro o hoD' hi
          exact hexD ⟨o, hoD', ((same_uid B.vD hR.valid hoD' hr).2 hi).trans hu⟩
      · have hno : ∀ k ∈ T.kids, uid d sc k ≠ uid d sc r := fun k hk he => hex ⟨k, hk, he.symm⟩
        have hrs := clearKid_gone hR hT hr hno hf hoT
        rw [hrs]
        have hs := mem_clear.2 ⟨r, hr, hrs⟩
        obtain ⟨o, hom, hu⟩ := B.gone r hs hno
        rw [clearKid_found hR.valid B.vD hr hom hu hf hoD]
        rcases B.goneOp r hs hno o hom hu f hf with ⟨h, _⟩ | ⟨h, _⟩
        · rw [not_puts h]; rfl
        · rw [puts_of_op h (by decide) (by decide), if_pos rfl]
          refine congrArg some (clear_marker (ω := ω) r (h1.sub' r hr f hf) ?_)
          cases hd with
          | mk _ gone _ _ _ => exact gone r hs hno o hom hu h f hf

/-! ## Attributes that are not edit-config attributes -/

theorem strip_sameB (x s : Elem) : sameB d sc (strip x) s = sameB d sc x s := by
  have key : ∀ k, keyTexts (strip x) k = keyTexts x k := by
    intro k
    unfold keyTexts
    rw [strip_childrenWith, List.map_map]
    exact List.map_congr_left (fun c _ => strip_text c)
  unfold sameB
  rw [strip_tag]
  cases d.lookup sc x.tag with
  | error e => rfl
  | ok f => simp only [strip_parseText, key]

theorem strip_puts (x : Elem) : puts (strip x) = puts x := by
  unfold puts
  rw [strip_opOf]

theorem strip_outcased (X : Elem) (f : Found) : outcased d sc (strip X) f = outcased d sc X f := by
  unfold outcased
  rw [strip_kids, List.any_map]
  congr 1
  funext x
  simp only [Function.comp_apply, strip_puts, strip_tag]

theorem clear_strip : ∀ (R : Elem) {sc : Scope} (X : Elem), clear d sc (strip X) R = clear d sc X R := by
  intro R
  induction R using Elem.ind with
  | h t n a x ks ih =>
    intro sc X
    rw [clear, clear, clearKids_eq, clearKids_eq]
    congr 1
    refine List.filterMap_congr ?_
    intro r hr
    unfold clearKid
    cases d.lookup sc r.tag with
    | error e => rfl
    | ok f =>
      simp only [strip_outcased]
      split
      · rfl
      · rw [strip_kids, List.find?_map]
        have : ((fun x => sameB d sc x r) ∘ strip) = fun x => sameB d sc x r := by
          funext x
          exact strip_sameB x r
        rw [this]
        cases X.kids.find? (fun x => sameB d sc x r) with
        | none => rfl
        | some y =>
          simp only [Option.map_some, strip_puts]
          rw [ih r hr]

theorem clear_addAttr (R : Elem) (n : Nat) (X : Elem) : clear d sc (addAttrAtDepth n X) R = clear d sc X R := by
  rw [← clear_strip R (addAttrAtDepth n X), strip_addAttr, clear_strip]

/-! ## What is removed is not in the delta -/

theorem unmentioned_kids {R T X Y : Elem} (h : X.kids = Y.kids) (hu : Unmentioned d sc R T X) : Unmentioned d sc R T Y := by
  cases hu with
  | mk here sub => exact ⟨by rw [← h]; exact here, by rw [← h]; exact sub⟩

theorem unmentioned_self : ∀ (R : Elem) {sc : Scope} {T : Elem}, Valid d sc T → Deep d (OneCase d) sc T →
    Unmentioned d sc R T T := by
  intro R
  induction R using Elem.ind with
  | h t n a x ks ih =>
    intro sc T hT h2
    refine ⟨?_, ?_⟩
    · intro r hr f hf ho k hk hi
      rw [not_outcased h2.here' hf hk hi.1.symm] at ho
      cases ho
    · intro r hr k hk x hx _ h' f hf
      obtain rfl : x = k := List.inj_on_of_nodup_map hT.indexable.nodup hx hk ((same_uid hT hT hx hk).2 h')
      exact ih r hr (hT.sub' x hk f hf) (h2.sub' x hk f hf)

theorem unmentioned_leaf {R T X : Elem} (h : R.kids = []) : Unmentioned d sc R T X :=
  ⟨by simp [h], by simp [h]⟩

theorem clear_unmentioned : ∀ (R : Elem) {sc : Scope} {T D : Elem}, Side d sc R → Side d sc T → Deep d (OneCase d) sc R →
    Deep d (OneCase d) sc T → Diff ω d sc (clear d sc T R) T D → Unmentioned d sc R T D := by
  intro R
  induction R using Elem.ind with
  | h t n a x ks ih =>
    intro sc T D hR hT h1 h2 hd
    set R := Elem.mk t n a x ks with hRd
    have B := hd.base'
    refine ⟨?_, ?_⟩
    · intro r hr f hf ho o hoD hi
      rcases B.only o hoD with ⟨k, hk, hu⟩ | ⟨s, hs, hu⟩
      · rw [not_outcased h2.here' hf hk (by rw [tag_of_uid hu, hi.1])] at ho
        cases ho
      · obtain ⟨r', hr', hrs⟩ := mem_clear.1 hs
        rw [clearKid_cases (f := f) (by rw [← (clearKid_outer hrs).tag, tag_of_uid hu, hi.1]; exact hf) hrs] at ho
        cases ho
    · intro r hr k hk o hom hi hi' f hfk
      have hu := (same_uid hR.valid hT.valid hr hk).2 hi
      have huo := (same_uid B.vD hT.valid hom hk).2 hi'
      have hf : d.lookup sc r.tag = .ok f := by rw [tag_of_uid hu]; exact hfk
      have hrs := clearKid_peer hR hT h2.here' hr hk hu hf
      have hs := mem_clear.2 ⟨r, hr, hrs⟩
      have hsu := (clear_kidOk hR hT h2 hr hrs hf).2.trans hu
      by_cases hn : f.node.ntype = .container ∨ f.node.ntype = .list
      · rcases (B.bothOp _ hs k hk o hom hsu huo f hfk).2.2 hn with ⟨hop, _⟩ | ⟨_, _, _, hkk⟩
        · refine ih r hr (hR.sub hr hf) (hT.sub hk hfk) (h1.sub' r hr f hf) (h2.sub' k hk f hfk) ?_
          cases hd with
          | mk _ _ _ _ both => exact both _ hs k hk o hom hsu huo hop f hfk hn
        · exact unmentioned_kids hkk.symm (unmentioned_self r (hT.sub hk hfk).valid (h2.sub' k hk f hfk))
      · have hkid := hR.kid hr hf
        refine unmentioned_leaf ?_
        unfold KidOk at hkid
        cases hn' : f.node.ntype with
        | container => exact absurd (Or.inl hn') hn
        | list => exact absurd (Or.inr hn') hn
        | leaf => simp only [hn'] at hkid; exact hkid.1
        | leafList => simp only [hn'] at hkid; exact hkid.1
        | choice => simp [hn'] at hkid
        | case => simp [hn'] at hkid
        | other => simp [hn'] at hkid

theorem unmentioned_strip : ∀ (R : Elem) {sc : Scope} {T X Y : Elem}, strip X = strip Y → Unmentioned d sc R T X →
    Unmentioned d sc R T Y := by
  intro R
  induction R using Elem.ind with
  | h t n a x ks ih =>
    intro sc T X Y hs hu
    have hk : X.kids.map strip = Y.kids.map strip := by rw [← strip_kids, ← strip_kids, hs]
    have hto : ∀ y ∈ Y.kids, ∃ x ∈ X.kids, strip x = strip y := by
      intro y hy
      have : strip y ∈ X.kids.map strip := by rw [hk]; exact List.mem_map_of_mem hy
      exact List.mem_map.1 this
    have hin : ∀ {x y z : Elem}, strip x = strip y → SameInstance d sc y z → SameInstance d sc x z := by
      intro x y z he hi
      rw [← sameB_iff] at hi ⊢
      rw [← strip_sameB, he, strip_sameB]
      exact hi
    cases hu with
    | mk here sub =>
      refine ⟨?_, ?_⟩
      · intro r hr f hf ho y hy hi
        obtain ⟨x, hx, he⟩ := hto y hy
        exact here r hr f hf ho x hx (hin he hi)
      · intro r hr k hk y hy h1 h2 f hf
        obtain ⟨x, hx, he⟩ := hto y hy
        exact ih r hr he (sub r hr k hk x hx h1 (hin he h2) f hf)

end NcDiff
