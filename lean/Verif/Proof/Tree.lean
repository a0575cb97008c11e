import Verif.Spec.Tree
import Verif.Proof.Trim
/-!
# Removing read-only nodes, filtering, reordering
-/

namespace NcDiff

theorem bind_ok {α β : Type} {x : Except Err α} {g : α → Except Err β} {b : β} :
    (x >>= g) = .ok b ↔ ∃ a, x = .ok a ∧ g a = .ok b := by
  cases x with
  | error e => simp [bind, Except.bind]
  | ok a => simp [bind, Except.bind]

/-! ## Nodes of a tree -/

theorem below_eq (d : Device) (sc : Scope) (above : List Step) (e : Elem) :
    below d sc above e = belowKids d sc above 0 e.kids := by
  cases e; rfl

theorem schemaOf_ok {d : Device} {sc : Scope} {q : QName} {f : Found} (h : d.lookup sc q = .ok f) :
    schemaOf d sc q = some f.node := by simp [schemaOf, h]

/-- The way to each of the nodes starts with the way to the parent. -/
theorem belowKids_way {d : Device} {sc : Scope} (ks : List Elem) :
    ∀ {above i o}, o ∈ belowKids d sc above i ks → ∃ j sn w, o.way = above ++ (j, sn) :: w := by
  suffices h : (∀ e : Elem, ∀ sc above o, o ∈ below d sc above e → ∃ w, o.way = above ++ w ∧ w ≠ []) by
    intro above i o ho
    have key : ∀ (ks : List Elem) i, o ∈ belowKids d sc above i ks → ∃ j sn w, o.way = above ++ (j, sn) :: w := by
      intro ks
      induction ks with
      | nil => intro i hi; simp [belowKids] at hi
      | cons k r ih =>
        intro i hi
        rw [belowKids, List.mem_cons, List.mem_append] at hi
        rcases hi with rfl | hi | hi
        · exact ⟨i, _, [], rfl⟩
        · cases hs : schemaOf d sc k.tag with
          | none => rw [hs] at hi; cases hi
          | some sn =>
            rw [hs] at hi
            obtain ⟨w, hw, -⟩ := h _ _ _ _ hi
            exact ⟨i, some sn, w, by rw [hw]; simp⟩
        · exact ih _ hi
    exact key ks i ho
  intro e
  induction e using Elem.ind with
  | _ t n a x ks ih =>
    intro sc above o ho
    rw [below_eq] at ho
    have key : ∀ (l : List Elem) i, (∀ k ∈ l, k ∈ ks) → o ∈ belowKids d sc above i l → ∃ w, o.way = above ++ w ∧ w ≠ [] := by
      intro l
      induction l with
      | nil => intro i _ hi; simp [belowKids] at hi
      | cons k r ih' =>
        intro i hl hi
        rw [belowKids, List.mem_cons, List.mem_append] at hi
        rcases hi with rfl | hi | hi
        · exact ⟨_, rfl, by simp⟩
        · cases hs : schemaOf d sc k.tag with
          | none => rw [hs] at hi; cases hi
          | some sn =>
            rw [hs] at hi
            obtain ⟨w, hw, -⟩ := ih k (hl k (by simp)) _ _ _ hi
            exact ⟨(i, some sn) :: w, by rw [hw]; simp, by simp⟩
        · exact ih' _ (fun k hk => hl k (by simp [hk])) hi
    exact key ks 0 (fun _ h => h) ho

theorem below_way {d : Device} {sc : Scope} {above : List Step} {e : Elem} {o : Occ} (h : o ∈ below d sc above e) :
    ∃ j sn w, o.way = above ++ (j, sn) :: w := by
  rw [below_eq] at h; exact belowKids_way _ h

/-- Positions do not matter for the shapes. -/
theorem belowKids_shape {d : Device} : ∀ {sc : Scope} {above above' : List Step} {i i' : Nat} (ks : List Elem),
    above.map Prod.snd = above'.map Prod.snd →
    (belowKids d sc above i ks).map Occ.shape = (belowKids d sc above' i' ks).map Occ.shape := by
  suffices h : ∀ e : Elem, ∀ sc above above', above.map Prod.snd = above'.map Prod.snd →
      (below d sc above e).map Occ.shape = (below d sc above' e).map Occ.shape by
    intro sc above above' i i' ks hab
    induction ks generalizing i i' with
    | nil => rfl
    | cons k r ih =>
      simp only [belowKids, List.map_cons, List.map_append, Occ.shape, hab, List.map_nil]
      rw [ih (i := i + 1) (i' := i' + 1)]
      cases schemaOf d sc k.tag with
      | none => rfl
      | some sn => rw [h k _ (above ++ [(i, some sn)]) (above' ++ [(i', some sn)]) (by simp [hab])]
  intro e
  induction e using Elem.ind with
  | _ t n a x ks ih =>
    intro sc above above' hab
    rw [below_eq, below_eq]
    have key : ∀ (l : List Elem) i i', (∀ k ∈ l, k ∈ ks) → (belowKids d sc above i l).map Occ.shape = (belowKids d sc above' i' l).map Occ.shape := by
      intro l
      induction l with
      | nil => intros; rfl
      | cons k r ih' =>
        intro i i' hl
        simp only [belowKids, List.map_cons, List.map_append, Occ.shape, hab, List.map_nil]
        rw [ih' (i + 1) (i' + 1) (fun k hk => hl k (by simp [hk]))]
        cases schemaOf d sc k.tag with
        | none => rfl
        | some sn => rw [ih k (hl k (by simp)) _ (above ++ [(i, some sn)]) (above' ++ [(i', some sn)]) (by simp [hab])]
    exact key ks 0 0 (fun _ h => h)

theorem below_shape {d : Device} {sc : Scope} {above above' : List Step} (e : Elem)
    (h : above.map Prod.snd = above'.map Prod.snd) :
    (below d sc above e).map Occ.shape = (below d sc above' e).map Occ.shape := by
  rw [below_eq, below_eq]; exact belowKids_shape _ h

/-! ## Read-only nodes -/

theorem removeReadOnly_eq (d : Device) (sc : Scope) (e : Elem) :
    removeReadOnly d sc e = (do let ks ← removeReadOnlyKids d sc e.kids; pure (e.setKids ks)) := by
  cases e; rfl

theorem readWrite_append {above w : List Step} {l : Label}
    (ha : ∀ s ∈ above, ∀ sn, s.2 = some sn → sn.info.readOnly = false) :
    ReadWrite ⟨above ++ w, l⟩ ↔ ∀ s ∈ w, ∀ sn, s.2 = some sn → sn.info.readOnly = false := by
  unfold ReadWrite
  constructor
  · intro h s hs; exact h s (by simp [hs])
  · intro h s hs
    rw [List.mem_append] at hs
    exact hs.elim (ha s) (h s)

theorem not_readWrite {above w : List Step} {l : Label} {i : Nat} {sn : SNode} (h : sn.info.readOnly = true) :
    ¬ ReadWrite ⟨above ++ (i, some sn) :: w, l⟩ := by
  intro hr
  have := hr (i, some sn) (by simp) sn rfl
  rw [h] at this; cases this

/-- What is left after removing read-only nodes. -/
theorem removeReadOnly_occs {d : Device} (e : Elem) : ∀ {sc : Scope} {r : Elem} {above above' : List Step},
    removeReadOnly d sc e = .ok r → above.map Prod.snd = above'.map Prod.snd →
    (∀ s ∈ above, ∀ sn, s.2 = some sn → sn.info.readOnly = false) →
    r.label = e.label ∧
    (below d sc above' r).map Occ.shape = ((below d sc above e).filter (fun o => ReadWrite o)).map Occ.shape := by
  induction e using Elem.ind with
  | _ t n a x ks ih =>
    intro sc r above above' h hab hrw
    rw [removeReadOnly_eq] at h
    obtain ⟨ks', hks, h⟩ := bind_ok.mp h
    cases h
    refine ⟨rfl, ?_⟩
    rw [below_eq, below_eq]
    have key : ∀ (l l' : List Elem) i i', (∀ k ∈ l, k ∈ ks) → removeReadOnlyKids d sc l = .ok l' →
        (belowKids d sc above' i' l').map Occ.shape =
          ((belowKids d sc above i l).filter (fun o => ReadWrite o)).map Occ.shape := by
      intro l
      induction l with
      | nil => intro l' i i' _ hl; cases hl; rfl
      | cons k q ih' =>
        intro l' i i' hl hr
        rw [removeReadOnlyKids] at hr
        obtain ⟨f, hf, hr⟩ := bind_ok.mp hr
        have hq : ∀ k ∈ q, k ∈ ks := fun k hk => hl k (by simp [hk])
        by_cases hro : f.node.info.readOnly = true
        · rw [if_pos hro] at hr
          have hnil : (below d (.node f.node) (above ++ [(i, some f.node)]) k).filter (fun o => ReadWrite o) = [] := by
            rw [List.filter_eq_nil_iff]
            intro o ho
            obtain ⟨j, sn, w, hw⟩ := below_way ho
            have : o = ⟨above ++ (i, some f.node) :: (j, sn) :: w, o.label⟩ := by
              cases o; simp at hw ⊢; rw [hw]
            rw [this]; simpa using not_readWrite hro
          rw [ih' l' (i + 1) i' hq hr, belowKids, schemaOf_ok hf, List.filter_cons_of_neg, List.filter_append]
          · simp only [hnil, List.nil_append]
          · simpa using not_readWrite hro
        · rw [if_neg hro] at hr
          obtain ⟨k', hk', hr⟩ := bind_ok.mp hr
          obtain ⟨q', hq', hr⟩ := bind_ok.mp hr
          cases hr
          have hro' : f.node.info.readOnly = false := by simpa using hro
          have hrw' : ∀ s ∈ above ++ [(i, some f.node)], ∀ sn, s.2 = some sn → sn.info.readOnly = false := by
            intro s hs
            rw [List.mem_append] at hs
            rcases hs with hs | hs
            · exact hrw s hs
            · rw [List.mem_singleton] at hs; subst hs; rintro sn ⟨⟩; exact hro'
          obtain ⟨hlab, hsh⟩ := ih k (hl k (by simp)) (above := above ++ [(i, some f.node)])
            (above' := above' ++ [(i', some f.node)]) hk' (by simp [hab]) hrw'
          have htag : k'.tag = k.tag := congrArg Label.tag hlab
          simp only [belowKids, htag, schemaOf_ok hf]
          rw [List.filter_cons_of_pos (p := fun o => decide (ReadWrite o)) (decide_eq_true (show ReadWrite ⟨above ++ [(i, some f.node)], k.label⟩ from hrw')), List.filter_append, List.map_cons, List.map_append,
            List.map_cons, List.map_append, hsh, ih' q' (i + 1) (i' + 1) hq hq']
          simp [Occ.shape, hlab, hab]
    exact key ks ks' 0 0 (fun _ h => h) hks

/-! ## Filtering -/

theorem filterNode_eq (d : Device) (sc : Scope) (sel : List (List Nat)) (e : Elem) :
    filterNode d sc sel e = (do let ks ← filterKids d sc sel 0 e.kids; pure (e.setKids ks)) := by
  cases e; rfl

theorem mem_selectIn {i : Nat} {sel : List (List Nat)} {p : List Nat} : p ∈ selectIn i sel ↔ i :: p ∈ sel := by
  unfold selectIn
  rw [List.mem_filterMap]
  constructor
  · rintro ⟨s, hs, h⟩
    cases s with
    | nil => cases h
    | cons j r =>
      by_cases hj : j = i
      · subst hj; simp at h; subst h; exact hs
      · simp [hj] at h
  · intro h; exact ⟨_, h, by simp⟩

/-- `Selected` for the way from a node; `inList` says whether that node is a list entry. -/
def SelectedIn (inList : Bool) (sel : List (List Nat)) (w : List Step) : Prop :=
  (∃ s ∈ sel, s <+: w.map Prod.fst ∨ w.map Prod.fst <+: s) ∨
  (inList = true ∧ ∃ y rest sn, w = y :: rest ∧ y.2 = some sn ∧ sn.info.isKey = true) ∨ KeyOfAncestor sel w

/-- The node at the end of the way is a list entry. -/
def isList (s : Option SNode) : Bool :=
  match s with
  | some sn => sn.ntype = .list
  | none => false

theorem keyOfAncestor_cons {sel : List (List Nat)} {i : Nat} {sn : Option SNode} {w : List Step} :
    KeyOfAncestor sel ((i, sn) :: w) ↔
      (selectIn i sel ≠ [] ∧ isList sn = true ∧ ∃ y rest s, w = y :: rest ∧ y.2 = some s ∧ s.info.isKey = true) ∨
      KeyOfAncestor (selectIn i sel) w := by
  constructor
  · rintro ⟨pre, x, y, rest, hw, ⟨s1, hx, hl⟩, ⟨s2, hy, hk⟩, s, hs, hp⟩
    cases pre with
    | nil =>
      left
      simp only [List.nil_append, List.cons.injEq] at hw
      obtain ⟨rfl, rfl⟩ := hw
      obtain ⟨q, rfl⟩ := hp
      refine ⟨List.ne_nil_of_mem (mem_selectIn.mpr (by simpa using hs)), ?_, y, rest, s2, rfl, hy, hk⟩
      simp only at hx; subst hx; simpa [isList] using hl
    | cons z pre =>
      right
      simp only [List.cons_append, List.cons.injEq] at hw
      obtain ⟨rfl, rfl⟩ := hw
      obtain ⟨q, rfl⟩ := hp
      refine ⟨pre, x, y, rest, rfl, ⟨s1, hx, hl⟩, ⟨s2, hy, hk⟩, _, mem_selectIn.mpr (by simpa using hs), ?_⟩
      exact ⟨q, by simp⟩
  · rintro (⟨hne, hl, y, rest, s, rfl, hy, hk⟩ | ⟨pre, x, y, rest, rfl, hx, hy, s, hs, hp⟩)
    · obtain ⟨p, hp⟩ := List.exists_mem_of_ne_nil _ hne
      cases sn with
      | none => cases hl
      | some s1 =>
        refine ⟨[], (i, some s1), y, rest, rfl, ⟨s1, rfl, by simpa [isList] using hl⟩, ⟨s, hy, hk⟩, _, mem_selectIn.mp hp, ?_⟩
        exact ⟨p, rfl⟩
    · obtain ⟨q, rfl⟩ := hp
      exact ⟨(i, sn) :: pre, x, y, rest, rfl, hx, hy, _, mem_selectIn.mp hs, ⟨q, by simp⟩⟩

/-- One step down. -/
theorem selectedIn_cons {b : Bool} {sel : List (List Nat)} {i : Nat} {sn : Option SNode} {w : List Step}
    (hsel : [] ∉ sel) (hin : [] ∉ selectIn i sel) (hkey : ¬ (b = true ∧ ∃ s, sn = some s ∧ s.info.isKey = true)) :
    SelectedIn b sel ((i, sn) :: w) ↔
      selectIn i sel ≠ [] ∧ (w = [] ∨ SelectedIn (isList sn) (selectIn i sel) w) := by
  unfold SelectedIn
  rw [keyOfAncestor_cons]
  constructor
  · rintro (⟨s, hs, h⟩ | ⟨hb, y, rest, s, hw, hy, hk⟩ | ⟨hne, hl, h⟩ | h)
    · cases s with
      | nil => exact absurd hs hsel
      | cons j s =>
        have hji : j = i := by
          rcases h with ⟨q, h⟩ | ⟨q, h⟩ <;> simp at h
          · exact h.1
          · exact h.1.symm
        subst hji
        have hs' := mem_selectIn.mpr hs
        refine ⟨List.ne_nil_of_mem hs', .inr (.inl ⟨s, hs', ?_⟩)⟩
        simpa using h
    · simp only [List.cons.injEq] at hw
      obtain ⟨rfl, rfl⟩ := hw
      exact absurd ⟨hb, s, hy, hk⟩ hkey
    · exact ⟨hne, .inr (.inr (.inl ⟨hl, h⟩))⟩
    · refine ⟨?_, .inr (.inr (.inr h))⟩
      obtain ⟨_, _, _, _, _, _, _, s, hs, _⟩ := h
      exact List.ne_nil_of_mem hs
  · rintro ⟨hne, h⟩
    rcases h with rfl | ⟨s, hs, h⟩ | ⟨hl, h⟩ | h
    · obtain ⟨p, hp⟩ := List.exists_mem_of_ne_nil _ hne
      exact .inl ⟨_, mem_selectIn.mp hp, .inr ⟨p, rfl⟩⟩
    · exact .inl ⟨_, mem_selectIn.mp hs, by simpa using h⟩
    · exact .inr (.inr (.inl ⟨hne, hl, h⟩))
    · exact .inr (.inr (.inr h))

/-- Everything below a selected child or below a key of a list entry is kept. -/
theorem selectedIn_all {b : Bool} {sel : List (List Nat)} {i : Nat} {sn : Option SNode} {w : List Step}
    (h : [] ∈ selectIn i sel ∨ (b = true ∧ ∃ s, sn = some s ∧ s.info.isKey = true)) :
    SelectedIn b sel ((i, sn) :: w) := by
  rcases h with h | ⟨hb, s, hs, hk⟩
  · exact .inl ⟨_, mem_selectIn.mp h, .inl ⟨_, rfl⟩⟩
  · exact .inr (.inl ⟨hb, _, _, s, rfl, hs, hk⟩)

open Classical in
/-- What is left after filtering. -/
theorem filterNode_occs {d : Device} (e : Elem) : ∀ {sc : Scope} {r : Elem} {sel : List (List Nat)} {above above' : List Step},
    filterNode d sc sel e = .ok r → [] ∉ sel → above.map Prod.snd = above'.map Prod.snd →
    r.label = e.label ∧
    (below d sc above' r).map Occ.shape =
      ((below d sc above e).filter (fun o => SelectedIn (keepsKeys sc) sel (o.way.drop above.length))).map Occ.shape := by
  induction e using Elem.ind with
  | _ t n a x ks ih =>
    intro sc r sel above above' h hsel hab
    rw [filterNode_eq] at h
    obtain ⟨ks', hks, h⟩ := bind_ok.mp h
    cases h
    refine ⟨rfl, ?_⟩
    rw [below_eq, below_eq]
    have key : ∀ (l l' : List Elem) i i', (∀ k ∈ l, k ∈ ks) → filterKids d sc sel i l = .ok l' →
        (belowKids d sc above' i' l').map Occ.shape =
          ((belowKids d sc above i l).filter (fun o => SelectedIn (keepsKeys sc) sel (o.way.drop above.length))).map
            Occ.shape := by
      intro l
      induction l with
      | nil => intro l' i i' _ hl; cases hl; rfl
      | cons k q ih' =>
        intro l' i i' hl hr
        rw [filterKids] at hr
        obtain ⟨f, hf, hr⟩ := bind_ok.mp hr
        obtain ⟨q', hq', hr⟩ := bind_ok.mp hr
        have hq : ∀ k ∈ q, k ∈ ks := fun k hk => hl k (by simp [hk])
        have hdrop : ∀ w : List Step, (above ++ (i, some f.node) :: w).drop above.length = (i, some f.node) :: w := by
          intro w; simp
        rw [belowKids, schemaOf_ok hf]
        by_cases h1 : [] ∈ selectIn i sel ∨ (keepsKeys sc ∧ f.node.info.isKey)
        · rw [if_pos h1] at hr
          cases hr
          have h1' : [] ∈ selectIn i sel ∨ (keepsKeys sc = true ∧ ∃ s, some f.node = some s ∧ s.info.isKey = true) := by
            rcases h1 with h1 | ⟨h1, h2⟩
            · exact .inl h1
            · exact .inr ⟨h1, _, rfl, h2⟩
          rw [List.filter_cons_of_pos (by simpa using selectedIn_all h1'), List.filter_append, List.filter_eq_self.mpr]
          · rw [List.map_cons, List.map_append, ← ih' q' (i + 1) (i' + 1) hq hq', belowKids, schemaOf_ok hf,
              List.map_cons, List.map_append, below_shape (above := above' ++ [(i', some f.node)])
                (above' := above ++ [(i, some f.node)]) k (by simp [hab])]
            simp [Occ.shape, hab]
          · intro o ho
            obtain ⟨j, sn, w, hw⟩ := below_way ho
            rw [hw]
            simpa using selectedIn_all h1'
        · rw [if_neg h1] at hr
          have hn1 : [] ∉ selectIn i sel := fun h => h1 (.inl h)
          have hn2 : ¬ (keepsKeys sc = true ∧ ∃ s, some f.node = some s ∧ s.info.isKey = true) := by
            rintro ⟨ha, s, ⟨⟩, hk⟩; exact h1 (.inr ⟨ha, hk⟩)
          by_cases h2 : selectIn i sel = []
          · rw [if_pos h2] at hr
            cases hr
            have hnil : (below d (.node f.node) (above ++ [(i, some f.node)]) k).filter
                (fun o => SelectedIn (keepsKeys sc) sel (o.way.drop above.length)) = [] := by
              rw [List.filter_eq_nil_iff]
              intro o ho
              obtain ⟨j, sn, w, hw⟩ := below_way ho
              rw [hw]
              simp [selectedIn_cons hsel hn1 hn2, h2]
            rw [List.filter_cons_of_neg (by simp [selectedIn_cons hsel hn1 hn2, h2]), List.filter_append]
            simp only [hnil, List.nil_append]
            exact ih' _ (i + 1) i' hq hq'
          · rw [if_neg h2] at hr
            obtain ⟨k', hk', hr⟩ := bind_ok.mp hr
            cases hr
            obtain ⟨hlab, hsh⟩ := ih k (hl k (by simp)) (above := above ++ [(i, some f.node)])
              (above' := above' ++ [(i', some f.node)]) hk' hn1 (by simp [hab])
            have htag : k'.tag = k.tag := congrArg Label.tag hlab
            rw [List.filter_cons_of_pos (by simp [selectedIn_cons hsel hn1 hn2, h2]), List.filter_append]
            rw [show (below d (.node f.node) (above ++ [(i, some f.node)]) k).filter
                (fun o => SelectedIn (keepsKeys sc) sel (o.way.drop above.length)) =
                (below d (.node f.node) (above ++ [(i, some f.node)]) k).filter
                (fun o => SelectedIn (keepsKeys (.node f.node)) (selectIn i sel) (o.way.drop (above ++ [(i, some f.node)]).length)) from
              List.filter_congr (by
                intro o ho
                obtain ⟨j, sn, w, hw⟩ := below_way ho
                rw [hw]
                have := selectedIn_cons (w := (j, sn) :: w) hsel hn1 hn2
                simpa [h2, isList, keepsKeys] using this)]
            rw [List.map_cons, List.map_append, ← hsh, ← ih' q' (i + 1) (i' + 1) hq hq']
            simp only [belowKids, htag, schemaOf_ok hf]
            simp [Occ.shape, hlab, hab]
    exact key ks ks' 0 0 (fun _ h => h) hks

/-! ## Reordering -/

theorem leadingKeys_spec {d : Device} {sc : Scope} : ∀ {ks : List Elem} {n : Nat}, leadingKeys d sc ks = .ok n →
    (∀ k ∈ ks.take n, ∃ sn, schemaOf d sc k.tag = some sn ∧ sn.info.isKey = true) ∧
    ∀ k ∈ (ks.drop n).head?, ∃ sn, schemaOf d sc k.tag = some sn ∧ sn.info.isKey = false := by
  intro ks
  induction ks with
  | nil => intro n h; simp
  | cons k r ih =>
    intro n h
    rw [leadingKeys] at h
    obtain ⟨f, hf, h⟩ := bind_ok.mp h
    by_cases hk : f.node.info.isKey = true
    · rw [if_pos hk] at h
      obtain ⟨m, hm, h⟩ := bind_ok.mp h
      cases h
      obtain ⟨h1, h2⟩ := ih hm
      refine ⟨?_, by simpa using h2⟩
      intro x hx
      rw [List.take_succ_cons, List.mem_cons] at hx
      rcases hx with rfl | hx
      · exact ⟨_, schemaOf_ok hf, hk⟩
      · exact h1 x hx
    · rw [if_neg hk] at h
      cases h
      refine ⟨by simp, ?_⟩
      intro x hx
      simp at hx; subst hx
      exact ⟨_, schemaOf_ok hf, by simpa using hk⟩

theorem filterMap_range {α : Type} (l : List α) : (List.range l.length).filterMap (fun i => l[i]?) = l := by
  induction l with
  | nil => rfl
  | cons a l ih =>
    rw [List.length_cons, List.range_succ_eq_map, List.filterMap_cons]
    simp only [List.getElem?_cons_zero, List.filterMap_map]
    congr 1

/-- The permutation that a sampled order gives. -/
theorem sample_perm {α : Type} {l : List α} {p : List Nat} (h : p.Perm (List.range l.length)) :
    (p.filterMap (fun i => l[i]?)).Perm l := by
  have := h.filterMap (fun i => l[i]?)
  rwa [filterMap_range] at this

theorem reorderChildren_spec {d : Device} {rnd : Nat → List Nat} {sc : Scope} {e r : Elem}
    (hr : ∀ n, (rnd n).Perm (List.range n)) (h : reorderChildren d rnd sc e = .ok r) : Shuffled d 0 sc e r := by
  unfold reorderChildren at h
  obtain ⟨n, hn, h⟩ := bind_ok.mp h
  obtain ⟨h1, h2⟩ := leadingKeys_spec hn
  simp only at h
  have hsplit : e.kids = e.kids.take n ++ e.kids.drop n := (List.take_append_drop n _).symm
  split at h
  · cases h
    refine ⟨by cases e; rfl, e.kids.take n, e.kids.drop n, (e.kids.drop n).drop 1 ++ (e.kids.drop n).take 1, hsplit, ?_, ?_, h1, h2⟩
    · cases e; simp [Elem.setKids, Elem.kids]
    · have := List.take_append_drop 1 (e.kids.drop n)
      conv_rhs => rw [← this]
      exact List.perm_append_comm
  · split at h
    · cases h
      refine ⟨by cases e; rfl, e.kids.take n, e.kids.drop n, _, hsplit, ?_, sample_perm (hr _), h1, h2⟩
      cases e; simp [Elem.setKids, Elem.kids]
    · cases h
      exact ⟨rfl, e.kids.take n, e.kids.drop n, e.kids.drop n, hsplit, hsplit, .refl _, h1, h2⟩

/-- Reordering only rearranges children at the given depth. -/
theorem reorder_spec {d : Device} {rnd : Nat → List Nat} (hr : ∀ n, (rnd n).Perm (List.range n)) :
    ∀ {depth : Nat} {sc : Scope} {e r : Elem}, reorder d rnd sc depth e = .ok r → Shuffled d depth sc e r := by
  intro depth
  induction depth with
  | zero => intro sc e r h; rw [reorder] at h; exact reorderChildren_spec hr h
  | succ m ih =>
    intro sc e r h
    cases e with
    | mk t n a x ks =>
      rw [reorder] at h
      obtain ⟨ks', hks, h⟩ := bind_ok.mp h
      cases h
      refine ⟨rfl, ?_⟩
      simp only [Elem.kids]
      clear * - ih hks
      induction ks generalizing ks' with
      | nil => rw [reorderKids] at hks; cases hks; exact .nil
      | cons k q ihq =>
        rw [reorderKids] at hks
        obtain ⟨f, hf, h⟩ := bind_ok.mp hks
        obtain ⟨k', hk', h⟩ := bind_ok.mp h
        obtain ⟨q', hq', h⟩ := bind_ok.mp h
        cases h
        exact .cons ⟨_, schemaOf_ok hf, ih hk'⟩ (ihq _ hq')

theorem belowKids_flat {d : Device} {sc : Scope} {above : List Step} : ∀ (ks : List Elem) {i : Nat},
    (belowKids d sc above i ks).map Occ.shape = ks.flatMap (fun k => (belowKids d sc above 0 [k]).map Occ.shape)
  | [], _ => rfl
  | k :: r, i => by
    rw [List.flatMap_cons, ← belowKids_flat r (i := i + 1), belowKids_shape (i := 0) (i' := i) [k] rfl]
    simp [belowKids]

/-- A rearranged tree has the same nodes. -/
theorem shuffled_perm {d : Device} : ∀ {depth : Nat} {sc : Scope} {e r : Elem} (above : List Step),
    Shuffled d depth sc e r → ((below d sc above r).map Occ.shape).Perm ((below d sc above e).map Occ.shape) := by
  intro depth
  induction depth with
  | zero =>
    rintro sc e r above ⟨-, keys, rest, rest', he, hr, hp, -⟩
    rw [below_eq, below_eq, belowKids_flat, belowKids_flat, he, hr]
    exact (hp.append_left keys).flatMap_right _
  | succ m ih =>
    rintro sc e r above ⟨-, h⟩
    rw [below_eq, below_eq, belowKids_flat, belowKids_flat]
    generalize e.kids = ks at h ⊢
    generalize r.kids = ks' at h ⊢
    induction h with
    | nil => exact .refl _
    | @cons k k' l l' hk _ ihl =>
      rw [List.flatMap_cons, List.flatMap_cons]
      refine .append ?_ ihl
      obtain ⟨sn, hs, hsh⟩ := hk
      have hlab : k'.label = k.label := by cases m <;> exact hsh.1
      have htag : k'.tag = k.tag := congrArg Label.tag hlab
      simp only [belowKids, htag, hs, hlab, List.append_nil, List.map_cons]
      exact (ih _ hsh).cons _

/-! ## Success -/

theorem trim_known {d : Device} : ∀ (e : Elem) {sc : Scope} {e' : Elem}, trimDefaults d sc e = .ok e' → Known d sc e' := by
  intro e
  induction e using Elem.ind with
  | _ t n a x ks ih =>
    intro sc e' h
    obtain ⟨ks', hk, rfl⟩ := trimDefaults_inv h
    obtain ⟨l, h1, h2, h3⟩ := trimKids_inv hk
    have key : ∀ k' ∈ ks', ∃ f, d.lookup sc k'.tag = .ok f ∧ Known d (.node f.node) k' := by
      intro k' hk'
      rw [← h2, List.mem_filterMap] at hk'
      obtain ⟨p, hp, hpk⟩ := hk'
      obtain ⟨f, k, hf, hk, hs⟩ := h3 p hp
      rw [hs] at hpk
      split at hpk
      · cases hpk
      · cases hpk
        obtain ⟨q, _, rfl⟩ := trimDefaults_inv hk
        have hm : p.1 ∈ ks := by
          have := List.mem_map_of_mem (f := Prod.fst) hp
          rwa [h1] at this
        exact ⟨f, by simpa using hf, ih p.1 hm hk⟩
    refine ⟨fun k hk => ?_, fun k hk f hf => ?_⟩
    · obtain ⟨f, hf, _⟩ := key k (by simpa using hk); exact ⟨f, hf⟩
    · obtain ⟨f', hf', hs⟩ := key k (by simpa using hk)
      obtain rfl := Except.ok.inj (hf'.symm.trans hf); exact hs

theorem known_nil {d : Device} {sc : Scope} {e : Elem} (h : e.kids = []) : Known d sc e :=
  ⟨by simp [h], by simp [h]⟩

theorem validateNode_known {d : Device} {rd : Bool} : ∀ (e : Elem),
    (∀ {sn : SNode} {e' : Elem}, validateNode d rd sn e = .ok e' → e'.tag = e.tag ∧ Known d (.node sn) e') ∧
    ∀ {sc : Scope} {ks' : List Elem}, validateKids d rd sc e.kids = .ok ks' →
      ∀ k ∈ ks', ∃ f, d.lookup sc k.tag = .ok f ∧ Known d (.node f.node) k := by
  intro e
  induction e using Elem.ind with
  | _ t n a x ks ih =>
    have kids : ∀ {sc : Scope} {ks' : List Elem}, validateKids d rd sc ks = .ok ks' →
        ∀ k ∈ ks', ∃ f, d.lookup sc k.tag = .ok f ∧ Known d (.node f.node) k := by
      intro sc ks' h
      have key : ∀ (l l' : List Elem), (∀ k ∈ l, k ∈ ks) → validateKids d rd sc l = .ok l' →
          ∀ k ∈ l', ∃ f, d.lookup sc k.tag = .ok f ∧ Known d (.node f.node) k := by
        intro l
        induction l with
        | nil => intro l' _ h; rw [validateKids] at h; cases h; simp
        | cons k q ihq =>
          intro l' hl h
          rw [validateKids] at h
          obtain ⟨f, hf, h⟩ := bind_ok.mp h
          obtain ⟨k', hk, h⟩ : ∃ k', (k'.tag = k.tag ∧ Known d (.node f.node) k') ∧
              (do let r' ← validateKids d rd sc q
                  pure (if validateDrops rd f.node k' = true then r' else k' :: r')) = Except.ok l' := by
            by_cases hnil : k.kids = []
            · simp only [hnil, if_true] at h
              exact ⟨k, ⟨rfl, known_nil hnil⟩, h⟩
            · simp only [hnil, if_false] at h
              obtain ⟨k', hk', h⟩ := bind_ok.mp h
              exact ⟨k', (ih k (hl k (by simp))).1 hk', h⟩
          obtain ⟨q', hq', h⟩ := bind_ok.mp h
          have hq := ihq q' (fun k hk => hl k (by simp [hk])) hq'
          cases h
          split
          · exact hq
          · intro z hz
            rcases List.mem_cons.1 hz with rfl | hz
            · exact ⟨f, by rw [hk.1]; exact hf, hk.2⟩
            · exact hq z hz
      exact key ks ks' (fun _ h => h) h
    refine ⟨?_, kids⟩
    intro sn e' h
    rw [validateNode] at h
    obtain ⟨_, _, h⟩ := bind_ok.mp h
    obtain ⟨ks', hks, h⟩ := bind_ok.mp h
    cases h
    have := kids hks
    refine ⟨rfl, fun k hk => ?_, fun k hk f hf => ?_⟩
    · obtain ⟨f, hf, _⟩ := this k (by simpa using hk); exact ⟨f, hf⟩
    · obtain ⟨f', hf', hs⟩ := this k (by simpa using hk)
      obtain rfl := Except.ok.inj (hf'.symm.trans hf); exact hs

/-- Every node of a config has a schema node. -/
theorem newConfig_known {d : Device} {e c : Elem} {v rd : Bool} (h : newConfig d e v rd = .ok c) : Known d .root c := by
  unfold newConfig at h
  obtain ⟨c', hc, h⟩ := bind_ok.mp h
  cases v with
  | false => cases h; exact trim_known _ hc
  | true =>
    rw [if_pos rfl] at h
    unfold validateConfig at h
    obtain ⟨_, _, h⟩ := bind_ok.mp h
    obtain ⟨ks, hks, h⟩ := bind_ok.mp h
    cases h
    have := (validateNode_known c').2 hks
    refine ⟨fun k hk => ?_, fun k hk f hf => ?_⟩
    · obtain ⟨f, hf, _⟩ := this k (by simpa using hk); exact ⟨f, hf⟩
    · obtain ⟨f', hf', hs⟩ := this k (by simpa using hk)
      obtain rfl := Except.ok.inj (hf'.symm.trans hf); exact hs

theorem removeReadOnly_ok {d : Device} : ∀ (e : Elem) {sc : Scope}, Known d sc e → ∃ r, removeReadOnly d sc e = .ok r := by
  intro e
  induction e using Elem.ind with
  | _ t n a x ks ih =>
    intro sc h
    have key : ∀ (l : List Elem), (∀ k ∈ l, k ∈ ks) → ∃ l', removeReadOnlyKids d sc l = .ok l' := by
      intro l
      induction l with
      | nil => intro _; exact ⟨[], rfl⟩
      | cons k q ihq =>
        intro hl
        have hk : k ∈ ks := hl k (by simp)
        obtain ⟨f, hf⟩ := h.here' k hk
        obtain ⟨k', hk'⟩ := ih k hk (h.sub' k hk f hf)
        obtain ⟨q', hq'⟩ := ihq (fun k hk => hl k (by simp [hk]))
        rw [removeReadOnlyKids, hf]
        simp only [bind, Except.bind, hk', hq']
        split <;> exact ⟨_, rfl⟩
    obtain ⟨l', hl'⟩ := key ks (fun _ h => h)
    exact ⟨_, by rw [removeReadOnly_eq]; simp only [Elem.kids_mk]; rw [hl']; rfl⟩

theorem filterNode_ok {d : Device} : ∀ (e : Elem) {sc : Scope} (sel : List (List Nat)), Known d sc e →
    ∃ r, filterNode d sc sel e = .ok r := by
  intro e
  induction e using Elem.ind with
  | _ t n a x ks ih =>
    intro sc sel h
    have key : ∀ (l : List Elem) i, (∀ k ∈ l, k ∈ ks) → ∃ l', filterKids d sc sel i l = .ok l' := by
      intro l
      induction l with
      | nil => intro i _; exact ⟨[], rfl⟩
      | cons k q ihq =>
        intro i hl
        have hk : k ∈ ks := hl k (by simp)
        obtain ⟨f, hf⟩ := h.here' k hk
        obtain ⟨k', hk'⟩ := ih k hk (selectIn i sel) (h.sub' k hk f hf)
        obtain ⟨q', hq'⟩ := ihq (i + 1) (fun k hk => hl k (by simp [hk]))
        rw [filterKids, hf]
        simp only [bind, Except.bind, hk', hq']
        split
        · exact ⟨_, rfl⟩
        · split <;> exact ⟨_, rfl⟩
    obtain ⟨l', hl'⟩ := key ks 0 (fun _ h => h)
    exact ⟨_, by rw [filterNode_eq]; simp only [Elem.kids_mk]; rw [hl']; rfl⟩

theorem leadingKeys_ok {d : Device} {sc : Scope} : ∀ {ks : List Elem}, (∀ k ∈ ks, ∃ f, d.lookup sc k.tag = .ok f) →
    ∃ n, leadingKeys d sc ks = .ok n
  | [], _ => ⟨0, rfl⟩
  | k :: r, h => by
    obtain ⟨f, hf⟩ := h k (by simp)
    obtain ⟨n, hn⟩ := leadingKeys_ok (ks := r) (fun x hx => h x (by simp [hx]))
    rw [leadingKeys, hf]
    simp only [bind, Except.bind, hn]
    split <;> exact ⟨_, rfl⟩

theorem reorder_ok {d : Device} {rnd : Nat → List Nat} : ∀ (depth : Nat) {sc : Scope} {e : Elem}, Known d sc e →
    ∃ r, reorder d rnd sc depth e = .ok r := by
  intro depth
  induction depth with
  | zero =>
    intro sc e h
    obtain ⟨n, hn⟩ := leadingKeys_ok h.here'
    rw [reorder]
    unfold reorderChildren
    rw [hn]
    simp only [bind, Except.bind]
    split
    · exact ⟨_, rfl⟩
    · split <;> exact ⟨_, rfl⟩
  | succ m ih =>
    intro sc e h
    cases e with
    | mk t n a x ks =>
      have key : ∀ (l : List Elem), (∀ k ∈ l, k ∈ ks) → ∃ l', reorderKids d rnd sc m l = .ok l' := by
        intro l
        induction l with
        | nil => intro _; exact ⟨[], by rw [reorderKids]⟩
        | cons k q ihq =>
          intro hl
          have hk : k ∈ ks := hl k (by simp)
          obtain ⟨f, hf⟩ := h.here' k hk
          obtain ⟨k', hk'⟩ := ih (h.sub' k hk f hf)
          obtain ⟨q', hq'⟩ := ihq (fun k hk => hl k (by simp [hk]))
          rw [reorderKids, hf]
          simp only [bind, Except.bind, hk', hq']
          exact ⟨_, rfl⟩
      obtain ⟨l', hl'⟩ := key ks (fun _ h => h)
      exact ⟨_, by rw [reorder, hl']; rfl⟩

end NcDiff
