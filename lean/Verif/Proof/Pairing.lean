import Verif.Spec.Config
import Mathlib.Data.List.Nodup
import Mathlib.Data.List.Lookmap
/-!
# Facts about the matching of children (`_pair_children`, `_group_kids`)
-/

namespace NcDiff

/-- The identifier of a child, as a total function. -/
def uid (d : Device) (sc : Scope) (e : Elem) : UID :=
  match uidOf d sc e with
  | .ok u => u
  | .error _ => (e.tag, .plain)

/-- All identifiers of the children can be computed, and they differ. -/
structure Indexable (d : Device) (sc : Scope) (ks : List Elem) : Prop where
  ok : ∀ k ∈ ks, uidOf d sc k = .ok (uid d sc k)
  nodup : (ks.map (uid d sc)).Nodup

theorem uidOf_tag {d : Device} {sc : Scope} {e : Elem} {u : UID} (h : uidOf d sc e = .ok u) :
    u.1 = e.tag := by
  unfold uidOf at h
  cases hl : d.lookup sc e.tag with
  | error x => simp [hl, bind, Except.bind] at h
  | ok f =>
    simp only [hl, bind, Except.bind] at h
    split at h
    · split at h
      · cases h
      · cases h; rfl
    · split at h
      · cases h
      · cases h; rfl
    · cases h; rfl

theorem uid_tag (d : Device) (sc : Scope) (e : Elem) : (uid d sc e).1 = e.tag := by
  unfold uid; split
  · rename_i h; exact uidOf_tag h
  · rfl

theorem uid_of_ok {d : Device} {sc : Scope} {e : Elem} {u : UID} (h : uidOf d sc e = .ok u) :
    uid d sc e = u := by simp [uid, h]

section index
variable {d : Device} {sc : Scope} {proj : α → Elem}

theorem indexKids_ok : ∀ (seen : List UID) (as : List α),
    (∀ a ∈ as, uidOf d sc (proj a) = .ok (uid d sc (proj a))) →
    (seen ++ as.map (fun a => uid d sc (proj a))).Nodup →
    indexKids d sc proj seen as = .ok (as.map (fun a => (uid d sc (proj a), a)))
  | _, [], _, _ => rfl
  | seen, a :: r, hu, hn => by
    have h1 : uid d sc (proj a) ∉ seen := by
      rw [List.nodup_append] at hn
      intro hm
      exact hn.2.2 _ hm _ (by simp) rfl
    have ih := indexKids_ok (seen ++ [uid d sc (proj a)]) r
      (fun b hb => hu b (by simp [hb])) (by simpa using hn)
    simp [indexKids, hu a (by simp), h1, ih, bind, Except.bind, pure, Except.pure]

theorem indexKids_inv : ∀ (seen : List UID) (as : List α) (r : List (UID × α)),
    indexKids d sc proj seen as = .ok r → seen.Nodup →
    r = as.map (fun a => (uid d sc (proj a), a)) ∧
    (∀ a ∈ as, uidOf d sc (proj a) = .ok (uid d sc (proj a))) ∧
    (seen ++ as.map (fun a => uid d sc (proj a))).Nodup
  | seen, [], r, h, hs => by
    simp [indexKids] at h; subst h; simp [hs]
  | seen, a :: as, r, h, hs => by
    unfold indexKids at h
    cases hu : uidOf d sc (proj a) with
    | error x => simp [hu, bind, Except.bind] at h
    | ok u =>
      simp only [hu, bind, Except.bind] at h
      by_cases hm : u ∈ seen
      · simp [hm] at h
      · simp only [hm, if_false] at h
        cases hi : indexKids d sc proj (seen ++ [u]) as with
        | error x => simp [hi] at h
        | ok r' =>
          simp only [hi, pure, Except.pure] at h
          have hn : (seen ++ [u]).Nodup := by
            rw [List.nodup_append]
            refine ⟨hs, by simp, ?_⟩
            intro x hx y hy e
            simp at hy; subst hy; subst e; exact hm hx
          obtain ⟨h1, h2, h3⟩ := indexKids_inv _ as r' hi hn
          have hu' := uid_of_ok hu
          cases h
          refine ⟨by simp [h1, hu'], ?_, by simpa [hu'] using h3⟩
          intro b hb
          cases hb with
          | head => rw [hu, hu']
          | tail _ hb => exact h2 b hb

end index

theorem lookup_map_eq_find {α : Type} (f : α → UID) (bs : List α) (x : UID) :
    (bs.map (fun b => (f b, b))).lookup x = bs.find? (fun b => f b = x) := by
  induction bs with
  | nil => rfl
  | cons b r ih =>
    simp only [List.map_cons, List.lookup_cons, List.find?_cons]
    by_cases h : f b = x
    · subst h; simp
    · have : (x == f b) = false := by simpa using fun e => h e.symm
      simp [this, h, ih]

/-- The grouping in closed form. -/
def groupsOf {α β : Type} (f : α → UID) (g : β → UID) (as : List α) (bs : List β) :
    Groups α β where
  onlyOne := as.filter (fun a => (bs.find? (fun b => g b = f a)).isNone)
  onlyTwo := bs.filter (fun b => (as.find? (fun a => f a = g b)).isNone)
  both := as.filterMap (fun a => (bs.find? (fun b => g b = f a)).map (fun b => (a, b)))

theorem groupPairs_pairUp {α β : Type} (f : α → UID) (g : β → UID) (as : List α) (bs : List β) :
    groupPairs (pairUp (as.map (fun a => (f a, a))) (bs.map (fun b => (g b, b)))) =
      groupsOf f g as bs := by
  unfold groupPairs pairUp groupsOf
  simp only [lookup_map_eq_find, List.filterMap_append, List.map_map, List.filterMap_map,
    List.filter_map, Function.comp_def]
  congr 1
  · have h : ∀ l : List β, List.filterMap (fun _ : β => (none : Option α)) l = [] := by
      intro l; induction l <;> simp_all
    rw [h, List.append_nil]
    induction as with
    | nil => rfl
    | cons a r ih =>
      simp only [List.filterMap_cons, List.filter_cons]
      cases h : bs.find? (fun b => g b = f a) <;> simpa using ih
  · have h : ∀ l : List α, List.filterMap (fun _ : α => (none : Option β)) l = [] := by
      intro l; induction l <;> simp_all
    rw [h, List.nil_append]
    simp
  · have h : ∀ l : List β, List.filterMap (fun _ : β => (none : Option (α × β))) l = [] := by
      intro l; induction l <;> simp_all
    rw [h, List.append_nil]
    congr 1
    funext a
    cases h : bs.find? (fun b => g b = f a) <;> simp

section group
variable {d : Device} {sc : Scope} {pa : α → Elem} {pb : β → Elem} {as : List α} {bs : List β}

theorem groupKids_ok (ha : Indexable d sc (as.map pa)) (hb : Indexable d sc (bs.map pb)) :
    groupKids d sc pa pb as bs =
      .ok (groupsOf (fun a => uid d sc (pa a)) (fun b => uid d sc (pb b)) as bs) := by
  have h1 := indexKids_ok (proj := pa) [] as
    (fun a h => ha.ok _ (List.mem_map_of_mem h)) (by simpa [Function.comp_def] using ha.nodup)
  have h2 := indexKids_ok (proj := pb) [] bs
    (fun a h => hb.ok _ (List.mem_map_of_mem h)) (by simpa [Function.comp_def] using hb.nodup)
  simp only [groupKids, pairChildren, h1, h2, bind, Except.bind, pure, Except.pure]
  rw [groupPairs_pairUp]

theorem groupKids_inv {g : Groups α β} (h : groupKids d sc pa pb as bs = .ok g) :
    Indexable d sc (as.map pa) ∧ Indexable d sc (bs.map pb) ∧
      g = groupsOf (fun a => uid d sc (pa a)) (fun b => uid d sc (pb b)) as bs := by
  unfold groupKids pairChildren at h
  cases h1 : indexKids d sc pa [] as with
  | error x => simp [h1, bind, Except.bind] at h
  | ok r1 =>
    cases h2 : indexKids d sc pb [] bs with
    | error x => simp [h1, h2, bind, Except.bind] at h
    | ok r2 =>
      simp only [h1, h2, bind, Except.bind, pure, Except.pure] at h
      obtain ⟨e1, u1, n1⟩ := indexKids_inv _ _ _ h1 List.nodup_nil
      obtain ⟨e2, u2, n2⟩ := indexKids_inv _ _ _ h2 List.nodup_nil
      subst e1 e2
      rw [groupPairs_pairUp] at h
      cases h
      refine ⟨⟨?_, by simpa [Function.comp_def] using n1⟩, ⟨?_, by simpa [Function.comp_def] using n2⟩, rfl⟩
      · intro k hk; obtain ⟨a, ha, rfl⟩ := List.mem_map.1 hk; exact u1 a ha
      · intro k hk; obtain ⟨a, ha, rfl⟩ := List.mem_map.1 hk; exact u2 a ha

end group

/-! ## Identifiers and instances -/

theorem findOneChild_ok {e c : Elem} {k : QName} (h : e.childrenWith k = [c]) :
    findOneChild e k = .ok c := by simp [findOneChild, h]

theorem parseText_plain {d : Device} {e : Elem} {sn : SNode} (hp : sn.info.datatype.plain)
    (hc : sn.ntype ≠ .container) : parseText d e sn = .ok e.text := by
  unfold parseText
  cases he : e.text with
  | none => rfl
  | some t =>
    cases hd : sn.info.datatype <;> simp_all [DType.plain]

theorem keysM_ok {d : Device} {sn : SNode} {e : Elem} (hp : sn.info.datatype.plain)
    (hc : sn.ntype ≠ .container) : ∀ (ks : List QName), (∀ q ∈ ks, ∃ c, e.childrenWith q = [c]) →
    ks.mapM (fun k => do
      let c ← findOneChild e k
      parseText d c sn) = Except.ok (ks.map (fun k => ((keyTexts e k).head?).getD none))
  | [], _ => rfl
  | k :: ks, h => by
    obtain ⟨c, hc'⟩ := h k (by simp)
    rw [List.mapM_cons, keysM_ok hp hc ks (fun q hq => h q (by simp [hq]))]
    simp [findOneChild_ok hc', parseText_plain hp hc, keyTexts, hc', bind, Except.bind, pure,
      Except.pure]

/-- What the identifier of a well-formed child is. -/
theorem uidOf_ok {d : Device} {sc : Scope} {x : Elem} {f : Found}
    (hx : d.lookup sc x.tag = .ok f) (kx : KidOk d f.node x) :
    uidOf d sc x = .ok (uid d sc x) := by
  have : ∃ u, uidOf d sc x = .ok u := by
    unfold uidOf
    simp only [hx, bind, Except.bind]
    unfold KidOk at kx
    split at kx <;> rename_i hn <;> simp only [hn]
    · exact ⟨_, rfl⟩
    · obtain ⟨_, t, ht⟩ := kx
      simp only [ht]; exact ⟨_, rfl⟩
    · exact ⟨_, rfl⟩
    · have := keysM_ok (d := d) kx.2.1 (by rw [hn]; decide) _ kx.2.2.1
      simp only [bind, Except.bind] at this
      rw [this]; exact ⟨_, rfl⟩
    · exact kx.elim
  obtain ⟨u, hu⟩ := this
  rw [hu, uid_of_ok hu]

theorem uid_eq_iff {d : Device} {sc : Scope} {x y : Elem} {f : Found}
    (hx : d.lookup sc x.tag = .ok f) (kx : KidOk d f.node x)
    (ky : KidOk d f.node y) (ht : x.tag = y.tag) :
    uid d sc x = uid d sc y ↔ SameInstance d sc x y := by
  have hy : d.lookup sc y.tag = .ok f := by rw [← ht]; exact hx
  have ux := uidOf_ok hx kx
  have uy := uidOf_ok hy ky
  unfold SameInstance
  simp only [ht, true_and]
  simp only [hy, Except.ok.injEq, forall_eq']
  unfold uidOf at ux uy
  simp only [hx, hy, bind, Except.bind] at ux uy
  unfold KidOk at kx ky
  cases hn : f.node.ntype <;> simp only [hn] at kx ky ux uy ⊢
  · simp only [pure, Except.pure, Except.ok.injEq] at ux uy
    rw [← ux, ← uy, ht]; simp
  · obtain ⟨_, t, ht'⟩ := kx
    obtain ⟨_, t', ht''⟩ := ky
    simp only [ht', ht'', pure, Except.pure, Except.ok.injEq] at ux uy ⊢
    rw [← ux, ← uy, ht]; simp
  · simp only [pure, Except.pure, Except.ok.injEq] at ux uy
    rw [← ux, ← uy, ht]; simp
  · have e1 := keysM_ok (d := d) kx.2.1 (by rw [hn]; decide) _ kx.2.2.1
    have e2 := keysM_ok (d := d) ky.2.1 (by rw [hn]; decide) _ ky.2.2.1
    simp only [bind, Except.bind] at e1 e2
    rw [e1] at ux; rw [e2] at uy
    simp only [pure, Except.pure, Except.ok.injEq] at ux uy
    rw [← ux, ← uy, ht]
    simp only [Prod.mk.injEq, true_and, UKey.keys.injEq, List.map_inj_left]
    refine forall_congr' fun k => forall_congr' fun hk => ?_
    obtain ⟨c, hc⟩ := kx.2.2.1 k hk
    obtain ⟨c', hc'⟩ := ky.2.2.1 k hk
    simp [keyTexts, hc, hc']

theorem uid_eq_iff' {d : Device} {sc : Scope} {x y : Elem} {f g : Found}
    (hx : d.lookup sc x.tag = .ok f) (kx : KidOk d f.node x)
    (hy : d.lookup sc y.tag = .ok g) (ky : KidOk d g.node y) :
    uid d sc x = uid d sc y ↔ SameInstance d sc x y := by
  by_cases ht : x.tag = y.tag
  · rw [ht, hy] at hx; cases hx
    exact uid_eq_iff (by rw [ht]; exact hy) kx ky ht
  · constructor
    · intro h; exact absurd (by rw [← uid_tag d sc x, ← uid_tag d sc y, h]) ht
    · intro h; exact absurd h.1 ht

namespace Valid
variable {d : Device} {sc : Scope} {e : Elem}

theorem attrNames' (h : Valid d sc e) : (e.attrs.map Prod.fst).Nodup := by
  cases h; assumption
theorem shape' (h : Valid d sc e) : ∀ k ∈ e.kids, ∃ f, d.lookup sc k.tag = .ok f ∧ KidOk d f.node k := by
  cases h; assumption
theorem unique' (h : Valid d sc e) : e.kids.Pairwise (fun x y => ¬ SameInstance d sc x y) := by
  cases h; assumption
theorem sub' (h : Valid d sc e) : ∀ k ∈ e.kids, ∀ f, d.lookup sc k.tag = .ok f → Valid d (.node f.node) k := by
  cases h; assumption

theorem indexable (h : Valid d sc e) : Indexable d sc e.kids where
  ok k hk := by
    obtain ⟨f, hf, kf⟩ := h.shape' k hk
    exact uidOf_ok hf kf
  nodup := by
    rw [List.Nodup, List.pairwise_map]
    refine h.unique'.imp_of_mem ?_
    intro x y hx hy hn he
    obtain ⟨f, hf, kf⟩ := h.shape' x hx
    obtain ⟨g, hg, kg⟩ := h.shape' y hy
    exact hn ((uid_eq_iff' hf kf hg kg).1 he)

theorem same_iff {e' : Elem} (h : Valid d sc e) (h' : Valid d sc e') {x y : Elem}
    (hx : x ∈ e.kids) (hy : y ∈ e'.kids) : uid d sc x = uid d sc y ↔ SameInstance d sc x y := by
  obtain ⟨f, hf, kf⟩ := h.shape' x hx
  obtain ⟨g, hg, kg⟩ := h'.shape' y hy
  exact uid_eq_iff' hf kf hg kg

end Valid

end NcDiff
