import Verif.Proof.Pairing
/-!
# `_node_le` decides inclusion
-/

namespace NcDiff

theorem before_iff {l : List Elem} {x y : Elem} :
    Before l x y ↔ ∃ i j : Nat, i < j ∧ l[i]? = some x ∧ l[j]? = some y := by
  unfold Before
  induction l with
  | nil => simp
  | cons a r ih =>
    constructor
    · intro h
      cases h with
      | cons _ h =>
        obtain ⟨i, j, hij, hi, hj⟩ := ih.1 h
        exact ⟨i + 1, j + 1, by omega, by simpa using hi, by simpa using hj⟩
      | cons_cons _ h =>
        have hy : y ∈ r := List.singleton_sublist.1 h
        obtain ⟨j, hj⟩ := List.mem_iff_getElem?.1 hy
        exact ⟨0, j + 1, by omega, by simp, by simpa using hj⟩
    · rintro ⟨i, j, hij, hi, hj⟩
      obtain ⟨j, rfl⟩ : ∃ j', j = j' + 1 := ⟨j - 1, by omega⟩
      cases i with
      | zero =>
        simp at hi hj; subst hi
        exact List.Sublist.cons_cons _ (List.singleton_sublist.2 (List.mem_of_getElem? hj))
      | succ i =>
        simp at hi hj
        exact List.Sublist.cons _ (ih.2 ⟨i, j, by omega, hi, hj⟩)

/-- The child with a given identifier, with its position. -/
def atUid (d : Device) (sc : Scope) (ks : List Elem) (u : UID) : Option (Elem × Nat) :=
  ks.zipIdx.find? (fun p => uid d sc p.1 = u)

section atu
variable {d : Device} {sc : Scope} {ks : List Elem}

theorem atUid_some {u : UID} {k : Elem} {i : Nat} (h : atUid d sc ks u = some (k, i)) :
    ks[i]? = some k ∧ uid d sc k = u := by
  have h1 := List.mem_of_find?_eq_some h
  have h2 := List.find?_some h
  rw [List.mem_zipIdx_iff_getElem?] at h1
  exact ⟨h1, by simpa using h2⟩

theorem getElem?_inj_uid (hn : (ks.map (uid d sc)).Nodup) {i j : Nat} {k k' : Elem}
    (hi : ks[i]? = some k) (hj : ks[j]? = some k') (hu : uid d sc k = uid d sc k') :
    i = j ∧ k = k' := by
  have hl : i < (ks.map (uid d sc)).length := by
    rw [List.length_map]; exact (List.getElem?_eq_some_iff.1 hi).1
  have hij : i = j := (List.getElem?_inj hl hn).1 (by simp [hi, hj, hu])
  subst hij; rw [hi] at hj; cases hj; exact ⟨rfl, rfl⟩

theorem atUid_of_getElem? (hn : (ks.map (uid d sc)).Nodup) {i : Nat} {k : Elem}
    (hi : ks[i]? = some k) : atUid d sc ks (uid d sc k) = some (k, i) := by
  cases h : atUid d sc ks (uid d sc k) with
  | none =>
    have := List.find?_eq_none.1 h (k, i) (List.mem_zipIdx_iff_getElem?.2 hi)
    simp at this
  | some p =>
    obtain ⟨k', j⟩ := p
    obtain ⟨h1, h2⟩ := atUid_some h
    obtain ⟨rfl, rfl⟩ := getElem?_inj_uid hn h1 hi h2
    rfl

end atu

theorem filter_eq_toList_find {α β : Type} [DecidableEq β] (f : α → β) (u : β) : ∀ (l : List α),
    (l.map f).Nodup → l.filter (fun p => f p = u) = (l.find? (fun p => f p = u)).toList
  | [], _ => rfl
  | a :: r, h => by
    rw [List.map_cons, List.nodup_cons] at h
    rw [List.filter_cons, List.find?_cons]
    by_cases he : f a = u
    · have : r.filter (fun p => f p = u) = [] := by
        rw [List.filter_eq_nil_iff]
        intro x hx hxu
        exact h.1 (by rw [he, ← of_decide_eq_true hxu]; exact List.mem_map_of_mem hx)
      simp [he, this]
    · simp [he, filter_eq_toList_find f u r h.2]

/-! ## The text test -/

/-- The value of a node can be read. -/
def Readable (d : Device) (sc : Scope) (e : Elem) : Prop := ∃ t, parseTextAt d sc e = .ok t

theorem readable_of_noText {d : Device} {sc : Scope} {e : Elem} (h : e.text = none) :
    Readable d sc e := ⟨none, by simp [parseTextAt, h]⟩

theorem parseTextAt_node {d : Device} {sn : SNode} {e : Elem} :
    parseTextAt d (.node sn) e = parseText d e sn := by
  unfold parseTextAt parseText
  cases e.text <;> rfl

theorem KidOk.readable {d : Device} {sn : SNode} {e : Elem} (h : KidOk d sn e) :
    Readable d (.node sn) e := by
  unfold Readable
  rw [parseTextAt_node]
  unfold KidOk at h
  split at h
  · exact h.2
  · exact h.2
  · rename_i hn
    unfold parseText
    cases e.text with
    | none => exact ⟨_, rfl⟩
    | some t => cases hd : sn.info.datatype <;> simp_all [DType.plain]
  · simp [parseText, h.1]
  · exact h.elim

theorem sameText_ok {d : Device} {sc : Scope} {a b : Elem} (ha : Readable d sc a)
    (hb : Readable d sc b) :
    sameText d sc a b = .ok (decide (parseTextAt d sc a = parseTextAt d sc b)) := by
  unfold sameText
  split
  · rename_i h; simp [parseTextAt, h.1, h.2]
  · obtain ⟨t, ht⟩ := ha
    obtain ⟨t', ht'⟩ := hb
    simp [ht, ht', bind, Except.bind, pure, Except.pure]

theorem lookup_iff_mem {b : Attrs} (h : (b.map Prod.fst).Nodup) (p : AName × AVal) :
    b.lookup p.1 = some p.2 ↔ p ∈ b := by
  induction b with
  | nil => simp
  | cons q r ih =>
    obtain ⟨n, v⟩ := p
    obtain ⟨n', v'⟩ := q
    simp only [List.map_cons, List.nodup_cons] at h
    by_cases e : n = n'
    · subst e
      have : (n, v) ∉ r := fun hm => h.1 (List.mem_map_of_mem (f := Prod.fst) hm)
      simp [this, eq_comm]
    · have e' : (n == n') = false := by simpa using e
      simpa [List.lookup_cons, e', e] using ih h.2

theorem attrsLe_iff {a b : Attrs} (h : (b.map Prod.fst).Nodup) :
    attrsLe a b = true ↔ ∀ p ∈ a, p ∈ b := by
  simp only [attrsLe, List.all_eq_true, decide_eq_true_eq, lookup_iff_mem h]

/-! ## Peers -/

theorem isPeer_ok {d : Device} {sn : SNode} {a b : Elem} : ∀ (ks : List QName),
    (∀ q ∈ ks, ∃ c, a.childrenWith q = [c]) → (∀ q ∈ ks, ∃ c, b.childrenWith q = [c]) →
    (∀ q ∈ ks, ∃ f, d.lookup (.node sn) q = .ok f ∧ f.node.ntype = .leaf ∧
      f.node.info.datatype.plain) →
    isPeer d sn ks a b = .ok (decide (∀ k ∈ ks, keyTexts a k = keyTexts b k))
  | [], _, _, _ => by simp [isPeer]
  | k :: ks, ha, hb, hf => by
    obtain ⟨c, hc⟩ := ha k (by simp)
    obtain ⟨c', hc'⟩ := hb k (by simp)
    obtain ⟨f, hl, hn, hp⟩ := hf k (by simp)
    have ih := isPeer_ok ks (fun q h => ha q (by simp [h])) (fun q h => hb q (by simp [h]))
      (fun q h => hf q (by simp [h]))
    have hnc : f.node.ntype ≠ .container := by rw [hn]; decide
    have r1 : parseTextAt d (.node f.node) c = .ok c.text := by
      rw [parseTextAt_node, parseText_plain hp hnc]
    have r2 : parseTextAt d (.node f.node) c' = .ok c'.text := by
      rw [parseTextAt_node, parseText_plain hp hnc]
    have hs := sameText_ok (d := d) (sc := .node f.node) ⟨_, r1⟩ ⟨_, r2⟩
    rw [r1, r2] at hs
    have key : (keyTexts a k = keyTexts b k) ↔ c.text = c'.text := by simp [keyTexts, hc, hc']
    simp only [isPeer, findOneChild_ok hc, findOneChild_ok hc', bind, Except.bind, hl, hs, ih,
      List.forall_mem_cons, key, pure, Except.pure]
    by_cases h : c.text = none ∧ c'.text = none
    · simp [h.1, h.2]
    · simp only [h, if_false]
      by_cases he : c.text = c'.text <;> simp [he]

theorem peerTest_ok {d : Device} {sc : Scope} {x y : Elem} {f : Found}
    (hx : d.lookup sc x.tag = .ok f) (kx : KidOk d f.node x) (ky : KidOk d f.node y)
    (ht : x.tag = y.tag) (hu : f.node.userOrdered = true)
    (hk : f.node.ntype = .leafList ∨ f.node.ntype = .list) :
    peerTest d f.node x y = .ok (decide (uid d sc x = uid d sc y)) := by
  have key : decide (uid d sc x = uid d sc y) = @decide (SameInstance d sc x y)
      (Classical.propDecidable _) := by
    rw [decide_eq_decide]; exact uid_eq_iff hx kx ky ht
  have hS : SameInstance d sc x y ↔
      match f.node.ntype with
      | .leafList => parseText d x f.node = parseText d y f.node
      | .list => ∀ k ∈ f.node.keys, keyTexts x k = keyTexts y k
      | _ => True := by
    unfold SameInstance
    simp only [ht, true_and]
    rw [← ht]
    simp only [hx, Except.ok.injEq, forall_eq']
    rfl
  rw [key]
  unfold peerTest
  rcases hk with hk | hk <;> simp only [hk] at hS ⊢
  · rw [sameText_ok kx.readable ky.readable]
    congr 1
    rw [decide_eq_decide, hS, parseTextAt_node, parseTextAt_node]
  · unfold KidOk at kx ky
    simp only [hk] at kx ky
    rw [isPeer_ok _ kx.2.2.1 ky.2.2.1 (kx.2.2.2 hu)]
    congr 1
    rw [decide_eq_decide, hS]

theorem getPeers_ok {d : Device} {sc : Scope} {x : Elem} {f : Found}
    (hx : d.lookup sc x.tag = .ok f) (kx : KidOk d f.node x) (hu : f.node.userOrdered = true)
    (hk : f.node.ntype = .leafList ∨ f.node.ntype = .list) : ∀ (l : List (Elem × Nat)),
    (∀ p ∈ l, p.1.tag = x.tag → KidOk d f.node p.1) →
    getPeers d f.node x l = .ok (l.filter (fun p => uid d sc p.1 = uid d sc x))
  | [], _ => rfl
  | b :: r, h => by
    have ih := getPeers_ok hx kx hu hk r (fun p hp => h p (by simp [hp]))
    unfold getPeers
    by_cases ht : b.1.tag = x.tag
    · rw [peerTest_ok hx kx (h b (by simp) ht) ht.symm hu hk, ih]
      by_cases hb : uid d sc b.1 = uid d sc x
      · simp [ht, hb, bind, Except.bind, pure, Except.pure]
      · have hb' : ¬ uid d sc x = uid d sc b.1 := fun e => hb e.symm
        simp [ht, hb, hb', bind, Except.bind, pure, Except.pure]
    · have hb : uid d sc b.1 ≠ uid d sc x := by
        intro e; apply ht; rw [← uid_tag d sc b.1, ← uid_tag d sc x, e]
      simp [ht, ih, hb]

/-! ## The loop -/

/-- What the loop of `_node_le` checks for the remaining children. -/
def LoopP (d : Device) (sc : Scope) (bs : List Elem) : List Elem → List Elem → Prop
  | _, [] => True
  | elders, k :: r => ∃ k' pos, atUid d sc bs (uid d sc k) = some (k', pos) ∧
      (UserOrdered d sc k.tag → ∀ el, elders.find? (fun e => e.tag = k.tag) = some el →
        ∃ p, atUid d sc bs (uid d sc el) = some p ∧ p.2 < pos) ∧
      (∀ f, d.lookup sc k.tag = .ok f → Incl d (.node f.node) k k') ∧
      LoopP d sc bs (k :: elders) r

/-- A well-formed child. -/
def GoodKid (d : Device) (sc : Scope) (k : Elem) : Prop :=
  ∃ f, d.lookup sc k.tag = .ok f ∧ KidOk d f.node k

theorem orderOk_ok {d : Device} {sc : Scope} {bs elders : List Elem} {k : Elem} {pos : Nat}
    {f : Found} (hf : d.lookup sc k.tag = .ok f)
    (hb : ∀ b ∈ bs, GoodKid d sc b) (hn : (bs.map (uid d sc)).Nodup)
    (he : ∀ e ∈ elders, GoodKid d sc e) :
    ∃ r, orderOk d f.node k elders bs.zipIdx pos = .ok r ∧
      (r = true ↔ (UserOrdered d sc k.tag → ∀ el, elders.find? (fun e => e.tag = k.tag) = some el →
        ∃ p, atUid d sc bs (uid d sc el) = some p ∧ p.2 < pos)) := by
  have hU : UserOrdered d sc k.tag ↔
      (f.node.userOrdered = true ∧ (f.node.ntype = .leafList ∨ f.node.ntype = .list)) := by
    unfold UserOrdered
    simp only [hf, Except.ok.injEq]
    constructor
    · rintro ⟨g, rfl, h⟩; exact h
    · intro h; exact ⟨f, rfl, h⟩
  unfold orderOk
  by_cases hc : f.node.userOrdered = true ∧ (f.node.ntype = .leafList ∨ f.node.ntype = .list)
  · rw [if_pos hc]
    cases hfi : elders.find? (fun e => e.tag = k.tag) with
    | none => exact ⟨true, rfl, by simp⟩
    | some el =>
      have hel := he el (List.mem_of_find?_eq_some hfi)
      have htag : el.tag = k.tag := by simpa using List.find?_some hfi
      obtain ⟨g, hg, kg⟩ := hel
      have hgf : g = f := by rw [htag, hf] at hg; cases hg; rfl
      subst hgf
      have hp := getPeers_ok hg kg hc.1 hc.2 bs.zipIdx (by
        intro p hp ht
        have hm : p.1 ∈ bs := by
          obtain ⟨a, i⟩ := p
          exact List.mem_of_getElem? (List.mem_zipIdx_iff_getElem?.1 hp)
        obtain ⟨g', hg', kg'⟩ := hb _ hm
        rw [ht, hg] at hg'; cases hg'; exact kg')
      rw [filter_eq_toList_find (fun p : Elem × Nat => uid d sc p.1) _ _ (by
        have : bs.zipIdx.map (fun p : Elem × Nat => uid d sc p.1) = bs.map (uid d sc) := by
          rw [show (fun p : Elem × Nat => uid d sc p.1) = uid d sc ∘ Prod.fst from rfl,
            ← List.map_map, List.zipIdx_map_fst]
        rw [this]; exact hn)] at hp
      change getPeers d g.node el bs.zipIdx = .ok (atUid d sc bs (uid d sc el)).toList at hp
      simp only [hp, bind, Except.bind]
      cases ha : atUid d sc bs (uid d sc el) with
      | none => exact ⟨false, rfl, by simpa [ha] using hU.2 hc⟩
      | some p =>
        refine ⟨decide (p.2 < pos), rfl, ?_⟩
        simp only [decide_eq_true_eq, hU.2 hc, forall_true_left, Option.some.injEq, forall_eq', ha,
          exists_eq_left']
  · rw [if_neg hc]
    exact ⟨true, rfl, by simp [hU, hc]⟩

theorem leLoop_ok {d : Device} {sc : Scope} {bs : List Elem}
    (hb : ∀ b ∈ bs, GoodKid d sc b) (hn : (bs.map (uid d sc)).Nodup) : ∀ (r elders : List Elem),
    (∀ k ∈ r, GoodKid d sc k) → (∀ e ∈ elders, GoodKid d sc e) →
    (∀ k ∈ r, ∀ f, d.lookup sc k.tag = .ok f → ∀ k' ∈ bs, uid d sc k = uid d sc k' →
      ∃ x, nodeLe d (.node f.node) k k' = .ok x ∧ (x = true ↔ Incl d (.node f.node) k k')) →
    ∃ x, leLoop d sc bs.zipIdx (bs.zipIdx.map (fun p => (uid d sc p.1, p))) elders
        (r.map (fun k => (uid d sc k, (k, fun sc b => nodeLe d sc k b)))) = .ok x ∧
      (x = true ↔ LoopP d sc bs elders r)
  | [], _, _, _, _ => ⟨true, rfl, by simp [LoopP]⟩
  | k :: r, elders, hr, he, hs => by
    obtain ⟨f, hf, kf⟩ := hr k (by simp)
    simp only [List.map_cons, leLoop]
    rw [lookup_map_eq_find (fun p : Elem × Nat => uid d sc p.1)]
    rw [show bs.zipIdx.find? (fun b => decide (uid d sc b.1 = uid d sc k)) =
      atUid d sc bs (uid d sc k) from rfl]
    cases ha : atUid d sc bs (uid d sc k) with
    | none => exact ⟨false, rfl, by simp [LoopP, ha]⟩
    | some p =>
      obtain ⟨k', pos⟩ := p
      obtain ⟨hpos, hu⟩ := atUid_some ha
      obtain ⟨o, ho, hoi⟩ := orderOk_ok (pos := pos) hf hb hn he
      obtain ⟨l, hl, hli⟩ := hs k (by simp) f hf k' (List.mem_of_getElem? hpos) hu.symm
      obtain ⟨x, hx, hxi⟩ := leLoop_ok hb hn r (k :: elders) (fun k hk => hr k (by simp [hk]))
        (by intro e hm; cases hm with
            | head => exact ⟨f, hf, kf⟩
            | tail _ h => exact he e h)
        (fun k hk => hs k (by simp [hk]))
      simp only [hf, ho, bind, Except.bind, pure, Except.pure]
      have hP : LoopP d sc bs elders (k :: r) ↔ (o = true ∧ l = true ∧ x = true) := by
        rw [hoi, hli, hxi, LoopP]
        simp only [ha, Option.some.injEq, Prod.mk.injEq, hf, Except.ok.injEq, forall_eq']
        constructor
        · rintro ⟨a, b, ⟨rfl, rfl⟩, h⟩; exact h
        · intro h; exact ⟨k', pos, ⟨rfl, rfl⟩, h⟩
      rw [hP]
      cases o
      · exact ⟨false, rfl, by simp⟩
      · simp only [if_true, hl]
        cases l
        · exact ⟨false, rfl, by simp⟩
        · exact ⟨x, by simpa using hx, by simp⟩

/-- The loop condition over all children is the child part of inclusion. -/
theorem loopP_iff {d : Device} {sc : Scope} {as bs : List Elem}
    (hn : (bs.map (uid d sc)).Nodup)
    (hsame : ∀ x ∈ as, ∀ y ∈ bs, uid d sc x = uid d sc y ↔ SameInstance d sc x y) :
    LoopP d sc bs [] as ↔
      (∀ x ∈ as, ∃ y ∈ bs, SameInstance d sc x y) ∧
      (∀ x ∈ as, ∀ y ∈ bs, SameInstance d sc x y →
        ∀ f, d.lookup sc x.tag = .ok f → Incl d (.node f.node) x y) ∧
      (∀ x y, Before as x y → x.tag = y.tag → UserOrdered d sc x.tag →
        ∃ x' y', Before bs x' y' ∧ SameInstance d sc x x' ∧ SameInstance d sc y y') := by
  constructor
  · intro h
    -- positions increase
    have key : ∀ (r elders : List Elem), LoopP d sc bs elders r →
        (∀ (i j : Nat) x y, i < j → elders.reverse[i]? = some x → elders.reverse[j]? = some y → x.tag = y.tag →
          UserOrdered d sc x.tag → ∃ p q, atUid d sc bs (uid d sc x) = some p ∧
            atUid d sc bs (uid d sc y) = some q ∧ p.2 < q.2) →
        (∀ (i j : Nat) x y, i < j → (elders.reverse ++ r)[i]? = some x → (elders.reverse ++ r)[j]? = some y →
          x.tag = y.tag → UserOrdered d sc x.tag → ∃ p q, atUid d sc bs (uid d sc x) = some p ∧
            atUid d sc bs (uid d sc y) = some q ∧ p.2 < q.2) ∧
        (∀ k ∈ r, ∃ k' pos, atUid d sc bs (uid d sc k) = some (k', pos) ∧
          ∀ f, d.lookup sc k.tag = .ok f → Incl d (.node f.node) k k') := by
      intro r
      induction r with
      | nil => intro elders _ h; exact ⟨by simpa using h, by simp⟩
      | cons k r ih =>
        intro elders hL hinv
        obtain ⟨k', pos, ha, ho, hi, hrest⟩ := hL
        have := ih (k :: elders) hrest (by
          intro i j x y hij hx hy ht hU
          rw [List.reverse_cons] at hx hy
          have hj : j < (elders.reverse ++ [k]).length := (List.getElem?_eq_some_iff.1 hy).1
          have hjl : j ≤ elders.length := by simp at hj; omega
          have hil : i < elders.reverse.length := by simp; omega
          rw [List.getElem?_append_left hil] at hx
          by_cases hje : j < elders.length
          · rw [List.getElem?_append_left (by simpa using hje)] at hy
            exact hinv i j x y hij hx hy ht hU
          · have : j = elders.length := by omega
            subst this
            rw [List.getElem?_append_right (by simp)] at hy
            simp at hy
            subst hy
            -- the nearest elder
            have hxm : x ∈ elders := by
              have := List.mem_of_getElem? hx; simpa using this
            cases hfi : elders.find? (fun e => e.tag = k.tag) with
            | none =>
              have := List.find?_eq_none.1 hfi x hxm
              simp [ht] at this
            | some el =>
              rw [ht] at hU
              obtain ⟨p, hp, hlt⟩ := ho hU el hfi
              have hetag : el.tag = k.tag := by simpa using List.find?_some hfi
              obtain ⟨hel, as', bs', hsplit, hno⟩ := List.find?_eq_some_iff_append.1 hfi
              rw [hsplit] at hx
              simp only [List.reverse_append, List.reverse_cons, List.append_assoc] at hx
              have hcase : i ≤ bs'.length := by
                by_contra hc
                rw [List.getElem?_append_right (by simp; omega)] at hx
                rw [List.getElem?_append_right (by simp; omega)] at hx
                have hm := List.mem_of_getElem? hx
                have := hno x (by simpa using hm)
                simp [ht] at this
              by_cases hlast : i = bs'.length
              · subst hlast
                rw [List.getElem?_append_right (by simp)] at hx
                simp at hx
                subst hx
                exact ⟨p, (k', pos), hp, ha, hlt⟩
              · rw [List.getElem?_append_left (by simp; omega)] at hx
                obtain ⟨p', q', h1, h2, h3⟩ := hinv i bs'.length x el (by omega)
                  (by rw [hsplit]; simp only [List.reverse_append, List.reverse_cons, List.append_assoc]
                      rw [List.getElem?_append_left (by simp; omega)]; exact hx)
                  (by rw [hsplit]; simp only [List.reverse_append, List.reverse_cons, List.append_assoc]
                      rw [List.getElem?_append_right (by simp)]; simp)
                  (by rw [ht, hetag]) (by rw [ht]; exact hU)
                rw [hp] at h2; cases h2
                exact ⟨p', (k', pos), h1, ha, by omega⟩)
        refine ⟨by simpa using this.1, ?_⟩
        intro z hz
        cases hz with
        | head => exact ⟨k', pos, ha, hi⟩
        | tail _ hz => exact this.2 z hz
    obtain ⟨h1, h2⟩ := key as [] h (by simp)
    refine ⟨?_, ?_, ?_⟩
    · intro x hx
      obtain ⟨k', pos, ha, _⟩ := h2 x hx
      obtain ⟨hm, hu⟩ := atUid_some ha
      have hm := List.mem_of_getElem? hm
      exact ⟨k', hm, (hsame x hx k' hm).1 hu.symm⟩
    · intro x hx y hy hxy f hf
      obtain ⟨k', pos, ha, hi⟩ := h2 x hx
      obtain ⟨j, hj⟩ := List.mem_iff_getElem?.1 hy
      have := atUid_of_getElem? hn hj
      rw [← (hsame x hx y hy).2 hxy, ha] at this
      cases this
      exact hi f hf
    · intro x y hB ht hU
      obtain ⟨i, j, hij, hx, hy⟩ := before_iff.1 hB
      obtain ⟨p, q, hp, hq, hpq⟩ := h1 i j x y hij (by simpa using hx) (by simpa using hy) ht hU
      obtain ⟨p1, p2⟩ := p
      obtain ⟨q1, q2⟩ := q
      obtain ⟨ep, up⟩ := atUid_some hp
      obtain ⟨eq, uq⟩ := atUid_some hq
      exact ⟨p1, q1, before_iff.2 ⟨p2, q2, hpq, ep, eq⟩,
        (hsame x (List.mem_of_getElem? hx) p1 (List.mem_of_getElem? ep)).1 up.symm,
        (hsame y (List.mem_of_getElem? hy) q1 (List.mem_of_getElem? eq)).1 uq.symm⟩
  · rintro ⟨hk, hs, ho⟩
    have key : ∀ (r elders : List Elem), elders.reverse ++ r = as → LoopP d sc bs elders r := by
      intro r
      induction r with
      | nil => intro _ _; trivial
      | cons k r ih =>
        intro elders he
        have hkm : k ∈ as := by rw [← he]; simp
        obtain ⟨y, hy, hky⟩ := hk k hkm
        obtain ⟨j, hj⟩ := List.mem_iff_getElem?.1 hy
        have hat := atUid_of_getElem? hn hj
        rw [← (hsame k hkm y hy).2 hky] at hat
        refine ⟨y, j, hat, ?_, fun f hf => hs k hkm y hy hky f hf, ih (k :: elders) (by simp [← he])⟩
        intro hU el hfi
        have hem := List.mem_of_find?_eq_some hfi
        have htag : el.tag = k.tag := by simpa using List.find?_some hfi
        have hB : Before as el k := by
          rw [← he]
          have : [el, k] = [el] ++ [k] := rfl
          unfold Before
          rw [this]
          exact List.Sublist.append (List.singleton_sublist.2 (by simpa using hem))
            (List.singleton_sublist.2 (by simp))
        obtain ⟨x', y', hB', hx', hy'⟩ := ho el k hB htag (by rw [htag]; exact hU)
        obtain ⟨i', j', hij, hi', hj'⟩ := before_iff.1 hB'
        have hela : el ∈ as := by rw [← he]; simp [hem]
        have e1 := atUid_of_getElem? hn hi'
        rw [← (hsame el hela x' (List.mem_of_getElem? hi')).2 hx'] at e1
        have e2 := atUid_of_getElem? hn hj'
        rw [← (hsame k hkm y' (List.mem_of_getElem? hj')).2 hy', hat] at e2
        cases e2
        exact ⟨_, e1, hij⟩
    exact key as [] rfl

/-- `_node_le` of two valid nodes always returns, and returns `True` exactly for included
nodes. -/
theorem nodeLe_iff (d : Device) : ∀ (a : Elem) (sc : Scope) (b : Elem), Valid d sc a → Valid d sc b →
    Readable d sc a → Readable d sc b →
    ∃ r, nodeLe d sc a b = .ok r ∧ (r = true ↔ Incl d sc a b) := by
  intro a
  induction a using Elem.ind with
  | h t n at' x ks ih =>
    intro sc b va vb ra rb
    rw [nodeLe_eq]
    generalize ha : Elem.mk t n at' x ks = a at *
    have hks : a.kids = ks := by rw [← ha]; rfl
    unfold nodeLeBody
    by_cases htag : a.tag = b.tag
    swap
    · exact ⟨false, by simp [htag], by simp; intro h; cases h; exact htag (by assumption)⟩
    simp only [htag, ne_eq, not_true_eq_false, if_false, sameText_ok ra rb, bind, Except.bind]
    by_cases hval : parseTextAt d sc a = parseTextAt d sc b
    swap
    · exact ⟨false, by simp [hval, pure, Except.pure],
        by simp; intro h; cases h; exact hval (by assumption)⟩
    simp only [hval, decide_true, Bool.not_true, Bool.false_eq_true, if_false]
    have hat := attrsLe_iff (a := a.attrs) vb.attrNames'
    by_cases hattr : attrsLe a.attrs b.attrs = true
    swap
    · refine ⟨false, by simp [hattr, pure, Except.pure], by simp; intro h; cases h; exact hattr (hat.2 (by assumption))⟩
    simp only [hattr, Bool.not_true, Bool.false_eq_true, if_false]
    have ia := va.indexable
    have ib := vb.indexable
    have h1 := indexKids_ok (d := d) (sc := sc) (proj := (Prod.fst : Elem × LeFn → Elem)) []
      (a.kids.map (fun k => (k, fun sc b => nodeLe d sc k b)))
      (by intro p hp; obtain ⟨k, hk, rfl⟩ := List.mem_map.1 hp; exact ia.ok k hk)
      (by simpa [Function.comp_def] using ia.nodup)
    have hz : b.kids.zipIdx.map (fun p : Elem × Nat => uid d sc p.1) = b.kids.map (uid d sc) := by
      rw [show (fun p : Elem × Nat => uid d sc p.1) = uid d sc ∘ Prod.fst from rfl,
        ← List.map_map, List.zipIdx_map_fst]
    have h2 := indexKids_ok (d := d) (sc := sc) (proj := (Prod.fst : Elem × Nat → Elem)) []
      b.kids.zipIdx
      (by intro p hp
          obtain ⟨k, i⟩ := p
          exact ib.ok k (List.mem_of_getElem? (List.mem_zipIdx_iff_getElem?.1 hp)))
      (by simpa [hz] using ib.nodup)
    simp only [h1, h2, List.map_map, Function.comp_def]
    obtain ⟨r, hr, hri⟩ := leLoop_ok (d := d) (sc := sc) (bs := b.kids) vb.shape' ib.nodup a.kids []
      va.shape' (by simp) (by
        intro k hk f hf k' hk' hu
        obtain ⟨f', hf', kk⟩ := va.shape' k hk
        rw [hf] at hf'; cases hf'
        obtain ⟨g, hg, kk'⟩ := vb.shape' k' hk'
        have ht : k.tag = k'.tag := by rw [← uid_tag d sc k, hu, uid_tag]
        have hgf : g = f := by rw [← ht, hf] at hg; cases hg; rfl
        subst hgf
        exact ih k (by rw [← hks]; exact hk) (.node g.node) k' (va.sub' k hk g hf)
          (vb.sub' k' hk' g hg) kk.readable kk'.readable)
    refine ⟨r, hr, ?_⟩
    rw [hri, loopP_iff ib.nodup (fun x hx y hy => va.same_iff vb hx hy)]
    constructor
    · rintro ⟨h3, h4, h5⟩
      exact Incl.mk htag hval (hat.1 hattr) h3 h4 h5
    · intro h
      cases h with
      | mk _ _ _ h3 h4 h5 => exact ⟨h3, h4, h5⟩

end NcDiff
