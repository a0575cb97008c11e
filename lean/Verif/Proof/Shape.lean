import Verif.Proof.SubMain
/-!
# The shape of a computed delta: deletions and order
-/

namespace NcDiff

variable {ω : Prop}

theorem forall₂_of_map_eq {α β γ : Type} {f : α → γ} {g : β → γ} {R : α → β → Prop} :
    ∀ {l : List α} {m : List β}, l.map f = m.map g → (∀ a ∈ l, ∀ b ∈ m, f a = g b → R a b) → List.Forall₂ R l m
  | [], [], _, _ => .nil
  | [], _ :: _, h, _ => by simp at h
  | _ :: _, [], h, _ => by simp at h
  | a :: l, b :: m, h, hR => by
    simp only [List.map_cons, List.cons.injEq] at h
    exact .cons (hR a (by simp) b (by simp) h.1)
      (forall₂_of_map_eq h.2 (fun x hx y hy => hR x (by simp [hx]) y (by simp [hy])))

/-! ## Attributes that are set later -/

theorem hasOp_replace {o : Elem} : HasOp o "replace" ↔ opOf o = "replace" := by
  unfold HasOp opOf
  cases h : o.get .operation with
  | none => simp
  | some v => cases v <;> simp

theorem noDelete_body {a b : Elem} (h : SameBody a b) (ho : opOf b = opOf a) (hn : NoDelete a) : NoDelete b := by
  cases hn with
  | mk here sub =>
    refine ⟨?_, by rw [← h.2.2.2]; exact sub⟩
    rw [isDelete_op, ho, ← isDelete_op]; exact here

theorem deletesMissing_body {d : Device} {w : Prop} {sc : Scope} {S T a b : Elem} (h : SameBody a b)
    (ho : opOf b = opOf a) (hd : DeletesMissing d w sc S T a) : DeletesMissing d w sc S T b := by
  cases hd with
  | replaced hw hop copy no =>
    exact .replaced hw (by rw [hasOp_replace, ho, ← hasOp_replace]; exact hop)
      (by rw [← delAttrib_body h]; exact copy) (noDelete_body h ho no)
  | level h1 h2 h3 h4 h5 =>
    refine .level ?_ ?_ ?_ ?_ ?_ <;> rw [← h.2.2.2]
    · exact h1
    · exact h2
    · exact h3
    · exact h4
    · exact h5

theorem orderMarked_body {d : Device} {w : Prop} {sc : Scope} {S T a b : Elem} (h : SameBody a b)
    (ho : opOf b = opOf a) (hd : OrderMarked d w sc S T a) : OrderMarked d w sc S T b := by
  cases hd with
  | replaced hw hop copy =>
    exact .replaced hw (by rw [hasOp_replace, ho, ← hasOp_replace]; exact hop)
      (by rw [← delAttrib_body h]; exact copy)
  | same h1 h2 => exact .same h1 (by rw [← h.2.2.2]; exact h2)
  | level h1 h2 =>
    refine .level ?_ ?_ <;> rw [← h.2.2.2]
    · exact h1
    · exact h2

/-! ## Emptied containers -/

theorem erased_of_diff {d : Device} : ∀ (s : Elem) {sn : SNode} {m : Elem}, sn.isNP = true →
    Diff ω d (.node sn) s (s.setKids []) m → Erased d sn s m := by
  intro s
  induction s using Elem.ind with
  | h t n a x ks ih =>
    intro sn m hnp hd
    have B := hd.base'
    have habs : ∀ y, ∀ k ∈ ((Elem.mk t n a x ks).setKids []).kids, uid d (.node sn) k ≠ uid d (.node sn) y := by
      intro y k hk; simp at hk
    refine .inside hnp ?_ ?_ ?_
    · intro y hy
      obtain ⟨o, ho, hu⟩ := B.gone y hy (habs y)
      exact ⟨o, ho, (B.vS.same_iff B.vD hy ho).1 hu.symm⟩
    · intro y hy o ho hs f hf
      have hu := (B.vS.same_iff B.vD hy ho).2 hs
      rcases B.goneOp y hy (habs y) o ho hu.symm f hf with h | h
      · exact .marked (isDelete_op.2 h.1)
      · refine ih y hy h.2 ?_
        cases hd with
        | mk _ gone _ _ _ => exact gone y hy (habs y) o ho hu.symm h.1 f hf
    · intro o ho
      rcases B.only o ho with ⟨k, hk, _⟩ | ⟨y, hy, hu⟩
      · simp at hk
      · exact ⟨y, hy, (B.vS.same_iff B.vD hy ho).1 hu⟩

/-! ## Facts about one level -/

section
variable {d : Device} {Q : Carried} {sc : Scope} {S T : Elem} {φ : Nat → Option Elem} {M : List Elem}
  {obu : List (QName × OrderInfo)} {st st' : List Cell}

theorem Outcome.op {f : Found} {k x : Elem} (h : Outcome ω d Q sc S f k (some x)) : ¬ IsDelete x := by
  rw [isDelete_op]
  cases h with
  | new _ h _ =>
    rcases h.op with h | h | h <;> rw [h] <;> decide
  | both hs hu h =>
    have hn := h.kid
    unfold KidOk at hn
    have key : opOf x = "merge" ∨ opOf x = "replace" := by
      cases hk : f.node.ntype <;> simp only [hk] at hn
      · exact (h.leaf hk).1
      · exact h.leafList hk
      · rcases h.tree (Or.inl hk) with h | h
        · exact Or.inl h.1
        · exact Or.inr h.1
      · rcases h.tree (Or.inr hk) with h | h
        · exact Or.inl h.1
        · exact Or.inr h.1
    rcases key with h | h <;> rw [h] <;> decide

theorem Link.noDelete {f : Found} {k x o : Elem} (h : Link ω d Q sc S f k x o) : ¬ IsDelete o := by
  rw [isDelete_op, h.op, ← isDelete_op]; exact h.out.op

end

section
variable {d : Device} {w : Prop}

/-- Keys of an entry that has not changed. -/
theorem key_kids {sn : SNode} {k o : Elem} (hk : Side d (.node sn) k)
    (ho : o ∈ (k.setKids (k.kids.filter (isKeyKid d sn))).kids) :
    o ∈ k.kids ∧ ∃ f, d.lookup (.node sn) o.tag = .ok f ∧ f.node.info.isKey = true ∧ f.node.ntype = .leaf := by
  obtain ⟨h1, h2⟩ := List.mem_filter.1 (ho : o ∈ k.kids.filter (isKeyKid d sn))
  obtain ⟨f, hf, _⟩ := hk.valid.shape' o h1
  unfold isKeyKid at h2
  simp only [hf] at h2
  exact ⟨h1, f, hf, h2, (hk.level.here'.keyLeaf o h1 f hf h2).1⟩

theorem carry_deletes : CarryAll d w (DeletesMissing d w) where
  whole hw hS hT := by
    refine .replaced hw (hasOp_replace.2 (opOf_setOp _ _)) ?_ ?_
    · exact (delAttrib_body (SameBody.set _ .operation (.str "replace"))).symm.trans (noAttrs_delAttrib hT.bare)
    · refine ⟨by rw [isDelete_op, opOf_setOp]; decide, ?_⟩
      intro k hk
      exact noDelete_bare (hT.bare.sub' k hk)
  keys {sn s k} hs hk hsame := by
    have hto : ∀ x ∈ s.kids, ∃ y ∈ k.kids, SameInstance d (.node sn) x y := by
      cases hsame.1; assumption
    have hfrom : ∀ y ∈ k.kids, ∃ x ∈ s.kids, SameInstance d (.node sn) y x := by
      cases hsame.2; assumption
    refine .level ?_ ?_ ?_ ?_ ?_
    · intro o ho hdel
      rw [isDelete_op, opOf_bare (hk.attrs (key_kids hk ho).1)] at hdel
      rcases hdel with h | h <;> exact absurd h (by decide)
    · intro x hx habs
      obtain ⟨y, hy, h⟩ := hto x hx
      exact absurd h.symm (habs y hy)
    · intro y hy habs
      obtain ⟨x, hx, h⟩ := hfrom y hy
      exact absurd h.symm (habs x hx)
    · intro x hx y hy _ o ho hs f hf hn
      obtain ⟨_, g, hg, _, hgl⟩ := key_kids hk ho
      rw [← hs.1, hf] at hg; cases hg
      rcases hn with h | h <;> rw [hgl] at h <;> cases h
    · intro o ho
      exact Or.inl ⟨o, (key_kids hk ho).1, SameInstance.refl _ _ _⟩
  level {ω sc S T φ M obu st st'} h := by
    have hD := h.diff (D := T.setKids (st'.map Prod.snd)) rfl rfl (by
      show (T.attrs.map Prod.fst).Nodup
      rw [h.sideT.bare.here']; simp)
    have B := hD.base'
    have siT : ∀ k ∈ T.kids, ∀ o ∈ st'.map Prod.snd, uid d sc k = uid d sc o ↔ SameInstance d sc k o :=
      fun k hk o ho => B.vT.same_iff B.vD hk ho
    have siS : ∀ k ∈ S.kids, ∀ o ∈ st'.map Prod.snd, uid d sc k = uid d sc o ↔ SameInstance d sc k o :=
      fun k hk o ho => B.vS.same_iff B.vD hk ho
    have siST : ∀ s ∈ S.kids, ∀ k ∈ T.kids, uid d sc s = uid d sc k ↔ SameInstance d sc s k :=
      fun k hk o ho => B.vS.same_iff B.vT hk ho
    have absT : ∀ s ∈ S.kids, (Absent d sc T.kids s ↔ ∀ k ∈ T.kids, uid d sc k ≠ uid d sc s) := by
      intro s hs
      refine forall_congr' fun k => forall_congr' fun hk => not_congr ?_
      exact (B.vT.same_iff B.vS hk hs).symm
    have absS : ∀ k ∈ T.kids, (Absent d sc S.kids k ↔ ∀ s ∈ S.kids, uid d sc s ≠ uid d sc k) := by
      intro s hs
      refine forall_congr' fun k => forall_congr' fun hk => not_congr ?_
      exact (B.vS.same_iff B.vT hk hs).symm
    refine .level ?_ ?_ ?_ ?_ ?_
    · intro o ho hdel
      rcases h.kids ho with ⟨i, k, f, x, _, _, _, hl⟩ | hm
      · exact absurd hdel hl.noDelete
      · obtain ⟨s, hs, habs, f, hf, hM⟩ := h.mark o hm
        exact ⟨s, hs, (siS s hs o ho).1 hM.uid.symm, (absT s hs).2 habs⟩
    · intro s hs habs
      obtain ⟨m, hm, hu⟩ := h.marks s hs ((absT s hs).1 habs)
      have hmk := h.marker hm
      refine ⟨m, hmk, (siS s hs m hmk).1 hu.symm, fun f hf => ?_⟩
      have hM := h.markOf hmk hs ((absT s hs).1 habs) hu hf
      rcases hM.op with ⟨h1, _⟩ | ⟨_, h2, h3⟩
      · exact .marked (isDelete_op.2 h1)
      · exact erased_of_diff s h2 h3
    · intro k hk habs
      obtain ⟨i, hi⟩ := List.getElem?_of_mem hk
      obtain ⟨f, hf, _⟩ := h.sideT.valid.shape' k hk
      have hno := (absS k hk).1 habs
      have hout := h.out i k hi f hf
      cases hx : φ i with
      | none =>
        rw [hx] at hout
        cases hout with
        | out hs hu => exact absurd hu (hno _ hs)
      | some x =>
        rw [hx] at hout
        obtain ⟨o, ho, hb⟩ := h.stays hi hx
        have hu : uid d sc o = uid d sc k := by rw [← uid_body hb, hout.stay.uid]
        obtain ⟨x', hl⟩ := h.link ho hk hu hf
        refine ⟨o, ho, (siT k hk o ho).1 hu.symm, ?_⟩
        cases hl.out with
        | both hs hu' => exact absurd hu' (hno _ hs)
        | new _ hN _ =>
          exact ⟨by rw [← delAttrib_body hl.body]; exact hN.copy, noDelete_body hl.body hl.op hN.clean⟩
    · intro s hs k hk hsk o ho hko f hf hn
      have hu := (siT k hk o ho).2 hko
      have hu2 := (siST s hs k hk).2 hsk
      obtain ⟨x, hl⟩ := h.link ho hk hu.symm hf
      cases hl.out with
      | new hno _ => exact absurd hu2 (hno s hs)
      | both hs' hu' hB =>
        have := List.inj_on_of_nodup_map h.sideS.valid.indexable.nodup hs' hs (hu'.trans hu2.symm)
        subst this
        exact deletesMissing_body hl.body hl.op (hB.carried hn)
    · intro o ho
      rcases B.only o ho with ⟨k, hk, hu⟩ | ⟨s, hs, hu⟩
      · exact Or.inl ⟨k, hk, (siT k hk o ho).1 hu⟩
      · exact Or.inr ⟨s, hs, (siS s hs o ho).1 hu⟩

/-! ## Order -/

theorem denotes_of_resolve {m : NsMap} {id : KeyId} {q : QName} (h : resolveKeyId m id = .ok q) :
    Denotes m id q := by
  cases id with
  | brace q' => exact Except.ok.inj h
  | bare n => have := Except.ok.inj h; subst this; exact ⟨rfl, rfl⟩
  | prefixed p n =>
    unfold resolveKeyId at h
    cases hm : m.url (some p) with
    | none => simp [hm] at h
    | some u =>
      simp only [hm, Except.ok.injEq] at h
      subst h
      exact ⟨rfl, hm⟩

theorem names_of_parse {m : NsMap} {p : Elem} : ∀ {keys : List QName} {ps : List (KeyId × String)},
    parsePreds m ps = .ok (keys.map (fun q => (q, keyText p q))) →
    (∀ q ∈ keys, ∃ c, p.childrenWith q = [c] ∧ c.text = some (keyText p q)) →
    List.Forall₂ (fun q x => Denotes m x.1 q ∧ ∃ c, p.childrenWith q = [c] ∧ c.text = some x.2) keys ps
  | [], [], _, _ => .nil
  | q :: ks, [], h, _ => by simp [parsePreds] at h
  | keys, (k, t) :: r, h, hk => by
    rw [parsePreds] at h
    split at h
    · cases h
    · simp only [bind, Except.bind, pure, Except.pure] at h
      cases h1 : resolveKeyId m k with
      | error e => simp [h1] at h
      | ok q' =>
        simp only [h1] at h
        cases h2 : parsePreds m r with
        | error e => simp [h2] at h
        | ok r' =>
          simp only [h2, Except.ok.injEq] at h
          cases keys with
          | nil => simp at h
          | cons q ks =>
            simp only [List.map_cons, List.cons.injEq, Prod.mk.injEq] at h
            obtain ⟨⟨rfl, rfl⟩, rfl⟩ := h
            exact .cons ⟨denotes_of_resolve h1, hk _ (by simp)⟩
              (names_of_parse h2 (fun x hx => hk x (by simp [hx])))

theorem get_insert {o : Elem} {s : String} (hs : s ≠ "?") (h : insertOf o = some s) :
    o.get .insert = some (.str s) := by
  unfold insertOf at h
  cases hg : o.get .insert with
  | none => simp [hg] at h
  | some v =>
    cases v with
    | str t => simp only [hg, Option.some.injEq] at h; rw [h]
    | pred ps => simp only [hg, Option.some.injEq] at h; exact absurd h.symm hs

theorem siblings_uid {sc : Scope} {T : Elem} {t : QName} :
    (T.kids.map (uid d sc)).filter (fun u => u.1 = t) = (siblings T t).map (uid d sc) := by
  unfold siblings
  rw [List.filter_map]
  congr 1
  refine List.filter_congr ?_
  intro k _
  simp [uid_tag]

theorem carry_order : CarryAll d w (OrderMarked d w) where
  whole hw hS hT := by
    refine .replaced hw (hasOp_replace.2 (opOf_setOp _ _)) ?_
    exact (delAttrib_body (SameBody.set _ .operation (.str "replace"))).symm.trans (noAttrs_delAttrib hT.bare)
  keys {sn s k} hs hk hsame := .same hsame (fun o ho => by
    obtain ⟨h1, h2⟩ := key_kids hk ho
    have hb := hk.bare.sub' o h1
    exact ⟨by rw [noAttrs_delAttrib hb]; exact h1, by cases noDelete_bare hb; assumption, h2⟩)
  level {ω sc S T φ M obu st st'} h := by
    have hD := h.diff (D := T.setKids (st'.map Prod.snd)) rfl rfl (by
      show (T.attrs.map Prod.fst).Nodup
      rw [h.sideT.bare.here']; simp)
    have B := hD.base'
    have hTnd := h.sideT.valid.indexable.nodup
    refine .level ?_ ?_
    · intro t f hf hu hn
      have hus : UserOrdered d sc t := ⟨f, hf, hu, hn⟩
      have hnp : f.node.isNP = false := notNP (by rcases hn with h | h <;> rw [h] <;> decide)
      have hfil : (st'.map Prod.snd).filter (fun o => decide (o.tag = t ∧ ¬ IsDelete o)) =
          (st'.filter (fun c => c.1.isSome && decide (c.2.tag = t))).map Prod.snd := by
        rw [List.filter_map]
        congr 1
        refine List.filter_congr ?_
        intro c' hc'
        obtain ⟨c, hc, h1, h2, h3⟩ := forall₂_mem_right (ord_cells h.ord) c' hc'
        rw [Bool.eq_iff_iff]
        simp only [Function.comp_apply, decide_eq_true_eq, Bool.and_eq_true]
        cases hi : c'.1 with
        | none =>
          simp only [Option.isSome_none, Bool.false_eq_true, false_and, iff_false, not_and, not_not]
          intro ht
          have hm : c'.2 ∈ M := by
            rw [hi] at h1
            rw [h3 (Or.inl h1.symm)]
            exact h.rep.2.subset (List.mem_map.2 ⟨c, List.mem_filter.2 ⟨hc, by simp [← h1]⟩, rfl⟩)
          obtain ⟨s, hs, habs, g, hg, hM⟩ := h.mark _ hm
          rw [← hM.tag, ht, hf] at hg; cases hg
          rcases hM.op with ⟨h1, _⟩ | ⟨_, h2, _⟩
          · exact isDelete_op.2 h1
          · rw [hnp] at h2; cases h2
        | some i =>
          simp only [Option.isSome_some, true_and, and_iff_left_iff_imp]
          intro _
          obtain ⟨⟨k, hk⟩, hx⟩ := h.cell hc (by rw [← h1]; exact hi)
          obtain ⟨g, hg, hs⟩ := h.cellUid hk hx
          obtain ⟨x, hl⟩ := h.link (List.mem_map_of_mem hc') (List.mem_of_getElem? hk)
            (by rw [← uid_body h2, hs.uid]) hg
          exact hl.noDelete
      show List.Forall₂ _ (siblings T t) ((st'.map Prod.snd).filter (fun o => decide (o.tag = t ∧ ¬ IsDelete o)))
      rw [hfil]
      have huids : (siblings T t).map (uid d sc) =
          ((st'.filter (fun c => c.1.isSome && decide (c.2.tag = t))).map Prod.snd).map (uid d sc) := by
        rw [← siblings_uid, ← h.sibs hus, List.map_map]
        have key : ∀ {a b : List Cell}, List.Forall₂ (fun c c' => c'.1 = c.1 ∧ SameBody c.2 c'.2 ∧
            (c.1 = none ∨ obuFor obu c.2.tag = none → c' = c)) a b →
            (a.filter (fun c => c.1.isSome && decide (c.2.tag = t))).map (fun c => uid d sc c.2) =
            (b.filter (fun c => c.1.isSome && decide (c.2.tag = t))).map (uid d sc ∘ Prod.snd) := by
          intro a b hab
          induction hab with
          | nil => rfl
          | cons hr _ ih =>
            obtain ⟨h1, h2, _⟩ := hr
            rw [List.filter_cons, List.filter_cons, h1, ← h2.1]
            split
            · rw [List.map_cons, List.map_cons, ih, uid_body h2]; rfl
            · exact ih
        exact key (ord_cells h.ord)
      refine forall₂_of_map_eq huids ?_
      intro k hk o ho huo
      obtain ⟨hkT, hkt⟩ := List.mem_filter.1 hk
      simp only [decide_eq_true_eq] at hkt
      obtain ⟨c', hc', rfl⟩ := List.mem_map.1 ho
      have hom : c'.2 ∈ st'.map Prod.snd := List.mem_map_of_mem (List.mem_filter.1 hc').1
      have hfk : d.lookup sc k.tag = .ok f := by rw [hkt]; exact hf
      refine ⟨(B.vT.same_iff B.vD hkT hom).1 huo, ?_⟩
      have hinj : ∀ x ∈ T.kids, ∀ y ∈ T.kids, uid d sc x = uid d sc y → x = y :=
        fun x hx y hy e => List.inj_on_of_nodup_map hTnd hx hy e
      have hsib : ∀ x ∈ siblings T k.tag, x ∈ T.kids := fun x hx => (List.mem_filter.1 hx).1
      rcases h.place hom hkT huo.symm hfk hu hn with ⟨h1, r, h2⟩ | ⟨h1, p, hp, ha, l, r, h2⟩
      · left
        refine ⟨get_insert (by decide) h1, ?_⟩
        rw [siblings_uid] at h2
        cases hs : siblings T k.tag with
        | nil => rw [hs] at h2; simp at h2
        | cons y ys =>
          rw [hs] at h2
          simp only [List.map_cons, List.cons.injEq] at h2
          have : y = k := hinj y (hsib y (by rw [hs]; simp)) k hkT h2.1
          subst this
          exact ⟨ys, rfl⟩
      · right
        refine ⟨get_insert (by decide) h1, p, ?_⟩
        rw [siblings_uid, List.map_eq_append_iff] at h2
        obtain ⟨l1, l2, h3, h4, h5⟩ := h2
        cases l2 with
        | nil => simp at h5
        | cons y l2 =>
          cases l2 with
          | nil => simp at h5
          | cons z l3 =>
            simp only [List.map_cons, List.cons.injEq] at h5
            have e1 : y = p := hinj y (hsib y (by rw [h3]; simp)) p hp h5.1
            have e2 : z = k := hinj z (hsib z (by rw [h3]; simp)) k hkT h5.2.1
            subst e1 e2
            refine ⟨l1, l3, h3, ?_⟩
            have hyt : y.tag = z.tag := by
              have := (List.mem_filter.1 (by rw [← siblings, h3]; simp : y ∈ T.kids.filter (fun x => x.tag = z.tag))).2
              simpa using this
            unfold Anchors at ha
            unfold NamesEntry
            rcases hn with hn | hn
            · simp only [hn] at ha ⊢; exact ha
            · simp only [hn] at ha ⊢
              obtain ⟨ps, hps, hpp⟩ := ha
              refine ⟨ps, hps, names_of_parse hpp ?_⟩
              intro q hq
              have hkd := h.sideT.keyed hp (by rw [hyt]; exact hfk) hu
              unfold Keyed at hkd
              simp only [hn] at hkd
              obtain ⟨c, t', hc, hck, hct⟩ := hkd q hq
              refine ⟨c, hc, ?_⟩
              unfold keyText
              rw [find_childrenWith hc]
              simp [hct]
    · intro s hs k hk hsk o ho hko f hf hn
      have hu := (B.vT.same_iff B.vD hk ho).2 hko
      have hu2 := (B.vS.same_iff B.vT hs hk).2 hsk
      obtain ⟨x, hl⟩ := h.link ho hk hu.symm hf
      cases hl.out with
      | new hno _ => exact absurd hu2 (hno s hs)
      | both hs' hu' hB =>
        have := List.inj_on_of_nodup_map h.sideS.valid.indexable.nodup hs' hs (hu'.trans hu2.symm)
        subst this
        exact orderMarked_body hl.body hl.op (hB.carried hn)

end
end NcDiff
