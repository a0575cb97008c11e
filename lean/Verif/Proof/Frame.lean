import Verif.Proof.Attrs
import Verif.Proof.Laws
/-!
# A sum only touches what the delta mentions
-/

namespace NcDiff

/-- The cell is one of the original children in `U`. -/
def keepCell (U : Nat → Bool) (c : Cell) : Bool :=
  match c.1 with
  | some i => U i
  | none => false

theorem filter_removeCell {U : Nat → Bool} {h : Nat} (hU : U h = false) (st : List Cell) :
    (removeCell h st).filter (keepCell U) = st.filter (keepCell U) := by
  unfold removeCell
  rw [List.filter_filter]
  congr 1
  funext c
  obtain ⟨i, e⟩ := c
  cases i with
  | none => simp [keepCell]
  | some i =>
    by_cases hi : i = h
    · subst hi; simp [keepCell, hU, isCell]
    · simp [keepCell, isCell, hi]

theorem filter_map_cell {U : Nat → Bool} {h : Nat} (hU : U h = false) (g : Cell → Cell)
    (hg : ∀ c, isCell h c = true → keepCell U (g c) = false)
    (hid : ∀ c, isCell h c = false → g c = c) (st : List Cell) :
    (st.map g).filter (keepCell U) = st.filter (keepCell U) := by
  induction st with
  | nil => rfl
  | cons c r ih =>
    rw [List.map_cons, List.filter_cons, List.filter_cons, ih]
    by_cases hc : isCell h c = true
    · have : keepCell U c = false := by
        have : c.1 = some h := by simpa [isCell] using hc
        simp [keepCell, this, hU]
      simp [hg c hc, this]
    · have hc : isCell h c = false := by simpa using hc
      rw [hid c hc]

theorem filter_setCell {U : Nat → Bool} {h : Nat} (hU : U h = false) (e : Elem) (st : List Cell) :
    (setCell h e st).filter (keepCell U) = st.filter (keepCell U) := by
  refine filter_map_cell hU _ ?_ ?_ st
  · intro c hc
    have : c.1 = some h := by simpa [isCell] using hc
    simp [hc, keepCell, this, hU]
  · intro c hc; simp [hc]

theorem filter_replaceCell {U : Nat → Bool} {h : Nat} (hU : U h = false) (e : Elem) (st : List Cell) :
    (replaceCell h e st).filter (keepCell U) = st.filter (keepCell U) := by
  refine filter_map_cell hU _ ?_ ?_ st
  · intro c hc; simp [hc, keepCell]
  · intro c hc; simp [hc]

theorem addWithoutPeer_frame {d : Device} {sc : Scope} {st st' : List Cell} {o : Elem} {rec : AddFn}
    (h : addWithoutPeer d sc st (o, rec) = .ok st') (U : Nat → Bool) :
    st'.filter (keepCell U) = st.filter (keepCell U) := by
  rcases addWithoutPeer_inv h with rfl | ⟨e, hi, _⟩
  · rfl
  · exact hi.filter_neg rfl

theorem addWithPeer_frame {d : Device} {sc : Scope} {st st' : List Cell} {e o : Elem} {h : Nat}
    {rec : AddFn} (hs : addWithPeer d sc st ((e, h), (o, rec)) = .ok st') {U : Nat → Bool}
    (hU : U h = false) : st'.filter (keepCell U) = st.filter (keepCell U) := by
  obtain ⟨st1, hst1, hout⟩ := addWithPeer_inv hs
  have h1 : st1.filter (keepCell U) = st.filter (keepCell U) := by
    rcases hst1 with rfl | hi
    · rfl
    · rw [hi.filter_neg (by simp [keepCell, hU]), filter_removeCell hU]
  rw [← h1]
  rcases hout with rfl | rfl | ⟨e', rfl, _⟩ | ⟨_, rfl⟩
  · rfl
  · exact filter_removeCell hU _
  · exact filter_setCell hU _ _
  · exact filter_replaceCell hU _ _

theorem frame_mem {st st' : List Cell} {h : Nat} {x : Elem}
    (hf : st'.filter (keepCell (· = h)) = st.filter (keepCell (· = h))) :
    (some h, x) ∈ st' ↔ (some h, x) ∈ st := by
  have e : ∀ l : List Cell, (some h, x) ∈ l ↔ (some h, x) ∈ l.filter (keepCell (· = h)) := by
    intro l; simp [List.mem_filter, keepCell]
  rw [e st', hf, ← e st]

theorem mem_setCell {h : Nat} {e e' : Elem} {st : List Cell} (hm : (some h, e) ∈ st) :
    (some h, e') ∈ setCell h e' st := by
  unfold setCell
  rw [List.mem_map]
  exact ⟨(some h, e), hm, by simp [isCell]⟩

/-- Merging into an existing container or list entry. -/
theorem addWithPeer_merge {d : Device} {sc : Scope} {st st' : List Cell} {e o : Elem} {h : Nat}
    {rec : AddFn} (hs : addWithPeer d sc st ((e, h), (o, rec)) = .ok st') (hop : opOf o = "merge")
    {f : Found} (hf : d.lookup sc e.tag = .ok f)
    (hn : f.node.ntype = .container ∨ f.node.ntype = .list) :
    ∃ e' st1, rec (.node f.node) e = .ok e' ∧ (st1 = st ∨ Ins (some h, e) (removeCell h st) st1) ∧
      (((e'.kids = [] ∧ f.node.isNP = true) ∧ st' = removeCell h st1) ∨
       (¬ (e'.kids = [] ∧ f.node.isNP = true) ∧ st' = setCell h e' st1)) := by
  unfold addWithPeer at hs
  simp only [hf, bind, Except.bind] at hs
  have tree : ∀ st1 r, withPeerTree f.node (o, rec) h e st1 = .ok r →
      ∃ e', rec (.node f.node) e = .ok e' ∧ r = ⟨setCell h e' st1, e', true⟩ := by
    intro st1 r hr
    unfold withPeerTree at hr
    simp only [hop, bind, Except.bind, if_true] at hr
    cases hrec : rec (.node f.node) e with
    | error x => simp [hrec] at hr
    | ok e' =>
      simp only [hrec, pure, Except.pure, Except.ok.injEq] at hr
      exact ⟨e', rfl, hr.symm⟩
  have key : ∀ r, withPeer d f.node (o, rec) h e st = .ok r →
      ∃ e' st1, rec (.node f.node) e = .ok e' ∧ (st1 = st ∨ Ins (some h, e) (removeCell h st) st1) ∧
        r = ⟨setCell h e' st1, e', true⟩ := by
    intro r hr
    unfold withPeer at hr
    rcases hn with hn | hn <;> simp only [hn] at hr
    · obtain ⟨e', h1, h2⟩ := tree st r hr
      exact ⟨e', st, h1, Or.inl rfl, h2⟩
    · unfold withPeerList at hr
      have hc : opOf o ≠ "delete" ∧ opOf o ≠ "remove" := by rw [hop]; decide
      simp only [bind, Except.bind, hc, ne_eq, not_false_eq_true, and_self, if_true] at hr
      cases hp : placeOld f.node (keyAnchor o) o h e st with
      | error x => simp [hp] at hr
      | ok st1 =>
        simp only [hp] at hr
        obtain ⟨e', h1, h2⟩ := tree st1 r hr
        exact ⟨e', st1, h1, placeOld_ins hp, h2⟩
  cases hw : withPeer d f.node (o, rec) h e st with
  | error x => simp [hw] at hs
  | ok r =>
    obtain ⟨e', st1, h1, h2, rfl⟩ := key r hw
    simp only [hw] at hs
    refine ⟨e', st1, h1, h2, ?_⟩
    unfold finishPeer at hs
    simp only [if_true] at hs
    split at hs
    · rename_i hc
      cases hs
      exact Or.inl ⟨hc, removeCell_setCell ..⟩
    · rename_i hc
      cases hs
      exact Or.inr ⟨hc, rfl⟩

theorem placed_mem {st st1 : List Cell} {h : Nat} {e : Elem} (hm : (some h, e) ∈ st)
    (h1 : st1 = st ∨ Ins (some h, e) (removeCell h st) st1) : (some h, e) ∈ st1 := by
  rcases h1 with rfl | hi
  · exact hm
  · exact hi.mem.2 (Or.inl rfl)

/-- The second loop: every merged container or list entry ends up in the result. -/
theorem both_merge {d : Device} {sc : Scope} :
    ∀ (l : List ((Elem × Nat) × (Elem × AddFn))) (st st' : List Cell),
    (l.map (fun q => q.1.2)).Nodup → (∀ q ∈ l, (some q.1.2, q.1.1) ∈ st) →
    l.foldlM (addWithPeer d sc) st = .ok st' →
    ∀ q ∈ l, opOf q.2.1 = "merge" → ∀ f, d.lookup sc q.1.1.tag = .ok f →
      (f.node.ntype = .container ∨ f.node.ntype = .list) →
      ∃ e', q.2.2 (.node f.node) q.1.1 = .ok e' ∧
        ((some q.1.2, e') ∈ st' ∨ (f.node.isNP = true ∧ e'.kids = []))
  | [], _, _, _, _, _, q, hq => by simp at hq
  | q0 :: l, st, st', hnd, hm, hfold, q, hq => by
    intro hop f hf hn
    rw [List.foldlM_cons] at hfold
    cases h0 : addWithPeer d sc st q0 with
    | error x => simp [h0, bind, Except.bind] at hfold
    | ok s =>
      simp only [h0, bind, Except.bind] at hfold
      rw [List.map_cons, List.nodup_cons] at hnd
      have hne : ∀ q ∈ l, q.1.2 ≠ q0.1.2 := fun q hq e => hnd.1 (by
        rw [← e]; exact List.mem_map_of_mem hq)
      obtain ⟨⟨e0, i0⟩, ⟨o0, rec0⟩⟩ := q0
      rcases List.mem_cons.1 hq with rfl | hq
      · obtain ⟨e', st1, hr, hst1, hout⟩ := addWithPeer_merge h0 hop hf hn
        refine ⟨e', hr, ?_⟩
        rcases hout with ⟨⟨hk, hnp⟩, _⟩ | ⟨_, hout⟩
        · exact Or.inr ⟨hnp, hk⟩
        · refine Or.inl ?_
          have hin : (some i0, e') ∈ s := by
            rw [hout]
            exact mem_setCell (placed_mem (hm ((e0, i0), (o0, rec0)) List.mem_cons_self) hst1)
          have hfr : st'.filter (keepCell (· = i0)) = s.filter (keepCell (· = i0)) := by
            refine foldlM_inv (P := fun t => t.filter (keepCell (· = i0)) =
              s.filter (keepCell (· = i0))) ?_ rfl hfold
            rintro ⟨⟨e1, i1⟩, ⟨o1, rec1⟩⟩ hm1 a b hab hstep
            rw [addWithPeer_frame hstep (by simpa using hne _ hm1), hab]
          exact (frame_mem hfr).2 hin
      · refine both_merge l s st' hnd.2 ?_ hfold q hq hop f hf hn
        intro q' hq'
        have hfr := addWithPeer_frame h0 (U := (· = q'.1.2)) (by simpa using (hne q' hq').symm)
        exact (frame_mem hfr).2 (hm q' (by simp [hq']))

theorem both_handles_nodup {d : Device} {sc : Scope} {ks : List Elem} {bs : List (Elem × AddFn)} :
    (((groupsOf (fun a : Elem × Nat => uid d sc a.1) (fun b : Elem × AddFn => uid d sc b.1)
      ks.zipIdx bs).both).map (fun q => q.1.2)).Nodup := by
  have h : (((groupsOf (fun a : Elem × Nat => uid d sc a.1) (fun b : Elem × AddFn => uid d sc b.1)
      ks.zipIdx bs).both).map (fun q => q.1.2)).Sublist (ks.zipIdx.map Prod.snd) := by
    unfold groupsOf
    simp only
    generalize ks.zipIdx = l
    induction l with
    | nil => simp
    | cons a r ih =>
      rw [List.filterMap_cons]
      cases hfi : bs.find? (fun b => decide (uid d sc b.1 = uid d sc a.1)) with
      | none => simp only [Option.map_none, List.map_cons]; exact List.Sublist.cons _ ih
      | some b => simp only [Option.map_some, List.map_cons]; exact List.Sublist.cons_cons _ ih
  refine List.Nodup.sublist h ?_
  rw [List.zipIdx_map_snd]
  exact List.nodup_range'

/-- Filtering children by a predicate is filtering their cells by their positions. -/
theorem filter_zipIdx_keep (ks : List Elem) (p : Elem → Bool) :
    ((ks.zipIdx.map (fun q => ((some q.2, q.1) : Cell))).filter
      (keepCell (fun i => match ks[i]? with | some k => p k | none => false))).map Prod.snd =
    ks.filter p := by
  rw [List.filter_map, List.map_map]
  have h1 : ∀ q ∈ ks.zipIdx, (keepCell (fun i => match ks[i]? with | some k => p k | none => false) ∘
      fun q : Elem × Nat => ((some q.2, q.1) : Cell)) q = (p ∘ Prod.fst) q := by
    rintro ⟨k, i⟩ hq
    have := List.mem_zipIdx_iff_getElem?.1 hq
    simp only [Function.comp, keepCell]
    rw [this]
  rw [List.filter_congr h1]
  show List.map Prod.fst (List.filter (p ∘ Prod.fst) ks.zipIdx) = _
  rw [← List.filter_map, List.zipIdx_map_fst]

theorem mem_both_of {d : Device} {sc : Scope} {ks : List Elem} {bs : List (Elem × AddFn)}
    (hn : (bs.map (fun b => uid d sc b.1)).Nodup) {a : Elem × Nat} {b : Elem × AddFn}
    (ha : a ∈ ks.zipIdx) (hb : b ∈ bs) (hu : uid d sc b.1 = uid d sc a.1) :
    (a, b) ∈ (groupsOf (fun a : Elem × Nat => uid d sc a.1) (fun b : Elem × AddFn => uid d sc b.1)
      ks.zipIdx bs).both := by
  refine List.mem_filterMap.2 ⟨a, ha, ?_⟩
  rw [Option.map_eq_some_iff]
  refine ⟨b, ?_, rfl⟩
  cases hf : bs.find? (fun b => decide (uid d sc b.1 = uid d sc a.1)) with
  | none => have := List.find?_eq_none.1 hf b hb; simp [hu] at this
  | some b' =>
    have hb' : uid d sc b'.1 = uid d sc a.1 := by simpa using List.find?_some hf
    have := List.inj_on_of_nodup_map hn (List.mem_of_find?_eq_some hf) hb (hb'.trans hu.symm)
    rw [this]

open Classical in
theorem nodeAdd_framed (d : Device) : ∀ (o : Elem) (sc : Scope) (sum r : Elem), Shaped d sc sum →
    Shaped d sc o → nodeAdd d o sc sum = .ok r → Framed d sc o sum r := by
  intro o
  induction o using Elem.ind with
  | h t n a x ks ih =>
    intro sc sum r hs ho h
    obtain ⟨i1, i2, st1, st2, h1, h2, rfl⟩ := nodeAdd_inv h
    generalize hD : Elem.mk t n a x ks = D at *
    have hks : D.kids = ks := by rw [← hD]; rfl
    have sh1 : ∀ k ∈ sum.kids, ∃ f, d.lookup sc k.tag = .ok f ∧ KidOk d f.node k := by cases hs; assumption
    have sh2 : ∀ k ∈ D.kids, ∃ f, d.lookup sc k.tag = .ok f ∧ KidOk d f.node k := by cases ho; assumption
    have su1 : ∀ k ∈ sum.kids, ∀ f, d.lookup sc k.tag = .ok f → Shaped d (.node f.node) k := by cases hs; assumption
    have su2 : ∀ k ∈ D.kids, ∀ f, d.lookup sc k.tag = .ok f → Shaped d (.node f.node) k := by cases ho; assumption
    have hsame : ∀ s ∈ sum.kids, ∀ k ∈ D.kids, uid d sc s = uid d sc k ↔ SameInstance d sc s k := by
      intro s hsm k hk
      obtain ⟨f, hf, kf⟩ := sh1 s hsm
      obtain ⟨g, hg, kg⟩ := sh2 k hk
      exact uid_eq_iff' hf kf hg kg
    -- the mentioned pairs
    have hbn : ((D.kids.map (fun k => (k, fun sc sum => nodeAdd d k sc sum))).map
        (fun b : Elem × AddFn => uid d sc b.1)).Nodup := by
      rw [List.map_map]; simpa [Function.comp_def] using i2.nodup
    have init : ∀ q ∈ (groupsOf (fun a : Elem × Nat => uid d sc a.1) (fun b : Elem × AddFn => uid d sc b.1)
        sum.kids.zipIdx (D.kids.map (fun k => (k, fun sc sum => nodeAdd d k sc sum)))).both,
        (some q.1.2, q.1.1) ∈ st1 := by
      rintro ⟨⟨e, i⟩, b⟩ hq
      have ha := (mem_both hq).1
      have hfr : st1.filter (keepCell (· = i)) =
          (sum.kids.zipIdx.map (fun p => ((some p.2, p.1) : Cell))).filter (keepCell (· = i)) := by
        refine foldlM_inv (P := fun t => t.filter (keepCell (· = i)) =
          (sum.kids.zipIdx.map (fun p => ((some p.2, p.1) : Cell))).filter (keepCell (· = i))) ?_ rfl h1
        rintro ⟨k, rec⟩ _ s s' hP hstep
        rw [addWithoutPeer_frame hstep, hP]
      exact (frame_mem hfr).2 (List.mem_map.2 ⟨(e, i), ha, rfl⟩)
    have merged := both_merge _ st1 st2 both_handles_nodup init h2
    -- result of a merged child
    let sub : Elem → Elem := fun s =>
      if hx : ∃ e', ∃ k ∈ D.kids, ∃ f, SameInstance d sc s k ∧ d.lookup sc s.tag = .ok f ∧
        nodeAdd d k (.node f.node) s = .ok e' then Classical.choose hx else s
    have hsub : ∀ s ∈ sum.kids, ∀ k ∈ D.kids, SameInstance d sc s k → opOf k = "merge" →
        ∀ f, d.lookup sc s.tag = .ok f → f.node.ntype = .container ∨ f.node.ntype = .list →
        nodeAdd d k (.node f.node) s = .ok (sub s) ∧
          (sub s ∈ st2.map Prod.snd ∨ (f.node.isNP = true ∧ (sub s).kids = [])) := by
      intro s hsm k hk hsk hop f hf hn
      obtain ⟨i, hi⟩ := List.mem_iff_getElem?.1 hsm
      have hq := mem_both_of (ks := sum.kids) (a := (s, i)) hbn (List.mem_zipIdx_iff_getElem?.2 hi)
        (List.mem_map.2 ⟨k, hk, rfl⟩) ((hsame s hsm k hk).2 hsk).symm
      obtain ⟨e', hr, hout⟩ := merged _ hq hop f hf hn
      have hx : ∃ e', ∃ k ∈ D.kids, ∃ f, SameInstance d sc s k ∧ d.lookup sc s.tag = .ok f ∧
        nodeAdd d k (.node f.node) s = .ok e' := ⟨e', k, hk, f, hsk, hf, hr⟩
      have hse : sub s = e' := by
        have hss : sub s = Classical.choose hx := dif_pos hx
        obtain ⟨k', hk', f', hsk', hf', hr'⟩ := Classical.choose_spec hx
        rw [hf] at hf'; cases hf'
        have huk : uid d sc k = uid d sc k' := by
          rw [← (hsame s hsm k hk).2 hsk, ← (hsame s hsm k' hk').2 hsk']
        have := List.inj_on_of_nodup_map i2.nodup hk hk' huk
        subst this
        simp only at hr
        rw [hr] at hr'
        rw [hss]; cases hr'; rfl
      rw [hse]
      refine ⟨hr, ?_⟩
      rcases hout with hout | hout
      · exact Or.inl (List.mem_map.2 ⟨_, hout, rfl⟩)
      · exact Or.inr hout
    refine Framed.mk sub ?_ ?_ ?_
    · -- the unmentioned children
      let U : Nat → Bool := fun i =>
        match sum.kids[i]? with
        | some k => decide (¬ Mentioned d sc D k)
        | none => false
      have hfr : st2.filter (keepCell U) =
          (sum.kids.zipIdx.map (fun p => ((some p.2, p.1) : Cell))).filter (keepCell U) := by
        refine foldlM_inv (P := fun t => t.filter (keepCell U) =
          (sum.kids.zipIdx.map (fun p => ((some p.2, p.1) : Cell))).filter (keepCell U)) ?_ ?_ h2
        · rintro ⟨⟨e, i⟩, ⟨k, rec⟩⟩ hq s s' hP hstep
          rw [addWithPeer_frame hstep ?_, hP]
          obtain ⟨ha, hb, hu⟩ := mem_both hq
          obtain ⟨k', hk', hke⟩ := List.mem_map.1 hb
          cases hke
          have hi := List.mem_zipIdx_iff_getElem?.1 ha
          simp only at hi
          simp only [U, hi, decide_eq_false_iff_not, not_not]
          exact ⟨k, hk', (hsame e (List.mem_of_getElem? hi) k hk').1 hu.symm⟩
        · refine foldlM_inv (P := fun t => t.filter (keepCell U) =
            (sum.kids.zipIdx.map (fun p => ((some p.2, p.1) : Cell))).filter (keepCell U)) ?_ rfl h1
          rintro ⟨k, rec⟩ _ s s' hP hstep
          rw [addWithoutPeer_frame hstep, hP]
      rw [← filter_zipIdx_keep sum.kids, ← hfr]
      exact List.Sublist.map _ List.filter_sublist
    · intro s hsm k hk hsk hop f hf hn
      have hkt : d.lookup sc k.tag = .ok f := by rw [← hsk.1]; exact hf
      exact ih k (by rw [← hks]; exact hk) _ _ _ (su1 s hsm f hf) (su2 k hk f hkt)
        (hsub s hsm k hk hsk hop f hf hn).1
    · intro s hsm k hk hsk hop f hf hn
      exact (hsub s hsm k hk hsk hop f hf hn).2

end NcDiff
