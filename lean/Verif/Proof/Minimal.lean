import Verif.Spec.Minimal
import Verif.Proof.ShapeStrip
import Verif.Proof.Choice
/-!
# A delta says nothing about what has not changed
-/

namespace NcDiff

variable {d : Device} {ω : Prop}

theorem onlyChanges_body {w : Prop} {sc : Scope} {S T a b : Elem} (h : SameBody a b)
    (ho : opOf b = opOf a) (hd : OnlyChanges d w sc S T a) : OnlyChanges d w sc S T b := by
  cases hd with
  | replaced hw hop copy =>
    exact .replaced hw (by rw [hasOp_replace, ho, ← hasOp_replace]; exact hop)
      (by rw [← delAttrib_body h]; exact copy)
  | same h1 h2 => exact .same h1 (by rw [← h.2.2.2]; exact h2)
  | level h1 h2 =>
    refine .level ?_ ?_ <;> rw [← h.2.2.2]
    · exact h1
    · exact h2

theorem carry_minimal {w : Prop} : CarryAll d w (OnlyChanges d w) where
  whole hw hS hT := by
    refine .replaced hw (hasOp_replace.2 (opOf_setOp _ _)) ?_
    exact (delAttrib_body (SameBody.set _ .operation (.str "replace"))).symm.trans (noAttrs_delAttrib hT.bare)
  keys {sn s k} hs hk hsame := .same hsame (fun o ho => by
    obtain ⟨h1, h2⟩ := key_kids hk ho
    have hb := hk.bare.sub' o h1
    exact ⟨by rw [noAttrs_delAttrib hb]; exact h1, by cases noDelete_bare hb; assumption, h2⟩)
  level {ω sc S T φ M obu st st'} h := by
    have hD := h.diff (D := T.setKids (st'.map Prod.snd)) rfl rfl (by
      show (T.attrs.map Prod.fst).Nodup
      rw [h.sideT.bare.here']; simp)
    have B := hD.base'
    have linked : ∀ s ∈ S.kids, ∀ k ∈ T.kids, SameInstance d sc s k → ∀ o ∈ st'.map Prod.snd, SameInstance d sc k o →
        ∀ f, d.lookup sc k.tag = .ok f → ∃ x, BothOk ω d (.just (OnlyChanges d w)) sc f s k x ∧ SameBody x o ∧
          opOf o = opOf x := by
      intro s hs k hk hsk o ho hko f hf
      have hu := (B.vT.same_iff B.vD hk ho).2 hko
      have hu2 := (B.vS.same_iff B.vT hs hk).2 hsk
      obtain ⟨x, hl⟩ := h.link ho hk hu.symm hf
      cases hl.out with
      | new hno _ => exact absurd hu2 (hno s hs)
      | both hs' hu' hB =>
        have := List.inj_on_of_nodup_map h.sideS.valid.indexable.nodup hs' hs (hu'.trans hu2.symm)
        subst this
        exact ⟨x, hB, hl.body, hl.op⟩
    refine .level ?_ ?_
    · intro s hs k hk hsk f hf
      constructor
      · rintro ⟨o, ho, hko⟩
        obtain ⟨x, hB, _⟩ := linked s hs k hk hsk o ho hko f hf
        exact hB.worth
      · intro hw
        obtain ⟨i, hi⟩ := List.getElem?_of_mem hk
        have hout := h.out i k hi f hf
        have hu2 := (B.vS.same_iff B.vT hs hk).2 hsk
        cases hx : φ i with
        | none =>
          rw [hx] at hout
          cases hout with
          | out hs' hu hsame hno hkey =>
            have := List.inj_on_of_nodup_map h.sideS.valid.indexable.nodup hs' hs (hu.trans hu2.symm)
            subst this
            rcases hw with hw | hw | hw
            · exact absurd hsame hw
            · exact absurd hw hkey
            · exact absurd hw hno
        | some x =>
          rw [hx] at hout
          obtain ⟨o, ho, hb⟩ := h.stays hi hx
          have hu : uid d sc o = uid d sc k := by rw [← uid_body hb, hout.stay.uid]
          exact ⟨o, ho, (B.vT.same_iff B.vD hk ho).1 hu.symm⟩
    · intro s hs k hk hsk o ho hko f hf hn
      obtain ⟨x, hB, hb, hop⟩ := linked s hs k hk hsk o ho hko f hf
      exact onlyChanges_body hb hop (hB.carried hn)

theorem strip_minimal {w : Prop} {sc : Scope} {S T D : Elem} (hd : OnlyChanges d w sc S T D) :
    ∀ {D' : Elem}, strip D = strip D' → OnlyChanges d w sc S T D' := by
  induction hd with
  | replaced hw h copy =>
    intro D' hs
    refine .replaced hw ?_ (by rw [← strip_del_eq hs]; exact copy)
    unfold HasOp at h ⊢
    rw [← strip_get_eq rfl hs]; exact h
  | same h keys =>
    intro D' hs
    refine .same h ?_
    intro o' ho'
    obtain ⟨o, ho, hos⟩ := strip_kid hs ho'
    obtain ⟨h1, h2, h3⟩ := keys o ho
    rw [← strip_del_eq hos, ← strip_isDelete hos, ← strip_tag_eq hos]
    exact ⟨h1, h2, h3⟩
  | @level sc S T D mentioned both ih =>
    intro D' hs
    refine .level ?_ ?_
    · intro s hsm k hk hsk f hf
      rw [← mentioned s hsm k hk hsk f hf]
      constructor
      · rintro ⟨o', ho', hko⟩
        obtain ⟨o, ho, hos⟩ := strip_kid hs ho'
        exact ⟨o, ho, (strip_instance_eq hos).2 hko⟩
      · rintro ⟨o', ho', hko⟩
        obtain ⟨o, ho, hos⟩ := strip_kid hs.symm ho'
        exact ⟨o, ho, (strip_instance_eq hos).2 hko⟩
    · intro s hsm k hk hsk o' ho' hko f hf hn
      obtain ⟨o, ho, hos⟩ := strip_kid hs ho'
      exact ih s hsm k hk hsk o ho ((strip_instance_eq hos).2 hko) f hf hn hos

/-- What is about changes from the cleared source only is about changes from the source only. -/
theorem clear_minimal {w : Prop} : ∀ (R : Elem) {sc : Scope} {T D : Elem}, Side d sc R → Side d sc T →
    Deep d (OneCase d) sc R → Deep d (OneCase d) sc T → OnlyChanges d w sc (clear d sc T R) T D →
    OnlyChanges d w sc R T D := by
  intro R
  induction R using Elem.ind with
  | h t n a x ks ih =>
    intro sc T D hR hT h1 h2 hd
    set R := Elem.mk t n a x ks with hRd
    have hC := clear_side R hR hT h2
    have peer : ∀ r ∈ R.kids, ∀ k ∈ T.kids, SameInstance d sc r k → ∀ f, d.lookup sc k.tag = .ok f →
        clear d (.node f.node) k r ∈ (clear d sc T R).kids ∧ SameInstance d sc (clear d (.node f.node) k r) k ∧
        d.lookup sc r.tag = .ok f := by
      intro r hr k hk hi f hf
      have hu := (same_uid hR.valid hT.valid hr hk).2 hi
      have hfr : d.lookup sc r.tag = .ok f := by rw [tag_of_uid hu]; exact hf
      have hk' := clearKid_peer hR hT h2.here' hr hk hu hfr
      have hm : clear d (.node f.node) k r ∈ (clear d sc T R).kids := mem_clear.2 ⟨r, hr, hk'⟩
      have hus := (clear_kidOk hR hT h2 hr hk' hfr).2
      exact ⟨hm, (same_uid hC.valid hT.valid hm hk).1 (hus.trans hu), hfr⟩
    cases hd with
    | replaced hw h copy => exact .replaced hw h copy
    | same h keys =>
      refine .same ?_ keys
      rwa [same_clear R hR hT h2 h1 h] at h
    | level mentioned both =>
      refine .level ?_ ?_
      · intro r hr k hk hi f hf
        obtain ⟨hm, hi', hfr⟩ := peer r hr k hk hi f hf
        rw [mentioned _ hm k hk hi' f hf]
        have key : SameConfig d (.node f.node) (clear d (.node f.node) k r) k ↔ SameConfig d (.node f.node) r k := by
          constructor
          · intro h
            rwa [same_clear r (hR.sub hr hfr) (hT.sub hk hf) (h2.sub' k hk f hf) (h1.sub' r hr f hfr) h] at h
          · intro h
            rwa [clear_same r (hR.sub hr hfr) (hT.sub hk hf) (h2.sub' k hk f hf) h]
        rw [key]
      · intro r hr k hk hi o ho hko f hf hn
        obtain ⟨hm, hi', hfr⟩ := peer r hr k hk hi f hf
        exact ih r hr (hR.sub hr hfr) (hT.sub hk hf) (h1.sub' r hr f hfr) (h2.sub' k hk f hf)
          (both _ hm k hk hi' o ho hko f hf hn)

end NcDiff
