import Verif.Spec.Replace
import Verif.Proof.ShapeStrip
import Verif.Proof.Applied
/-!
# Deltas of type `replace`
-/

namespace NcDiff

variable {ω : Prop}

section
variable {d : Device} {w : Prop} {sc : Scope} {S T : Elem}

theorem setOp_delAttrib {k : Elem} {v : String} (hk : NoAttrs k) : (setOp k v).delAttrib = k :=
  (delAttrib_body (SameBody.set _ .operation (.str v))).symm.trans (noAttrs_delAttrib hk)

theorem rewrites_set {k x o : Elem} (hk : NoAttrs k) (hkm : k ∈ T.kids) (hx : x = setOp k "replace")
    (hb : SameBody x o) (ho : opOf o = opOf x) : Rewrites T o := by
  subst hx
  refine ⟨hasOp_replace.2 (by rw [ho, opOf_setOp]), ?_⟩
  rw [← delAttrib_body hb, setOp_delAttrib hk]
  exact hkm

theorem rewrites_copy {k x o : Elem} (hkm : k ∈ T.kids) (hx : HasOp x "replace" ∧ x.delAttrib = k)
    (hb : SameBody x o) (ho : opOf o = opOf x) : Rewrites T o := by
  refine ⟨hasOp_replace.2 (by rw [ho]; exact hasOp_replace.1 hx.1), ?_⟩
  rw [← delAttrib_body hb, hx.2]; exact hkm

theorem replacesAt_body {n : Nat} {a b : Elem} (h : SameBody a b) (ho : opOf b = opOf a)
    (hd : ReplacesAt d w n sc S T a) : ReplacesAt d w n sc S T b := by
  cases hd with
  | replaced hw hop copy =>
    exact .replaced hw (by rw [hasOp_replace, ho, ← hasOp_replace]; exact hop)
      (by rw [← delAttrib_body h]; exact copy)
  | same hs keys => exact .same hs (by rw [← h.2.2.2]; exact keys)
  | last all kids =>
    refine .last ?_ (by rw [← h.2.2.2]; exact kids)
    unfold Complete; rw [← h.2.2.2]; exact all
  | above all kids both =>
    refine .above ?_ (by rw [← h.2.2.2]; exact kids) (by rw [← h.2.2.2]; exact both)
    unfold Complete; rw [← h.2.2.2]; exact all

variable {Q : Carried} {φ : Nat → Option Elem} {M : List Elem}
  {obu : List (QName × OrderInfo)} {st st' : List Cell}

/-- What differs is in the delta. -/
theorem Loops.complete (h : Loops ω d Q sc S T φ M obu st st') : Complete d sc S T (T.setKids (st'.map Prod.snd)) := by
  have hD := h.diff (D := T.setKids (st'.map Prod.snd)) rfl rfl (by
    show (T.attrs.map Prod.fst).Nodup
    rw [h.sideT.bare.here']; simp)
  have B := hD.base'
  refine ⟨fun s hs habs => ?_, fun k hk => ?_⟩
  · obtain ⟨m, hm, hu⟩ := B.gone s hs (fun k hk hu => habs k hk ((B.vT.same_iff B.vS hk hs).1 hu))
    exact ⟨m, hm, (B.vS.same_iff B.vD hs hm).1 hu.symm⟩
  · by_cases hex : ∃ o ∈ (T.setKids (st'.map Prod.snd)).kids, uid d sc o = uid d sc k
    · obtain ⟨o, ho, hu⟩ := hex
      exact Or.inl ⟨o, ho, (B.vT.same_iff B.vD hk ho).1 hu.symm⟩
    · have hno : ∀ o ∈ (T.setKids (st'.map Prod.snd)).kids, uid d sc o ≠ uid d sc k := fun o ho hu => hex ⟨o, ho, hu⟩
      by_cases hs : ∃ s ∈ S.kids, uid d sc s = uid d sc k
      · obtain ⟨s, hs, hu⟩ := hs
        exact Or.inr ⟨s, hs, (B.vS.same_iff B.vT hs hk).1 hu, fun f hf => B.out s hs k hk hu hno f hf⟩
      · obtain ⟨o, ho, hu⟩ := B.new k hk (fun s hs' hu => hs ⟨s, hs', hu⟩)
        exact absurd hu (hno o ho)

theorem Loops.removes (h : Loops ω d Q sc S T φ M obu st st') {o : Elem} (hm : o ∈ M) : Removes d sc S T o := by
  have hD := h.diff (D := T.setKids (st'.map Prod.snd)) rfl rfl (by
    show (T.attrs.map Prod.fst).Nodup
    rw [h.sideT.bare.here']; simp)
  have B := hD.base'
  have hmk := h.marker hm
  obtain ⟨s, hs, habs, f, hf, hM⟩ := h.mark o hm
  refine ⟨s, hs, (B.vS.same_iff B.vD hs hmk).1 hM.uid.symm, fun k hk hks => habs k hk ((B.vT.same_iff B.vS hk hs).2 hks), ?_⟩
  intro f' hf'
  rw [hf] at hf'; cases hf'
  rcases hM.op with ⟨h1, _⟩ | ⟨_, h2, h3⟩
  · exact .marked (isDelete_op.2 h1)
  · exact erased_of_diff s h2 h3

/-- What a node at depth `n` of a delta of type `replace` is, if subtrees are replaced below depth `R`. -/
def RepAt (d : Device) (w : Prop) (R n : Nat) (sc : Scope) (S T D : Elem) : Prop :=
  (n ≤ R → ReplacesAt d w (R - n) sc S T D) ∧ (R < n → HasOp D "replace" ∧ D.delAttrib = T)

theorem carry_replace {opts : Opts} (hr : opts.diffType = .replace) :
    Carry d opts ⟨RepAt d (opts.replace = .replace) opts.replaceDepth, fun _ k x => x = setOp k "replace",
      fun _ _ _ => True, fun n f _ k x => (x = k ∨ x = setOp k "replace") ∧ (n = opts.replaceDepth →
        x = setOp k "replace" ∨ (x = k ∧ f.node.info.isKey = true ∧ f.node.ntype = .leaf))⟩ where
  whole {n sc S T} hw hS hT := by
    have h1 : HasOp (setOp T "replace") "replace" := hasOp_replace.2 (opOf_setOp _ _)
    have h2 : (setOp T "replace").delAttrib = T := setOp_delAttrib hT.bare
    refine ⟨fun hn => ?_, fun _ => ⟨h1, h2⟩⟩
    rcases hw with hw | hw
    · exact .replaced hw.1 h1 h2
    · omega
  keys {n sn s k} hn hs hk hsame := by
    refine ⟨fun _ => .same hsame ?_, fun h => absurd (hn hr) (Nat.not_le.2 h)⟩
    intro o ho
    obtain ⟨h1, h2⟩ := key_kids hk ho
    exact ⟨by rw [noAttrs_delAttrib (hk.bare.sub' o h1)]; exact h1, h2⟩
  level {ω n sc S T φ M obu st st'} hn _ h := by
    refine ⟨fun hle => ?_, fun hlt => absurd (hn hr) (Nat.not_le.2 hlt)⟩
    have hD := h.diff (D := T.setKids (st'.map Prod.snd)) rfl rfl (by
      show (T.attrs.map Prod.fst).Nodup
      rw [h.sideT.bare.here']; simp)
    have B := hD.base'
    by_cases hlast : n = opts.replaceDepth
    · rw [show opts.replaceDepth - n = 0 by omega]
      refine .last h.complete ?_
      intro o ho
      rcases h.kids ho with ⟨i, k, f, x, hi, hf, _, hl⟩ | hm
      · have hkm := List.mem_of_getElem? hi
        have hb := h.sideT.bare.sub' k hkm
        cases hl.out with
        | new _ _ hq => exact Or.inr (Or.inl (rewrites_set hb hkm hq hl.body hl.op))
        | both hs hu hB =>
          have hkey : f.node.ntype = .leaf ∨ f.node.ntype = .leafList → Rewrites T o ∨ KeyOf d sc T o := by
            intro hn'
            rcases (hB.plain hn').2 hlast with h1 | ⟨h1, h2, h3⟩
            · exact Or.inl (rewrites_set hb hkm h1 hl.body hl.op)
            · subst h1
              refine Or.inr ⟨by rw [← delAttrib_body hl.body, noAttrs_delAttrib hb]; exact hkm, f, ?_, h2, h3⟩
              rw [← hl.body.1]; exact hf
          have htree : f.node.ntype = .container ∨ f.node.ntype = .list → Rewrites T o :=
            fun hn' => rewrites_copy hkm ((hB.carried hn').2 (by omega)) hl.body hl.op
          have hkid := hB.kid
          unfold KidOk at hkid
          cases hk : f.node.ntype <;> simp only [hk] at hkid
          · exact Or.inr (hkey (Or.inl hk))
          · exact Or.inr (hkey (Or.inr hk))
          · exact Or.inr (Or.inl (htree (Or.inl hk)))
          · exact Or.inr (Or.inl (htree (Or.inr hk)))
      · exact Or.inl (h.removes hm)
    · rw [show opts.replaceDepth - n = opts.replaceDepth - (n + 1) + 1 by omega]
      refine .above h.complete ?_ ?_
      · intro o ho
        rcases h.kids ho with ⟨i, k, f, x, hi, hf, _, hl⟩ | hm
        · have hkm := List.mem_of_getElem? hi
          have hb := h.sideT.bare.sub' k hkm
          cases hl.out with
          | new _ _ hq => exact Or.inr (Or.inl (rewrites_set hb hkm hq hl.body hl.op))
          | @both s _ hs hu hB =>
            have hsk := (B.vS.same_iff B.vT hs hkm).1 hu
            refine Or.inr (Or.inr ⟨s, hs, k, hkm, hsk, ?_, ?_⟩)
            · refine (B.vT.same_iff B.vD hkm ho).1 ?_
              rw [← uid_body hl.body]; exact hB.uid.symm
            · intro f' hf' hn'
              rw [hf] at hf'; cases hf'
              rw [← delAttrib_body hl.body]
              rcases (hB.plain hn').1 with h1 | h1
              · rw [h1]; exact noAttrs_delAttrib hb
              · rw [h1]; exact setOp_delAttrib hb
        · exact Or.inl (h.removes hm)
      · intro s hs k hk hsk o ho hko f hf hn'
        have hu := (B.vT.same_iff B.vD hk ho).2 hko
        have hu2 := (B.vS.same_iff B.vT hs hk).2 hsk
        obtain ⟨x, hl⟩ := h.link ho hk hu.symm hf
        cases hl.out with
        | new hno _ => exact absurd hu2 (hno s hs)
        | both hs' hu' hB =>
          have := List.inj_on_of_nodup_map h.sideS.valid.indexable.nodup hs' hs (hu'.trans hu2.symm)
          subst this
          exact replacesAt_body hl.body hl.op ((hB.carried hn').1 (by omega))
  new hx _ _ := hx hr
  gone _ := trivial
  leaf h hx _ := ⟨hx.imp (fun h => h.1) (fun h => h.1), fun hn => absurd ⟨hr, hn⟩ h⟩
  replaced _ _ h := ⟨h.elim Or.inr (fun h => Or.inl h.1), fun _ => h⟩

/-! ## Applying it -/

theorem goodInsert {o k : Elem} {f : Found} {D : Elem} (B : DiffBase ω d sc S T D) (ho : o ∈ D.kids) (hk : k ∈ T.kids)
    (hko : SameInstance d sc k o) (hf : d.lookup sc o.tag = .ok f) : ¬ BadInsert f o := by
  rintro ⟨h1, h2, i, hi, n1, n2, n3, n4⟩
  have hu := (B.vT.same_iff B.vD hk ho).2 hko
  have hfk : d.lookup sc k.tag = .ok f := by rw [hko.1]; exact hf
  rcases B.pos o ho k hk hu.symm f hfk h2 h1 with h | h | h
  · rw [h.1] at hi; exact n1 (Option.some.inj hi).symm
  · rw [h.1] at hi; exact n4 (Option.some.inj hi).symm
  · rw [h.1] at hi; cases hi

theorem not_removes {o D : Elem} (B : DiffBase ω d sc S T D) (ho : o ∈ D.kids) (hop : HasOp o "replace") :
    ¬ Removes d sc S T o := by
  rintro ⟨s, hs, hso, habs, _⟩
  obtain ⟨f, hf, _⟩ := B.vS.shape' s hs
  have hop' := hasOp_replace.1 hop
  have := B.goneOp s hs (fun k hk hu => habs k hk ((B.vT.same_iff B.vS hk hs).1 hu)) o ho
    ((B.vS.same_iff B.vD hs ho).2 hso).symm f hf
  rw [hop'] at this
  rcases this with ⟨h | h, _⟩ | ⟨h, _⟩ <;> exact absurd h (by decide)

theorem onceAs_unique {ks : List Elem} {o e e' : Elem} (h : OnceAs d sc ks o e) (he : e' ∈ ks)
    (hs : SameInstance d sc e' o) : e' = e := by
  obtain ⟨l, r, rfl, _, hno⟩ := h
  rcases List.mem_append.1 he with h | h
  · exact absurd hs (hno e' (List.mem_append_left _ h))
  · rcases List.mem_cons.1 h with h | h
    · exact h
    · exact absurd hs (hno e' (List.mem_append_right _ h))

theorem imposed {n : Nat} {D : Elem} (hd : ReplacesAt d w n sc S T D) : ∀ {c r : Elem}, ¬ HasOp D "replace" →
    Diff ω d sc S T D → Applied d sc D c r → Imposed d n sc T D r := by
  have gone : ∀ {sc : Scope} {D c r : Elem}, Applied d sc D c r → ∀ o ∈ D.kids, IsDelete o → Absent d sc r.kids o := by
    intro sc D c r ha o ho hdel
    cases ha with
    | mk sub base ops delete remove =>
      rcases isDelete_op.1 hdel with h | h
      · exact (delete o ho h).2
      · exact remove o ho h
  have written : ∀ {sc : Scope} {S T D c r : Elem}, DiffBase ω d sc S T D → Applied d sc D c r → ∀ o ∈ D.kids,
      HasOp o "replace" → o.delAttrib ∈ T.kids → ∃ k ∈ T.kids, ∃ e, SameInstance d sc k o ∧
        OnceAs d sc r.kids o e ∧ ∀ f, d.lookup sc o.tag = .ok f →
          (f.node.ntype = .container ∨ f.node.ntype = .list → e = k) ∧
          (f.node.ntype = .leaf → parseText d e f.node = parseText d k f.node) := by
    intro sc S T D c r B ha o ho hop hk
    have hop' := hasOp_replace.1 hop
    have hsi : SameInstance d sc o.delAttrib o := same_delAttrib o
    obtain ⟨f, hf, _⟩ := B.vD.shape' o ho
    cases ha with
    | mk sub base ops delete remove create new old value copy =>
      refine ⟨_, hk, sub o, hsi, ?_, ?_⟩
      · by_cases hex : ∃ s ∈ c.kids, SameInstance d sc s o
        · rcases old o ho (Or.inr hop') hex f hf with h | h
          · exact h
          · rw [hop'] at h; exact absurd h.2.1 (by decide)
        · exact (new o ho (Or.inr (Or.inl hop')) (fun s hs h => hex ⟨s, hs, h⟩) f hf).2 (goodInsert B ho hk hsi hf)
      · intro f' hf'
        exact ⟨copy o ho (Or.inl hop') f' hf', fun hl => by
          rw [value o ho (Or.inr (Or.inl hop')) f' hf' hl, parseText_delAttrib]⟩
  induction hd with
  | replaced hw h copy => intro c r hno; exact absurd h hno
  | same h keys =>
    intro c r _ hdf ha
    refine ⟨gone ha, fun o ho hop => written hdf.base' ha o ho hop (keys o ho).1, ?_⟩
    intro m _ k _ o ho _ _ f hf hn
    obtain ⟨_, g, hg, _, hl⟩ := keys o ho
    rw [hf] at hg; cases hg
    rcases hn with hn | hn <;> rw [hl] at hn <;> cases hn
  | @last sc S T D all kids =>
    intro c r _ hdf ha
    refine ⟨gone ha, fun o ho hop => ?_, fun m h => by cases h⟩
    refine written hdf.base' ha o ho hop ?_
    rcases kids o ho with h | h | h
    · exact absurd h (not_removes hdf.base' ho hop)
    · exact h.2
    · exact h.1
  | @above n sc S T D all kids both ih =>
    intro c r _ hdf ha
    have B := hdf.base'
    refine ⟨gone ha, fun o ho hop => ?_, ?_⟩
    · refine written B ha o ho hop ?_
      rcases kids o ho with h | h | h
      · exact absurd h (not_removes B ho hop)
      · exact h.2
      · obtain ⟨s, hs, k, hk, hsk, hko, hl⟩ := h
        obtain ⟨f, hf, hkid⟩ := B.vT.shape' k hk
        have hu := (B.vT.same_iff B.vD hk ho).2 hko
        have hu2 := (B.vS.same_iff B.vT hs hk).2 hsk
        have hb := (B.bothOp s hs k hk o ho hu2 hu.symm f hf).2.2
        have htree : f.node.ntype = .container ∨ f.node.ntype = .list → o.delAttrib ∈ T.kids := by
          intro hn
          rcases hb hn with h | h
          · rw [hasOp_replace, h.1] at hop; exact absurd hop (by decide)
          · rw [h.2.1]; exact hk
        unfold KidOk at hkid
        cases hn : f.node.ntype <;> simp only [hn] at hkid
        · rw [hl f hf (Or.inl hn)]; exact hk
        · rw [hl f hf (Or.inr hn)]; exact hk
        · exact htree (Or.inl hn)
        · exact htree (Or.inr hn)
    · intro m hm k hk o ho hko hop f hf hn e he heo
      cases hm
      have hfk : d.lookup sc k.tag = .ok f := by rw [hko.1]; exact hf
      have hu := (B.vT.same_iff B.vD hk ho).2 hko
      have hex : ∃ s ∈ S.kids, SameInstance d sc s k := by
        rcases kids o ho with h | h | h
        · obtain ⟨s, hs, hso, habs, _⟩ := h
          have h1 := (B.vS.same_iff B.vD hs ho).2 hso
          exact absurd ((B.vT.same_iff B.vS hk hs).1 (hu.trans h1.symm)) (habs k hk)
        · have := hasOp_replace.1 h.1
          rw [hop] at this; exact absurd this (by decide)
        · obtain ⟨s, hs, k', hk', hsk, hko', _⟩ := h
          have h1 := (B.vS.same_iff B.vT hs hk').2 hsk
          have h2 := (B.vT.same_iff B.vD hk' ho).2 hko'
          exact ⟨s, hs, (B.vS.same_iff B.vT hs hk).1 (h1.trans (h2.trans hu.symm))⟩
      obtain ⟨s, hs, hsk⟩ := hex
      have hu2 := (B.vS.same_iff B.vT hs hk).2 hsk
      have hdo : Diff ω d (.node f.node) s k o := by
        cases hdf with
        | mk _ _ _ _ both => exact both s hs k hk o ho hu2 hu.symm hop f hfk hn
      have hno : ¬ HasOp o "replace" := by rw [hasOp_replace, hop]; decide
      cases ha with
      | mk sub base ops delete remove create new old value copy merge mergeNew mergeBase =>
        by_cases hc : ∃ s ∈ c.kids, SameInstance d sc s o
        · have : e = sub o := by
            rcases old o ho (Or.inl hop) hc f hf with h | h
            · exact onceAs_unique h he heo
            · exact absurd heo (h.2.2.2 e he)
          subst this
          obtain ⟨s', hs', hso⟩ := hc
          exact ih s hs k hk hsk o ho hko f hfk hn hno hdo (merge o ho hop f hf hn s' hs' hso)
        · have hc' : Absent d sc c.kids o := fun s hs h => hc ⟨s, hs, h⟩
          have : e = sub o := onceAs_unique ((new o ho (Or.inl hop) hc' f hf).2 (goodInsert B ho hk hko hf)) he heo
          subst this
          exact ih s hs k hk hsk o ho hko f hfk hn hno hdo (mergeBase o ho hop hc' f hf hn)

end

/-! ## `minimum-replace` -/

theorem addAttr_marked : ∀ (n : Nat) (e : Elem), MarkedAt n e (addAttrAtDepth n e)
  | 0, .mk t m a x ks => by
    refine ⟨rfl, rfl, rfl, rfl, ?_, ?_⟩
    · rw [addAttrAtDepth, get_set, if_pos rfl]
    · intro n hn
      rw [addAttrAtDepth, get_set, if_neg hn]
  | n + 1, .mk t m a x ks => by
    refine ⟨rfl, rfl, rfl, rfl, ?_⟩
    show List.Forall₂ (MarkedAt n) ks (addAttrAtDepthList n ks)
    rw [addAttrAtDepthList_eq]
    exact List.forall₂_map_right_iff.2 (List.forall₂_same.2 (fun k _ => addAttr_marked n k))

end NcDiff
