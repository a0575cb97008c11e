import Verif.Proof.ConfigLaws
import Verif.Proof.SubMain
import Verif.Spec.StandIn
/-!
# A delta can be applied to every config that equals its source
-/

namespace NcDiff

variable {ω : Prop}

section
variable {d : Device} {sc : Scope} {S S' T T' D : Elem}

/-- What `S'` has to satisfy to stand in for `S`. -/
structure LikeS (d : Device) (sc : Scope) (S' S : Elem) : Prop where
  valid : Valid d sc S'
  ns : Deep d (NsLevel d) sc S'
  bare : NoAttrs S'
  same : SameConfig d sc S' S

theorem SameConfig.sub' {a b x y : Elem} (h : SameConfig d sc a b) (hx : x ∈ a.kids) (hy : y ∈ b.kids)
    (hs : SameInstance d sc x y) {f : Found} (hf : d.lookup sc x.tag = .ok f) : SameConfig d (.node f.node) x y := by
  refine ⟨?_, ?_⟩
  · cases h.1 with
    | mk _ _ _ _ sub _ => exact sub x hx y hy hs f hf
  · cases h.2 with
    | mk _ _ _ _ sub _ => exact sub y hy x hx hs.symm f (by rw [← hs.1]; exact hf)

theorem SameConfig.left {a b x : Elem} (h : SameConfig d sc a b) (hx : x ∈ a.kids) :
    ∃ y ∈ b.kids, SameInstance d sc x y := by
  cases h.1 with
  | mk _ _ _ kids _ _ => exact kids x hx

theorem SameConfig.filled {a b : Elem} (h : SameConfig d sc a b) (hb : b.kids ≠ []) : a.kids ≠ [] := by
  intro ha
  obtain ⟨y, hy⟩ := List.exists_mem_of_ne_nil _ hb
  obtain ⟨x, hx, _⟩ := h.symm.left hy
  rw [ha] at hx; simp at hx

/-- An instance of an equal config can be named if its counterpart can. -/
theorem LikeS.cell (h : LikeS d sc S' S) {s' s : Elem} (hs' : s' ∈ S'.kids) (hs : s ∈ S.kids)
    (hu : uid d sc s' = uid d sc s) (hc : CellOk d sc s) : CellOk d sc s' := by
  obtain ⟨f, hf, kf, kd⟩ := hc
  have ht := tag_of_uid hu
  obtain ⟨g, hg, kg⟩ := h.valid.shape' s' hs'
  obtain rfl : f = g := Except.ok.inj (hf.symm.trans (by rw [← ht]; exact hg))
  refine ⟨f, hg, kg, fun huo => ?_⟩
  have hK := kd huo
  cases hn : f.node.ntype
  case leafList =>
    have hsm := ((uid_eq_iff hg kg kf ht).1 hu).2 f hg
    simp only [hn] at hsm
    unfold Keyed at hK ⊢
    simp only [hn] at hK ⊢
    refine ⟨hK.1, ?_⟩
    rw [parseText_plain hK.1 (by rw [hn]; decide), parseText_plain hK.1 (by rw [hn]; decide)] at hsm
    rw [Except.ok.inj hsm]; exact hK.2
  case list =>
    refine keyed_of hf hn kf hK kg hu ?_ (h.valid.sub' s' hs' f hg)
    intro q hq
    unfold KidOk at kf
    simp only [hn] at kf
    obtain ⟨g, h1, h2, _⟩ := kf.2.2.2 huo q hq
    exact ⟨g, h1, h2⟩
  all_goals (unfold Keyed; simp only [hn])

/-- A delta from `S` is a delta from every equal config. -/
theorem Diff.stand (h : Diff ω d sc S T D) : ∀ {S' T' : Elem}, LikeS d sc S' S → MergeValues d sc S' T' →
    T'.kids = T.kids → Valid d sc T' → NoAttrs T' → T'.tag = T.tag →
    parseTextAt d sc T' = parseTextAt d sc T → Diff ω d sc S' T' D := by
  induction h with
  | @mk sc S T D B gone newC newL both igone inewC inewL iboth =>
    intro S' T' L M hk vT' aT' tT' pT'
    have vS := B.vS
    have huid : ∀ {x y : Elem}, x ∈ S'.kids → y ∈ S.kids → (uid d sc x = uid d sc y ↔ SameInstance d sc x y) :=
      fun hx hy => L.valid.same_iff vS hx hy
    -- counterparts
    have hto : ∀ s' ∈ S'.kids, ∃ s ∈ S.kids, uid d sc s' = uid d sc s := by
      intro s' hs'
      obtain ⟨s, hs, h⟩ := L.same.left hs'
      exact ⟨s, hs, (huid hs' hs).2 h⟩
    have hfrom : ∀ s ∈ S.kids, ∃ s' ∈ S'.kids, uid d sc s' = uid d sc s := by
      intro s hs
      obtain ⟨s', hs', h⟩ := L.same.symm.left hs
      exact ⟨s', hs', (huid hs' hs).2 h.symm⟩
    have habs : ∀ {u : UID}, (∀ s' ∈ S'.kids, uid d sc s' ≠ u) → ∀ s ∈ S.kids, uid d sc s ≠ u := by
      intro u hu s hs
      obtain ⟨s', hs', h⟩ := hfrom s hs
      rw [← h]; exact hu s' hs'
    have hmemU : ∀ u, u ∈ S'.kids.map (uid d sc) ↔ u ∈ S.kids.map (uid d sc) := by
      intro u
      constructor
      · intro hu
        obtain ⟨x, hx, rfl⟩ := List.mem_map.1 hu
        obtain ⟨s, hs, h⟩ := hto x hx
        exact List.mem_map.2 ⟨s, hs, h.symm⟩
      · intro hu
        obtain ⟨x, hx, rfl⟩ := List.mem_map.1 hu
        obtain ⟨s, hs, h⟩ := hfrom x hx
        exact List.mem_map.2 ⟨s, hs, h⟩
    have hsub : ∀ {s' s : Elem}, s' ∈ S'.kids → s ∈ S.kids → uid d sc s' = uid d sc s → ∀ f,
        d.lookup sc s.tag = .ok f → LikeS d (.node f.node) s' s := by
      intro s' s hs' hs hu f hf
      have hf' : d.lookup sc s'.tag = .ok f := by rw [tag_of_uid hu]; exact hf
      exact ⟨L.valid.sub' s' hs' f hf', L.ns.sub' s' hs' f hf', L.bare.sub' s' hs',
        L.same.sub' hs' hs ((huid hs' hs).1 hu) hf'⟩
    have hord : ∀ t, UserOrdered d sc t → targetOf d sc S' t = targetOf d sc S t :=
      fun t ht => targetOf_same L.valid vS L.same ht
    cases M with
    | mk values sub =>
    have base : DiffBase ω d sc S' T' D := by
      refine ⟨L.valid, L.ns, vT', B.vD, B.lD, L.bare, aT', ?_, ?_, ?_, by rw [hk]; exact B.cellT, ?_, ?_, ?_,
        ?_, ?_, ?_, ?_, ?_, ?_, ?_, by rw [hk]; exact B.seq, ?_⟩
      · rw [tT', ← B.tag]
        cases L.same.1; assumption
      · rw [pT', ← B.value]
        cases L.same.1; assumption
      · intro s' hs'
        obtain ⟨s, hs, h⟩ := hto s' hs'
        exact L.cell hs' hs h (B.cellS s hs)
      · intro o ho
        rw [hk]
        rcases B.only o ho with h | ⟨s, hs, h⟩
        · exact Or.inl h
        · obtain ⟨s', hs', h'⟩ := hfrom s hs
          exact Or.inr ⟨s', hs', h'.trans h⟩
      · rw [hk]
        intro s' hs' hno
        obtain ⟨s, hs, h⟩ := hto s' hs'
        rw [h] at hno ⊢
        exact B.gone s hs hno
      · rw [hk]
        intro s' hs' hno m hm hu f hf
        obtain ⟨s, hs, h⟩ := hto s' hs'
        rw [h] at hno hu
        rw [tag_of_uid h] at hf
        rcases B.goneOp s hs hno m hm hu f hf with h1 | h1
        · exact Or.inl ⟨h1.1, fun hnp => (hsub hs' hs h f hf).same.filled (h1.2 hnp)⟩
        · exact Or.inr h1
      · rw [hk]
        intro k hkT hno
        exact B.new k hkT (habs hno)
      · rw [hk]
        intro k hkT hno
        exact B.newOp k hkT (habs hno)
      · rw [hk]
        intro s' hs' k hkT o ho hsu hou f hf
        obtain ⟨s, hs, h⟩ := hto s' hs'
        have hsu' : uid d sc s = uid d sc k := h.symm.trans hsu
        obtain ⟨b1, b2, b3⟩ := B.bothOp s hs k hkT o ho hsu' hou f hf
        refine ⟨fun hn => ⟨(b1 hn).1, ?_⟩, b2, fun hn => ?_⟩
        · obtain ⟨_, e, he, hev⟩ := b1 hn
          have hot : o.tag = k.tag := tag_of_uid hou
          have hfo : d.lookup sc o.tag = .ok f := by rw [hot]; exact hf
          have hval := B.lD.here'.values o ho f hfo hn
          have hns : NsMapOk s.nsmap :=
            (B.nS.sub' s hs f (by rw [tag_of_uid hsu']; exact hf)).here'.1
          have hns' : NsMapOk s'.nsmap :=
            (L.ns.sub' s' hs' f (by rw [tag_of_uid hsu]; exact hf)).here'.1
          have hpo : parseText d o f.node = parseText d k f.node :=
            (mergeText_value hval hns (hot.trans (tag_of_uid hsu').symm) he).symm.trans hev
          obtain ⟨hon, hox⟩ := B.texts s hs k hkT o ho hsu' hou
          have hw : Writable d f.node o s'.nsmap := by
            have hkT' : k ∈ T'.kids := by rw [hk]; exact hkT
            have := values s' hs' k hkT' ((L.valid.same_iff vT' hs' hkT').1 hsu) f hf hn
            unfold Writable at this ⊢
            rw [hon, hox]; exact this
          have hp : ∃ t, parseText d o f.node = .ok t := by
            obtain ⟨g, hg, kg⟩ := B.vD.shape' o ho
            obtain rfl : f = g := Except.ok.inj (hfo.symm.trans hg)
            unfold KidOk at kg
            simp only [hn] at kg
            exact kg.2
          obtain ⟨e', he'⟩ := mergeText_writable (dst := s') hval hp hw
          exact ⟨e', he', (mergeText_value hval hns' (hot.trans (tag_of_uid hsu).symm) he').trans hpo⟩
        · rcases b3 hn with h1 | h1
          · exact Or.inl h1
          · exact Or.inr ⟨h1.1, h1.2.1, fun hnp =>
              (hsub hs' hs h f (by rw [tag_of_uid hsu']; exact hf)).same.filled (h1.2.2.1 hnp), h1.2.2.2⟩
      · rw [hk]
        intro s' hs' k hkT hsu hno f hf
        obtain ⟨s, hs, h⟩ := hto s' hs'
        have hsu' : uid d sc s = uid d sc k := h.symm.trans hsu
        exact (hsub hs' hs h f (by rw [tag_of_uid hsu']; exact hf)).same.trans (B.out s hs k hkT hsu' hno f hf)
      · rw [hk]
        intro o ho k hkT hu f hf h1 h2
        have hU : UserOrdered d sc k.tag := ⟨f, hf, h1, h2⟩
        have hp := B.pos o ho k hkT hu f hf h1 h2
        unfold PosOk at hp ⊢
        rw [hk]
        rcases hp with h | h | ⟨h, h'⟩
        · exact Or.inl h
        · exact Or.inr (Or.inl h)
        · refine Or.inr (Or.inr ⟨h, ?_⟩)
          rcases h' with h' | h'
          · left
            intro s' hs'
            obtain ⟨s, hs, hss⟩ := hto s' hs'
            rw [tag_of_uid hss]; exact h' s hs
          · right
            exact (hord k.tag hU).trans h'
      · intro w t ht
        have hE := B.ends w t ht
        have e0 : ∀ p : UID → Bool, (S'.kids.map (uid d sc)).filter (fun u => decide (u.1 = t) && p u) =
            (S.kids.map (uid d sc)).filter (fun u => decide (u.1 = t) && p u) := by
          intro p
          have := congrArg (List.filter p) (hord t ht)
          unfold targetOf at this
          rw [List.filter_filter, List.filter_filter] at this
          simpa only [Bool.and_comm] using this
        have e1 : staysOf d sc S' T' t = staysOf d sc S T t := by
          have := e0 (fun u => decide (u ∈ T.kids.map (uid d sc)))
          unfold staysOf
          rw [hk]
          simpa only [Bool.decide_and] using this
        have e2 : movesOf d sc S' T' D t = movesOf d sc S T D t := by
          have := e0 (fun u => decide (u ∈ T.kids.map (uid d sc) ∧ u ∈ D.kids.map (uid d sc)))
          unfold movesOf
          rw [hk]
          simpa only [Bool.decide_and] using this
        have e3 : addsOf d sc S' T' D t = addsOf d sc S T D t := by
          unfold addsOf
          rw [hk]
          refine List.filter_congr ?_
          intro u _
          rw [decide_eq_decide, hmemU]
        unfold Ends at hE ⊢
        unfold targetOf at hE ⊢
        rw [e1, e2, e3, hk]
        exact hE
      · intro t ht
        rw [hk]
        refine (B.full t ht).imp_right (fun h => ?_)
        unfold targetOf at h ⊢
        rw [hk]
        exact (hord t ht).trans h
      · rw [hk]
        intro s' hs' k hkT o ho hsu hou
        obtain ⟨s, hs, h⟩ := hto s' hs'
        exact B.texts s hs k hkT o ho (h.symm.trans hsu) hou
    refine .mk base ?_ ?_ ?_ ?_
    · rw [hk]
      intro s' hs' hno m hm hu hop f hf
      obtain ⟨s, hs, h⟩ := hto s' hs'
      rw [h] at hno hu
      rw [tag_of_uid h] at hf
      have L' := hsub hs' hs h f hf
      refine igone s hs hno m hm hu hop f hf L' (.mk (by simp) (by simp)) rfl ?_ (noAttrs_setKids L'.bare) ?_ ?_
      · exact valid_childless (by rw [Elem.attrs_setKids, L'.bare.here']; simp) rfl
      · simp only [Elem.tag_setKids]; exact tag_of_uid h
      · rw [parseTextAt_setKids, parseTextAt_setKids]
        cases L'.same.1; assumption
    · rw [hk]
      intro k hkT hno
      exact newC k hkT (habs hno)
    · rw [hk]
      intro k hkT hno
      exact newL k hkT (habs hno)
    · intro s' hs' k hkT' o ho hsu hou hop f hf hn
      have hkT : k ∈ T.kids := by rw [← hk]; exact hkT'
      obtain ⟨s, hs, h⟩ := hto s' hs'
      have hsu' : uid d sc s = uid d sc k := h.symm.trans hsu
      exact iboth s hs k hkT o ho hsu' hou hop f hf hn (hsub hs' hs h f (by rw [tag_of_uid hsu']; exact hf))
        (sub s' hs' k hkT' ((L.valid.same_iff vT' hs' hkT').1 hsu) f hf hn) rfl (vT'.sub' k hkT' f hf) (aT'.sub' k hkT') rfl rfl

end

end NcDiff
