import Verif.Proof.CompatHost
import Verif.Spec.Demo
import Verif.Props.RoundTrip
import Verif.Props.Merge
/-!
# C45: configs of two devices
-/

namespace NcDiff

variable {h h1 h2 : Host} {c c1 c2 : Elem}

theorem rootsLoaded_of_valid (hv : Valid h.device .root c) : RootsLoaded h c := by
  intro k hk
  cases hv with
  | mk _ shape _ _ =>
    obtain ⟨f, hf, -⟩ := shape k hk
    unfold Device.lookup at hf
    simp only at hf
    split at hf
    · cases hf
    · rename_i m hl
      obtain ⟨t, hm, r, hr, ht⟩ := mem_roots.1 (ModelDiff.lookup_mem hl)
      exact ⟨m, t, hm, r, hr, ht⟩

/-- C45: configs of two devices are compatible if and only if every model that one of them uses is loadable on
both devices, has the same prefix and URL, and is loaded with the same nodes at the same paths. -/
theorem C45_check (hl1 : WellLoaded h1) (hl2 : WellLoaded h2) (ho1 : OwnRoots h1) (ho2 : OwnRoots h2) (hne : h1.id ≠ h2.id)
    (hr1 : RootsLoaded h1 c1) (hr2 : RootsLoaded h2 c2) :
    isCompatible h1 c1 h2 c2 = .ok () ↔ ∀ m, UsesModel h1 c1 m ∨ UsesModel h2 c2 m →
      m ∈ h1.loadable ∧ m ∈ h2.loadable ∧ SameRow h1 h2 m ∧ SameModel h1 h2 m := by
  obtain ⟨rs1, e1, u1⟩ := hostRoots_ok ho1 hr1
  obtain ⟨rs2, e2, u2⟩ := hostRoots_ok ho2 hr2
  have hu : ∀ m, m ∈ (rs1 ++ rs2).map Prod.snd ↔ UsesModel h1 c1 m ∨ UsesModel h2 c2 m := fun m => by
    rw [List.map_append, List.mem_append, u1, u2]
  obtain ⟨-, -, h3, h4⟩ := compat_cases hl1 hl2 hne ((rs1 ++ rs2).map Prod.snd)
  have he : isCompatible h1 c1 h2 c2 = (namespacesCompatible h1 h2 ((rs1 ++ rs2).map Prod.snd) >>= fun _ =>
      modelsCompatible h1 h2 ((rs1 ++ rs2).map Prod.snd)) := by unfold isCompatible; rw [e1, e2]; rfl
  rw [he]
  constructor
  · exact fun hok m hm => h4 hok m ((hu m).2 hm)
  · intro ha
    have ha : ∀ m ∈ (rs1 ++ rs2).map Prod.snd, _ := fun m hm => ha m ((hu m).1 hm)
    exact (h3 (fun m hm => ⟨(ha m hm).1, (ha m hm).2.1⟩) fun m hm => (ha m hm).2.2.1).2.2
      fun m hm => (ha m hm).2.2.2

/-- C45: which exception tells what: a root of no loaded model, a model that is not loadable, another prefix or
URL, a model that is not loaded, other nodes. -/
theorem C45_errors (hl1 : WellLoaded h1) (hl2 : WellLoaded h2) (ho1 : OwnRoots h1) (ho2 : OwnRoots h2)
    (hne : h1.id ≠ h2.id) :
    (¬ RootsLoaded h1 c1 → isCompatible h1 c1 h2 c2 = .error .configError ∨
      isCompatible h1 c1 h2 c2 = .error .modelMissing) ∧
    (RootsLoaded h1 c1 → RootsLoaded h2 c2 →
      let used m := UsesModel h1 c1 m ∨ UsesModel h2 c2 m
      ((∃ m, used m ∧ (m ∉ h1.loadable ∨ m ∉ h2.loadable)) →
        isCompatible h1 c1 h2 c2 = .error .modelMissing) ∧
      ((∀ m, used m → m ∈ h1.loadable ∧ m ∈ h2.loadable) →
        ((∀ m, used m → ∃ r1 r2, h1.namespaces.lookup m = some r1 ∧ h2.namespaces.lookup m = some r2) →
          (∃ m, used m ∧ ¬ SameRow h1 h2 m) → isCompatible h1 c1 h2 c2 = .error .modelIncompatible) ∧
        ((∀ m, used m → SameRow h1 h2 m) →
          ((∃ m, used m ∧ ¬ (HasModel h1 m ∧ HasModel h2 m)) →
            isCompatible h1 c1 h2 c2 = .error .modelMissing) ∧
          ((∀ m, used m → HasModel h1 m ∧ HasModel h2 m) → (∃ m, used m ∧ ¬ SameModel h1 h2 m) →
            isCompatible h1 c1 h2 c2 = .error .modelIncompatible)))) := by
  constructor
  · intro hn
    unfold isCompatible
    rcases hostRoots_error hn with he | he <;> rw [he]
    · exact .inl rfl
    · exact .inr rfl
  · intro hr1 hr2 used
    obtain ⟨rs1, e1, u1⟩ := hostRoots_ok ho1 hr1
    obtain ⟨rs2, e2, u2⟩ := hostRoots_ok ho2 hr2
    have hu : ∀ m, used m ↔ m ∈ (rs1 ++ rs2).map Prod.snd := fun m => by
      rw [List.map_append, List.mem_append, u1, u2]
    have he : isCompatible h1 c1 h2 c2 = (namespacesCompatible h1 h2 ((rs1 ++ rs2).map Prod.snd) >>= fun _ =>
        modelsCompatible h1 h2 ((rs1 ++ rs2).map Prod.snd)) := by unfold isCompatible; rw [e1, e2]; rfl
    obtain ⟨k1, k2, k3, -⟩ := compat_cases hl1 hl2 hne ((rs1 ++ rs2).map Prod.snd)
    simp only [hu, he]
    exact ⟨k1, fun ha => ⟨k2 ha, fun hr => ⟨(k3 ha hr).1, (k3 ha hr).2.1⟩⟩⟩

/-- C45: for two configs of one device the check asks only whether the models are loaded, as `compatible` says. -/
theorem C45_one_device (h : Host) (c1 c2 : Elem) : isCompatible h c1 h c2 = compatible h.device [c1, c2] := by
  unfold isCompatible compatible
  simp only [List.mapM_cons, List.mapM_nil]
  cases configRoots h.device c1 with
  | error e => rfl
  | ok r1 =>
    cases configRoots h.device c2 with
    | error e => rfl
    | ok r2 =>
      show (namespacesCompatible h h _ >>= fun _ => modelsCompatible h h _) = _
      have hm : ∀ m, (h.device.models.lookup m).isSome = (h.models.lookup m).isSome := by
        intro m
        simp only [Host.device]
        generalize h.models = l
        induction l with
        | nil => rfl
        | cons p l ih =>
          rw [List.map_cons, List.lookup_cons, List.lookup_cons]
          split <;> simp_all
      have hall : ∀ ms, checkTrees h h ms = .ok () ∨ ∃ m ∈ ms, (h.models.lookup m).isNone = true := by
        intro ms
        induction ms with
        | nil => exact .inl rfl
        | cons m ms ih =>
          cases hl : h.models.lookup m with
          | none => exact .inr ⟨m, by simp, by simp [hl]⟩
          | some t =>
            rcases ih with ih | ⟨x, hx, hn⟩
            · left
              rw [checkTrees]
              simp only [hl, treeDiff, if_true, bind, Except.bind, ModelDiff.truthy, ModelDiff.modelDiffSame,
                Elem.kids_mk, List.isEmpty_nil, Bool.not_true, Bool.false_eq_true, if_false]
              exact ih
            · exact .inr ⟨x, by simp [hx], hn⟩
      simp only [namespacesCompatible, if_true, bind, Except.bind, modelsCompatible, pure, Except.pure,
        List.flatten_cons, List.flatten_nil, List.append_nil]
      by_cases hc : (List.map Prod.snd (r1 ++ r2)).any (fun m => (h.models.lookup m).isNone) = true
      · rw [if_pos hc, if_neg]
        intro hn
        simp only [List.any_eq_true, List.mem_map] at hc
        obtain ⟨m, ⟨p, hp, rfl⟩, hx⟩ := hc
        have := List.all_eq_true.1 hn p hp
        rw [hm] at this
        cases hl : h.models.lookup p.2 <;> simp_all
      · rw [if_neg hc, if_neg hc, if_pos]
        · rcases hall ((r1 ++ r2).map Prod.snd) with he | ⟨m, hm', hn⟩
          · exact he
          · exact absurd (List.any_eq_true.2 ⟨m, hm', hn⟩) hc
        · refine List.all_eq_true.2 fun p hp => ?_
          rw [hm]
          cases hl : h.models.lookup p.2 with
          | some t => rfl
          | none => exact absurd (List.any_eq_true.2 ⟨p.2, List.mem_map_of_mem hp, by rw [hl]; rfl⟩) hc

theorem compatible_seen (hl1 : WellLoaded h1) (hl2 : WellLoaded h2) (ho1 : OwnRoots h1) (ho2 : OwnRoots h2)
    (hm : ∀ m, UsesModel h1 c m → SameModel h1 h2 m) (hv : Valid h1.device .root c)
    (hr : Deep h1.device (ReadAlike h1.device h2.device) .root c) :
    SeenAlike h1.device h2.device .root .root c := by
  refine seenAlike_root hv hr fun k hk => ?_
  obtain ⟨m, t, hmt, r, hr, ht⟩ := rootsLoaded_of_valid hv k hk
  rw [← ht]
  exact lookAlike_root hl1 hl2 ho1 ho2 (hm m ⟨t, hmt, r, hr, k, hk, ht.symm⟩) hmt hr

theorem seenAlike_refl {d : Device} {e : Elem} : ∀ {sc : Scope}, Valid d sc e → SeenAlike d d sc sc e := by
  induction e using Elem.ind with
  | h t n a x ks ih =>
    intro sc hv
    cases hv with
    | mk _ shape _ vsub =>
      refine ⟨fun k hk => ?_, fun k hk f g hf hg => ?_⟩
      · obtain ⟨f, hf, -⟩ := shape k hk
        exact ⟨f, f, hf, hf, rfl, rfl, rfl⟩
      · obtain rfl : f = g := by rw [hf] at hg; exact Except.ok.inj hg
        exact ih k hk (vsub k hk f hf)

/-- Both configs are seen alike by both devices. -/
theorem seen_of_compatible (hl1 : WellLoaded h1) (hl2 : WellLoaded h2) (ho1 : OwnRoots h1) (ho2 : OwnRoots h2)
    (hid : h1.id = h2.id → h1 = h2) (hc : isCompatible h1 c1 h2 c2 = .ok ())
    (v1 : Valid h1.device .root c1) (v2 : Valid h2.device .root c2)
    (r1 : Deep h1.device (ReadAlike h1.device h2.device) .root c1)
    (r2 : Deep h2.device (ReadAlike h2.device h1.device) .root c2) :
    SeenAlike h1.device h2.device .root .root c1 ∧ SeenAlike h2.device h1.device .root .root c2 := by
  by_cases hne : h1.id = h2.id
  · obtain rfl := hid hne
    exact ⟨seenAlike_refl v1, seenAlike_refl v2⟩
  · have := (C45_check hl1 hl2 ho1 ho2 hne (rootsLoaded_of_valid v1) (rootsLoaded_of_valid v2)).1 hc
    exact ⟨compatible_seen hl1 hl2 ho1 ho2 (fun m hm => (this m (.inl hm)).2.2.2) v1 r1,
      compatible_seen hl2 hl1 ho2 ho1 (fun m hm => (this m (.inr hm)).2.2.2.symm) v2 r2⟩

/-- C45: if configs of two devices are compatible, then each is valid on the other device too. -/
theorem C45_valid (hl1 : WellLoaded h1) (hl2 : WellLoaded h2) (ho1 : OwnRoots h1) (ho2 : OwnRoots h2)
    (hid : h1.id = h2.id → h1 = h2) (hc : isCompatible h1 c1 h2 c2 = .ok ())
    (v1 : ValidConfig h1.device c1) (v2 : ValidConfig h2.device c2)
    (r1 : Deep h1.device (ReadAlike h1.device h2.device) .root c1)
    (r2 : Deep h2.device (ReadAlike h2.device h1.device) .root c2) :
    ValidConfig h2.device c1 ∧ ValidConfig h1.device c2 := by
  obtain ⟨s1, s2⟩ := seen_of_compatible hl1 hl2 ho1 ho2 hid hc v1.valid v2.valid r1 r2
  exact ⟨s1.validConfig v1, s2.validConfig v2⟩

/-- C45: if configs of two devices are compatible, then it does not matter from which side they are compared,
although a comparison uses the schema of its left operand only. -/
theorem C45_compare (hl1 : WellLoaded h1) (hl2 : WellLoaded h2) (ho1 : OwnRoots h1) (ho2 : OwnRoots h2)
    (hid : h1.id = h2.id → h1 = h2) (hc : isCompatible h1 c1 h2 c2 = .ok ())
    (v1 : ValidConfig h1.device c1) (v2 : ValidConfig h2.device c2)
    (r1 : Deep h1.device (ReadAlike h1.device h2.device) .root c1)
    (r2 : Deep h2.device (ReadAlike h2.device h1.device) .root c2) :
    hostEq h1 c1 h2 c2 = hostEq h2 c2 h1 c1 ∧
    hostLe h1 c1 h2 c2 = cfgLe h2.device c1 c2 ∧ hostLe h2 c2 h1 c1 = cfgLe h1.device c2 c1 ∧
    (hostEq h1 c1 h2 c2 = .ok true ↔
      hostLe h1 c1 h2 c2 = .ok true ∧ hostLe h2 c2 h1 c1 = .ok true) := by
  obtain ⟨s1, s2⟩ := seen_of_compatible hl1 hl2 ho1 ho2 hid hc v1.valid v2.valid r1 r2
  have w1 := s1.validConfig v1
  have w2 := s2.validConfig v2
  have e2 : cfgLe h2.device c2 c1 = cfgLe h1.device c2 c1 := s2.le s1.symm v2 w1
  refine ⟨?_, s1.le s2.symm v1 w2, e2, ?_⟩
  · unfold hostEq
    rw [s1.eq s2.symm v1 w2]
    obtain ⟨r, hr, hri⟩ := cfgEq_iff w1 v2
    obtain ⟨s, hs, hsi⟩ := cfgEq_iff v2 w1
    rw [hr, hs]
    congr 1
    rw [Bool.eq_iff_iff, hri, hsi]
    exact And.comm
  · unfold hostEq hostLe
    rw [e2]
    obtain ⟨r, hr, hri⟩ := cfgEq_iff v1 w2
    obtain ⟨s, hs, hsi⟩ := cfgLe_iff v1 w2
    obtain ⟨u, hu, hui⟩ := cfgLe_iff w2 v1
    rw [hr, hs, hu]
    simp only [Except.ok.injEq, hri, hsi, hui]
    rfl

/-! ## Values -/

theorem convertPieces_ns {d1 d2 : Device} (hp : ∀ m s, InstId.parse d1 m s = InstId.parse d2 m s)
    (hc : ∀ w u i, InstId.compose d1 w u i = InstId.compose d2 w u i) {m : NsMap} {w : Option NsMap} :
    ∀ (ps : List InstId.Piece) du, InstId.convertPieces d1 m w du ps = InstId.convertPieces d2 m w du ps
  | [], _ => rfl
  | p :: r, du => by
    simp only [InstId.convertPieces, hp, hc, convertPieces_ns hp hc r]

/-- Two devices with the same table of namespaces read values alike. -/
theorem parseText_ns {d1 d2 : Device} (h : d1.namespaces = d2.namespaces) (k : Elem) (s : SNode) :
    parseText d1 k s = parseText d2 k s := by
  have h1 : ∀ t, nodeUrl d1 t = nodeUrl d2 t := fun t => by unfold nodeUrl; rw [h]
  have h2 : ∀ t, urlToName d1 t = urlToName d2 t := fun t => by unfold urlToName; rw [h]
  have h3 : ∀ m p, resolvePrefix d1 m p = resolvePrefix d2 m p := fun m p => by
    unfold resolvePrefix nameToUrl; rw [h]
  have h4 : ∀ m s, InstId.parse d1 m s = InstId.parse d2 m s := fun m s => by
    unfold InstId.parse; simp only [h3]
  have h5 : ∀ w u i, InstId.compose d1 w u i = InstId.compose d2 w u i := fun w u i => by
    unfold InstId.compose; simp only [h2]
  have h6 : ∀ m s, IdentityRef.parse d1 m s = IdentityRef.parse d2 m s := fun m s => by
    unfold IdentityRef.parse; simp only [h3]
  have h7 : ∀ a b c, IdentityRef.composeDefault d1 a b c = IdentityRef.composeDefault d2 a b c := fun a b c => by
    unfold IdentityRef.composeDefault; simp only [h2]
  unfold parseText IdentityRef.default InstId.convert
  simp only [h1, h6, h7, convertPieces_ns h4 h5]

/-- Values of plain types do not depend on the device. -/
theorem parseText_plainType {d1 d2 : Device} (k : Elem) (s : SNode) (h : s.info.datatype.plain) :
    parseText d1 k s = parseText d2 k s := by
  unfold parseText
  cases hd : s.info.datatype <;> simp_all [DType.plain]

/-! ## Deltas -/

/-- What is the same as a tree that both devices see alike, is seen alike too. -/
theorem SeenAlike.of_incl {d1 d2 : Device} (hns : d1.namespaces = d2.namespaces) {a : Elem} :
    ∀ {s1 s2 : Scope} {b : Elem}, Incl d1 s1 a b → SeenAlike d1 d2 s1 s2 b → SeenAlike d1 d2 s1 s2 a := by
  induction a using Elem.ind with
  | h t n at' x ks ih =>
    intro s1 s2 b hi hb
    cases hi with
    | mk _ _ _ kids isub _ =>
      refine ⟨fun k hk => ?_, fun k hk f g hf hg => ?_⟩
      · obtain ⟨y, hy, hky⟩ := kids k hk
        obtain ⟨f, g, hf, hg, hinf, hks, -⟩ := hb.here' y hy
        rw [← hky.1] at hf hg
        exact ⟨f, g, hf, hg, hinf, hks, by rw [parseText_ns hns]; exact parseText_node d2 k hinf⟩
      · obtain ⟨y, hy, hky⟩ := kids k hk
        exact ih k hk (isub k hk y hy hky f hf) (hb.sub' y hy f g (hky.1 ▸ hf) (hky.1 ▸ hg))

theorem checkTrees_self : ∀ {ms : List String}, (∀ m ∈ ms, (h.models.lookup m).isSome = true) →
    checkTrees h h ms = .ok ()
  | [], _ => rfl
  | m :: ms, ha => by
    obtain ⟨t, ht⟩ := Option.isSome_iff_exists.1 (ha m (by simp))
    rw [checkTrees]
    simp only [ht, treeDiff, if_true, bind, Except.bind, ModelDiff.truthy, ModelDiff.modelDiffSame,
      Elem.kids_mk, List.isEmpty_nil, Bool.not_true, Bool.false_eq_true, if_false]
    exact checkTrees_self fun m hm => ha m (by simp [hm])

/-- C45: if configs of two devices are compatible, then the delta between them can be made and applied to the
first, and the result equals the second config, whichever device is asked. -/
theorem C45_round_trip (opts : Opts) (hl1 : WellLoaded h1) (hl2 : WellLoaded h2) (ho1 : OwnRoots h1) (ho2 : OwnRoots h2)
    (hid : h1.id = h2.id → h1 = h2) (hns : h1.namespaces = h2.namespaces) (hc : isCompatible h1 c1 h2 c2 = .ok ())
    (v2 : ValidConfig h2.device c2)
    (r1 : Deep h1.device (ReadAlike h1.device h2.device) .root c1)
    (r2 : Deep h2.device (ReadAlike h2.device h1.device) .root c2)
    (ht : Transition h1.device c1 c2) (hs : RootSafe h1.device opts c2) :
    ∃ δ r, hostDelta h1 c1 h2 c2 opts = .ok δ ∧ hostAddDelta h1 c1 h2 δ = .ok r ∧
      hostEq h1 r h2 c2 = .ok true ∧ hostEq h2 c2 h1 r = .ok true := by
  obtain ⟨δ, r, hδ, hr, hvr, hsr⟩ := round_trip h1.device opts c1 c2 ht hs
  have v1 := ht.src.valid
  rw [newDelta_ok v1.valid ht.dst.valid.valid] at hδ
  obtain rfl := Except.ok.inj hδ
  obtain ⟨s1, s2⟩ := seen_of_compatible hl1 hl2 ho1 ho2 hid hc v1.valid v2.valid r1 r2
  have sr : SeenAlike h1.device h2.device .root .root r := SeenAlike.of_incl hns hsr.1 s2.symm
  refine ⟨_, r, by unfold hostDelta; rw [hc]; rfl, ?_, ?_, ?_⟩
  · obtain ⟨rs1, e1, u1⟩ := hostRoots_ok ho1 (rootsLoaded_of_valid v1.valid)
    obtain ⟨rs2, e2, u2⟩ := hostRoots_ok ho2 (rootsLoaded_of_valid v2.valid)
    have hmods : ∀ m ∈ (rs1 ++ rs1 ++ rs2).map Prod.snd, (h1.models.lookup m).isSome = true := by
      intro m hm
      have hh : HasModel h1 m := by
        simp only [List.map_append, List.mem_append, or_self, u1, u2] at hm
        by_cases hne : h1.id = h2.id
        · obtain rfl := hid hne
          rcases hm with ⟨t, hm, -⟩ | ⟨t, hm, -⟩ <;> exact ⟨t, hm⟩
        · obtain ⟨-, -, -, t1, -, hm1, -⟩ := (C45_check hl1 hl2 ho1 ho2 hne (rootsLoaded_of_valid v1.valid)
            (rootsLoaded_of_valid v2.valid)).1 hc m hm
          exact ⟨t1, hm1⟩
      cases hl : h1.models.lookup m with
      | some t => rfl
      | none => exact absurd hh (hl1.isNone.1 (by rw [hl]; rfl))
    have hmc : modelsCompatible h1 h1 ((rs1 ++ rs1 ++ rs2).map Prod.snd) = .ok () := by
      have : ((rs1 ++ rs1 ++ rs2).map Prod.snd).any (fun m => (h1.models.lookup m).isNone) = false := by
        rw [List.any_eq_false]
        intro m hm hn
        have := hmods m hm
        cases hl : h1.models.lookup m <;> simp_all
      unfold modelsCompatible
      rw [this]
      exact checkTrees_self hmods
    unfold hostAddDelta
    unfold configAddDelta at hr
    obtain ⟨_, -, hr⟩ := bind_ok.1 hr
    simp only [e1, e2, hmc, bind, Except.bind]
    exact hr
  · obtain ⟨b, hb, hbi⟩ := cfgEq_iff hvr ht.dst.valid
    unfold hostEq
    rw [hb, hbi.2 hsr]
  · obtain ⟨b, hb, hbi⟩ := cfgEq_iff v2 (sr.validConfig hvr)
    unfold hostEq
    rw [hb, hbi.2 ⟨(s2.inclRoot sr.symm).2 hsr.2, (sr.inclRoot s2.symm).1 hsr.1⟩]

/-- C45: if configs of two devices are compatible, then their sum is the union of both, read with the schema of the
first device. -/
theorem C45_sum (hc : isCompatible h1 c1 h2 c2 = .ok ()) (hm : Mergeable h1.device c1 c2) :
    ∃ r, hostAdd h1 c1 h2 c2 = .ok r ∧ HasAll h1.device .root c2 r ∧ Within h1.device .root c1 r ∧
      FromBoth h1.device .root c1 c2 r := by
  obtain ⟨r, hr, h⟩ := C10_merge_is_union h1.device c1 c2 hm
  refine ⟨r, ?_, h⟩
  rw [configAdd_eq hm.src.valid hm.other.side.valid] at hr
  unfold hostAdd
  rw [hc]
  exact hr

/-- C45: otherwise there is no sum. -/
theorem C45_no_sum {e : Err} (hc : isCompatible h1 c1 h2 c2 = .error e) : hostAdd h1 c1 h2 c2 = .error e ∧
    hostDelta h1 c1 h2 c2 opts = .error e := by
  unfold hostAdd hostDelta
  rw [hc]
  exact ⟨rfl, rfl⟩

/-! ## Examples -/

/-- Executable `ReadAlike`. -/
def readAlikeB (d1 d2 : Device) (sc : Scope) (e : Elem) : Bool :=
  kidsB d1 sc e.kids fun f k =>
    f.node.info.keyNames.all (fun n => f.node.kids.all fun c => f.node.kids.all fun c' =>
      !(c.tag.name = n ∧ c'.tag.name = n) || c.tag = c'.tag) &&
    parseText d1 k f.node = parseText d2 k f.node

theorem readAlikeB_sound {d1 d2 : Device} {sc : Scope} {e : Elem} (h : readAlikeB d1 d2 sc e = true) :
    ReadAlike d1 d2 sc e := by
  intro k hk f hf
  have := kidsB_sound h k hk f hf
  simp only [Bool.and_eq_true, List.all_eq_true, decide_eq_true_eq, Bool.or_eq_true, Bool.not_eq_true',
    decide_eq_false_iff_not] at this
  exact ⟨fun n hn c hc c' hc' h1 h2 => (this.1 n hn c hc c' hc').resolve_left fun h => h ⟨h1, h2⟩, this.2⟩

/-- Executable `WellLoaded` and `OwnRoots`. -/
def hostB (h : Host) : Bool :=
  decide (h.models.map Prod.fst).Nodup &&
  h.models.all (fun p => p.2.tag = ⟨"", p.1⟩ && ModelDiff.Demo.okTree ModelDiff.Demo.okNode p.2 &&
    !(ModelDiff.typeOf p.2).any ModelDiff.isLeafType) &&
  h.models.all (fun p => h.models.all fun p' => p.2.kids.all fun k => p'.2.kids.all fun k' =>
    !(k.tag = k'.tag) || p.1 = p'.1)

theorem hostB_sound (hb : hostB h = true) : WellLoaded h ∧ OwnRoots h := by
  simp only [hostB, Bool.and_eq_true, List.all_eq_true, decide_eq_true_eq, Bool.or_eq_true, Bool.not_eq_true',
    decide_eq_false_iff_not] at hb
  obtain ⟨⟨h1, h2⟩, h3⟩ := hb
  exact ⟨⟨h1, fun m t hm => (h2 _ hm).1.1,
    fun m t hm => (ModelDiff.Demo.schemaTree_of (h2 _ hm).1.2 (fun _ h => h) (h2 _ hm).2).1⟩,
    fun m t m' t' hm hm' k hk k' hk' ht => (h3 _ hm _ hm' k hk k' hk').resolve_left fun h => h ht⟩

namespace Demo

/-- A node of a compiled schema tree. -/
def sch (n type : String) (attrs : Attrs := []) (ks : List Elem := []) : Elem :=
  .mk (q n) [] ((.other "type", .str type) :: attrs) none ks

def module (ks : List Elem) : Elem := .mk ⟨"", "demo"⟩ [] [(.other "type", .str "module")] none ks

/-- The model of the first device. -/
def schemaA : Elem := module [sch "top" "container" [] [
  sch "a" "leaf" [],
  sch "item" "list" [(.key, .str "d:name")] [sch "name" "leaf" [(.other "is_key", .str "true")], sch "val" "leaf"],
  sch "dns" "leaf-list" [(.other "ordered-by", .str "user")],
  sch "ch" "choice" [] [sch "c1" "case" [] [sch "x" "leaf"], sch "c2" "case" [] [sch "y" "leaf"]]]]

/-- The same model as a compiler may give it in another order. -/
def schemaB : Elem := module [sch "top" "container" [] [
  sch "ch" "choice" [] [sch "c2" "case" [] [sch "y" "leaf"], sch "c1" "case" [] [sch "x" "leaf"]],
  sch "dns" "leaf-list" [(.other "ordered-by", .str "user")],
  sch "item" "list" [(.key, .str "d:name")] [sch "val" "leaf", sch "name" "leaf" [(.other "is_key", .str "true")]],
  sch "a" "leaf" []]]

/-- A version of the model in which the leaf-list is ordered by the system. -/
def schemaC : Elem := module [sch "top" "container" [] [
  sch "a" "leaf" [],
  sch "item" "list" [(.key, .str "d:name")] [sch "name" "leaf" [(.other "is_key", .str "true")], sch "val" "leaf"],
  sch "dns" "leaf-list" []]]

def hostOf (id : Nat) (t : Elem) : Host := ⟨id, [("demo", "d", u)], ["demo"], [("demo", t)]⟩

def hostA : Host := hostOf 1 schemaA
def hostBB : Host := hostOf 2 schemaB
def hostC : Host := hostOf 3 schemaC

def two1 : Elem := cfg [el "top" [lf "a" "1", item "i" "1", lf "dns" "x", lf "dns" "y"]]
def two2 : Elem := cfg [el "top" [item "j" "2", lf "dns" "x", lf "dns" "y", lf "x" "5"]]

example : WellLoaded hostA ∧ OwnRoots hostA := hostB_sound (by decide +kernel)
example : WellLoaded hostBB ∧ OwnRoots hostBB := hostB_sound (by decide +kernel)

/-- The hypotheses of the theorems hold for configs of devices whose models differ in the order of siblings. -/
example : isCompatible hostA two1 hostBB two2 = .ok () ∧ ValidConfig hostA.device two1 ∧
    ValidConfig hostBB.device two2 ∧ Deep hostA.device (ReadAlike hostA.device hostBB.device) .root two1 ∧
    Deep hostBB.device (ReadAlike hostBB.device hostA.device) .root two2 ∧ Transition hostA.device two1 two2 ∧
    RootSafe hostA.device {} two2 :=
  ⟨by decide +kernel, validConfigB_sound (by decide +kernel), validConfigB_sound (by decide +kernel),
    deepB_sound (fun _ _ => readAlikeB_sound) _ _ (by decide +kernel),
    deepB_sound (fun _ _ => readAlikeB_sound) _ _ (by decide +kernel), transitionB_sound (by decide +kernel), .inl rfl⟩

/-- The hypotheses of `C45_sum` hold. -/
example : isCompatible hostA two1 hostBB two2 = .ok () ∧ Mergeable hostA.device two1 two2 :=
  ⟨by decide +kernel, mergeableB_sound (by decide +kernel)⟩

example : RootsLoaded hostA two1 ∧ UsesModel hostA two1 "demo" ∧ SameRow hostA hostBB "demo" := by
  refine ⟨rootsLoaded_of_valid (validConfigB_sound (by decide +kernel)).valid, ?_, ⟨("d", u), rfl, rfl⟩⟩
  exact ⟨_, .head _, _, .head _, _, .head _, rfl⟩

/-- C45: other models are not accepted. -/
example : isCompatible hostA two1 hostC two1 = .error .modelIncompatible := by decide +kernel
example : isCompatible hostA two1 { hostBB with namespaces := [("demo", "e", u)] } two2 =
    .error .modelIncompatible := by decide +kernel
example : isCompatible hostA two1 { hostBB with loadable := [] } two2 = .error .modelMissing := by decide +kernel
example : isCompatible hostA two1 { hostBB with models := [] } (cfg []) = .error .modelMissing := by decide +kernel

/-- C45: comparisons do not ask whether the configs are compatible.  Here `c1 == c2` is false and `c2 == c1` is
true, although both configs are valid on both devices. -/
theorem C45_unchecked : ∃ c1 c2, ValidConfig hostA.device c1 ∧ ValidConfig hostC.device c2 ∧
    ValidConfig hostA.device c2 ∧ ValidConfig hostC.device c1 ∧
    isCompatible hostA c1 hostC c2 = .error .modelIncompatible ∧
    hostEq hostA c1 hostC c2 = .ok false ∧ hostEq hostC c2 hostA c1 = .ok true :=
  ⟨cfg [el "top" [lf "dns" "x", lf "dns" "y"]], cfg [el "top" [lf "dns" "y", lf "dns" "x"]],
    validConfigB_sound (by decide +kernel), validConfigB_sound (by decide +kernel),
    validConfigB_sound (by decide +kernel), validConfigB_sound (by decide +kernel), by decide +kernel,
    by decide +kernel, by decide +kernel⟩

/-- A list with two children of one local name, as after an augmentation by another module. -/
def twoNames (swap : Bool) : Elem :=
  let own := sch "name" "leaf" [(.other "is_key", .str "true")]
  let aug : Elem := .mk ⟨"urn:aug", "name"⟩ [] [(.other "type", .str "leaf")] none []
  module [sch "top" "container" [] [
    sch "item" "list" [(.key, .str "name")] (if swap then [aug, own] else [own, aug])]]

def augName (v : String) : Elem := .mk ⟨"urn:aug", "name"⟩ ns [] (some v) []

/-- C45: the keys of a list are found by their local names, and the order of siblings decides which child is the
key; the check does not compare the order.  Here two configs are compatible, and `c1 == c2` and `c2 == c1` have
different outcomes. -/
theorem C45_ambiguous_key : ∃ h1 h2 c1 c2, WellLoaded h1 ∧ WellLoaded h2 ∧ OwnRoots h1 ∧ OwnRoots h2 ∧
    isCompatible h1 c1 h2 c2 = .ok () ∧ ValidConfig h1.device c1 ∧ ValidConfig h2.device c2 ∧
    hostEq h1 c1 h2 c2 ≠ hostEq h2 c2 h1 c1 :=
  ⟨hostOf 1 (twoNames false), hostOf 2 (twoNames true),
    cfg [el "top" [el "item" [lf "name" "1", augName "x"], el "item" [lf "name" "2", augName "x"]]],
    cfg [el "top" [el "item" [lf "name" "1", augName "x"]]],
    (hostB_sound (by decide +kernel)).1, (hostB_sound (by decide +kernel)).1, (hostB_sound (by decide +kernel)).2,
    (hostB_sound (by decide +kernel)).2, by decide +kernel, validConfigB_sound (by decide +kernel),
    validConfigB_sound (by decide +kernel), by decide +kernel⟩

def schemaId : Elem := module [sch "top" "container" [] [sch "t" "leaf" [(.other "datatype", .str "identityref:base")]]]

/-- C45: the module that defines an identity is not among the models that are compared.  Here two configs are
compatible and equal, but the second device cannot compare them, as it does not know that module. -/
theorem C45_foreign_identity : ∃ h1 h2 c, WellLoaded h1 ∧ WellLoaded h2 ∧ OwnRoots h1 ∧ OwnRoots h2 ∧
    isCompatible h1 c h2 c = .ok () ∧ ValidConfig h1.device c ∧
    hostEq h1 c h2 c = .ok true ∧ hostEq h2 c h1 c = .error .valueError :=
  ⟨{ hostOf 1 schemaId with namespaces := [("demo", "d", u), ("ids", "i", "urn:ids")] }, hostOf 2 schemaId,
    cfg [el "top" [.mk (q "t") [(none, u), (some "i", "urn:ids")] [] (some "i:x") []]],
    (hostB_sound (by decide +kernel)).1, (hostB_sound (by decide +kernel)).1, (hostB_sound (by decide +kernel)).2,
    (hostB_sound (by decide +kernel)).2, by decide +kernel, validConfigB_sound (by decide +kernel), by decide +kernel,
    by decide +kernel⟩

/-- C45: a model that is loadable but has no row in the table of namespaces raises `IndexError`. -/
theorem C45_no_row : ∃ h1 h2 c, WellLoaded h1 ∧ WellLoaded h2 ∧ "demo" ∈ h1.loadable ∧ "demo" ∈ h2.loadable ∧
    SameModel h1 h2 "demo" ∧ isCompatible h1 c h2 c = .error .indexError :=
  ⟨hostA, { hostOf 2 schemaA with namespaces := [] }, two1, (hostB_sound (by decide +kernel)).1,
    (hostB_sound (by decide +kernel)).1, by decide +kernel, by decide +kernel,
    ⟨schemaA, schemaA, .head _, .head _, ⟨fun p n _ hn => ⟨n, hn, rfl, rfl, fun _ => rfl⟩,
      fun p n _ hn => ⟨n, hn, rfl, rfl, fun _ => rfl⟩⟩⟩, by decide +kernel⟩

end Demo

end NcDiff
