import Verif.Proof.CompatSeen
import Verif.Props.ModelDiff
/-!
# The check for two devices
-/

namespace NcDiff

open ModelDiff (lookup_mem mem_lookup)

variable {h h1 h2 : Host} {c c1 c2 : Elem}

theorem WellLoaded.lookup (hl : WellLoaded h) {m : String} {t : Elem} : h.models.lookup m = some t ↔ (m, t) ∈ h.models :=
  ⟨lookup_mem, fun hm => mem_lookup hl.names hm⟩

theorem WellLoaded.isNone (hl : WellLoaded h) {m : String} : (h.models.lookup m).isNone = true ↔ ¬ HasModel h m := by
  cases ht : h.models.lookup m with
  | none =>
    simp only [Option.isNone_none, true_iff]
    rintro ⟨t, hm⟩
    rw [hl.lookup.2 hm] at ht
    cases ht
  | some t => simp only [Option.isNone_some, Bool.false_eq_true, false_iff, not_not]; exact ⟨t, lookup_mem ht⟩

theorem WellLoaded.unique (hl : WellLoaded h) {m : String} {t t' : Elem} (a : (m, t) ∈ h.models) (b : (m, t') ∈ h.models) :
    t = t' := by
  have := hl.lookup.2 a
  rw [hl.lookup.2 b] at this
  exact (Option.some.inj this).symm

theorem mem_roots {tag : QName} {m : String} :
    (tag, m) ∈ h.device.roots ↔ ∃ t, (m, t) ∈ h.models ∧ ∃ r ∈ t.kids, r.tag = tag := by
  simp only [Host.device, List.mem_flatMap, List.mem_reverse, List.mem_map, Prod.mk.injEq, Prod.exists]
  constructor
  · rintro ⟨m', t, hm, r, hr, rfl, rfl⟩; exact ⟨t, hm, r, hr, rfl⟩
  · rintro ⟨t, hm, r, hr, rfl⟩; exact ⟨m, t, hm, r, hr, rfl, rfl⟩

theorem roots_some (ho : OwnRoots h) {tag : QName} {m : String} :
    h.device.roots.lookup tag = some m ↔ ∃ t, (m, t) ∈ h.models ∧ ∃ r ∈ t.kids, r.tag = tag := by
  constructor
  · exact fun hl => mem_roots.1 (lookup_mem hl)
  · intro hm
    cases hl : h.device.roots.lookup tag with
    | none =>
      have := mem_roots.2 hm
      rw [List.lookup_eq_none_iff] at hl
      have := hl _ this
      simp at this
    | some m' =>
      obtain ⟨t', hm', r', hr', ht'⟩ := mem_roots.1 (lookup_mem hl)
      obtain ⟨t, hm, r, hr, ht⟩ := hm
      rw [ho m' t' m t hm' hm r' hr' r hr (ht'.trans ht.symm)]

theorem device_models (hl : WellLoaded h) {m : String} {t : Elem} (hm : (m, t) ∈ h.models) :
    h.device.models.lookup m = some (ofElems t.kids) := by
  refine mem_lookup ?_ ?_
  · simpa [Host.device, List.map_map, Function.comp_def] using hl.names
  · exact List.mem_map.2 ⟨(m, t), hm, rfl⟩

theorem lookup_root (hl : WellLoaded h) (ho : OwnRoots h) {m : String} {t r : Elem} (hm : (m, t) ∈ h.models)
    (hr : r ∈ t.kids) : h.device.lookup .root r.tag =
      pick (dataNodes r.tag [h.device.models.findIdx (fun p => p.1 = m)] false 0 (ofElems t.kids)) := by
  unfold Device.lookup pick
  simp only [(roots_some ho).2 ⟨t, hm, r, hr, rfl⟩, device_models hl hm]
  split <;> simp_all

theorem lookAlike_root (hl1 : WellLoaded h1) (hl2 : WellLoaded h2) (ho1 : OwnRoots h1) (ho2 : OwnRoots h2) {m : String}
    (hs : SameModel h1 h2 m) {t r : Elem} (hm : (m, t) ∈ h1.models) (hr : r ∈ t.kids) :
    LookAlike (h1.device.lookup .root r.tag) (h2.device.lookup .root r.tag) := by
  obtain ⟨t1, t2, hm1, hm2, hb⟩ := hs
  obtain rfl := hl1.unique hm hm1
  obtain ⟨r', hr', hn, -⟩ := SameBelow.kid (hl1.schema _ _ hm) (hl2.schema _ _ hm2) hb hr
  have e2 := lookup_root hl2 ho2 hm2 hr'
  rw [← hn.1] at e2
  rw [lookup_root hl1 ho1 hm hr, e2]
  apply pick_alike
  rw [dataNodes_cands, dataNodes_cands]
  obtain ⟨l, hp, hf⟩ := roots_alike (hl1.schema _ _ hm) (hl2.schema _ _ hm2) hb
  exact kids_upTo hp hf

theorem SameModel.symm {m : String} (hs : SameModel h1 h2 m) : SameModel h2 h1 m := by
  obtain ⟨t1, t2, hm1, hm2, hb⟩ := hs
  exact ⟨t2, t1, hm2, hm1, SameBelow.symm hb⟩

/-! ## The models of a config -/

theorem hostRoots_ok (ho : OwnRoots h) (hr : RootsLoaded h c) :
    ∃ rs, configRoots h.device c = .ok rs ∧ ∀ m, m ∈ rs.map Prod.snd ↔ UsesModel h c m := by
  unfold configRoots UsesModel
  have hr : ∀ k ∈ c.kids, ∃ m, h.device.roots.lookup k.tag = some m := fun k hk => by
    obtain ⟨m, t, hm, r, hr, ht⟩ := hr k hk
    exact ⟨m, (roots_some ho).2 ⟨t, hm, r, hr, ht⟩⟩
  revert hr
  generalize c.kids = ks
  intro hr
  induction ks with
  | nil => exact ⟨[], rfl, by simp⟩
  | cons k ks ih =>
    obtain ⟨rs, h1, h2⟩ := ih fun k hk => hr k (by simp [hk])
    obtain ⟨m, hm⟩ := hr k (by simp)
    refine ⟨(k.tag, m) :: rs, by rw [List.mapM_cons, h1, hm]; rfl, fun m' => ?_⟩
    simp only [List.map_cons, List.mem_cons, h2 m', exists_eq_or_imp]
    constructor
    · rintro (rfl | ⟨t, hmt, r, hrt, x, hx, hxt⟩)
      · obtain ⟨t, hmt, r, hrt, ht⟩ := (roots_some ho).1 hm
        exact ⟨t, hmt, r, hrt, .inl ht.symm⟩
      · exact ⟨t, hmt, r, hrt, .inr ⟨x, hx, hxt⟩⟩
    · rintro ⟨t, hmt, r, hrt, hk | ⟨x, hx, hxt⟩⟩
      · refine .inl ?_
        have := (roots_some ho).2 ⟨t, hmt, r, hrt, hk.symm⟩
        rw [hm] at this
        exact (Option.some.inj this).symm
      · exact .inr ⟨t, hmt, r, hrt, x, hx, hxt⟩

theorem hostRoots_error (hr : ¬ RootsLoaded h c) :
    configRoots h.device c = .error .configError ∨ configRoots h.device c = .error .modelMissing := by
  unfold configRoots
  have hr : ∃ k ∈ c.kids, h.device.roots.lookup k.tag = none := by
    refine Classical.byContradiction fun hn => hr fun k hk => ?_
    cases hl : h.device.roots.lookup k.tag with
    | none => exact absurd ⟨k, hk, hl⟩ hn
    | some m =>
      obtain ⟨t, hm, r, hr, ht⟩ := mem_roots.1 (lookup_mem hl)
      exact ⟨m, t, hm, r, hr, ht⟩
  revert hr
  generalize c.kids = ks
  intro hr
  induction ks with
  | nil => obtain ⟨k, hk, -⟩ := hr; simp at hk
  | cons k ks ih =>
    rw [List.mapM_cons]
    cases hl : h.device.roots.lookup k.tag with
    | none =>
      simp only
      split
      · exact .inl rfl
      · split
        · exact .inr rfl
        · exact .inl rfl
    | some m =>
      obtain ⟨x, hx, hxl⟩ := hr
      have hx : x ∈ ks := by
        cases hx with
        | head => rw [hl] at hxl; cases hxl
        | tail _ hx => exact hx
      rcases ih ⟨x, hx, hxl⟩ with he | he
      · left; rw [he]; rfl
      · right; rw [he]; rfl

/-! ## The loops -/

theorem checkRows_ok : ∀ {ms : List String}, checkRows h1 h2 ms = .ok () ↔ ∀ m ∈ ms, SameRow h1 h2 m
  | [] => by simp [checkRows]
  | m :: ms => by
    rw [checkRows]
    cases h1' : h1.namespaces.lookup m with
    | none =>
      simp only [Host.row, h1', bind, Except.bind]
      simp [SameRow, h1']
    | some r1 =>
      cases h2' : h2.namespaces.lookup m with
      | none =>
        simp only [Host.row, h1', h2', bind, Except.bind]
        simp [SameRow, h1', h2']
      | some r2 =>
        simp only [Host.row, h1', h2', bind, Except.bind, List.forall_mem_cons, ← checkRows_ok (ms := ms)]
        have : SameRow h1 h2 m ↔ r1.1 = r2.1 ∧ r1.2 = r2.2 := by
          simp only [SameRow, h1', h2', Option.some.injEq, exists_eq_left', eq_comm, ← Prod.ext_iff]
        rw [this]
        by_cases hp : r1.1 = r2.1 <;> by_cases hq : r1.2 = r2.2 <;> simp [hp, hq]

theorem checkRows_bad : ∀ {ms : List String},
    (∀ m ∈ ms, ∃ r1 r2, h1.namespaces.lookup m = some r1 ∧ h2.namespaces.lookup m = some r2) →
    (∃ m ∈ ms, ¬ SameRow h1 h2 m) → checkRows h1 h2 ms = .error .modelIncompatible
  | [], _, h => by simp at h
  | m :: ms, hr, hb => by
    obtain ⟨r1, r2, h1', h2'⟩ := hr m (by simp)
    rw [checkRows]
    simp only [Host.row, h1', h2', bind, Except.bind]
    by_cases hp : r1.1 = r2.1
    · by_cases hq : r1.2 = r2.2
      · simp only [hp, hq, ne_eq, not_true_eq_false, if_false]
        refine checkRows_bad (fun m hm => hr m (by simp [hm])) ?_
        obtain ⟨x, hx, hn⟩ := hb
        cases hx with
        | head => exact absurd ⟨r1, h1', by rw [h2', Prod.ext hp hq]⟩ hn
        | tail _ hx => exact ⟨x, hx, hn⟩
      · simp [hp, hq]
    · simp [hp]

theorem checkTrees_spec (hl1 : WellLoaded h1) (hl2 : WellLoaded h2) (hne : h1.id ≠ h2.id) : ∀ {ms : List String},
    (∀ m ∈ ms, HasModel h1 m ∧ HasModel h2 m) →
    ((∀ m ∈ ms, SameModel h1 h2 m) → checkTrees h1 h2 ms = .ok ()) ∧
    ((∃ m ∈ ms, ¬ SameModel h1 h2 m) → checkTrees h1 h2 ms = .error .modelIncompatible)
  | [], _ => by simp [checkTrees]
  | m :: ms, hh => by
    obtain ⟨⟨t1, hm1⟩, t2, hm2⟩ := hh m (by simp)
    obtain ⟨ih1, ih2⟩ := checkTrees_spec hl1 hl2 hne (ms := ms) fun m hm => hh m (by simp [hm])
    have hst : SameModel h1 h2 m ↔ ModelDiff.SameBelow t1 t2 := by
      constructor
      · rintro ⟨u1, u2, hu1, hu2, hb⟩
        rwa [hl1.unique hm1 hu1, hl2.unique hm2 hu2]
      · exact fun hb => ⟨t1, t2, hm1, hm2, hb⟩
    obtain ⟨df, hdf⟩ := (ModelDiff.C33_total (hl1.schema _ _ hm1) (hl2.schema _ _ hm2)).1
      ((hl1.named _ _ hm1).trans (hl2.named _ _ hm2).symm)
    have hemp := ModelDiff.C33_empty (hl1.schema _ _ hm1) (hl2.schema _ _ hm2) hdf
    rw [← hst] at hemp
    rw [checkTrees]
    simp only [hl1.lookup.2 hm1, hl2.lookup.2 hm2, treeDiff, if_neg hne, hdf, bind, Except.bind]
    by_cases hs : SameModel h1 h2 m
    · rw [hemp.2 hs]
      simp only [Bool.false_eq_true, if_false]
      refine ⟨fun ha => ih1 fun m hm => ha m (by simp [hm]), ?_⟩
      rintro ⟨x, hx, hn⟩
      cases hx with
      | head => exact absurd hs hn
      | tail _ hx => exact ih2 ⟨x, hx, hn⟩
    · have : ModelDiff.truthy df = true := by
        cases htr : ModelDiff.truthy df with
        | true => rfl
        | false => exact absurd (hemp.1 htr) hs
      rw [this]
      exact ⟨fun ha => absurd (ha m (by simp)) hs, fun _ => rfl⟩

theorem any_missing {l : List String} {ms : List String} :
    ms.any (fun m => !l.contains m) = true ↔ ∃ m ∈ ms, m ∉ l := by simp

/-- The whole check for two different devices, in terms of the models that are used. -/
theorem compat_cases (hl1 : WellLoaded h1) (hl2 : WellLoaded h2) (hne : h1.id ≠ h2.id) (ms : List String) :
    let r := (namespacesCompatible h1 h2 ms >>= fun _ => modelsCompatible h1 h2 ms)
    ((∃ m ∈ ms, m ∉ h1.loadable ∨ m ∉ h2.loadable) → r = .error .modelMissing) ∧
    ((∀ m ∈ ms, m ∈ h1.loadable ∧ m ∈ h2.loadable) →
      (∀ m ∈ ms, ∃ r1 r2, h1.namespaces.lookup m = some r1 ∧ h2.namespaces.lookup m = some r2) →
      (∃ m ∈ ms, ¬ SameRow h1 h2 m) → r = .error .modelIncompatible) ∧
    ((∀ m ∈ ms, m ∈ h1.loadable ∧ m ∈ h2.loadable) → (∀ m ∈ ms, SameRow h1 h2 m) →
      ((∃ m ∈ ms, ¬ (HasModel h1 m ∧ HasModel h2 m)) → r = .error .modelMissing) ∧
      ((∀ m ∈ ms, HasModel h1 m ∧ HasModel h2 m) → (∃ m ∈ ms, ¬ SameModel h1 h2 m) →
        r = .error .modelIncompatible) ∧
      ((∀ m ∈ ms, SameModel h1 h2 m) → r = .ok ())) ∧
    (r = .ok () → ∀ m ∈ ms, m ∈ h1.loadable ∧ m ∈ h2.loadable ∧ SameRow h1 h2 m ∧ SameModel h1 h2 m) := by
  intro r
  have nsOk : (∀ m ∈ ms, m ∈ h1.loadable ∧ m ∈ h2.loadable) → namespacesCompatible h1 h2 ms = checkRows h1 h2 ms := by
    intro ha
    unfold namespacesCompatible
    rw [if_neg hne, if_neg (by rw [any_missing]; rintro ⟨m, hm, hn⟩; exact hn (ha m hm).1),
      if_neg (by rw [any_missing]; rintro ⟨m, hm, hn⟩; exact hn (ha m hm).2)]
  have missing : (∃ m ∈ ms, m ∉ h1.loadable ∨ m ∉ h2.loadable) → r = .error .modelMissing := by
    rintro ⟨m, hm, hn⟩
    show (namespacesCompatible h1 h2 ms >>= _) = _
    unfold namespacesCompatible
    rw [if_neg hne]
    by_cases h1' : ms.any (fun m => !h1.loadable.contains m) = true
    · rw [if_pos h1']; rfl
    · rw [if_neg h1', if_pos]
      · rfl
      · rcases hn with hn | hn
        · exact absurd (any_missing.2 ⟨m, hm, hn⟩) h1'
        · exact any_missing.2 ⟨m, hm, hn⟩
  have rows : (∀ m ∈ ms, m ∈ h1.loadable ∧ m ∈ h2.loadable) → (∀ m ∈ ms, SameRow h1 h2 m) →
      r = modelsCompatible h1 h2 ms := by
    intro ha hr
    show (namespacesCompatible h1 h2 ms >>= _) = _
    rw [nsOk ha, checkRows_ok.2 hr]; rfl
  have gone : (∃ m ∈ ms, ¬ (HasModel h1 m ∧ HasModel h2 m)) → modelsCompatible h1 h2 ms = .error .modelMissing := by
    rintro ⟨m, hm, hn⟩
    unfold modelsCompatible
    by_cases h1' : ms.any (fun m => (h1.models.lookup m).isNone) = true
    · rw [if_pos h1']
    · rw [if_neg h1', if_pos]
      simp only [List.any_eq_true, hl1.isNone, hl2.isNone] at h1' ⊢
      refine ⟨m, hm, fun h => hn ⟨?_, h⟩⟩
      exact Classical.byContradiction fun h => h1' ⟨m, hm, h⟩
  have here : (∀ m ∈ ms, HasModel h1 m ∧ HasModel h2 m) → modelsCompatible h1 h2 ms = checkTrees h1 h2 ms := by
    intro ha
    unfold modelsCompatible
    rw [if_neg, if_neg]
    · simp only [List.any_eq_true, hl2.isNone]; rintro ⟨m, hm, hn⟩; exact hn (ha m hm).2
    · simp only [List.any_eq_true, hl1.isNone]; rintro ⟨m, hm, hn⟩; exact hn (ha m hm).1
  have has : (∀ m ∈ ms, SameModel h1 h2 m) → ∀ m ∈ ms, HasModel h1 m ∧ HasModel h2 m := by
    intro hs m hm
    obtain ⟨t1, t2, hm1, hm2, -⟩ := hs m hm
    exact ⟨⟨t1, hm1⟩, t2, hm2⟩
  refine ⟨missing, ?_, fun ha hr => ⟨fun hg => ?_, fun hh hn => ?_, fun hs => ?_⟩, fun hok => ?_⟩
  · intro ha hr hn
    show (namespacesCompatible h1 h2 ms >>= _) = _
    rw [nsOk ha, checkRows_bad hr hn]; rfl
  · rw [rows ha hr, gone hg]
  · rw [rows ha hr, here hh, (checkTrees_spec hl1 hl2 hne hh).2 hn]
  · rw [rows ha hr, here (has hs), (checkTrees_spec hl1 hl2 hne (has hs)).1 hs]
  · have ha : ∀ m ∈ ms, m ∈ h1.loadable ∧ m ∈ h2.loadable := by
      intro m hm
      refine Classical.byContradiction fun hn => ?_
      rw [missing ⟨m, hm, Classical.not_and_iff_not_or_not.1 hn⟩] at hok
      cases hok
    have hr : ∀ m ∈ ms, SameRow h1 h2 m := by
      refine checkRows_ok.1 ?_
      have hok : (namespacesCompatible h1 h2 ms >>= fun _ => modelsCompatible h1 h2 ms) = .ok () := hok
      rw [nsOk ha] at hok
      cases hc : checkRows h1 h2 ms with
      | ok u => rfl
      | error e => rw [hc] at hok; cases hok
    rw [rows ha hr] at hok
    have hh : ∀ m ∈ ms, HasModel h1 m ∧ HasModel h2 m := by
      intro m hm
      refine Classical.byContradiction fun hn => ?_
      rw [gone ⟨m, hm, hn⟩] at hok
      cases hok
    rw [here hh] at hok
    have hs : ∀ m ∈ ms, SameModel h1 h2 m := by
      intro m hm
      refine Classical.byContradiction fun hn => ?_
      rw [(checkTrees_spec hl1 hl2 hne hh).2 ⟨m, hm, hn⟩] at hok
      cases hok
    exact fun m hm => ⟨(ha m hm).1, (ha m hm).2, hr m hm, hs m hm⟩

end NcDiff
