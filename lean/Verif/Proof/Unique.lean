import Verif.Proof.Kids
/-!
# A sum of a valid config and a valid delta is valid
-/

namespace NcDiff

theorem same_trans_delAttrib {d : Device} {sc : Scope} {x y : Elem} :
    SameInstance d sc x.delAttrib y.delAttrib → SameInstance d sc x y := by
  rintro ⟨h1, h2⟩
  rw [delAttrib_tag, delAttrib_tag] at h1
  refine ⟨h1, ?_⟩
  intro f hf
  have := h2 f (by rw [delAttrib_tag]; exact hf)
  cases hn : f.node.ntype <;> simp only [hn] at this ⊢
  · rw [parseText_delAttrib, parseText_delAttrib] at this; exact this
  · intro q hq
    have := this q hq
    rw [delAttrib_keyTexts, delAttrib_keyTexts] at this; exact this

theorem valid_delAttrib {d : Device} {sc : Scope} {e : Elem} (h : Valid d sc e) :
    Valid d sc e.delAttrib := by
  induction h with
  | @mk sc e _ shape unique _ ih =>
    refine Valid.mk (by rw [delAttrib_attrs]; simp) ?_ ?_ ?_
    · intro k hk
      rw [delAttrib_kids] at hk
      obtain ⟨k', hk', rfl⟩ := List.mem_map.1 hk
      obtain ⟨f, hf, kf⟩ := shape k' hk'
      exact ⟨f, by rw [delAttrib_tag]; exact hf, kidOk_delAttrib kf⟩
    · rw [delAttrib_kids, List.pairwise_map]
      exact unique.imp (fun h hs => h (same_trans_delAttrib hs))
    · intro k hk f hf
      rw [delAttrib_kids] at hk
      obtain ⟨k', hk', rfl⟩ := List.mem_map.1 hk
      rw [delAttrib_tag] at hf
      exact ih k' hk' f hf

theorem honest_delAttrib {d : Device} {f : Found} {k : Elem} (h : KeysHonest d f k) : KeysHonest d f k.delAttrib := by
  intro hn q hq g hg hi c hc
  rw [delAttrib_childrenWith] at hc
  obtain ⟨c', hc', rfl⟩ := List.mem_map.1 hc
  exact (h hn q hq g hg hi c' hc').congr (delAttrib_text _) (delAttrib_tag _) (delAttrib_nsmap _)

theorem keysPlain_honest {d : Device} {f : Found} {k : Elem} (h : KeysPlain d f k) : KeysHonest d f k := by
  intro hn q hq g hg hi c hc
  obtain ⟨⟨g', hg', _, hk⟩, _⟩ := h hn q hq
  rw [hg] at hg'; cases hg'
  exact (hk c hc).honest hi

/-- The keys of a new child. -/
theorem newContent_honest {d : Device} {sc : Scope} {k e : Elem} {f : Found}
    (hf : d.lookup sc k.tag = .ok f) (hk : KidOk d f.node k) (hkeys : KeysPlain d f k)
    (h : newContent f (k, addFn d k) = .ok e) : KeysHonest d f e := by
  intro hn
  have hcopy : Except.ok (ε := Err) k.delAttrib = .ok e → KeysHonest d f e := by
    intro he; cases he
    exact honest_delAttrib (keysPlain_honest hkeys)
  unfold newContent at h
  simp only [hn] at h
  split at h
  · simp only [bind, Except.bind] at h
    cases hs : listSkeleton f.node.keys k with
    | error x => simp [hs] at h
    | ok sk =>
      simp only [hs] at h
      have hk' := hk
      unfold KidOk at hk'
      simp only [hn] at hk'
      obtain ⟨s1, s2, s3, s4, _⟩ := listSkeleton_ok hs
      have hnd : f.node.keys.Nodup := keys_nodup_of_indexable hs hk'.2.2.1
        (fun q hq => by obtain ⟨⟨g, h1, h2, _⟩, _⟩ := hkeys hn q hq; exact ⟨g, h1, h2⟩)
        (nodeAdd_inv h).1
      have hsk := skeleton_honest hs hk'.2.2.1 hnd (fun q hq => (hkeys hn q hq).1)
      obtain ⟨_, _, h3⟩ := merged_list hf hn hk s1 s4 (hkeys hn)
        (fun q hq c hc => ⟨c.delAttrib, skeleton_childrenWith hs hk'.2.2.1 hnd hq hc, delAttrib_text c⟩) hsk h
      intro q hq g hg hi c hc
      rw [h3 q hq] at hc
      exact hsk hn q hq g hg hi c hc
  · exact hcopy h hn

/-- The keys of a child that the source had. -/
theorem peerContent_honest {d : Device} {sc : Scope} {s k : Elem} {f : Found} {x : PeerRes}
    (hf : d.lookup sc s.tag = .ok f) (hs : KidOk d f.node s) (hk : KidOk d f.node k)
    (hsk : SameInstance d sc s k) (hkeys : KeysPlain d f k) (hh : KeysHonest d f s)
    (h : peerContent d f.node (k, addFn d k) s = .ok x) :
    ∀ e', x.elem s = some e' → KeysHonest d f e' := by
  intro e' he' hn
  have hkt : d.lookup sc k.tag = .ok f := by rw [← hsk.1]; exact hf
  unfold peerContent at h
  simp only [hn] at h
  unfold peerTree at h
  simp only [bind, Except.bind] at h
  split at h
  · cases hr : nodeAdd d k (.node f.node) s with
    | error y => simp [addFn, hr] at h
    | ok e =>
      simp only [addFn, hr] at h
      split at h
      · cases h; simp [PeerRes.elem] at he'
      · cases h
        simp only [PeerRes.elem, Option.some.injEq] at he'
        subst he'
        have hs' := hs
        unfold KidOk at hs'
        simp only [hn] at hs'
        obtain ⟨_, _, m3⟩ := merged_list hkt hn hk hsk.1 hs'.1 (hkeys hn) (by
          intro q hq c hc
          obtain ⟨c', hc'⟩ := hs'.2.2.1 q hq
          refine ⟨c', hc', ?_⟩
          have h2 := hsk.2 f hf
          simp only [hn] at h2
          have := h2 q hq
          unfold keyTexts at this
          rw [hc, hc'] at this
          simpa using this) hh hr
        intro q hq g hg hi c hc
        rw [m3 q hq] at hc
        exact hh hn q hq g hg hi c hc
  split at h
  · split at h
    · cases h
    · cases h
      simp only [PeerRes.elem, Option.some.injEq] at he'
      subst he'
      exact honest_delAttrib (keysPlain_honest hkeys) hn
  split at h
  · cases h
  split at h
  · split at h
    · cases h
    · cases h; simp [PeerRes.elem] at he'
  · cases h

theorem ns_delAttrib {d : Device} {sc : Scope} {e : Elem} (h : Deep d (NsLevel d) sc e) :
    Deep d (NsLevel d) sc e.delAttrib := by
  induction h with
  | @mk sc e here _ ih =>
    refine ⟨⟨by rw [delAttrib_nsmap]; exact here.1, ?_⟩, ?_⟩
    · intro k hk f hf
      rw [delAttrib_kids] at hk
      obtain ⟨k', hk', rfl⟩ := List.mem_map.1 hk
      rw [delAttrib_tag] at hf
      exact honest_delAttrib (here.2 k' hk' f hf)
    intro k hk f hf
    rw [delAttrib_kids] at hk
    obtain ⟨k', hk', rfl⟩ := List.mem_map.1 hk
    rw [delAttrib_tag] at hf
    exact ih k' hk' f hf

/-- A valid tree from the uids of its children. -/
theorem valid_of_nodup {d : Device} {sc : Scope} {e : Elem} (ha : (e.attrs.map Prod.fst).Nodup)
    (hs : ∀ k ∈ e.kids, ∃ f, d.lookup sc k.tag = .ok f ∧ KidOk d f.node k)
    (hn : (e.kids.map (uid d sc)).Nodup)
    (hsub : ∀ k ∈ e.kids, ∀ f, d.lookup sc k.tag = .ok f → Valid d (.node f.node) k) :
    Valid d sc e := by
  refine Valid.mk ha hs ?_ hsub
  unfold List.Nodup at hn
  rw [List.pairwise_map] at hn
  refine hn.imp_of_mem ?_
  intro a b ha hb hne hsm
  obtain ⟨f, hf, kf⟩ := hs a ha
  obtain ⟨g, hg, kg⟩ := hs b hb
  exact hne ((uid_eq_iff' hf kf hg kg).2 hsm)

theorem valid_leaf {d : Device} {sc : Scope} {e : Elem} (ha : e.attrs = []) (hk : e.kids = []) :
    Valid d sc e := by
  refine Valid.mk (by rw [ha]; simp) ?_ (by rw [hk]; simp) ?_ <;> rw [hk] <;> simp

/-- The skeleton of a list entry is valid. -/
theorem skeleton_valid {d : Device} {sc : Scope} {k sk : Elem} {f : Found}
    (hf : d.lookup sc k.tag = .ok f) (hn : f.node.ntype = .list) (hk : KidOk d f.node k)
    (hkeys : KeysPlain d f k) (hkv : Valid d (.node f.node) k) (hns : Deep d (NsLevel d) (.node f.node) k)
    (hs : listSkeleton f.node.keys k = .ok sk) (hnd : (sk.kids.map (uid d (.node f.node))).Nodup) :
    Valid d (.node f.node) sk ∧ Deep d (NsLevel d) (.node f.node) sk ∧
      ∀ x ∈ sk.kids, ∃ q ∈ f.node.keys, ∃ c ∈ k.childrenWith q, x = c.delAttrib := by
  have hk' := hk
  unfold KidOk at hk'
  simp only [hn] at hk'
  obtain ⟨s1, s2, s3, s4, _⟩ := listSkeleton_ok hs
  have hmem : ∀ x ∈ sk.kids, ∃ q ∈ f.node.keys, ∃ c ∈ k.childrenWith q, x = c.delAttrib := by
    intro x hx
    rw [skeleton_kids hs hk'.2.2.1] at hx
    obtain ⟨q, hq, rfl⟩ := List.mem_map.1 hx
    obtain ⟨c, hc⟩ := hk'.2.2.1 q hq
    exact ⟨q, hq, c, by rw [hc]; simp, by rw [find_childrenWith hc]; rfl⟩
  have hmem' : ∀ x ∈ sk.kids, ∃ c ∈ k.kids, x = c.delAttrib := by
    intro x hx
    obtain ⟨q, hq, c, hc, rfl⟩ := hmem x hx
    exact ⟨c, by simp [Elem.childrenWith] at hc; exact hc.1, rfl⟩
  refine ⟨?_, ⟨?_, ?_⟩, hmem⟩
  · refine valid_of_nodup (by rw [s3]; simp) ?_ hnd ?_
    · intro x hx
      obtain ⟨c, hc, rfl⟩ := hmem' x hx
      obtain ⟨g, hg, kg⟩ := hkv.shape' c hc
      exact ⟨g, by rw [delAttrib_tag]; exact hg, kidOk_delAttrib kg⟩
    · intro x hx g hg
      obtain ⟨c, hc, rfl⟩ := hmem' x hx
      rw [delAttrib_tag] at hg
      exact valid_delAttrib (hkv.sub' c hc g hg)
  · refine ⟨by rw [s2]; exact hns.here'.1, ?_⟩
    intro x hx g hg
    obtain ⟨c, hc, rfl⟩ := hmem' x hx
    rw [delAttrib_tag] at hg
    exact honest_delAttrib (hns.here'.2 c hc g hg)
  · intro x hx g hg
    obtain ⟨c, hc, rfl⟩ := hmem' x hx
    rw [delAttrib_tag] at hg
    exact ns_delAttrib (hns.sub' c hc g hg)

theorem deltaNs {d : Device} {sc : Scope} {e : Elem} (h : Deep d (DeltaLevel d) sc e) :
    Deep d (NsLevel d) sc e := h.imp (fun _ _ h => ⟨h.nsmap, fun k hk f hf => keysPlain_honest (h.keys k hk f hf)⟩)

theorem nodeAdd_valid (d : Device) : ∀ (o : Elem) (sc : Scope) (sum r : Elem),
    Valid d sc sum → Deep d (NsLevel d) sc sum → Valid d sc o → Deep d (DeltaLevel d) sc o →
    nodeAdd d o sc sum = .ok r → Valid d sc r ∧ Deep d (NsLevel d) sc r := by
  intro o
  induction o using Elem.ind with
  | h t n a x ks ih =>
  generalize ho : Elem.mk t n a x ks = o at *
  have ih' : ∀ k ∈ o.kids, ∀ (sc : Scope) (sum r : Elem),
    Valid d sc sum → Deep d (NsLevel d) sc sum → Valid d sc k → Deep d (DeltaLevel d) sc k →
    nodeAdd d k sc sum = .ok r → Valid d sc r ∧ Deep d (NsLevel d) sc r := by
    intro k hk; rw [← ho] at hk; exact ih k hk
  clear ih ho
  intro sc sum r hv hns hvo hdo h
  have hlev := hdo.here'
  have hnsk : ∀ k ∈ sum.kids, NsMapOk k.nsmap := by
    intro k hk
    obtain ⟨f, hf, _⟩ := hv.shape' k hk
    exact (hns.sub' k hk f hf).here'.1
  obtain ⟨hnd, horig⟩ := nodeAdd_origin h hv.shape' hns.here'.2 hlev
  have hshape := nodeAdd_shape h hv.shape' hnsk hns.here'.2 hlev
  obtain ⟨ht1, ht2, ht3, ht4⟩ := nodeAdd_tag h
  have hsub : ∀ e ∈ r.kids, ∀ f, d.lookup sc e.tag = .ok f →
      Valid d (.node f.node) e ∧ Deep d (NsLevel d) (.node f.node) e := by
    intro e he f hf
    have hcopy : ∀ k ∈ o.kids, d.lookup sc k.tag = .ok f →
        Valid d (.node f.node) k.delAttrib ∧ Deep d (NsLevel d) (.node f.node) k.delAttrib :=
      fun k hk hf => ⟨valid_delAttrib (hvo.sub' k hk f hf), ns_delAttrib (deltaNs (hdo.sub' k hk f hf))⟩
    rcases horig e he with ⟨hm, _⟩ | ⟨k, hk, g, hg, hu, hno, hc⟩ | ⟨s, hs, k, hk, hu, g, hg, x, hx, hex⟩
    · exact ⟨hv.sub' e hm f hf, hns.sub' e hm f hf⟩
    · obtain ⟨g', hg', kg⟩ := hvo.shape' k hk
      rw [hg] at hg'; cases hg'
      have hte := (newContent_ok hg kg (hlev.keys k hk g hg) hc).1
      obtain rfl : g = f := by rw [hte, hg] at hf; exact Except.ok.inj hf
      have hkv := hvo.sub' k hk g hg
      have hkd := hdo.sub' k hk g hg
      have hkid := fun sum r => ih' k hk (.node g.node) sum r
      unfold newContent at hc
      cases hn : g.node.ntype <;> simp only [hn] at hc
      · cases hc; exact hcopy k hk hg
      · cases hc; exact hcopy k hk hg
      · split at hc
        · refine hkid (Elem.new k.tag k.nsmap) _ (valid_leaf rfl rfl)
            ⟨⟨hkd.here'.nsmap, ?_⟩, ?_⟩ hkv hkd hc <;> (intro k hk; simp [Elem.new] at hk)
        · cases hc; exact hcopy k hk hg
      · split at hc
        · simp only [bind, Except.bind] at hc
          cases hs : listSkeleton g.node.keys k with
          | error x => simp [hs] at hc
          | ok sk =>
            simp only [hs] at hc
            obtain ⟨v1, v2, _⟩ := skeleton_valid hg hn kg (hlev.keys k hk g hg) hkv (deltaNs hkd) hs
              (nodeAdd_inv hc).1.nodup
            exact hkid _ _ v1 v2 hkv hkd hc
        · cases hc; exact hcopy k hk hg
      all_goals cases hc; exact hcopy k hk hg
    · obtain ⟨g', hg', kg⟩ := hv.shape' s hs
      rw [hg] at hg'; cases hg'
      obtain ⟨g', hg', kg'⟩ := hvo.shape' k hk
      have hsk := (uid_eq_iff' hg kg hg' kg').1 hu
      have hft : d.lookup sc k.tag = .ok g := by rw [← hsk.1]; exact hg
      rw [hft] at hg'; cases hg'
      have hte := (peerContent_uid hg kg kg' hsk (hlev.keys k hk g hft) (hns.here'.2 s hs g hg) hx e hex).2
      obtain rfl : g = f := by rw [hte, hg] at hf; exact Except.ok.inj hf
      have hsv := hv.sub' s hs g hg
      have hsn := hns.sub' s hs g hg
      have hkv := hvo.sub' k hk g hft
      have hkd := hdo.sub' k hk g hft
      have htree : peerTree g.node (k, addFn d k) s = .ok x →
          Valid d (.node g.node) e ∧ Deep d (NsLevel d) (.node g.node) e := by
        intro hx
        unfold peerTree at hx
        simp only [bind, Except.bind] at hx
        split at hx
        · cases hr : nodeAdd d k (.node g.node) s with
          | error y => simp [addFn, hr] at hx
          | ok e1 =>
            simp only [addFn, hr] at hx
            split at hx
            · cases hx; simp [PeerRes.elem] at hex
            · cases hx
              simp only [PeerRes.elem, Option.some.injEq] at hex
              subst hex
              exact ih' k hk _ _ _ hsv hsn hkv hkd hr
        split at hx
        · split at hx
          · cases hx
          · cases hx
            simp only [PeerRes.elem, Option.some.injEq] at hex
            subst hex
            exact hcopy k hk hft
        split at hx
        · cases hx
        split at hx
        · split at hx
          · cases hx
          · cases hx; simp [PeerRes.elem] at hex
        · cases hx
      unfold peerContent at hx
      cases hn : g.node.ntype <;> simp only [hn] at hx
      · split at hx
        · simp only [bind, Except.bind] at hx
          cases hm : mergeText d g.node k s with
          | error y => simp [hm] at hx
          | ok e1 =>
            simp only [hm] at hx
            cases hx
            simp only [PeerRes.elem, Option.some.injEq] at hex
            subst hex
            obtain ⟨t, rfl⟩ := mergeText_ok hm
            exact ⟨Valid.mk hsv.attrNames' hsv.shape' hsv.unique' hsv.sub', ⟨hsn.here', hsn.sub'⟩⟩
        split at hx
        · cases hx
        split at hx
        · cases hx; simp [PeerRes.elem] at hex
        · cases hx
      · split at hx
        · cases hx
          simp only [PeerRes.elem, Option.some.injEq] at hex
          subst hex; exact ⟨hsv, hsn⟩
        split at hx
        · cases hx
        split at hx
        · cases hx; simp [PeerRes.elem] at hex
        · cases hx
      · exact htree hx
      · exact htree hx
      all_goals
        cases hx
        simp only [PeerRes.elem, Option.some.injEq] at hex
        subst hex; exact ⟨hsv, hsn⟩
  refine ⟨valid_of_nodup (by rw [ht3]; exact hv.attrNames') hshape hnd (fun e he f hf => (hsub e he f hf).1), ?_,
    fun e he f hf => (hsub e he f hf).2⟩
  refine ⟨by rw [ht4]; exact hns.here'.1, ?_⟩
  intro e he f hf
  rcases horig e he with ⟨hm, _⟩ | ⟨k, hk, g, hg, hu, hno, hc⟩ | ⟨s, hs, k, hk, hu, g, hg, x, hx, hex⟩
  · exact hns.here'.2 e hm f hf
  · obtain ⟨g', hg', kg⟩ := hvo.shape' k hk
    rw [hg] at hg'; cases hg'
    have hte := (newContent_ok hg kg (hlev.keys k hk g hg) hc).1
    obtain rfl : g = f := by rw [hte, hg] at hf; exact Except.ok.inj hf
    exact newContent_honest hg kg (hlev.keys k hk g hg) hc
  · obtain ⟨g', hg', kg⟩ := hv.shape' s hs
    rw [hg] at hg'; cases hg'
    obtain ⟨g', hg', kg'⟩ := hvo.shape' k hk
    have hsk := (uid_eq_iff' hg kg hg' kg').1 hu
    have hft : d.lookup sc k.tag = .ok g := by rw [← hsk.1]; exact hg
    rw [hft] at hg'; cases hg'
    have hte := (peerContent_uid hg kg kg' hsk (hlev.keys k hk g hft) (hns.here'.2 s hs g hg) hx e hex).2
    obtain rfl : g = f := by rw [hte, hg] at hf; exact Except.ok.inj hf
    exact peerContent_honest hg kg kg' hsk (hlev.keys k hk g hft) (hns.here'.2 s hs g hg) hx e hex

end NcDiff
