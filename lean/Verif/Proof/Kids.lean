import Verif.Proof.Result
import Verif.Proof.InstConvert
/-!
# Where each child of a sum comes from
-/

namespace NcDiff

/-- What becomes of a matched child has the right shape. -/
theorem peerContent_kidOk {d : Device} {sc : Scope} {s k : Elem} {f : Found} {x : PeerRes}
    (hf : d.lookup sc s.tag = .ok f) (hs : KidOk d f.node s) (hk : KidOk d f.node k)
    (hsk : SameInstance d sc s k) (hkeys : KeysPlain d f k)
    (hv : f.node.ntype = .leaf → LeafValueOk f.node k) (hns : NsMapOk s.nsmap) (hh : KeysHonest d f s)
    (h : peerContent d f.node (k, addFn d k) s = .ok x) :
    ∀ e', x.elem s = some e' → KidOk d f.node e' := by
  have hkt : d.lookup sc k.tag = .ok f := by rw [← hsk.1]; exact hf
  have htree : (f.node.ntype = .container ∨ f.node.ntype = .list) →
      peerTree f.node (k, addFn d k) s = .ok x →
      ∀ e', x.elem s = some e' → KidOk d f.node e' := by
    intro hn h e' he'
    unfold peerTree at h
    simp only [bind, Except.bind] at h
    split at h
    · cases hr : nodeAdd d k (.node f.node) s with
      | error y => simp [addFn, hr] at h
      | ok e =>
        simp only [addFn, hr] at h
        split at h
        · cases h; simp [PeerRes.elem] at he'
        · cases h
          simp only [PeerRes.elem, Option.some.injEq] at he'
          subst he'
          rcases hn with hn | hn
          · unfold KidOk at hk ⊢; simp only [hn] at hk ⊢; exact hk
          · have hs' := hs
            unfold KidOk at hs'
            simp only [hn] at hs'
            exact (merged_list hkt hn hk hsk.1 hs'.1 (hkeys hn) (by
              intro q hq c hc
              obtain ⟨c', hc'⟩ := hs'.2.2.1 q hq
              refine ⟨c', hc', ?_⟩
              have h2 := hsk.2 f hf
              simp only [hn] at h2
              have := h2 q hq
              unfold keyTexts at this
              rw [hc, hc'] at this
              simpa using this) hh hr).1
    split at h
    · split at h
      · cases h
      · cases h
        simp only [PeerRes.elem, Option.some.injEq] at he'
        subst he'
        exact kidOk_delAttrib hk
    split at h
    · cases h
    split at h
    · split at h
      · cases h
      · cases h; simp [PeerRes.elem] at he'
    · cases h
  intro e' he'
  unfold peerContent at h
  cases hn : f.node.ntype <;> simp only [hn] at h
  · split at h
    · simp only [bind, Except.bind] at h
      cases hm : mergeText d f.node k s with
      | error y => simp [hm] at h
      | ok e =>
        simp only [hm] at h
        cases h
        simp only [PeerRes.elem, Option.some.injEq] at he'
        subst he'
        have hval := mergeText_value (hv hn) hns hsk.1.symm hm
        obtain ⟨t, rfl⟩ := mergeText_ok hm
        unfold KidOk at hs hk ⊢
        simp only [hn] at hs hk ⊢
        rw [hval]
        exact ⟨hs.1, hk.2⟩
    split at h
    · cases h
    split at h
    · cases h; simp [PeerRes.elem] at he'
    · cases h
  · split at h
    · cases h
      simp only [PeerRes.elem, Option.some.injEq] at he'
      subst he'; exact hs
    split at h
    · cases h
    split at h
    · cases h; simp [PeerRes.elem] at he'
    · cases h
  · exact htree (Or.inl hn) h e' he'
  · exact htree (Or.inr hn) h e' he'
  all_goals
    cases h
    simp only [PeerRes.elem, Option.some.injEq] at he'
    subst he'; exact hs

theorem nodup_of_elemsAt {d : Device} {sc : Scope} {ks : List Elem}
    (h : ∀ u, (elemsAt d sc u ks).length ≤ 1) : (ks.map (uid d sc)).Nodup := by
  rw [List.nodup_iff_count_le_one]
  intro u
  rw [List.count, List.countP_map, List.countP_eq_length_filter]
  refine Nat.le_trans (Nat.le_of_eq ?_) (h u)
  congr 1
  apply List.filter_congr
  intro x _
  rw [Bool.eq_iff_iff]; simp

/-- Where a child of a sum comes from. -/
inductive Origin (d : Device) (sc : Scope) (sum o : Elem) (e : Elem) : Prop
  | old (hm : e ∈ sum.kids) (hu : ∀ k ∈ o.kids, uid d sc k ≠ uid d sc e)
  | new (k : Elem) (hk : k ∈ o.kids) (f : Found) (hf : d.lookup sc k.tag = .ok f)
      (hu : uid d sc e = uid d sc k) (hno : ∀ s ∈ sum.kids, uid d sc s ≠ uid d sc k)
      (hc : newContent f (k, addFn d k) = .ok e)
  | peer (s : Elem) (hs : s ∈ sum.kids) (k : Elem) (hk : k ∈ o.kids)
      (hu : uid d sc s = uid d sc k) (f : Found) (hf : d.lookup sc s.tag = .ok f) (x : PeerRes)
      (hx : peerContent d f.node (k, addFn d k) s = .ok x) (he : x.elem s = some e)

theorem mem_elemsAt {d : Device} {sc : Scope} {u : UID} {ks : List Elem} {e : Elem} :
    e ∈ elemsAt d sc u ks ↔ e ∈ ks ∧ uid d sc e = u := by
  simp [elemsAt]

theorem elemsAt_length_of_nodup {d : Device} {sc : Scope} {ks : List Elem}
    (h : (ks.map (uid d sc)).Nodup) (u : UID) : (elemsAt d sc u ks).length ≤ 1 := by
  have := List.nodup_iff_count_le_one.1 h u
  rw [List.count, List.countP_map, List.countP_eq_length_filter] at this
  refine Nat.le_trans (Nat.le_of_eq ?_) this
  unfold elemsAt
  congr 1
  apply List.filter_congr
  intro x _
  rw [Bool.eq_iff_iff]; simp

theorem nodeAdd_origin {d : Device} {sc : Scope} {sum o r : Elem} (h : nodeAdd d o sc sum = .ok r)
    (hsum : ∀ k ∈ sum.kids, ∃ f, d.lookup sc k.tag = .ok f ∧ KidOk d f.node k) (hh : KidsHonest d sc sum)
    (ho : DeltaLevel d sc o) :
    (r.kids.map (uid d sc)).Nodup ∧ ∀ e ∈ r.kids, Origin d sc sum o e := by
  obtain ⟨h1, h2, h3⟩ := nodeAdd_at h hsum hh ho
  obtain ⟨i1, i2, _⟩ := nodeAdd_inv h
  constructor
  · apply nodup_of_elemsAt
    intro u
    by_cases hm : ∃ k ∈ o.kids, uid d sc k = u
    · obtain ⟨k, hk, rfl⟩ := hm
      by_cases hp : ∃ s ∈ sum.kids, uid d sc s = uid d sc k
      · obtain ⟨s, hs, hu⟩ := hp
        obtain ⟨f, x, _, _, he⟩ := h2 s hs k hk hu
        rw [← hu, he]; cases x.elem s <;> simp
      · have hno : ∀ s ∈ sum.kids, uid d sc s ≠ uid d sc k := fun s hs e => hp ⟨s, hs, e⟩
        obtain ⟨f, _, hR⟩ := h1 k hk hno
        rcases hR with ⟨_, hR⟩ | ⟨_, e, _, ⟨_, hR⟩ | ⟨_, hR⟩⟩ <;> rw [hR] <;> simp
    · rw [h3 u (fun k hk e => hm ⟨k, hk, e⟩)]
      exact elemsAt_length_of_nodup i1.nodup u
  · intro e he
    have hme : e ∈ elemsAt d sc (uid d sc e) r.kids := mem_elemsAt.2 ⟨he, rfl⟩
    by_cases hm : ∃ k ∈ o.kids, uid d sc k = uid d sc e
    · obtain ⟨k, hk, hku⟩ := hm
      rw [← hku] at hme
      by_cases hp : ∃ s ∈ sum.kids, uid d sc s = uid d sc k
      · obtain ⟨s, hs, hu⟩ := hp
        obtain ⟨f, x, hf, hx, hat⟩ := h2 s hs k hk hu
        rw [← hu, hat] at hme
        exact .peer s hs k hk hu f hf x hx (by simpa using hme)
      · have hno : ∀ s ∈ sum.kids, uid d sc s ≠ uid d sc k := fun s hs e => hp ⟨s, hs, e⟩
        obtain ⟨f, hf, hR⟩ := h1 k hk hno
        rcases hR with ⟨_, hR⟩ | ⟨_, e', hc, ⟨_, hR⟩ | ⟨_, hR⟩⟩ <;> rw [hR] at hme
        · simp at hme
        · simp only [List.mem_singleton] at hme
          subst hme
          exact .new k hk f hf hku.symm hno hc
        · simp at hme
    · have hno : ∀ k ∈ o.kids, uid d sc k ≠ uid d sc e := fun k hk e => hm ⟨k, hk, e⟩
      rw [h3 _ hno] at hme
      exact .old (mem_elemsAt.1 hme).1 hno

/-- The children of a sum have the right shape. -/
theorem nodeAdd_shape {d : Device} {sc : Scope} {sum o r : Elem} (h : nodeAdd d o sc sum = .ok r)
    (hsum : ∀ k ∈ sum.kids, ∃ f, d.lookup sc k.tag = .ok f ∧ KidOk d f.node k)
    (hns : ∀ k ∈ sum.kids, NsMapOk k.nsmap) (hh : KidsHonest d sc sum) (ho : DeltaLevel d sc o) :
    ∀ e ∈ r.kids, ∃ f, d.lookup sc e.tag = .ok f ∧ KidOk d f.node e := by
  intro e he
  rcases (nodeAdd_origin h hsum hh ho).2 e he with ⟨hm, _⟩ | ⟨k, hk, f, hf, hu, hno, hc⟩ |
    ⟨s, hs, k, hk, hu, f, hf, x, hx, he⟩
  · exact hsum e hm
  · obtain ⟨g, hg, kg⟩ := ho.shape k hk
    rw [hf] at hg; cases hg
    obtain ⟨ht, hke, _⟩ := newContent_ok hf kg (ho.keys k hk f hf) hc
    exact ⟨f, by rw [ht]; exact hf, hke⟩
  · obtain ⟨g, hg, kg⟩ := hsum s hs
    rw [hf] at hg; cases hg
    obtain ⟨g, hg, kg'⟩ := ho.shape k hk
    have hsk := (uid_eq_iff' hf kg hg kg').1 hu
    have hft : d.lookup sc k.tag = .ok f := by rw [← hsk.1]; exact hf
    rw [hft] at hg; cases hg
    have hke := peerContent_kidOk hf kg kg' hsk (ho.keys k hk f hft) (ho.values k hk f hft) (hns s hs) (hh s hs f hf) hx e he
    have := (peerContent_uid hf kg kg' hsk (ho.keys k hk f hft) (hh s hs f hf) hx e he).2
    exact ⟨f, by rw [this]; exact hf, hke⟩

end NcDiff
