import Verif.Proof.KeyText
import Verif.Spec.Delta
/-!
# The result of `node_add` at each instance
-/

namespace NcDiff

/-! ## Copies -/

theorem parseText_congr {d : Device} {a b : Elem} {sn : SNode} (h1 : a.tag = b.tag)
    (h2 : a.text = b.text) (h3 : a.nsmap = b.nsmap) : parseText d a sn = parseText d b sn := by
  unfold parseText; rw [h1, h2, h3]

theorem parseText_delAttrib (d : Device) (e : Elem) (sn : SNode) :
    parseText d e.delAttrib sn = parseText d e sn :=
  parseText_congr (delAttrib_tag e) (delAttrib_text e) (delAttrib_nsmap e)

theorem kidOk_delAttrib {d : Device} {sn : SNode} {k : Elem} (h : KidOk d sn k) :
    KidOk d sn k.delAttrib := by
  unfold KidOk at h ⊢
  cases hn : sn.ntype <;> simp only [hn] at h ⊢
  · rw [parseText_delAttrib, delAttrib_kids, h.1]; exact ⟨rfl, h.2⟩
  · rw [parseText_delAttrib, delAttrib_kids, h.1]; exact ⟨rfl, h.2⟩
  · exact h
  · refine ⟨by rw [delAttrib_text]; exact h.1, h.2.1, ?_, h.2.2.2⟩
    intro q hq
    obtain ⟨c, hc⟩ := h.2.2.1 q hq
    exact ⟨c.delAttrib, by rw [delAttrib_childrenWith, hc]; rfl⟩

theorem same_delAttrib {d : Device} {sc : Scope} (k : Elem) : SameInstance d sc k.delAttrib k := by
  refine ⟨delAttrib_tag k, ?_⟩
  intro f _
  cases f.node.ntype <;> simp only
  · exact parseText_delAttrib d k f.node
  · intro q _; exact delAttrib_keyTexts k q

theorem uid_delAttrib {d : Device} {sc : Scope} {k : Elem} {f : Found}
    (hf : d.lookup sc k.tag = .ok f) (hk : KidOk d f.node k) : uid d sc k.delAttrib = uid d sc k :=
  (uid_eq_iff (by rw [delAttrib_tag]; exact hf) (kidOk_delAttrib hk) hk (delAttrib_tag k)).2
    (same_delAttrib k)

/-! ## Merging list entries -/

theorem mapM_map {α β : Type} {f : α → Except Err β} : ∀ {l : List α} {r : List β},
    l.mapM f = .ok r → l.map f = r.map Except.ok
  | [], r, h => by
    simp only [List.mapM_nil, pure, Except.pure] at h; cases h; rfl
  | a :: l, r, h => by
    rw [List.mapM_cons] at h
    simp only [bind, Except.bind] at h
    cases ha : f a with
    | error x => simp [ha] at h
    | ok b =>
      simp only [ha] at h
      cases hl : l.mapM f with
      | error x => simp [hl] at h
      | ok r' =>
        simp only [hl, pure, Except.pure] at h; cases h
        simp [ha, mapM_map hl]

theorem mapM_eq_ok {α β : Type} {f : α → Except Err β} {g : α → β} : ∀ {l : List α},
    (∀ a ∈ l, f a = .ok (g a)) → l.mapM f = .ok (l.map g)
  | [], _ => rfl
  | a :: l, h => by
    rw [List.mapM_cons, h a (by simp), mapM_eq_ok (fun b hb => h b (by simp [hb]))]
    rfl

theorem find_childrenWith {e : Elem} {q : QName} {c : Elem} (h : e.childrenWith q = [c]) :
    e.find q = some c := by
  unfold Elem.find Elem.childrenWith at *
  rw [← List.head?_filter, h]; rfl

theorem childrenWith_single {e : Elem} {q : QName} {c : Elem} (h : e.childrenWith q = [c]) :
    c ∈ e.kids ∧ c.tag = q := by
  have : c ∈ e.childrenWith q := by rw [h]; simp
  simpa [Elem.childrenWith] using this

/-- The kids of the skeleton. -/
theorem skeleton_kids {keys : List QName} {o sk : Elem} (h : listSkeleton keys o = .ok sk)
    (hk : ∀ q ∈ keys, ∃ c, o.childrenWith q = [c]) :
    sk.kids = keys.map (fun q => ((o.find q).getD default).delAttrib) := by
  have h5 := (listSkeleton_ok h).2.2.2.2
  rw [mapM_eq_ok (g := fun q => ((o.find q).getD default).delAttrib)] at h5
  · exact (Except.ok.inj h5).symm
  · intro q hq
    obtain ⟨c, hc⟩ := hk q hq
    rw [find_childrenWith hc]; rfl

theorem skeleton_childrenWith {keys : List QName} {o sk : Elem} (h : listSkeleton keys o = .ok sk)
    (hk : ∀ q ∈ keys, ∃ c, o.childrenWith q = [c]) (hn : keys.Nodup) {q : QName} (hq : q ∈ keys)
    {c : Elem} (hc : o.childrenWith q = [c]) : sk.childrenWith q = [c.delAttrib] := by
  unfold Elem.childrenWith
  rw [skeleton_kids h hk, List.filter_map]
  have h1 : ∀ q' ∈ keys, ((fun k : Elem => decide (k.tag = q)) ∘
      fun q => ((o.find q).getD default).delAttrib) q' = decide (q' = q) := by
    intro q' hq'
    obtain ⟨c', hc'⟩ := hk q' hq'
    simp only [Function.comp, find_childrenWith hc', Option.getD_some, delAttrib_tag,
      (childrenWith_single hc').2]
  rw [List.filter_congr h1]
  have h2 : keys.filter (fun q' => decide (q' = q)) = [q] := by
    have := List.Nodup.count (l := keys) (a := q) hn
    rw [if_pos hq] at this
    have := List.filter_beq (l := keys) q
    rename_i hcnt
    rw [hcnt] at this
    rw [← List.replicate_one, ← this]
    apply List.filter_congr
    intro x _
    rw [Bool.eq_iff_iff]; simp
  rw [h2]
  simp [find_childrenWith hc]

theorem keys_nodup_of_indexable {d : Device} {sn : SNode} {keys : List QName} {o sk : Elem}
    (h : listSkeleton keys o = .ok sk) (hk : ∀ q ∈ keys, ∃ c, o.childrenWith q = [c])
    (hg : ∀ q ∈ keys, ∃ g, d.lookup (.node sn) q = .ok g ∧ g.node.ntype = .leaf)
    (hi : Indexable d (.node sn) sk.kids) : keys.Nodup := by
  have := hi.nodup
  rw [skeleton_kids h hk, List.map_map] at this
  exact List.Nodup.of_map _ this

theorem merged_list {d : Device} {sc : Scope} {k sum e : Elem} {f : Found}
    (hf : d.lookup sc k.tag = .ok f) (hn : f.node.ntype = .list) (hk : KidOk d f.node k)
    (htag : sum.tag = k.tag) (htext : sum.text = none)
    (hkeys : ∀ q ∈ f.node.keys,
      (∃ g, d.lookup (.node f.node) q = .ok g ∧ g.node.ntype = .leaf ∧
        ∀ c ∈ k.childrenWith q, KeyOk d g.node c) ∧
      ∀ c ∈ k.childrenWith q, opOf c = "merge")
    (hsum : ∀ q ∈ f.node.keys, ∀ c, k.childrenWith q = [c] →
      ∃ c', sum.childrenWith q = [c'] ∧ c'.text = c.text)
    (hh : KeysHonest d f sum)
    (hr : nodeAdd d k (.node f.node) sum = .ok e) :
    KidOk d f.node e ∧ SameInstance d sc e k ∧
      (∀ q ∈ f.node.keys, e.childrenWith q = sum.childrenWith q) := by
  unfold KidOk at hk
  simp only [hn] at hk
  obtain ⟨ht1, ht2, ht3, _⟩ := nodeAdd_tag hr
  have hch : ∀ q ∈ f.node.keys, ∀ c, k.childrenWith q = [c] →
      ∃ c', sum.childrenWith q = [c'] ∧ c'.text = c.text ∧ e.childrenWith q = [c'] := by
    intro q hq c hc
    obtain ⟨c', h1, h2⟩ := hsum q hq c hc
    obtain ⟨⟨g, hg, hl, hp⟩, hop⟩ := hkeys q hq
    refine ⟨c', h1, h2, nodeAdd_keys hr hg hl h1 hc (hop c (by rw [hc]; simp)) fun x hx => ?_⟩
    have t1 := (childrenWith_single h1).2
    have t2 := (childrenWith_single hc).2
    exact mergeText_key (hp c (by rw [hc]; simp)) (fun hi => hh hn q hq g hg hi c' (by rw [h1]; simp)) h2 (t1.trans t2.symm) hx
  refine ⟨?_, ⟨ht1.trans htag, ?_⟩, ?_⟩
  · unfold KidOk
    simp only [hn]
    refine ⟨ht2.trans htext, hk.2.1, ?_, hk.2.2.2⟩
    intro q hq
    obtain ⟨c, hc⟩ := hk.2.2.1 q hq
    obtain ⟨c', _, _, h3⟩ := hch q hq c hc
    exact ⟨c', h3⟩
  · intro f' hf'
    rw [ht1, htag, hf] at hf'; cases hf'
    simp only [hn]
    intro q hq
    obtain ⟨c, hc⟩ := hk.2.2.1 q hq
    obtain ⟨c', _, h2, h3⟩ := hch q hq c hc
    unfold keyTexts
    rw [h3, hc]; simp [h2]
  · intro q hq
    obtain ⟨c, hc⟩ := hk.2.2.1 q hq
    obtain ⟨c', h1, _, h3⟩ := hch q hq c hc
    rw [h1, h3]

/-- The keys that a new entry starts with are those of the delta. -/
theorem skeleton_honest {d : Device} {k sk : Elem} {f : Found} (hs : listSkeleton f.node.keys k = .ok sk)
    (hk : ∀ q ∈ f.node.keys, ∃ c, k.childrenWith q = [c]) (hnd : f.node.keys.Nodup)
    (hkeys : ∀ q ∈ f.node.keys, ∃ g, d.lookup (.node f.node) q = .ok g ∧ g.node.ntype = .leaf ∧
      ∀ c ∈ k.childrenWith q, KeyOk d g.node c) : KeysHonest d f sk := by
  intro _ q hq g hg hi c hc
  obtain ⟨c0, hc0⟩ := hk q hq
  rw [skeleton_childrenWith hs hk hnd hq hc0, List.mem_singleton] at hc
  subst hc
  obtain ⟨g', hg', _, h⟩ := hkeys q hq
  rw [hg] at hg'; cases hg'
  exact ((h c0 (by rw [hc0]; simp)).honest hi).congr (delAttrib_text _) (delAttrib_tag _) (delAttrib_nsmap _)

/-- The new child denotes the instance of the delta's child. -/
theorem newContent_ok {d : Device} {sc : Scope} {k e : Elem} {f : Found}
    (hf : d.lookup sc k.tag = .ok f) (hk : KidOk d f.node k)
    (hkeys : f.node.ntype = .list → ∀ q ∈ f.node.keys,
      (∃ g, d.lookup (.node f.node) q = .ok g ∧ g.node.ntype = .leaf ∧
        ∀ c ∈ k.childrenWith q, KeyOk d g.node c) ∧
      ∀ c ∈ k.childrenWith q, opOf c = "merge")
    (h : newContent f (k, fun sc sum => nodeAdd d k sc sum) = .ok e) :
    e.tag = k.tag ∧ KidOk d f.node e ∧ uid d sc e = uid d sc k ∧ SameInstance d sc e k := by
  have hcopy : ∀ e, Except.ok (ε := Err) k.delAttrib = .ok e →
      e.tag = k.tag ∧ KidOk d f.node e ∧ uid d sc e = uid d sc k ∧ SameInstance d sc e k := by
    intro e he; cases he
    exact ⟨delAttrib_tag k, kidOk_delAttrib hk, uid_delAttrib hf hk, same_delAttrib k⟩
  unfold newContent at h
  cases hn : f.node.ntype <;> simp only [hn] at h
  · exact hcopy e h
  · exact hcopy e h
  · split at h
    · have ht : e.tag = k.tag := (nodeAdd_tag h).1
      have hke : KidOk d f.node e := by
        unfold KidOk at hk ⊢; simp only [hn] at hk ⊢; exact hk
      have hs : SameInstance d sc e k := by
        refine ⟨ht, ?_⟩
        intro f' hf'
        rw [ht, hf] at hf'; cases hf'
        simp only [hn]
      exact ⟨ht, hke, (uid_eq_iff (by rw [ht]; exact hf) hke hk ht).2 hs, hs⟩
    · exact hcopy e h
  · split at h
    · simp only [bind, Except.bind] at h
      cases hs : listSkeleton f.node.keys k with
      | error x => simp [hs] at h
      | ok sk =>
        simp only [hs] at h
        have hk' := hk
        unfold KidOk at hk'
        simp only [hn] at hk'
        obtain ⟨s1, s2, s3, s4, _⟩ := listSkeleton_ok hs
        have hnd : f.node.keys.Nodup := keys_nodup_of_indexable hs hk'.2.2.1
          (fun q hq => by obtain ⟨⟨g, h1, h2, _⟩, _⟩ := hkeys hn q hq; exact ⟨g, h1, h2⟩)
          (nodeAdd_inv h).1
        obtain ⟨h1, h2, _⟩ := merged_list hf hn hk s1 s4 (hkeys hn)
          (fun q hq c hc => ⟨c.delAttrib, skeleton_childrenWith hs hk'.2.2.1 hnd hq hc, delAttrib_text c⟩)
          (skeleton_honest hs hk'.2.2.1 hnd (fun q hq => (hkeys hn q hq).1)) h
        exact ⟨h2.1, h1, (uid_eq_iff (by rw [h2.1]; exact hf) h1 hk h2.1).2 h2, h2⟩
    · exact hcopy e h
  all_goals exact hcopy e h

/-- The cells at an instance after an iteration of the second loop. -/
def PeerRes.cells (h : Nat) (e : Elem) : PeerRes → List Cell
  | .gone => []
  | .keep => [(some h, e)]
  | .set e' => [(some h, e')]
  | .repl e' => [(none, e')]

/-- The resulting element, if any. -/
def PeerRes.elem (e : Elem) : PeerRes → Option Elem
  | .gone => none
  | .keep => some e
  | .set e' => some e'
  | .repl e' => some e'

theorem peerContent_uid {d : Device} {sc : Scope} {s k : Elem} {f : Found} {x : PeerRes}
    (hf : d.lookup sc s.tag = .ok f) (hs : KidOk d f.node s) (hk : KidOk d f.node k)
    (hsk : SameInstance d sc s k)
    (hkeys : f.node.ntype = .list → ∀ q ∈ f.node.keys,
      (∃ g, d.lookup (.node f.node) q = .ok g ∧ g.node.ntype = .leaf ∧
        ∀ c ∈ k.childrenWith q, KeyOk d g.node c) ∧
      ∀ c ∈ k.childrenWith q, opOf c = "merge")
    (hh : KeysHonest d f s)
    (h : peerContent d f.node (k, fun sc sum => nodeAdd d k sc sum) s = .ok x) :
    ∀ e', x.elem s = some e' → uid d sc e' = uid d sc s ∧ e'.tag = s.tag := by
  have hkt : d.lookup sc k.tag = .ok f := by rw [← hsk.1]; exact hf
  have hu : uid d sc s = uid d sc k := (uid_eq_iff hf hs hk hsk.1).2 hsk
  have htree : (f.node.ntype = .container ∨ f.node.ntype = .list) →
      peerTree f.node (k, fun sc sum => nodeAdd d k sc sum) s = .ok x →
      ∀ e', x.elem s = some e' → uid d sc e' = uid d sc s ∧ e'.tag = s.tag := by
    intro hn h e' he'
    unfold peerTree at h
    simp only [bind, Except.bind] at h
    split at h
    · cases hr : nodeAdd d k (.node f.node) s with
      | error y => simp [hr] at h
      | ok e =>
        simp only [hr] at h
        have ht := (nodeAdd_tag hr).1
        split at h
        · cases h; simp [PeerRes.elem] at he'
        · cases h
          simp only [PeerRes.elem, Option.some.injEq] at he'
          subst he'
          refine ⟨?_, ht⟩
          rcases hn with hn | hn
          · rw [uid_plain (e := e) (by rw [ht]; exact hf) (by rw [hn]; decide) (by rw [hn]; decide),
              uid_plain hf (by rw [hn]; decide) (by rw [hn]; decide), ht]
          · have hs' := hs
            have hk' := hk
            unfold KidOk at hs' hk'
            simp only [hn] at hs' hk'
            obtain ⟨m1, m2, _⟩ := merged_list hkt hn hk hsk.1 hs'.1 (hkeys hn) (by
              intro q hq c hc
              obtain ⟨c', hc'⟩ := hs'.2.2.1 q hq
              refine ⟨c', hc', ?_⟩
              have h2 := hsk.2 f hf
              simp only [hn] at h2
              have := h2 q hq
              unfold keyTexts at this
              rw [hc, hc'] at this
              simpa using this) hh hr
            rw [hu]
            exact (uid_eq_iff (by rw [m2.1]; exact hkt) m1 hk m2.1).2 m2
    split at h
    · split at h
      · cases h
      · cases h
        simp only [PeerRes.elem, Option.some.injEq] at he'
        subst he'
        exact ⟨(uid_delAttrib hkt hk).trans hu.symm, (delAttrib_tag k).trans hsk.1.symm⟩
    split at h
    · cases h
    split at h
    · split at h
      · cases h
      · cases h; simp [PeerRes.elem] at he'
    · cases h
  intro e' he'
  unfold peerContent at h
  cases hn : f.node.ntype <;> simp only [hn] at h
  · split at h
    · simp only [bind, Except.bind] at h
      cases hm : mergeText d f.node k s with
      | error y => simp [hm] at h
      | ok e =>
        simp only [hm] at h
        cases h
        simp only [PeerRes.elem, Option.some.injEq] at he'
        subst he'
        obtain ⟨t, rfl⟩ := mergeText_ok hm
        refine ⟨?_, rfl⟩
        rw [uid_plain (e := s.setText t) (by simpa using hf) (by rw [hn]; decide) (by rw [hn]; decide),
          uid_plain hf (by rw [hn]; decide) (by rw [hn]; decide)]
        rfl
    split at h
    · cases h
    split at h
    · cases h; simp [PeerRes.elem] at he'
    · cases h
  · split at h
    · cases h
      simp only [PeerRes.elem, Option.some.injEq] at he'
      subst he'; exact ⟨rfl, rfl⟩
    split at h
    · cases h
    split at h
    · cases h; simp [PeerRes.elem] at he'
    · cases h
  · exact htree (Or.inl hn) h e' he'
  · exact htree (Or.inr hn) h e' he'
  all_goals
    cases h
    simp only [PeerRes.elem, Option.some.injEq] at he'
    subst he'; exact ⟨rfl, rfl⟩

end NcDiff
