import Verif.Proof.Unique
/-!
# A sum follows the edit-config semantics
-/

namespace NcDiff

section
variable {d : Device} {sc : Scope} {ks : List Elem} {o : Elem} {f : Found}

theorem same_iff_uid (hs : ∀ e ∈ ks, ∃ f, d.lookup sc e.tag = .ok f ∧ KidOk d f.node e)
    (hf : d.lookup sc o.tag = .ok f) (hk : KidOk d f.node o) {y : Elem} (hy : y ∈ ks) :
    SameInstance d sc y o ↔ uid d sc y = uid d sc o := by
  obtain ⟨g, hg, kg⟩ := hs y hy
  exact (uid_eq_iff' hg kg hf hk).symm

theorem absent_of (hs : ∀ e ∈ ks, ∃ f, d.lookup sc e.tag = .ok f ∧ KidOk d f.node e)
    (hf : d.lookup sc o.tag = .ok f) (hk : KidOk d f.node o)
    (h : elemsAt d sc (uid d sc o) ks = []) : Absent d sc ks o := by
  intro y hy hsm
  have := mem_elemsAt.2 ⟨hy, (same_iff_uid hs hf hk hy).1 hsm⟩
  rw [h] at this; simp at this

theorem onceAs_of (hs : ∀ e ∈ ks, ∃ f, d.lookup sc e.tag = .ok f ∧ KidOk d f.node e)
    (hf : d.lookup sc o.tag = .ok f) (hk : KidOk d f.node o) {e : Elem}
    (h : elemsAt d sc (uid d sc o) ks = [e]) : OnceAs d sc ks o e := by
  have he : e ∈ elemsAt d sc (uid d sc o) ks := by rw [h]; simp
  have hm := mem_elemsAt.1 he
  obtain ⟨l, r, hlr⟩ := List.append_of_mem hm.1
  refine ⟨l, r, hlr, (same_iff_uid hs hf hk hm.1).2 hm.2, ?_⟩
  intro y hy hsm
  have hyk : y ∈ ks := by rw [hlr]; rcases List.mem_append.1 hy with hy | hy <;> simp [hy]
  have hyu := (same_iff_uid hs hf hk hyk).1 hsm
  have hlen : (elemsAt d sc (uid d sc o) ks).length = 1 := by rw [h]; rfl
  unfold elemsAt at hlen
  rw [hlr, List.filter_append, List.filter_cons, if_pos (by simp [hm.2])] at hlen
  simp only [List.length_append, List.length_cons] at hlen
  have h0 : (l.filter (fun k => decide (uid d sc k = uid d sc o))).length = 0 := by omega
  have h1 : (r.filter (fun k => decide (uid d sc k = uid d sc o))).length = 0 := by omega
  rw [List.length_eq_zero_iff, List.filter_eq_nil_iff] at h0 h1
  rcases List.mem_append.1 hy with hy | hy
  · exact h0 y hy (by simp [hyu])
  · exact h1 y hy (by simp [hyu])

end

theorem elemsAt_single {d : Device} {sc : Scope} : ∀ {ks : List Elem} {s : Elem},
    (ks.map (uid d sc)).Nodup → s ∈ ks → elemsAt d sc (uid d sc s) ks = [s]
  | [], s, _, h => by simp at h
  | x :: r, s, hn, h => by
    rw [List.map_cons, List.nodup_cons] at hn
    unfold elemsAt
    rw [List.filter_cons]
    by_cases hx : uid d sc x = uid d sc s
    · have hxs : x = s := by
        rcases List.mem_cons.1 h with h | h
        · exact h.symm
        · exact absurd (List.mem_map.2 ⟨s, h, hx.symm⟩) hn.1
      subst hxs
      rw [if_pos (by simp), List.filter_eq_nil_iff.2]
      intro y hy
      simp only [decide_eq_true_eq]
      intro hyx
      exact hn.1 (List.mem_map.2 ⟨y, hy, hyx⟩)
    · rw [if_neg (by simpa using hx)]
      rcases List.mem_cons.1 h with h | h
      · exact absurd (by rw [h]) hx
      · exact elemsAt_single hn.2 h

/-- The conditions of `Applied` for one child of the delta. -/
structure AppliedAt (d : Device) (sc : Scope) (src res o e b : Elem) : Prop where
  ops : opOf o ∈ ["merge", "replace", "create", "delete", "remove"]
  delete : opOf o = "delete" → (∃ s ∈ src.kids, SameInstance d sc s o) ∧ Absent d sc res.kids o
  remove : opOf o = "remove" → Absent d sc res.kids o
  create : opOf o = "create" → Absent d sc src.kids o
  new : opOf o = "merge" ∨ opOf o = "replace" ∨ opOf o = "create" →
    Absent d sc src.kids o → ∀ f, d.lookup sc o.tag = .ok f →
    (BadInsert f o → Absent d sc res.kids o) ∧ (¬ BadInsert f o → OnceAs d sc res.kids o e)
  old : opOf o = "merge" ∨ opOf o = "replace" →
    (∃ s ∈ src.kids, SameInstance d sc s o) → ∀ f, d.lookup sc o.tag = .ok f →
    OnceAs d sc res.kids o e ∨ (f.node.isNP = true ∧ opOf o = "merge" ∧ e.kids = [] ∧
      Absent d sc res.kids o)
  value : opOf o = "merge" ∨ opOf o = "replace" ∨ opOf o = "create" →
    ∀ f, d.lookup sc o.tag = .ok f → f.node.ntype = .leaf → parseText d e f.node = parseText d o f.node
  copy : opOf o = "replace" ∨ opOf o = "create" →
    ∀ f, d.lookup sc o.tag = .ok f → f.node.ntype = .container ∨ f.node.ntype = .list → e = o.delAttrib
  merge : opOf o = "merge" → ∀ f, d.lookup sc o.tag = .ok f →
    f.node.ntype = .container ∨ f.node.ntype = .list →
    ∀ s ∈ src.kids, SameInstance d sc s o → nodeAdd d o (.node f.node) s = .ok e
  mergeNew : opOf o = "merge" → Absent d sc src.kids o →
    ∀ f, d.lookup sc o.tag = .ok f → f.node.ntype = .container ∨ f.node.ntype = .list →
    Fresh f o b ∧ Valid d (.node f.node) b ∧ Deep d (NsLevel d) (.node f.node) b ∧
      nodeAdd d o (.node f.node) b = .ok e

theorem appliedAt_new {d : Device} {sc : Scope} {src delta res o : Elem}
    (h : nodeAdd d delta sc src = .ok res) (hv : Valid d sc src) (hns : Deep d (NsLevel d) sc src)
    (hvo : Valid d sc delta) (hdo : Deep d (DeltaLevel d) sc delta) (ho : o ∈ delta.kids)
    (hno : ∀ s ∈ src.kids, uid d sc s ≠ uid d sc o) : ∃ e b, AppliedAt d sc src res o e b := by
  have hlev := hdo.here'
  have hnsk : ∀ k ∈ src.kids, NsMapOk k.nsmap := by
    intro k hk
    obtain ⟨f, hf, _⟩ := hv.shape' k hk
    exact (hns.sub' k hk f hf).here'.1
  have hshape := nodeAdd_shape h hv.shape' hnsk hns.here'.2 hlev
  obtain ⟨g, hg, kg⟩ := hlev.shape o ho
  have hsrc : Absent d sc src.kids o := by
    intro y hy hsm
    exact hno y hy ((same_iff_uid hv.shape' hg kg hy).1 hsm)
  obtain ⟨f, hf, hR⟩ := (nodeAdd_at h hv.shape' hns.here'.2 hlev).1 o ho hno
  rw [hg] at hf; cases hf
  have noold : ¬ ∃ s ∈ src.kids, SameInstance d sc s o := fun ⟨s, hs, hsm⟩ => hsrc s hs hsm
  rcases hR with ⟨hop, hat⟩ | ⟨hop, e, hc, hat⟩
  · have ha := absent_of hshape hg kg hat
    refine ⟨o, o, ⟨by simp [hop], by simp [hop], fun _ => ha, fun _ => hsrc, by simp [hop], by simp [hop],
      by simp [hop], by simp [hop], by simp [hop], by simp [hop]⟩⟩
  · have hopm : opOf o ∈ ["merge", "replace", "create", "delete", "remove"] := by
      rcases hop with h | h | h <;> simp [h]
    have hnew : (BadInsert g o → Absent d sc res.kids o) ∧ (¬ BadInsert g o → OnceAs d sc res.kids o e) := by
      constructor
      · intro hb
        rcases hat with ⟨hb', _⟩ | ⟨_, hat⟩
        · exact absurd hb hb'
        · exact absent_of hshape hg kg hat
      · intro hb
        rcases hat with ⟨_, hat⟩ | ⟨hb', _⟩
        · exact onceAs_of hshape hg kg hat
        · exact absurd hb' hb
    -- the base of a merge
    have hb : ∃ b, opOf o = "merge" → g.node.ntype = .container ∨ g.node.ntype = .list →
        Fresh g o b ∧ Valid d (.node g.node) b ∧ Deep d (NsLevel d) (.node g.node) b ∧
        nodeAdd d o (.node g.node) b = .ok e := by
      by_cases hm : opOf o = "merge"
      · have hkd := hdo.sub' o ho g hg
        have hkv := hvo.sub' o ho g hg
        unfold newContent at hc
        cases hn : g.node.ntype <;> simp only [hn] at hc
        case container =>
          rw [if_pos hm] at hc
          refine ⟨Elem.new o.tag o.nsmap, fun _ _ => ⟨⟨rfl, rfl, rfl, fun _ => rfl, by rw [hn]; intro h; cases h⟩,
            valid_leaf rfl rfl, ⟨⟨hkd.here'.nsmap, ?_⟩, ?_⟩, hc⟩⟩ <;> (intro k hk; simp [Elem.new] at hk)
        case list =>
          rw [if_pos hm] at hc
          simp only [bind, Except.bind] at hc
          cases hs : listSkeleton g.node.keys o with
          | error x => simp [hs] at hc
          | ok sk =>
            simp only [hs] at hc
            obtain ⟨s1, s2, s3, s4, _⟩ := listSkeleton_ok hs
            obtain ⟨v1, v2, v3⟩ := skeleton_valid hg hn kg (hlev.keys o ho g hg) hkv (deltaNs hkd) hs
              (nodeAdd_inv hc).1.nodup
            exact ⟨sk, fun _ _ => ⟨⟨s1, s4, s3, fun h => (by rw [hn] at h; cases h), fun _ => v3⟩, v1, v2, hc⟩⟩
        all_goals exact ⟨o, fun _ h => by rcases h with h | h <;> cases h⟩
      · exact ⟨o, fun h => absurd h hm⟩
    obtain ⟨b, hb⟩ := hb
    refine ⟨e, b, ⟨hopm, ?_, ?_, fun _ => hsrc, ?_, fun _ h => absurd h noold, ?_, ?_,
      fun _ _ _ _ s hs hsm => absurd hsm (hsrc s hs), ?_⟩⟩
    · intro h; rw [h] at hop; simp at hop
    · intro h; rw [h] at hop; simp at hop
    · intro _ _ f hf
      rw [hg] at hf; cases hf; exact hnew
    · intro _ f hf hl
      rw [hg] at hf; cases hf
      unfold newContent at hc
      simp only [hl, Except.ok.injEq] at hc
      subst hc; exact parseText_delAttrib d o g.node
    · intro h f hf hn
      rw [hg] at hf; cases hf
      have hm : opOf o ≠ "merge" := by rcases h with h | h <;> rw [h] <;> decide
      unfold newContent at hc
      rcases hn with hn | hn <;> simp only [hn, if_neg hm, Except.ok.injEq] at hc <;> exact hc.symm
    · intro hm _ f hf hn
      rw [hg] at hf; cases hf
      exact hb hm hn

theorem appliedAt_old {d : Device} {sc : Scope} {src delta res o s : Elem}
    (h : nodeAdd d delta sc src = .ok res) (hv : Valid d sc src) (hns : Deep d (NsLevel d) sc src)
    (hdo : Deep d (DeltaLevel d) sc delta) (ho : o ∈ delta.kids)
    (hs : s ∈ src.kids) (hu : uid d sc s = uid d sc o) : ∃ e b, AppliedAt d sc src res o e b := by
  have hlev := hdo.here'
  have hnsk : ∀ k ∈ src.kids, NsMapOk k.nsmap := by
    intro k hk
    obtain ⟨f, hf, _⟩ := hv.shape' k hk
    exact (hns.sub' k hk f hf).here'.1
  have hshape := nodeAdd_shape h hv.shape' hnsk hns.here'.2 hlev
  obtain ⟨g, hg, kg⟩ := hlev.shape o ho
  obtain ⟨f, x, hf, hx, hat⟩ := (nodeAdd_at h hv.shape' hns.here'.2 hlev).2.1 s hs o ho hu
  obtain ⟨f', hf', kf⟩ := hv.shape' s hs
  rw [hf] at hf'; cases hf'
  have hso : SameInstance d sc s o := (same_iff_uid hv.shape' hg kg hs).2 hu
  have hgf : g = f := by rw [hso.1, hg] at hf; exact Except.ok.inj hf
  subst hgf
  have hpres : ∃ s ∈ src.kids, SameInstance d sc s o := ⟨s, hs, hso⟩
  have nosrc : ¬ Absent d sc src.kids o := fun ha => ha s hs hso
  have only : ∀ s' ∈ src.kids, SameInstance d sc s' o → s' = s := by
    intro s' hs' hsm
    have hu' := (same_iff_uid hv.shape' hg kg hs').1 hsm
    exact List.inj_on_of_nodup_map hv.indexable.nodup hs' hs (hu'.trans hu.symm)
  rw [hu] at hat
  -- removing
  have gone : x = .gone → Absent d sc res.kids o := by
    rintro rfl
    exact absent_of hshape hg kg hat
  have once : ∀ e, x.elem s = some e → OnceAs d sc res.kids o e := by
    intro e he
    rw [he] at hat
    exact onceAs_of hshape hg kg hat
  have mk : ∀ e, opOf o = "merge" ∨ opOf o = "replace" →
      (OnceAs d sc res.kids o e ∨ (g.node.isNP = true ∧ opOf o = "merge" ∧ e.kids = [] ∧
        Absent d sc res.kids o)) →
      (g.node.ntype = .leaf → parseText d e g.node = parseText d o g.node) →
      (opOf o = "replace" → g.node.ntype = .container ∨ g.node.ntype = .list → e = o.delAttrib) →
      (opOf o = "merge" → g.node.ntype = .container ∨ g.node.ntype = .list →
        nodeAdd d o (.node g.node) s = .ok e) →
      ∃ e b, AppliedAt d sc src res o e b := by
    intro e hop h1 h2 h3 h4
    refine ⟨e, o, ⟨?_, ?_, ?_, ?_, fun _ ha => absurd ha nosrc, ?_, ?_, ?_, ?_, fun _ ha => absurd ha nosrc⟩⟩
    · rcases hop with h | h <;> simp [h]
    · intro h; rw [h] at hop; simp at hop
    · intro h; rw [h] at hop; simp at hop
    · intro h; rw [h] at hop; simp at hop
    · intro _ _ f hf
      rw [hg] at hf; cases hf; exact h1
    · intro _ f hf hl
      rw [hg] at hf; cases hf; exact h2 hl
    · intro h f hf hn
      rw [hg] at hf; cases hf
      refine h3 ?_ hn
      rcases h with h | h
      · exact h
      · rw [h] at hop; simp at hop
    · intro hm f hf hn s' hs' hsm
      rw [hg] at hf; cases hf
      rw [only s' hs' hsm]; exact h4 hm hn
  have del : opOf o = "delete" ∨ opOf o = "remove" → x = .gone →
      ∃ e b, AppliedAt d sc src res o e b := by
    intro hop hx
    have ha := gone hx
    refine ⟨o, o, ⟨?_, fun _ => ⟨hpres, ha⟩, fun _ => ha, ?_, ?_, ?_, ?_, ?_, ?_, ?_⟩⟩
    · rcases hop with h | h <;> simp [h]
    all_goals intro h; exfalso; rcases hop with h' | h' <;> rw [h'] at h <;> simp at h
  have htree : g.node.ntype = .container ∨ g.node.ntype = .list → peerTree g.node (o, addFn d o) s = .ok x →
      ∃ e b, AppliedAt d sc src res o e b := by
    intro hn hx
    have hl : g.node.ntype ≠ .leaf := by rcases hn with hn | hn <;> rw [hn] <;> decide
    unfold peerTree at hx
    simp only [bind, Except.bind] at hx
    split at hx
    · rename_i hm
      cases hr : nodeAdd d o (.node g.node) s with
      | error y => simp [addFn, hr] at hx
      | ok e1 =>
        simp only [addFn, hr] at hx
        split at hx
        · rename_i hnp
          cases hx
          exact mk e1 (Or.inl hm) (Or.inr ⟨hnp.2, hm, hnp.1, gone rfl⟩) (fun h => absurd h hl)
            (fun h => by rw [hm] at h; simp at h) (fun _ _ => hr)
        · cases hx
          exact mk e1 (Or.inl hm) (Or.inl (once e1 rfl)) (fun h => absurd h hl)
            (fun h => by rw [hm] at h; simp at h) (fun _ _ => hr)
    split at hx
    · rename_i hm
      split at hx
      · cases hx
      · cases hx
        exact mk _ (Or.inr hm) (Or.inl (once _ rfl)) (fun h => absurd h hl) (fun _ _ => rfl)
          (fun h => by rw [hm] at h; simp at h)
    split at hx
    · cases hx
    split at hx
    · rename_i hm
      split at hx
      · cases hx
      · cases hx; exact del hm rfl
    · cases hx
  unfold peerContent at hx
  cases hn : g.node.ntype <;> simp only [hn] at hx
  · split at hx
    · rename_i hop
      simp only [bind, Except.bind] at hx
      cases hm : mergeText d g.node o s with
      | error y => simp [hm] at hx
      | ok e1 =>
        simp only [hm] at hx
        cases hx
        exact mk e1 hop (Or.inl (once e1 rfl))
          (fun _ => mergeText_value (hlev.values o ho g hg hn) (hnsk s hs) hso.1.symm hm)
          (fun _ h => by rcases h with h | h <;> rw [hn] at h <;> cases h)
          (fun _ h => by rcases h with h | h <;> rw [hn] at h <;> cases h)
    split at hx
    · cases hx
    split at hx
    · rename_i hop; cases hx; exact del hop rfl
    · cases hx
  · split at hx
    · rename_i hop
      cases hx
      exact mk s hop (Or.inl (once s rfl)) (fun h => by rw [hn] at h; cases h)
          (fun _ h => by rcases h with h | h <;> rw [hn] at h <;> cases h)
          (fun _ h => by rcases h with h | h <;> rw [hn] at h <;> cases h)
    split at hx
    · cases hx
    split at hx
    · rename_i hop; cases hx; exact del hop rfl
    · cases hx
  · exact htree (Or.inl hn) hx
  · exact htree (Or.inr hn) hx
  all_goals unfold KidOk at kg; simp only [hn] at kg

theorem nodeAdd_applied (d : Device) : ∀ (delta : Elem) (sc : Scope) (src res : Elem),
    Valid d sc src → Deep d (NsLevel d) sc src → Valid d sc delta → Deep d (DeltaLevel d) sc delta →
    nodeAdd d delta sc src = .ok res → Applied d sc delta src res := by
  intro o
  induction o using Elem.ind with
  | h t n a x ks ih =>
  generalize ho : Elem.mk t n a x ks = delta at *
  have ih' : ∀ k ∈ delta.kids, ∀ (sc : Scope) (src res : Elem),
    Valid d sc src → Deep d (NsLevel d) sc src → Valid d sc k → Deep d (DeltaLevel d) sc k →
    nodeAdd d k sc src = .ok res → Applied d sc k src res := by
    intro k hk; rw [← ho] at hk; exact ih k hk
  clear ih ho
  intro sc src res hv hns hvo hdo h
  have hnsk : ∀ k ∈ src.kids, NsMapOk k.nsmap := by
    intro k hk
    obtain ⟨f, hf, _⟩ := hv.shape' k hk
    exact (hns.sub' k hk f hf).here'.1
  have hshape := nodeAdd_shape h hv.shape' hnsk hns.here'.2 hdo.here'
  have hall : ∀ o, ∃ e b, o ∈ delta.kids → AppliedAt d sc src res o e b := by
    intro o
    by_cases hm : o ∈ delta.kids
    · by_cases hp : ∃ s ∈ src.kids, uid d sc s = uid d sc o
      · obtain ⟨s, hs, hu⟩ := hp
        obtain ⟨e, b, hab⟩ := appliedAt_old h hv hns hdo hm hs hu
        exact ⟨e, b, fun _ => hab⟩
      · obtain ⟨e, b, hab⟩ := appliedAt_new h hv hns hvo hdo hm (fun s hs e => hp ⟨s, hs, e⟩)
        exact ⟨e, b, fun _ => hab⟩
    · exact ⟨o, o, fun h => absurd h hm⟩
  choose sub base hall using hall
  refine Applied.mk sub base (fun o ho => (hall o ho).ops) (fun o ho => (hall o ho).delete)
    (fun o ho => (hall o ho).remove) (fun o ho => (hall o ho).create) (fun o ho => (hall o ho).new)
    (fun o ho => (hall o ho).old) (fun o ho => (hall o ho).value) (fun o ho => (hall o ho).copy)
    ?_ ?_ ?_ ?_ ?_
  · intro o ho hm f hf hn s hs hsm
    have hst : d.lookup sc s.tag = .ok f := by rw [hsm.1]; exact hf
    exact ih' o ho _ _ _ (hv.sub' s hs f hst) (hns.sub' s hs f hst) (hvo.sub' o ho f hf)
      (hdo.sub' o ho f hf) ((hall o ho).merge hm f hf hn s hs hsm)
  · intro o ho hm ha f hf hn
    exact ((hall o ho).mergeNew hm ha f hf hn).1
  · intro o ho hm ha f hf hn
    obtain ⟨_, h1, h2, h3⟩ := (hall o ho).mergeNew hm ha f hf hn
    exact ih' o ho _ _ _ h1 h2 (hvo.sub' o ho f hf) (hdo.sub' o ho f hf) h3
  · intro s hs ha
    obtain ⟨f, hf, kf⟩ := hv.shape' s hs
    have hu : ∀ k ∈ delta.kids, uid d sc k ≠ uid d sc s := by
      intro k hk he
      obtain ⟨g, hg, kg⟩ := hdo.here'.shape k hk
      exact ha k hk ((uid_eq_iff' hg kg hf kf).1 he)
    refine onceAs_of hshape hf kf ?_
    rw [(nodeAdd_at h hv.shape' hns.here'.2 hdo.here').2.2 _ hu]
    refine elemsAt_single hv.indexable.nodup hs
  · intro e he
    obtain ⟨g, hg, kg⟩ := hshape e he
    cases (nodeAdd_origin h hv.shape' hns.here'.2 hdo.here').2 e he with
    | old hm hu => exact Or.inl ⟨e, hm, .refl _ _ _⟩
    | new o ho f hf hu hno hc =>
      obtain ⟨g', hg', kg'⟩ := hdo.here'.shape o ho
      have hsm := (uid_eq_iff' hg' kg' hg kg).1 hu.symm
      refine Or.inr ⟨o, ho, hsm, ?_, ?_⟩
      · intro hop
        exact ((hall o ho).delete hop).2 e he hsm.symm
      · intro hop
        exact (hall o ho).remove hop e he hsm.symm
    | peer s hs o ho hu f hf x hx hxe =>
      refine Or.inl ⟨s, hs, ?_⟩
      obtain ⟨f', x', hf', hx', hat⟩ := (nodeAdd_at h hv.shape' hns.here'.2 hdo.here').2.1 s hs o ho hu
      obtain rfl : f = f' := Except.ok.inj (hf.symm.trans hf')
      obtain rfl : x = x' := Except.ok.inj (hx.symm.trans hx')
      rw [hxe] at hat
      have : e ∈ elemsAt d sc (uid d sc s) res.kids := by rw [hat]; simp
      obtain ⟨g', hg', kg'⟩ := hv.shape' s hs
      exact (uid_eq_iff' hg' kg' hg kg).1 (mem_elemsAt.1 this).2.symm

end NcDiff
