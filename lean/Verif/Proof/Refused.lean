import Verif.Proof.RefusedEcho
/-!
# Exactly when a delta can be applied
-/

namespace NcDiff
namespace Refuse

variable {d : Device} {sc : Scope} {src delta : Elem}

/-- The child `o` of the delta denotes nothing in the config. -/
def isNew (d : Device) (sc : Scope) (src o : Elem) : Bool :=
  (src.kids.zipIdx.find? (fun a => decide (uid d sc a.1 = uid d sc o))).isNone

/-- The iterations of the first loop. -/
def news (d : Device) (sc : Scope) (src delta : Elem) : List Elem := delta.kids.filter (isNew d sc src)

/-- The iterations of the second loop. -/
def olds (d : Device) (sc : Scope) (src delta : Elem) : List ((Elem × Nat) × (Elem × AddFn)) :=
  (groupsOf (fun a : Elem × Nat => uid d sc a.1) (fun b : Elem × AddFn => uid d sc b.1)
    src.kids.zipIdx (delta.kids.map (fun k => (k, fun sc sum => nodeAdd d k sc sum)))).both

/-- The children before the loops. -/
def start (src : Elem) : List Cell := src.kids.zipIdx.map (fun p => (some p.2, p.1))

def stepNew (d : Device) (sc : Scope) (st : List Cell) (o : Elem) : Except Err (List Cell) :=
  addWithoutPeer d sc st (o, addFn d o)

theorem run_eq (hv : Valid d sc src) (hvo : Valid d sc delta) :
    nodeAdd d delta sc src =
      (do let st ← (news d sc src delta).foldlM (stepNew d sc) (start src)
          let st ← (olds d sc src delta).foldlM (addWithPeer d sc) st
          pure (src.setKids (st.map Prod.snd))) := by
  rw [nodeAdd_run hv.indexable hvo.indexable]
  have : (groupsOf (fun a : Elem × Nat => uid d sc a.1) (fun b : Elem × AddFn => uid d sc b.1)
    src.kids.zipIdx (delta.kids.map (fun k => (k, fun sc sum => nodeAdd d k sc sum)))).onlyTwo =
      (news d sc src delta).map (fun k => (k, addFn d k)) := by
    unfold groupsOf news isNew
    simp only
    rw [List.filter_map]; rfl
  simp only [this, List.foldlM_map]
  rfl

section
variable (hv : Valid d sc src) (hns : Deep d (NsLevel d) sc src) (hvo : Valid d sc delta)
  (hdo : Deep d (DeltaLevel d) sc delta) (hio : Deep d (InsertLevel d) sc delta)

include hv hdo in
theorem same_uid {s o : Elem} (hs : s ∈ src.kids) (ho : o ∈ delta.kids) :
    SameInstance d sc s o ↔ uid d sc s = uid d sc o := by
  obtain ⟨g, hg, kg⟩ := hdo.here'.shape o ho
  exact same_iff_uid hv.shape' hg kg hs

include hv hdo in
theorem isNew_iff {o : Elem} (ho : o ∈ delta.kids) :
    isNew d sc src o = true ↔ Absent d sc src.kids o := by
  unfold isNew Absent
  rw [Option.isNone_iff_eq_none, List.find?_eq_none]
  constructor
  · intro h s hs hsm
    obtain ⟨i, hi⟩ := List.mem_iff_getElem?.1 hs
    have := h (s, i) (List.mem_zipIdx_iff_getElem?.2 hi)
    simp only [decide_eq_true_eq] at this
    exact this ((same_uid hv hdo hs ho).1 hsm)
  · rintro h ⟨s, i⟩ hm
    have hs := List.mem_of_getElem? (List.mem_zipIdx_iff_getElem?.1 hm)
    simp only [decide_eq_true_eq]
    exact fun he => h s hs ((same_uid hv hdo hs ho).2 he)

include hv hdo in
theorem mem_news {o : Elem} : o ∈ news d sc src delta ↔ o ∈ delta.kids ∧ Absent d sc src.kids o := by
  unfold news
  rw [List.mem_filter]
  exact and_congr_right (fun ho => isNew_iff hv hdo ho)

include hv hdo in
theorem mem_olds {q : (Elem × Nat) × (Elem × AddFn)} (hq : q ∈ olds d sc src delta) :
    src.kids[q.1.2]? = some q.1.1 ∧ q.1.1 ∈ src.kids ∧ q.2.1 ∈ delta.kids ∧ q.2.2 = addFn d q.2.1 ∧
      SameInstance d sc q.1.1 q.2.1 := by
  obtain ⟨⟨s, i⟩, ⟨o, rec⟩⟩ := q
  obtain ⟨ha, hb, hu⟩ := mem_both hq
  obtain ⟨k', hk', hke⟩ := List.mem_map.1 hb
  cases hke
  have hi := List.mem_zipIdx_iff_getElem?.1 ha
  have hs := List.mem_of_getElem? hi
  exact ⟨hi, hs, hk', rfl, (same_uid hv hdo hs hk').2 hu.symm⟩

include hv hvo hdo in
theorem olds_mem {s o : Elem} (hs : s ∈ src.kids) (ho : o ∈ delta.kids) (hso : SameInstance d sc s o) :
    ∃ i, ((s, i), (o, addFn d o)) ∈ olds d sc src delta := by
  obtain ⟨i, hi⟩ := List.mem_iff_getElem?.1 hs
  have hbn : ((delta.kids.map (fun k => (k, fun sc sum => nodeAdd d k sc sum))).map
      (fun b : Elem × AddFn => uid d sc b.1)).Nodup := by
    rw [List.map_map]; simpa [Function.comp_def] using hvo.indexable.nodup
  exact ⟨i, mem_both_of (ks := src.kids) (a := (s, i)) hbn (List.mem_zipIdx_iff_getElem?.2 hi)
    (List.mem_map.2 ⟨o, ho, rfl⟩) ((same_uid hv hdo hs ho).1 hso).symm⟩

include hv in
theorem olds_nodup : ((olds d sc src delta).map (fun q => uid d sc q.1.1)).Nodup := by
  have hz : (src.kids.zipIdx.map (fun a : Elem × Nat => uid d sc a.1)).Nodup := by
    have := hv.indexable.nodup
    rw [← List.zipIdx_map_fst 0 src.kids, List.map_map] at this
    exact this
  have := filterMap_fst_sublist (fun a : Elem × Nat => List.find? (fun b : Elem × AddFn =>
    decide (uid d sc b.1 = uid d sc a.1)) (delta.kids.map (fun k => (k, fun sc sum => nodeAdd d k sc sum)))) src.kids.zipIdx
  have := this.map (fun a : Elem × Nat => uid d sc a.1)
  rw [List.map_map] at this
  exact hz.sublist this

include hvo in
theorem news_nodup : (news d sc src delta).Nodup :=
  (List.Nodup.of_map _ hvo.indexable.nodup).sublist List.filter_sublist

/-- The iterations of the first loop before the one of `o`. -/
theorem news_split {l r : List Elem} {o : Elem} (hk : delta.kids = l ++ o :: r)
    (hn : isNew d sc src o = true) :
    news d sc src delta = l.filter (isNew d sc src) ++ o :: r.filter (isNew d sc src) := by
  unfold news
  rw [hk, List.filter_append, List.filter_cons, if_pos hn]

include hv in
/-- The iterations of the second loop before the one of `s`. -/
theorem olds_split {a b : List Elem} {q : (Elem × Nat) × (Elem × AddFn)}
    (hq : q ∈ olds d sc src delta) (hk : src.kids = a ++ q.1.1 :: b) :
    ∃ pre post, olds d sc src delta = pre ++ q :: post ∧ ∀ q' ∈ olds d sc src delta, q' ∈ pre ↔ q'.1.1 ∈ a := by
  set F : Elem × Nat → Option ((Elem × Nat) × (Elem × AddFn)) := fun x =>
    (List.find? (fun b : Elem × AddFn => decide (uid d sc b.1 = uid d sc x.1))
      (delta.kids.map (fun k => (k, fun sc sum => nodeAdd d k sc sum)))).map (fun b => (x, b)) with hF
  have hz : olds d sc src delta = src.kids.zipIdx.filterMap F := rfl
  have hfst : ∀ x y, F x = some y → y.1 = x := by
    intro x y h
    rw [hF] at h
    simp only [Option.map_eq_some_iff] at h
    obtain ⟨z, _, rfl⟩ := h; rfl
  have hnd : src.kids.Nodup := List.Nodup.of_map _ hv.indexable.nodup
  have hzi : src.kids.zipIdx = a.zipIdx ++ (q.1.1, a.length) :: b.zipIdx (a.length + 1) := by
    rw [hk, List.zipIdx_append, List.zipIdx_cons]; simp
  obtain ⟨x, hx, hxq⟩ := List.mem_filterMap.1 (hz ▸ hq)
  have hx1 := hfst x q hxq
  have hxe : x = (q.1.1, a.length) := by
    have h1 := List.mem_zipIdx_iff_getElem?.1 hx
    have h2 : src.kids[a.length]? = some q.1.1 := by rw [hk]; simp
    rw [← hx1] at h1
    have hlt : q.1.2 < src.kids.length := (List.getElem?_eq_some_iff.1 h1).1
    have := (List.getElem?_inj hlt hnd).1 (h1.trans h2.symm)
    rw [← hx1]
    exact Prod.ext rfl this
  refine ⟨a.zipIdx.filterMap F, (b.zipIdx (a.length + 1)).filterMap F, ?_, ?_⟩
  · rw [hz, hzi, List.filterMap_append, List.filterMap_cons, ← hxe, hxq]
  · intro q' hq'
    constructor
    · intro hm
      obtain ⟨y, hy, hyq⟩ := List.mem_filterMap.1 hm
      rw [hfst y q' hyq]
      have := List.mem_zipIdx_iff_getElem?.1 hy
      exact List.mem_of_getElem? this
    · intro hm
      obtain ⟨y, hy, hyq⟩ := List.mem_filterMap.1 (hz ▸ hq')
      rw [hfst y q' hyq] at hm
      refine List.mem_filterMap.2 ⟨y, ?_, hyq⟩
      rw [hzi] at hy
      obtain ⟨e, j⟩ := y
      rcases List.mem_append.1 hy with h | h
      · exact h
      · exfalso
        have he : e ∈ q.1.1 :: b := by
          rcases List.mem_cons.1 h with h | h
          · cases h; simp
          · have := List.mem_map_of_mem (f := Prod.fst) h
            rw [List.zipIdx_map_fst] at this
            simp only at this
            simp [this]
        rw [hk, List.nodup_append] at hnd
        exact hnd.2.2 e hm e he rfl

/-! ## The first loop -/

structure Inv1 (d : Device) (sc : Scope) (src : Elem) (pre : List Elem) (st : List Cell) : Prop where
  from_ : ∀ c ∈ st, (∃ s ∈ src.kids, Echo d sc c.2 s) ∨ ∃ o ∈ pre, Writes o ∧ Echo d sc c.2 o
  config : ∀ s ∈ src.kids, ∃ c ∈ st, Echo d sc c.2 s
  created : ∀ o ∈ pre, Writes o → ∃ c ∈ st, Echo d sc c.2 o

include hdo hio in
theorem inv1_step {o : Elem} (ho : o ∈ delta.kids) {pre : List Elem} {st st' : List Cell}
    (h : Inv1 d sc src pre st) (hs : stepNew d sc st o = .ok st') : Inv1 d sc src (pre ++ [o]) st' := by
  obtain ⟨f, hf, kf⟩ := hdo.here'.shape o ho
  rcases (addWithoutPeer_ok hf).1 hs with ⟨hop, rfl⟩ | ⟨hop, e, hc, hp⟩
  · refine ⟨?_, h.config, ?_⟩
    · intro c hc
      rcases h.from_ c hc with h1 | ⟨o', h1, h2⟩
      · exact Or.inl h1
      · exact Or.inr ⟨o', by simp [h1], h2⟩
    · intro o' ho' hw
      rcases List.mem_append.1 ho' with h1 | h1
      · exact h.created o' h1 hw
      · simp only [List.mem_singleton] at h1; subst h1
        unfold Writes at hw; rw [hop] at hw; simp at hw
  · have he := echo_new hf kf (hdo.here'.keys o ho f hf) (hio.here'.keysOnce o ho f hf) hc
    have hins : Ins (none, e) st st' := by
      rcases newPlace_cases kf hp with h1 | ⟨_, h1⟩
      · exact h1
      · exact absurd h1 (hio.here'.inserts o ho f hf)
    refine ⟨?_, ?_, ?_⟩
    · intro c hm
      rcases hins.mem.1 hm with rfl | hm
      · exact Or.inr ⟨o, by simp, hop, he⟩
      · rcases h.from_ c hm with h1 | ⟨o', h1, h2⟩
        · exact Or.inl h1
        · exact Or.inr ⟨o', by simp [h1], h2⟩
    · intro s hs
      obtain ⟨c, hc, h1⟩ := h.config s hs
      exact ⟨c, hins.mem.2 (Or.inr hc), h1⟩
    · intro o' ho' hw
      rcases List.mem_append.1 ho' with h1 | h1
      · obtain ⟨c, hc, h1⟩ := h.created o' h1 hw
        exact ⟨c, hins.mem.2 (Or.inr hc), h1⟩
      · simp only [List.mem_singleton] at h1; subst h1
        exact ⟨(none, e), hins.mem.2 (Or.inl rfl), he⟩

theorem inv1_start : Inv1 d sc src [] (start src) := by
  refine ⟨?_, ?_, by simp⟩
  · intro c hc
    obtain ⟨⟨s, i⟩, hm, rfl⟩ := List.mem_map.1 hc
    exact Or.inl ⟨s, List.mem_of_getElem? (List.mem_zipIdx_iff_getElem?.1 hm), .refl _⟩
  · intro s hs
    obtain ⟨i, hi⟩ := List.mem_iff_getElem?.1 hs
    exact ⟨(some i, s), List.mem_map.2 ⟨(s, i), List.mem_zipIdx_iff_getElem?.2 hi, rfl⟩, .refl _⟩

include hdo hio in
theorem inv1 {pre post : List Elem} {st : List Cell} (hl : news d sc src delta = pre ++ post)
    (h : pre.foldlM (stepNew d sc) (start src) = .ok st) : Inv1 d sc src pre st := by
  refine foldlM_keeps (L := news d sc src delta) (Inv := Inv1 d sc src) ?_ inv1_start hl h
  intro pre o post s s' hL hI hs
  have ho : o ∈ news d sc src delta := by rw [hL]; simp
  exact inv1_step hdo hio (List.mem_filter.1 ho).1 hI hs

/-! ## The second loop -/

/-- Not deleted by the iterations `pre`. -/
def Alive (pre : List ((Elem × Nat) × (Elem × AddFn))) (s : Elem) : Prop :=
  ∀ q ∈ pre, q.1.1 = s → Stays q.2.1

structure Inv2 (d : Device) (sc : Scope) (src delta : Elem)
    (pre : List ((Elem × Nat) × (Elem × AddFn))) (st : List Cell) : Prop where
  from_ : ∀ c ∈ st, (∃ s ∈ src.kids, Alive pre s ∧ Echo d sc c.2 s) ∨
    ∃ o ∈ news d sc src delta, Writes o ∧ Echo d sc c.2 o
  config : ∀ s ∈ src.kids, Alive pre s → ∀ f, d.lookup sc s.tag = .ok f →
    f.node.ntype = .list ∨ f.node.ntype = .leafList → ∃ c ∈ st, Echo d sc c.2 s
  created : ∀ o ∈ news d sc src delta, Writes o → ∃ c ∈ st, Echo d sc c.2 o
  handles : HInv d sc src.kids st
  todo : ∀ q ∈ olds d sc src delta, q ∉ pre → atU d sc (uid d sc q.1.1) st = [(some q.1.2, q.1.1)]

theorem mem_of_atU {u : UID} {st : List Cell} {c : Cell} (h : c ∈ atU d sc u st) :
    c ∈ st ∧ uid d sc c.2 = u := by
  unfold atU at h
  simpa using List.mem_filter.1 h

theorem mem_othU {u : UID} {st : List Cell} {c : Cell} :
    c ∈ othU d sc u st ↔ c ∈ st ∧ uid d sc c.2 ≠ u := by
  unfold othU
  simp

include hv hvo hdo hns in
theorem inv2_step {pre post : List ((Elem × Nat) × (Elem × AddFn))} {q : (Elem × Nat) × (Elem × AddFn)}
    (hL : olds d sc src delta = pre ++ q :: post) {st st' : List Cell}
    (h : Inv2 d sc src delta pre st) (hs : addWithPeer d sc st q = .ok st') :
    Inv2 d sc src delta (pre ++ [q]) st' := by
  have hq : q ∈ olds d sc src delta := by rw [hL]; simp
  have hnd := olds_nodup (delta := delta) hv
  have hinj : ∀ q' ∈ olds d sc src delta, uid d sc q'.1.1 = uid d sc q.1.1 → q' = q := fun q' hq' he =>
    List.inj_on_of_nodup_map hnd hq' hq he
  have hqpre : q ∉ pre := by
    have hnd' := List.Nodup.of_map _ hnd
    rw [hL, List.nodup_append] at hnd'
    exact fun hm => hnd'.2.2 q hm q (by simp) rfl
  have hpre : ∀ q' ∈ pre, q' ∈ olds d sc src delta := fun q' hq' => by rw [hL]; simp [hq']
  have hat := h.todo q hq hqpre
  obtain ⟨⟨s, i⟩, ⟨o, rec⟩⟩ := q
  obtain ⟨hi, hsm, ho, hrec, hso⟩ := mem_olds hv hdo hq
  simp only at hi hsm ho hrec hso hat hinj
  subst hrec
  obtain ⟨f, hf, kf⟩ := hv.shape' s hsm
  have hft : d.lookup sc o.tag = .ok f := by rw [← hso.1]; exact hf
  obtain ⟨g, hg, kg⟩ := hdo.here'.shape o ho
  rw [hft] at hg; cases hg
  have hkeys := hdo.here'.keys o ho f hft
  obtain ⟨s1, x, hpl, hco, rfl⟩ := (addWithPeer_ok hf).1 hs
  have hecho := echo_peer hf kf kg hso hkeys (hns.here'.2 s hsm f hf) (hv.sub' s hsm f hf) (hvo.sub' o ho f hft) hco
  obtain ⟨l1, l2, l3⟩ := peer_local h.handles hi (peerPlace_ins hpl) x (fun e' he' => (hecho e' he').uid)
  have l3 := l3 hat
  have hop := peerContent_op kg hco
  have other : ∀ c : Cell, uid d sc c.2 ≠ uid d sc s → (c ∈ x.apply i s1 ↔ c ∈ st) := by
    intro c hc
    have h1 : c ∈ othU d sc (uid d sc s) (x.apply i s1) ↔ c ∈ othU d sc (uid d sc s) st := by rw [l2]
    rw [mem_othU, mem_othU] at h1
    simpa [hc] using h1
  have mine : ∀ c ∈ x.apply i s1, uid d sc c.2 = uid d sc s → ∃ e, x.elem s = some e ∧ c.2 = e := by
    intro c hc hu
    have : c ∈ atU d sc (uid d sc s) (x.apply i s1) := by
      unfold atU; simp [hc, hu]
    rw [l3] at this
    cases x <;> simp [PeerRes.cells] at this <;> subst this <;> simp [PeerRes.elem]
  have there : ∀ e, x.elem s = some e → ∃ c ∈ x.apply i s1, c.2 = e := by
    intro e he
    have : ∃ c ∈ x.cells i s, c.2 = e := by
      cases x <;> simp [PeerRes.cells, PeerRes.elem] at he ⊢ <;> exact he
    obtain ⟨c, hc, h1⟩ := this
    rw [← l3] at hc
    exact ⟨c, (mem_of_atU hc).1, h1⟩
  have alive_mono : ∀ s', Alive (pre ++ [((s, i), (o, addFn d o))]) s' → Alive pre s' :=
    fun s' ha q' hq' => ha q' (by simp [hq'])
  have alive_other : ∀ s' : Elem, uid d sc s' ≠ uid d sc s → Alive pre s' →
      Alive (pre ++ [((s, i), (o, addFn d o))]) s' := by
    intro s' hne ha q' hq' he
    rcases List.mem_append.1 hq' with h1 | h1
    · exact ha q' h1 he
    · simp only [List.mem_singleton] at h1; subst h1
      exact absurd (by rw [← he]) hne
  refine ⟨?_, ?_, ?_, l1, ?_⟩
  · intro c hc
    by_cases hu : uid d sc c.2 = uid d sc s
    · obtain ⟨e, he, rfl⟩ := mine c hc hu
      refine Or.inl ⟨s, hsm, ?_, hecho _ he⟩
      intro q' hq' he'
      rcases List.mem_append.1 hq' with h1 | h1
      · have := hinj q' (hpre q' h1) (by rw [he'])
        rw [this] at h1; exact absurd h1 hqpre
      · simp only [List.mem_singleton] at h1; subst h1
        rcases hop with ⟨_, rfl⟩ | ⟨h1 | h1, _⟩
        · simp [PeerRes.elem] at he
        · unfold Stays; simp [h1]
        · unfold Stays; simp [h1]
    · rcases h.from_ c ((other c hu).1 hc) with ⟨s', h1, h2, h3⟩ | h1
      · exact Or.inl ⟨s', h1, alive_other s' (fun e => hu (h3.uid.trans e)) h2, h3⟩
      · exact Or.inr h1
  · intro s' hs' ha f' hf' hn'
    by_cases hu : uid d sc s' = uid d sc s
    · have : s' = s := List.inj_on_of_nodup_map hv.indexable.nodup hs' hsm hu
      subst this
      rw [hf] at hf'; cases hf'
      have hst := ha _ (List.mem_append.2 (Or.inr (List.mem_singleton.2 rfl))) rfl
      have hx : x ≠ .gone := by
        rcases hop with ⟨h1 | h1 | ⟨h1, _⟩, _⟩ | ⟨_, h1⟩
        · exact absurd h1 hst.1
        · exact absurd h1 hst.2
        · rw [h1] at hn'; simp at hn'
        · exact h1
      have : ∃ e, x.elem s' = some e := by
        cases x with
        | gone => exact absurd rfl hx
        | keep => exact ⟨_, rfl⟩
        | set e => exact ⟨_, rfl⟩
        | repl e => exact ⟨_, rfl⟩
      obtain ⟨e, he⟩ := this
      obtain ⟨c, hc, rfl⟩ := there e he
      exact ⟨c, hc, hecho _ he⟩
    · obtain ⟨c, hc, h1⟩ := h.config s' hs' (alive_mono s' ha) f' hf' hn'
      exact ⟨c, (other c (by rw [h1.uid]; exact hu)).2 hc, h1⟩
  · intro o' ho' hw
    obtain ⟨c, hc, h1⟩ := h.created o' ho' hw
    refine ⟨c, (other c ?_).2 hc, h1⟩
    rw [h1.uid]
    obtain ⟨h2, h3⟩ := (mem_news hv hdo).1 ho'
    exact fun e => h3 s hsm ((same_uid hv hdo hsm h2).2 e.symm)
  · intro q' hq' hn
    rw [List.mem_append, not_or] at hn
    rw [← h.todo q' hq' hn.1]
    refine atU_of_othU ?_ l2
    intro he
    exact hn.2 (List.mem_singleton.2 (hinj q' hq' he))

include hv hvo hdo hio in
theorem inv2_start {st : List Cell} (h : (news d sc src delta).foldlM (stepNew d sc) (start src) = .ok st) :
    Inv2 d sc src delta [] st := by
  have h1 := inv1 hdo hio (post := []) (by simp) h
  have h2 := firstLoop (d := d) (sc := sc) (src := src) (delta := delta) (st1 := st) hv.indexable
    hvo.indexable hdo.here' (by
      have : (groupsOf (fun a : Elem × Nat => uid d sc a.1) (fun b : Elem × AddFn => uid d sc b.1)
        src.kids.zipIdx (delta.kids.map (fun k => (k, fun sc sum => nodeAdd d k sc sum)))).onlyTwo =
          (news d sc src delta).map (fun k => (k, addFn d k)) := by
        unfold groupsOf news isNew
        simp only
        rw [List.filter_map]; rfl
      rw [this, List.foldlM_map]; exact h)
  refine ⟨?_, fun s hs _ _ _ _ => h1.config s hs, h1.created, h2.1, ?_⟩
  · intro c hc
    rcases h1.from_ c hc with ⟨s, h3, h4⟩ | h3
    · exact Or.inl ⟨s, h3, fun q hq => by simp at hq, h4⟩
    · exact Or.inr h3
  · intro q hq _
    exact h2.2 q.1.2 q.1.1 (mem_olds hv hdo hq).1

include hv hvo hdo hio hns in
theorem inv2 {st0 : List Cell} (h0 : (news d sc src delta).foldlM (stepNew d sc) (start src) = .ok st0)
    {pre post : List ((Elem × Nat) × (Elem × AddFn))} {st : List Cell}
    (hl : olds d sc src delta = pre ++ post) (h : pre.foldlM (addWithPeer d sc) st0 = .ok st) :
    Inv2 d sc src delta pre st := by
  refine foldlM_keeps (L := olds d sc src delta) (Inv := Inv2 d sc src delta) ?_
    (inv2_start hv hvo hdo hio h0) hl h
  intro pre q post s s' hL hI hs
  exact inv2_step hv hns hvo hdo hL hI hs

/-! ## Single iterations -/

theorem lost_anchor {o : Elem} {f : Found} {st : List Cell} {x : Err} (ho : o ∈ delta.kids)
    (hf : d.lookup sc o.tag = .ok f) (hr : Relative f.node o) (hop : Stays o)
    (h : anchorOf f.node o = .error x) : Refused d sc delta src x := by
  rcases anchor_error hr.1 h with ⟨h1, rfl⟩ | ⟨h1, h2, h3, rfl⟩
  · exact .anchorMissing o f ho hf hr hop h1
  · exact .anchorUnreadable o f ho hf hr hop h1 h2 h3

include hv hdo in
theorem lost_new {l r : List Elem} {o : Elem} {f : Found} {st : List Cell} {x : Err}
    (hk : delta.kids = l ++ o :: r) (hf : d.lookup sc o.tag = .ok f) (hka : KeyAnchor f o)
    (hr : Relative f.node o) (hop : Stays o)
    (hno : Absent d sc src.kids o) (hI : Inv1 d sc src (l.filter (isNew d sc src)) st)
    (h : Lost f.node o st x) : Refused d sc delta src x := by
  rcases h with h | ⟨rfl, h⟩
  · exact lost_anchor (st := st) (by rw [hk]; simp) hf hr hop h
  · refine .anchorNew l r o f hk hf hr hop hno ?_ ?_
    · intro p hp hN
      obtain ⟨c, hc, he⟩ := hI.config p hp
      exact h c hc ((he.named hf hka).2 hN)
    · intro p hp hab hw hN
      have hpd : p ∈ delta.kids := by rw [hk]; simp [hp]
      obtain ⟨c, hc, he⟩ := hI.created p (List.mem_filter.2 ⟨hp, (isNew_iff hv hdo hpd).2 hab⟩) hw
      exact h c hc ((he.named hf hka).2 hN)

include hv hvo hdo in
theorem lost_old {a b : List Elem} {q : (Elem × Nat) × (Elem × AddFn)} {f : Found} {st : List Cell} {x : Err}
    {pre : List ((Elem × Nat) × (Elem × AddFn))} (hq : q ∈ olds d sc src delta)
    (hk : src.kids = a ++ q.1.1 :: b) (hpre : ∀ q' ∈ olds d sc src delta, q' ∈ pre ↔ q'.1.1 ∈ a)
    (hsub : ∀ q' ∈ pre, q' ∈ olds d sc src delta)
    (hf : d.lookup sc q.2.1.tag = .ok f) (hka : KeyAnchor f q.2.1)
    (hr : Relative f.node q.2.1) (hop : Stays q.2.1) (hI : Inv2 d sc src delta pre st)
    (h : Lost f.node q.2.1 st x) : Refused d sc delta src x := by
  obtain ⟨_, hsm, ho, _, hso⟩ := mem_olds hv hdo hq
  have hnd : src.kids.Nodup := List.Nodup.of_map _ hv.indexable.nodup
  rcases h with h | ⟨rfl, h⟩
  · exact lost_anchor (st := st) ho hf hr hop h
  · have key : ∀ p ∈ src.kids, Alive pre p → ¬ Named f.node q.2.1 p := by
      intro p hp ha hN
      have hpt : d.lookup sc p.tag = .ok f := by rw [hN.1]; exact hf
      obtain ⟨c, hc, he⟩ := hI.config p hp ha f hpt hr.1
      exact h c hc ((he.named hf hka).2 hN)
    refine .anchorOld a b q.2.1 q.1.1 f ho hk hso hf hr hop ?_ ?_ ?_
    · intro p hp
      refine key p (by rw [hk]; exact List.mem_append.2 (Or.inr hp)) ?_
      intro q' hq' he
      have h1 := (hpre q' (hsub q' hq')).1 hq'
      rw [he] at h1
      rw [hk, List.nodup_append] at hnd
      exact absurd rfl (hnd.2.2 p h1 p hp)
    · intro p hp hst
      refine key p (by rw [hk]; simp [hp]) ?_
      intro q' hq' he
      obtain ⟨_, _, h2, _, h3⟩ := mem_olds hv hdo (hsub q' hq')
      rw [he] at h3
      exact hst q'.2.1 h2 h3
    · intro p hp hab hw hN
      obtain ⟨c, hc, he⟩ := hI.created p ((mem_news hv hdo).2 ⟨hp, hab⟩) hw
      exact h c hc ((he.named hf hka).2 hN)

include hv hdo in
theorem at_new {l : List Elem} {o : Elem} {f : Found} {st : List Cell}
    (hl : ∀ p ∈ l, p ∈ delta.kids)
    (hf : d.lookup sc o.tag = .ok f) (hka : KeyAnchor f o)
    (hI : Inv1 d sc src (l.filter (isNew d sc src)) st) (h : At f.node o st) :
    (∃ p ∈ src.kids, Named f.node o p) ∨ ∃ p ∈ l, Absent d sc src.kids p ∧ Writes p ∧ Named f.node o p := by
  obtain ⟨_, _, c, hc, hN⟩ := h
  rcases hI.from_ c hc with ⟨s, hs, he⟩ | ⟨p, hp, hw, he⟩
  · exact Or.inl ⟨s, hs, (he.named hf hka).1 hN⟩
  · obtain ⟨h1, h2⟩ := List.mem_filter.1 hp
    exact Or.inr ⟨p, h1, (isNew_iff hv hdo (hl p h1)).1 h2, hw, (he.named hf hka).1 hN⟩

include hv hvo hdo in
theorem at_old {a b : List Elem} {q : (Elem × Nat) × (Elem × AddFn)} {f : Found} {st : List Cell}
    {pre : List ((Elem × Nat) × (Elem × AddFn))}
    (hk : src.kids = a ++ q.1.1 :: b) (hpre : ∀ q' ∈ olds d sc src delta, q' ∈ pre ↔ q'.1.1 ∈ a)
    (hf : d.lookup sc q.2.1.tag = .ok f) (hka : KeyAnchor f q.2.1)
    (hI : Inv2 d sc src delta pre st) (h : At f.node q.2.1 st) :
    (∃ p ∈ q.1.1 :: b, Named f.node q.2.1 p) ∨
    (∃ p ∈ a, (∀ o' ∈ delta.kids, SameInstance d sc p o' → Stays o') ∧ Named f.node q.2.1 p) ∨
    ∃ p ∈ delta.kids, Absent d sc src.kids p ∧ Writes p ∧ Named f.node q.2.1 p := by
  obtain ⟨_, _, c, hc, hN⟩ := h
  rcases hI.from_ c hc with ⟨s, hs, ha, he⟩ | ⟨p, hp, hw, he⟩
  · have hN' := (he.named hf hka).1 hN
    by_cases hsa : s ∈ a
    · refine Or.inr (Or.inl ⟨s, hsa, ?_, hN'⟩)
      intro o' ho' hso
      obtain ⟨i, hi⟩ := olds_mem hv hvo hdo hs ho' hso
      exact ha _ ((hpre _ hi).2 hsa) rfl
    · rw [hk] at hs
      rcases List.mem_append.1 hs with h1 | h1
      · exact absurd h1 hsa
      · exact Or.inl ⟨s, h1, hN'⟩
  · obtain ⟨h1, h2⟩ := (mem_news hv hdo).1 hp
    exact Or.inr (Or.inr ⟨p, h1, h2, hw, (he.named hf hka).1 hN⟩)

end

/-- What is shown for the children of a delta. -/
def Exact (d : Device) (delta : Elem) : Prop := ∀ (sc : Scope) (src : Elem),
    Valid d sc src → Deep d (NsLevel d) sc src → Valid d sc delta → Deep d (DeltaLevel d) sc delta →
    Deep d (InsertLevel d) sc delta →
    (∀ x, nodeAdd d delta sc src = .error x → Refused d sc delta src x) ∧
    (∀ r x, nodeAdd d delta sc src = .ok r → ¬ Refused d sc delta src x)

section
variable (hv : Valid d sc src) (hns : Deep d (NsLevel d) sc src) (hvo : Valid d sc delta)
  (hdo : Deep d (DeltaLevel d) sc delta) (hio : Deep d (InsertLevel d) sc delta)
  (ih : ∀ k ∈ delta.kids, Exact d k)

include hvo hdo hio in
/-- What the recursive call for a new container or list entry starts from. -/
theorem base_ok {o b : Elem} {f : Found} (ho : o ∈ delta.kids) (hf : d.lookup sc o.tag = .ok f)
    (hn : f.node.ntype = .container ∨ f.node.ntype = .list) (hb : StartsFrom f o b) :
    Valid d (.node f.node) b ∧ Deep d (NsLevel d) (.node f.node) b ∧
      (f.node.ntype = .container → b = Elem.new o.tag o.nsmap) ∧
      (f.node.ntype = .list → listSkeleton f.node.keys o = .ok b) := by
  obtain ⟨g, hg, kg⟩ := hdo.here'.shape o ho
  rw [hf] at hg; cases hg
  have hkd := hdo.sub' o ho f hf
  rcases hn with hn | hn
  · have : b = Elem.new o.tag o.nsmap := starts_unique (Or.inl hn) hb (starts_container hn)
    subst this
    refine ⟨valid_leaf rfl rfl, ⟨⟨hkd.here'.nsmap, by simp [Elem.new]⟩, ?_⟩, fun _ => rfl, fun h => by rw [hn] at h; cases h⟩
    intro k hk; simp [Elem.new] at hk
  · have kg' := kg
    unfold KidOk at kg'
    simp only [hn] at kg'
    obtain ⟨sk, hs⟩ := skeleton_some kg'.2.2.1
    have : b = sk := starts_unique (Or.inr hn) hb (starts_skeleton hn kg hs)
    subst this
    have hkeys := hdo.here'.keys o ho f hf
    have honce := hio.here'.keysOnce o ho f hf hn
    have hnd : (b.kids.map (uid d (.node f.node))).Nodup := by
      rw [skeleton_kids hs kg'.2.2.1, List.map_map]
      refine List.Nodup.map_on ?_ honce
      intro p hp q hq he
      obtain ⟨c, hc⟩ := kg'.2.2.1 p hp
      obtain ⟨c', hc'⟩ := kg'.2.2.1 q hq
      have h1 := congrArg Prod.fst he
      simp only [Function.comp, uid_tag, find_childrenWith hc, find_childrenWith hc', Option.getD_some,
        delAttrib_tag, (childrenWith_single hc).2, (childrenWith_single hc').2] at h1
      exact h1
    obtain ⟨v1, v2, _⟩ := skeleton_valid hf hn kg hkeys (hvo.sub' o ho f hf) (deltaNs hkd) hs hnd
    exact ⟨v1, v2, fun h => (by rw [hn] at h; cases h), fun _ => hs⟩

include hv hvo hdo hio ih in
/-- An iteration of the first loop that fails. -/
theorem new_error {l r : List Elem} {o : Elem} {st : List Cell} {x : Err}
    (hk : delta.kids = l ++ o :: r) (hno : Absent d sc src.kids o)
    (hI : Inv1 d sc src (l.filter (isNew d sc src)) st) (h : stepNew d sc st o = .error x) :
    Refused d sc delta src x := by
  have ho : o ∈ delta.kids := by rw [hk]; simp
  obtain ⟨f, hf, kf⟩ := hdo.here'.shape o ho
  have hka : KeyAnchor f o := hio.here'.anchors o ho f hf
  unfold stepNew addWithoutPeer at h
  simp only at h
  by_cases h1 : opOf o = "delete"
  · rw [if_pos h1] at h; cases h
    exact .operation o ho (.deleteMissing h1 hno)
  rw [if_neg h1] at h
  by_cases h2 : opOf o = "remove"
  · rw [if_pos h2] at h; cases h
  rw [if_neg h2] at h
  have hst : Stays o := ⟨h1, h2⟩
  by_cases h3 : opOf o = "merge" ∨ opOf o = "replace" ∨ opOf o = "create"
  swap
  · rw [if_neg h3] at h; cases h
    refine .operation o ho (.unknown ?_)
    simp only [List.mem_cons, List.not_mem_nil, or_false]
    push_neg at h3 ⊢
    exact ⟨h3.1, h3.2.1, h3.2.2, h1, h2⟩
  rw [if_pos h3] at h
  simp only [hf, bind, Except.bind] at h
  have sub : ∀ b, f.node.ntype = .container ∨ f.node.ntype = .list → opOf o = "merge" → StartsFrom f o b →
      ∀ x, addFn d o (.node f.node) b = .error x → Refused d sc delta src x := by
    intro b hn hm hb x hx
    obtain ⟨v1, v2, _⟩ := base_ok hvo hdo hio ho hf hn hb
    exact .insideNew o b f ho hno hf hn hm hb
      ((ih o ho _ _ v1 v2 (hvo.sub' o ho f hf) (hdo.sub' o ho f hf) (hio.sub' o ho f hf)).1 x hx)
  cases hn : f.node.ntype <;> simp only [hn] at h
  · cases h
  · rw [← anchor_leafList hn] at h
    obtain ⟨hr, hl⟩ := placeNew_error (Or.inr hn) h
    exact lost_new hv hdo hk hf hka hr hst hno hI hl
  · split at h
    · rename_i hm
      cases hr : addFn d o (.node f.node) (Elem.new o.tag o.nsmap) with
      | error y =>
        have h' : Except.error (α := List Cell) y = .error x := by
          simpa only [hr] using h
        cases h'
        exact sub _ (Or.inl hn) hm (starts_container hn) _ hr
      | ok e => simp [addFn] at hr; simp [hr, pure, Except.pure] at h
    · cases h
  · rw [← anchor_list hn] at h
    split at h
    · rename_i hm
      have kf' := kf
      unfold KidOk at kf'
      simp only [hn] at kf'
      obtain ⟨sk, hs⟩ := skeleton_some kf'.2.2.1
      simp only [hs] at h
      cases hp : placeNew f.node (anchorOf f.node o) o (none, sk) st with
      | error y =>
        simp only [hp] at h; cases h
        obtain ⟨hr, hl⟩ := placeNew_error (Or.inl hn) hp
        exact lost_new hv hdo hk hf hka hr hst hno hI hl
      | ok st1 =>
        simp only [hp] at h
        cases hr : addFn d o (.node f.node) sk with
        | error y =>
          have h' : Except.error (α := List Cell) y = .error x := by
            simpa only [hr] using h
          cases h'
          exact sub _ (Or.inr hn) hm (starts_skeleton hn kf hs) _ hr
        | ok e =>
          obtain ⟨st2, h2⟩ := placeNew_indep (c' := (none, e)) hp
          have h' : placeNew f.node (anchorOf f.node o) o (none, e) st = .error x := by
            simpa only [hr] using h
          rw [h2] at h'; cases h'
    · obtain ⟨hr, hl⟩ := placeNew_error (Or.inl hn) h
      exact lost_new hv hdo hk hf hka hr hst hno hI hl
  all_goals cases h

include hv hvo hdo hio ih hns in
/-- An iteration of the second loop that fails. -/
theorem old_error {a b : List Elem} {q : (Elem × Nat) × (Elem × AddFn)} {st : List Cell} {x : Err}
    {pre : List ((Elem × Nat) × (Elem × AddFn))} (hq : q ∈ olds d sc src delta) (hqp : q ∉ pre)
    (hk : src.kids = a ++ q.1.1 :: b) (hpre : ∀ q' ∈ olds d sc src delta, q' ∈ pre ↔ q'.1.1 ∈ a)
    (hsub : ∀ q' ∈ pre, q' ∈ olds d sc src delta)
    (hI : Inv2 d sc src delta pre st) (h : addWithPeer d sc st q = .error x) :
    Refused d sc delta src x := by
  obtain ⟨hi, hsm, ho, hrec, hso⟩ := mem_olds hv hdo hq
  have hat := hI.todo q hq hqp
  have hlost := fun (f : Found) (hf : d.lookup sc q.2.1.tag = .ok f) =>
    lost_old (x := x) (st := st) hv hvo hdo hq hk hpre hsub hf (hio.here'.anchors _ ho f hf)
  obtain ⟨⟨s, i⟩, ⟨o, rec⟩⟩ := q
  simp only at hi hsm ho hrec hso hat hlost
  subst hrec
  obtain ⟨f, hf, kf⟩ := hv.shape' s hsm
  have hft : d.lookup sc o.tag = .ok f := by rw [← hso.1]; exact hf
  obtain ⟨g, hg, kg⟩ := hdo.here'.shape o ho
  rw [hft] at hg; cases hg
  have hmine : (some i, s) ∈ st := (mem_of_atU (d := d) (sc := sc) (u := uid d sc s) (by rw [hat]; simp)).1
  have hpres : ∃ s ∈ src.kids, SameInstance d sc s o := ⟨s, hsm, hso⟩
  rw [addWithPeer_eq] at h
  simp only [hf, bind, Except.bind] at h
  -- operations
  have tree : (f.node.ntype = .container ∨ f.node.ntype = .list) →
      peerTree f.node (o, addFn d o) s = .error x → Refused d sc delta src x := by
    intro hn ht
    unfold peerTree at ht
    simp only [bind, Except.bind] at ht
    split at ht
    · rename_i hm
      cases hr : nodeAdd d o (.node f.node) s with
      | error y =>
        simp only [addFn, hr] at ht; cases ht
        exact .inside o s f ho hsm hso hft hn hm
          ((ih o ho _ _ (hv.sub' s hsm f hf) (hns.sub' s hsm f hf) (hvo.sub' o ho f hft)
            (hdo.sub' o ho f hft) (hio.sub' o ho f hft)).1 _ hr)
      | ok e =>
        simp only [addFn, hr] at ht
        split at ht <;> cases ht
    split at ht
    · rename_i hm
      split at ht
      · rename_i he
        cases ht
        exact .empty o s f ho hsm hso hft he.2 he.1 (Or.inl hm)
      · cases ht
    split at ht
    · rename_i hm
      cases ht
      exact .operation o ho (.createExisting hm hpres)
    rename_i m1 m2 m3
    split at ht
    · rename_i hm
      split at ht
      · rename_i he
        cases ht
        exact .empty o s f ho hsm hso hft he.2 he.1 (Or.inr hm)
      · cases ht
    · rename_i m4
      cases ht
      refine .operation o ho (.unknown ?_)
      simp only [List.mem_cons, List.not_mem_nil, or_false]
      push_neg at m4 ⊢
      exact ⟨m1, m2, m3, m4.1, m4.2⟩
  cases hpl : peerPlace f.node o i s st with
  | error y =>
    simp only [hpl] at h; cases h
    have hme : ∃ c ∈ st, c.2.tag = o.tag := ⟨_, hmine, hso.1⟩
    unfold peerPlace at hpl
    cases hn : f.node.ntype <;> simp only [hn] at hpl
    · cases hpl
    · split at hpl
      · rename_i hm
        rw [← anchor_leafList hn] at hpl
        obtain ⟨hr, hl⟩ := placeOld_error (Or.inr hn) hme hpl
        refine hlost f hft hr ?_ hI hl
        unfold Stays
        rcases hm with hm | hm <;> simp [hm]
      · cases hpl
    · cases hpl
    · split at hpl
      · rename_i hm
        rw [← anchor_list hn] at hpl
        obtain ⟨hr, hl⟩ := placeOld_error (Or.inl hn) hme hpl
        exact hlost f hft hr hm hI hl
      · cases hpl
    all_goals cases hpl
  | ok st1 =>
    simp only [hpl] at h
    cases hco : peerContent d f.node (o, addFn d o) s with
    | ok y => simp [hco, pure, Except.pure] at h
    | error y =>
      simp only [hco] at h; cases h
      unfold peerContent at hco
      cases hn : f.node.ntype <;> simp only [hn] at hco
      · split at hco
        · rename_i hm
          simp only [bind, Except.bind] at hco
          cases hmt : mergeText d f.node o s with
          | ok e => simp [hmt, pure, Except.pure] at hco
          | error z =>
            simp only [hmt] at hco; cases hco
            have kg' := kg
            unfold KidOk at kg'
            simp only [hn] at kg'
            obtain ⟨rfl, hw⟩ := mergeText_error (hdo.here'.values o ho f hft hn) kg'.2 hmt
            exact .identity o s f ho hsm hso hft hn hm hw
        rename_i m1
        split at hco
        · rename_i hm
          cases hco
          exact .operation o ho (.createExisting hm hpres)
        rename_i m2
        split at hco
        · cases hco
        · rename_i m3
          cases hco
          refine .operation o ho (.unknown ?_)
          simp only [List.mem_cons, List.not_mem_nil, or_false]
          push_neg at m1 m3 ⊢
          exact ⟨m1.1, m1.2, m2, m3.1, m3.2⟩
      · split at hco
        · cases hco
        rename_i m1
        split at hco
        · rename_i hm
          cases hco
          exact .operation o ho (.createExisting hm hpres)
        rename_i m2
        split at hco
        · cases hco
        · rename_i m3
          cases hco
          refine .operation o ho (.unknown ?_)
          simp only [List.mem_cons, List.not_mem_nil, or_false]
          push_neg at m1 m3 ⊢
          exact ⟨m1.1, m1.2, m2, m3.1, m3.2⟩
      · exact tree (Or.inl hn) hco
      · exact tree (Or.inr hn) hco
      all_goals cases hco

include hv hvo hdo hio ih hns in
theorem error_refused {x : Err} (h : nodeAdd d delta sc src = .error x) : Refused d sc delta src x := by
  rw [run_eq hv hvo] at h
  cases h1 : (news d sc src delta).foldlM (stepNew d sc) (start src) with
  | error y =>
    simp only [h1, bind, Except.bind] at h; cases h
    obtain ⟨pre, o, post, t, e1, e2, e3⟩ := foldlM_split h1
    have hI := inv1 hdo hio e1 e2
    have ho : o ∈ news d sc src delta := by rw [e1]; simp
    obtain ⟨ho1, ho2⟩ := (mem_news hv hdo).1 ho
    obtain ⟨l, r, hk⟩ := List.append_of_mem ho1
    have hsp := news_split (d := d) (sc := sc) (src := src) hk ((isNew_iff hv hdo ho1).2 ho2)
    have hnd := news_nodup (d := d) (sc := sc) (src := src) hvo
    rw [e1] at hnd hsp
    obtain ⟨rfl, _⟩ := nodup_split hnd hsp
    exact new_error hv hvo hdo hio ih hk ho2 hI e3
  | ok st =>
    simp only [h1, bind, Except.bind] at h
    cases h2 : (olds d sc src delta).foldlM (addWithPeer d sc) st with
    | ok st2 => simp [h2, pure, Except.pure] at h
    | error y =>
      simp only [h2] at h; cases h
      obtain ⟨pre, q, post, t, e1, e2, e3⟩ := foldlM_split h2
      have hI := inv2 hv hns hvo hdo hio h1 e1 e2
      have hq : q ∈ olds d sc src delta := by rw [e1]; simp
      have hnd := List.Nodup.of_map _ (olds_nodup (delta := delta) hv)
      obtain ⟨a, b, hk⟩ := List.append_of_mem (mem_olds hv hdo hq).2.1
      obtain ⟨pre', post', hsp, hpre⟩ := olds_split hv hq hk
      have hsub : ∀ q' ∈ pre, q' ∈ olds d sc src delta := fun q' hq' => by rw [e1]; simp [hq']
      rw [e1] at hnd
      rw [e1] at hsp
      obtain ⟨rfl, _⟩ := nodup_split hnd hsp
      have hqp : q ∉ pre := by
        rw [List.nodup_append] at hnd
        exact fun hm => hnd.2.2 q hm q (by simp) rfl
      exact old_error hv hns hvo hdo hio ih hq hqp hk hpre hsub hI e3

include hv hvo hdo hio in
theorem new_done {l r : List Elem} {o R : Elem} (h : nodeAdd d delta sc src = .ok R)
    (hk : delta.kids = l ++ o :: r) (hno : Absent d sc src.kids o) :
    ∃ t u, Inv1 d sc src (l.filter (isNew d sc src)) t ∧ stepNew d sc t o = .ok u := by
  have ho : o ∈ delta.kids := by rw [hk]; simp
  rw [run_eq hv hvo] at h
  have hsp := news_split (d := d) (sc := sc) (src := src) hk ((isNew_iff hv hdo ho).2 hno)
  cases h1 : (news d sc src delta).foldlM (stepNew d sc) (start src) with
  | error y => simp [h1, bind, Except.bind] at h
  | ok st =>
    have h2 := h1
    rw [hsp] at h2
    obtain ⟨t, u, h3, h4⟩ := foldlM_each h2
    exact ⟨t, u, inv1 hdo hio hsp h3, h4⟩

include hv hvo hdo hio hns in
theorem old_done {a b : List Elem} {s o R : Elem} (h : nodeAdd d delta sc src = .ok R)
    (hk : src.kids = a ++ s :: b) (ho : o ∈ delta.kids) (hso : SameInstance d sc s o) :
    ∃ i pre t u, Inv2 d sc src delta pre t ∧
      (∀ q' ∈ olds d sc src delta, q' ∈ pre ↔ q'.1.1 ∈ a) ∧
      addWithPeer d sc t ((s, i), (o, addFn d o)) = .ok u := by
  have hs : s ∈ src.kids := by rw [hk]; simp
  obtain ⟨i, hi⟩ := olds_mem hv hvo hdo hs ho hso
  obtain ⟨pre, post, hsp, hpre⟩ := olds_split hv hi hk
  rw [run_eq hv hvo] at h
  cases h1 : (news d sc src delta).foldlM (stepNew d sc) (start src) with
  | error y => simp [h1, bind, Except.bind] at h
  | ok st =>
    simp only [h1, bind, Except.bind] at h
    cases h2 : (olds d sc src delta).foldlM (addWithPeer d sc) st with
    | error y => simp [h2] at h
    | ok st2 =>
      have h3 := h2
      rw [hsp] at h3
      obtain ⟨t, u, h4, h5⟩ := foldlM_each h3
      exact ⟨i, pre, t, u, inv2 hv hns hvo hdo hio h1 hsp h4, hpre, h5⟩

include hv hvo hdo hio hns in
/-- A child that was placed before or after another has found it. -/
theorem placed_at {o R : Elem} {f : Found} (h : nodeAdd d delta sc src = .ok R) (ho : o ∈ delta.kids)
    (hf : d.lookup sc o.tag = .ok f) (hr : Relative f.node o) (hop : Stays o) :
    ∃ t, At f.node o t ∧ (∀ l r, delta.kids = l ++ o :: r → Absent d sc src.kids o →
      Inv1 d sc src (l.filter (isNew d sc src)) t) ∧
      (∀ a s b, src.kids = a ++ s :: b → SameInstance d sc s o →
        ∃ i pre, ((s, i), (o, addFn d o)) ∈ olds d sc src delta ∧ Inv2 d sc src delta pre t ∧
          ∀ q' ∈ olds d sc src delta, q' ∈ pre ↔ q'.1.1 ∈ a) := by
  by_cases hno : Absent d sc src.kids o
  · obtain ⟨l, r, hk⟩ := List.append_of_mem ho
    obtain ⟨t, u, hI, hs⟩ := new_done hv hvo hdo hio h hk hno
    refine ⟨t, ?_, ?_, ?_⟩
    · rcases (addWithoutPeer_ok hf).1 hs with ⟨h1, _⟩ | ⟨_, e, _, hp⟩
      · exact absurd h1 hop.2
      · unfold newPlace at hp
        rcases hr.1 with hn | hn <;> simp only [hn] at hp
        · rw [← anchor_list hn] at hp; exact placeNew_at hr hp
        · rw [← anchor_leafList hn] at hp; exact placeNew_at hr hp
    · intro l' r' hk' _
      have hnd : delta.kids.Nodup := List.Nodup.of_map _ hvo.indexable.nodup
      rw [hk] at hnd hk'
      obtain ⟨rfl, _⟩ := nodup_split hnd hk'
      exact hI
    · intro a s b hk' hso
      exact absurd hso (hno s (by rw [hk']; simp))
  · have : ∃ s ∈ src.kids, SameInstance d sc s o := by
      by_contra hc
      exact hno (fun s hs hso => hc ⟨s, hs, hso⟩)
    obtain ⟨s, hs, hso⟩ := this
    obtain ⟨a, b, hk⟩ := List.append_of_mem hs
    obtain ⟨i, pre, t, u, hI, hpre, hst⟩ := old_done hv hns hvo hdo hio h hk ho hso
    have hfs : d.lookup sc s.tag = .ok f := by rw [hso.1]; exact hf
    obtain ⟨st1, x, hp, hc, _⟩ := (addWithPeer_ok hfs).1 hst
    refine ⟨t, ?_, fun _ _ _ h => absurd h hno, ?_⟩
    · unfold peerPlace at hp
      rcases hr.1 with hn | hn <;> simp only [hn] at hp
      · rw [if_pos ⟨hop.1, hop.2⟩, ← anchor_list hn] at hp; exact placeOld_at hr hp
      · have hmr : opOf o = "merge" ∨ opOf o = "replace" := by
          by_contra hno
          unfold peerContent at hc
          simp only [hn] at hc
          rw [if_neg hno] at hc
          split at hc
          · cases hc
          · rw [if_neg (by unfold Stays at hop; tauto)] at hc; cases hc
        rw [if_pos hmr, ← anchor_leafList hn] at hp; exact placeOld_at hr hp
    · intro a' s' b' hk' hso'
      have hnd : src.kids.Nodup := List.Nodup.of_map _ hv.indexable.nodup
      have hs' : s' ∈ src.kids := by rw [hk']; simp
      have : s' = s := by
        have := List.inj_on_of_nodup_map hv.indexable.nodup hs' hs
        exact this (((same_uid hv hdo hs' ho).1 hso').trans ((same_uid hv hdo hs ho).1 hso).symm)
      subst this
      rw [hk] at hnd hk'
      obtain ⟨rfl, _⟩ := nodup_split hnd hk'
      obtain ⟨j, hj⟩ := olds_mem hv hvo hdo hs ho hso
      exact ⟨j, pre, hj, hI, hpre⟩

include hv hvo hdo hio ih hns in
theorem ok_accepted {R : Elem} {x : Err} (h : nodeAdd d delta sc src = .ok R) :
    ¬ Refused d sc delta src x := by
  intro hbad
  have split : ∀ {s o : Elem}, s ∈ src.kids → o ∈ delta.kids → SameInstance d sc s o →
      ∀ {f : Found}, d.lookup sc o.tag = .ok f →
      ∃ y, peerContent d f.node (o, addFn d o) s = .ok y := by
    intro s o hs ho hso f hf
    obtain ⟨a, b, hk⟩ := List.append_of_mem hs
    obtain ⟨i, pre, t, u, _, _, hst⟩ := old_done hv hns hvo hdo hio h hk ho hso
    obtain ⟨_, y, _, hc, _⟩ := (addWithPeer_ok (by rw [hso.1]; exact hf)).1 hst
    exact ⟨y, hc⟩
  have fresh : ∀ {o : Elem}, o ∈ delta.kids → Absent d sc src.kids o →
      ∀ {f : Found}, d.lookup sc o.tag = .ok f →
      opOf o = "remove" ∨ (Writes o ∧ ∃ e, newContent f (o, addFn d o) = .ok e) := by
    intro o ho hno f hf
    obtain ⟨l, r, hk⟩ := List.append_of_mem ho
    obtain ⟨t, u, _, hst⟩ := new_done hv hvo hdo hio h hk hno
    rcases (addWithoutPeer_ok hf).1 hst with ⟨h1, _⟩ | ⟨h1, e, he, _⟩
    · exact Or.inl h1
    · exact Or.inr ⟨h1, e, he⟩
  cases hbad with
  | operation o ho bad =>
    obtain ⟨f, hf, _⟩ := hdo.here'.shape o ho
    by_cases hno : Absent d sc src.kids o
    · rcases fresh ho hno hf with h1 | ⟨h1, _⟩
      · cases bad with
        | deleteMissing h2 _ => rw [h1] at h2; exact absurd h2 (by decide)
        | createExisting h2 _ => rw [h1] at h2; exact absurd h2 (by decide)
        | unknown h2 => exact h2 (by simp [h1])
      · cases bad with
        | deleteMissing h2 _ => unfold Writes at h1; simp [h2] at h1
        | createExisting h2 h3 =>
          obtain ⟨s, hs, hso⟩ := h3
          exact hno s hs hso
        | unknown h2 =>
          unfold Writes at h1
          rcases h1 with h1 | h1 | h1 <;> exact h2 (by simp [h1])
    · have : ∃ s ∈ src.kids, SameInstance d sc s o := by
        by_contra hc
        exact hno (fun s hs hso => hc ⟨s, hs, hso⟩)
      obtain ⟨s, hs, hso⟩ := this
      obtain ⟨y, hy⟩ := split hs ho hso hf
      obtain ⟨g, hg, kg⟩ := hdo.here'.shape o ho
      rw [hf] at hg; cases hg
      have hop : opOf o = "delete" ∨ opOf o = "remove" ∨ opOf o = "merge" ∨ opOf o = "replace" := by
        have := peerContent_op kg hy
        tauto
      cases bad with
      | deleteMissing _ h2 => exact h2 s hs hso
      | createExisting h2 _ => simp [h2] at hop
      | unknown h2 => rcases hop with h1 | h1 | h1 | h1 <;> exact h2 (by simp [h1])
  | anchorMissing o f ho hf hr hop hm =>
    obtain ⟨t, ⟨p, hp, _⟩, _⟩ := placed_at hv hns hvo hdo hio h ho hf hr hop
    rw [anchor_missing hm] at hp; cases hp
  | anchorUnreadable o f ho hf hr hop hn hm hg =>
    obtain ⟨t, ⟨p, hp, _⟩, _⟩ := placed_at hv hns hvo hdo hio h ho hf hr hop
    exact anchor_unreadable hn hg hp
  | anchorNew l r o f kids hf hr hop new config created =>
    obtain ⟨t, hat, hI, _⟩ := placed_at hv hns hvo hdo hio h (by rw [kids]; simp) hf hr hop
    rcases at_new hv hdo (fun p hp => by rw [kids]; simp [hp]) hf
      (hio.here'.anchors o (by rw [kids]; simp) f hf) (hI l r kids new) hat with
      ⟨p, hp, hN⟩ | ⟨p, hp, h1, h2, hN⟩
    · exact config p hp hN
    · exact created p hp h1 h2 hN
  | anchorOld a b o s f ho kids hso hf hr hop down up created =>
    obtain ⟨t, hat, _, hI⟩ := placed_at hv hns hvo hdo hio h ho hf hr hop
    obtain ⟨i, pre, _, hI, hpre⟩ := hI a s b kids hso
    rcases at_old (q := ((s, i), (o, addFn d o))) hv hvo hdo kids hpre hf
      (hio.here'.anchors o ho f hf) hI hat with
      ⟨p, hp, hN⟩ | ⟨p, hp, h1, hN⟩ | ⟨p, hp, h1, h2, hN⟩
    · exact down p hp hN
    · exact up p hp h1 hN
    · exact created p hp h1 h2 hN
  | empty o s f ho hs hso hf hn hk hop =>
    obtain ⟨y, hy⟩ := split hs ho hso hf
    have hnc : f.node.ntype = .container := by
      by_contra hc
      rw [notNP hc] at hn; cases hn
    unfold peerContent peerTree at hy
    simp only [hnc] at hy
    rcases hop with h1 | h1 | h1 <;> simp [h1, hk, hn] at hy
  | identity o s f ho hs hso hf hn hop hw =>
    obtain ⟨y, hy⟩ := split hs ho hso hf
    unfold peerContent at hy
    simp only [hn] at hy
    rw [if_pos hop] at hy
    obtain ⟨e, he, _⟩ := bind_ok.1 hy
    exact mergeText_unwritable hw he
  | inside o s f ho hs hso hf hn hop bad =>
    obtain ⟨y, hy⟩ := split hs ho hso hf
    have hfs : d.lookup sc s.tag = .ok f := by rw [hso.1]; exact hf
    have : ∃ e, nodeAdd d o (.node f.node) s = .ok e := by
      unfold peerContent peerTree at hy
      rcases hn with hn | hn <;> simp only [hn] at hy <;> rw [if_pos hop] at hy <;>
        obtain ⟨e, he, _⟩ := bind_ok.1 hy <;> exact ⟨e, he⟩
    obtain ⟨e, he⟩ := this
    exact (ih o ho _ _ (hv.sub' s hs f hfs) (hns.sub' s hs f hfs) (hvo.sub' o ho f hf)
      (hdo.sub' o ho f hf) (hio.sub' o ho f hf)).2 e _ he bad
  | insideNew o b f ho new hf hn hop hb bad =>
    obtain ⟨v1, v2, v3, v4⟩ := base_ok hvo hdo hio ho hf hn hb
    rcases fresh ho new hf with h1 | ⟨_, e, he⟩
    · rw [hop] at h1; exact absurd h1 (by decide)
    · have : ∃ e, nodeAdd d o (.node f.node) b = .ok e := by
        unfold newContent at he
        rcases hn with hn | hn <;> simp only [hn] at he <;> rw [if_pos hop] at he
        · rw [v3 hn]; exact ⟨e, he⟩
        · simp only [v4 hn, bind, Except.bind] at he; exact ⟨e, he⟩
      obtain ⟨e, he⟩ := this
      exact (ih o ho _ _ v1 v2 (hvo.sub' o ho f hf) (hdo.sub' o ho f hf) (hio.sub' o ho f hf)).2 e _ he bad

end

/-- A delta cannot be applied exactly when something is wrong with it, and the exception is for
something that is wrong with it. -/
theorem nodeAdd_refused (d : Device) : ∀ delta, Exact d delta := by
  intro o
  induction o using Elem.ind with
  | h t n a x ks ih =>
  generalize ho : Elem.mk t n a x ks = delta at *
  have ih' : ∀ k ∈ delta.kids, Exact d k := by
    intro k hk; rw [← ho] at hk; exact ih k hk
  intro sc src hv hns hvo hdo hio
  exact ⟨fun x h => error_refused hv hns hvo hdo hio ih' h,
    fun R x h => ok_accepted hv hns hvo hdo hio ih' h⟩

end Refuse
end NcDiff
