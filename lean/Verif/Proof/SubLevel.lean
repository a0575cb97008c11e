import Verif.Proof.Settled
import Verif.Proof.NewKid
/-!
# Computing a delta: from what the loops did with each child to the difference
-/

namespace NcDiff

variable {ω : Prop}

/-- What is carried through the induction over the levels, about the children of one level. -/
structure Carried where
  /-- source, target and delta of a container or list entry that both sides have -/
  tree : Scope → Elem → Elem → Elem → Prop
  /-- target and delta of a child that only the target has -/
  fresh : Found → Elem → Elem → Prop
  /-- source and delta of a child that only the source has -/
  mark : Found → Elem → Elem → Prop
  /-- source, target and delta of a leaf or leaf-list entry that both sides have -/
  plain : Found → Elem → Elem → Elem → Prop

/-- Only something about containers and list entries. -/
def Carried.just (q : Scope → Elem → Elem → Elem → Prop) : Carried :=
  ⟨q, fun _ _ _ => True, fun _ _ _ => True, fun _ _ _ _ => True⟩

/-- What is known about a marker for a child `s` of the source. -/
structure Marked (ω : Prop) (d : Device) (Q : Carried) (sc : Scope) (f : Found) (s m : Elem) : Prop extends MarkerOk ω d sc f s m where
  carried : Q.mark f s m

/-- The child `k` of the target is not what the source has in its place, or it is written anyway: a
key, or an entry whose position counts. -/
def Worth (d : Device) (f : Found) (s k : Elem) : Prop :=
  ¬ SameConfig d (.node f.node) s k ∨ (f.node.info.isKey = true ∧ f.node.ntype = .leaf) ∨
    (f.node.userOrdered = true ∧ (f.node.ntype = .leafList ∨ f.node.ntype = .list))

/-- The child `x` of the delta turns `s` into `k`. -/
structure BothOk (ω : Prop) (d : Device) (Q : Carried) (sc : Scope) (f : Found) (s k x : Elem) : Prop where
  tag : x.tag = k.tag
  nsmap : x.nsmap = k.nsmap
  text : x.text = k.text
  names : (x.attrs.map Prod.fst).Nodup
  uid : uid d sc x = uid d sc k
  kid : KidOk d f.node x
  valid : Valid d (.node f.node) x
  deep : Deep d (DeltaLevel d) (.node f.node) x
  value : f.node.ntype = .leaf → LeafValueOk f.node x
  keys : f.node.ntype = .list → ∀ q ∈ f.node.keys, ∀ c ∈ x.childrenWith q, opOf c = "merge"
  same : f.node.ntype = .list → ∀ q ∈ f.node.keys, ∀ c ∈ k.childrenWith q,
    ∃ c', x.childrenWith q = [c'] ∧ c'.nsmap = c.nsmap ∧ c'.text = c.text
  leaf : f.node.ntype = .leaf → (opOf x = "merge" ∨ opOf x = "replace") ∧
    ∃ e, mergeText d f.node x s = .ok e ∧ parseText d e f.node = parseText d k f.node
  leafList : f.node.ntype = .leafList → opOf x = "merge" ∨ opOf x = "replace"
  tree : f.node.ntype = .container ∨ f.node.ntype = .list →
    (opOf x = "merge" ∧ (f.node.isNP = true → k.kids ≠ []) ∧ Diff ω d (.node f.node) s k x) ∨
    (opOf x = "replace" ∧ x.delAttrib = k ∧ (f.node.isNP = true → s.kids ≠ []) ∧ x.kids = k.kids)
  kept : f.node.info.isKey = true → f.node.ntype = .leaf →
    parseText d s f.node = parseText d k f.node → x = k
  carried : f.node.ntype = .container ∨ f.node.ntype = .list → Q.tree (.node f.node) s k x
  plain : f.node.ntype = .leaf ∨ f.node.ntype = .leafList → Q.plain f s k x
  worth : Worth d f s k

/-- What the loops made of the child `k` of the target. -/
inductive Outcome (ω : Prop) (d : Device) (Q : Carried) (sc : Scope) (S : Elem) (f : Found) (k : Elem) : Option Elem → Prop
  | new {x : Elem} (habs : ∀ s ∈ S.kids, uid d sc s ≠ uid d sc k) (h : NewOk ω d sc f k x)
      (hq : Q.fresh f k x) : Outcome ω d Q sc S f k (some x)
  | out {s : Elem} (hs : s ∈ S.kids) (hu : uid d sc s = uid d sc k)
      (h : SameConfig d (.node f.node) s k)
      (hno : ¬ (f.node.userOrdered = true ∧ (f.node.ntype = .leafList ∨ f.node.ntype = .list)))
      (hkey : ¬ (f.node.info.isKey = true ∧ f.node.ntype = .leaf)) :
      Outcome ω d Q sc S f k none
  | both {s x : Elem} (hs : s ∈ S.kids) (hu : uid d sc s = uid d sc k) (h : BothOk ω d Q sc f s k x) :
      Outcome ω d Q sc S f k (some x)

/-- What every outcome that stays has in common. -/
structure StayOk (d : Device) (sc : Scope) (f : Found) (k x : Elem) : Prop where
  tag : x.tag = k.tag
  nsmap : x.nsmap = k.nsmap
  text : x.text = k.text
  names : (x.attrs.map Prod.fst).Nodup
  uid : uid d sc x = uid d sc k
  kid : KidOk d f.node x
  valid : Valid d (.node f.node) x
  deep : Deep d (DeltaLevel d) (.node f.node) x
  value : f.node.ntype = .leaf → LeafValueOk f.node x
  keys : f.node.ntype = .list → ∀ q ∈ f.node.keys, ∀ c ∈ x.childrenWith q, opOf c = "merge"
  same : f.node.ntype = .list → ∀ q ∈ f.node.keys, ∀ c ∈ k.childrenWith q,
    ∃ c', x.childrenWith q = [c'] ∧ c'.nsmap = c.nsmap ∧ c'.text = c.text

theorem Outcome.stay {d : Device} {Q : Carried} {sc : Scope} {S : Elem} {f : Found} {k x : Elem}
    (h : Outcome ω d Q sc S f k (some x)) : StayOk d sc f k x := by
  cases h with
  | new _ h _ =>
    refine ⟨h.tag, h.nsmap, h.text, h.names, h.uid, h.kid, h.valid, h.deep, h.value, h.keys, ?_⟩
    intro hn q hq c hc
    have hkid := h.kid
    unfold KidOk at hkid
    simp only [hn] at hkid
    obtain ⟨c', hc'⟩ := hkid.2.2.1 q hq
    have := delAttrib_childrenWith x q
    rw [h.copy, hc'] at this
    rw [this] at hc
    simp only [List.map_cons, List.map_nil, List.mem_singleton] at hc
    subst hc
    exact ⟨c', hc', (delAttrib_nsmap _).symm, (delAttrib_text _).symm⟩
  | both hs hu h =>
    exact ⟨h.tag, h.nsmap, h.text, h.names, h.uid, h.kid, h.valid, h.deep, h.value, h.keys, h.same⟩

/-! ## Lists -/

theorem mem_cellsOf {φ : Nat → Option Elem} {ks : List Elem} {i : Nat} {x : Elem} :
    (some i, x) ∈ cellsOf φ ks ↔ (∃ k, ks[i]? = some k) ∧ φ i = some x := by
  unfold cellsOf
  rw [List.mem_filterMap]
  constructor
  · rintro ⟨⟨k, j⟩, h1, h2⟩
    rw [List.mem_zipIdx_iff_getElem?] at h1
    cases hφ : φ j with
    | none => simp [hφ] at h2
    | some y =>
      simp only [hφ, Option.map_some, Option.some.injEq, Prod.mk.injEq] at h2
      obtain ⟨rfl, rfl⟩ := h2
      exact ⟨⟨k, h1⟩, hφ⟩
  · rintro ⟨⟨k, h1⟩, h2⟩
    exact ⟨(k, i), List.mem_zipIdx_iff_getElem?.2 h1, by simp [h2]⟩

theorem orderItem_op {info : OrderInfo} {pre : Option Elem} {e e' : Elem}
    (h : orderItem info pre e = .ok e') : e'.get .operation = e.get .operation := by
  have key : ∀ (x : Elem) (n : AName) (v : AVal), n ≠ .operation → (x.set n v).get .operation = x.get .operation := by
    intro x n v hn
    rw [get_set, if_neg (Ne.symm hn)]
  unfold orderItem at h
  cases pre with
  | none => simp only [Except.ok.injEq] at h; rw [← h, key _ _ _ (by decide)]
  | some p =>
    cases info with
    | none =>
      simp only at h
      cases hp : p.text with
      | none => simp [hp] at h
      | some t =>
        simp only [hp, Except.ok.injEq] at h
        rw [← h, key _ _ _ (by decide), key _ _ _ (by decide)]
    | some keys =>
      simp only at h
      cases hk : keyPreds keys p with
      | error x => simp [hk, bind, Except.bind] at h
      | ok r =>
        simp only [hk, bind, Except.bind, pure, Except.pure, Except.ok.injEq] at h
        rw [← h, key _ _ _ (by decide), key _ _ _ (by decide)]

theorem orderItem_attrs {info : OrderInfo} {pre : Option Elem} {e e' : Elem}
    (h : orderItem info pre e = .ok e') : opOf e' = opOf e ∧
      ((e.attrs.map Prod.fst).Nodup → (e'.attrs.map Prod.fst).Nodup) := by
  have key : ∀ (x : Elem) (n : AName) (v : AVal), n ≠ .operation → opOf (x.set n v) = opOf x := by
    intro x n v hn
    unfold opOf
    rw [get_set, if_neg (Ne.symm hn)]
  unfold orderItem at h
  cases pre with
  | none => cases h; exact ⟨key _ _ _ (by decide), set_names⟩
  | some p =>
    cases info with
    | none =>
      simp only at h
      cases ht : p.text with
      | none => simp [ht] at h
      | some t =>
        simp only [ht] at h; cases h
        exact ⟨(key _ _ _ (by decide)).trans (key _ _ _ (by decide)), fun h => set_names (set_names h)⟩
    | some keys =>
      simp only at h
      cases hk : keyPreds keys p with
      | error x => simp [hk, bind, Except.bind] at h
      | ok r =>
        simp only [hk, bind, Except.bind, pure, Except.pure] at h; cases h
        exact ⟨(key _ _ _ (by decide)).trans (key _ _ _ (by decide)), fun h => set_names (set_names h)⟩

/-! ## One level -/

/-- What the loops leave behind. -/
structure Loops (ω : Prop) (d : Device) (Q : Carried) (sc : Scope) (S T : Elem) (φ : Nat → Option Elem) (M : List Elem)
    (obu : List (QName × OrderInfo)) (st st' : List Cell) : Prop where
  sideS : Side d sc S
  sideT : Side d sc T
  tag : S.tag = T.tag
  val : parseTextAt d sc S = parseTextAt d sc T
  compat : CompatW ω d sc S T
  out : ∀ i k, T.kids[i]? = some k → ∀ f, d.lookup sc k.tag = .ok f → Outcome ω d Q sc S f k (φ i)
  mark : ∀ m ∈ M, ∃ s ∈ S.kids, (∀ k ∈ T.kids, uid d sc k ≠ uid d sc s) ∧
    ∃ f, d.lookup sc s.tag = .ok f ∧ Marked ω d Q sc f s m
  marks : ∀ s ∈ S.kids, (∀ k ∈ T.kids, uid d sc k ≠ uid d sc s) → ∃ m ∈ M, uid d sc m = uid d sc s
  once : (M.map (uid d sc)).Nodup
  rep : Rep φ T.kids M st
  info : ∀ t info, obuFor obu t = some info → ∃ f, d.lookup sc t = .ok f ∧ f.node.userOrdered = true ∧
    ((f.node.ntype = .leafList ∧ info = none) ∨ (f.node.ntype = .list ∧ info = some f.node.keys))
  cover : ∀ k ∈ T.kids, UserOrdered d sc k.tag → obuFor obu k.tag ≠ none
  ord : Ord obu (fun _ => none) st st'
  late : Late T.kids st

section
variable {d : Device} {Q : Carried} {sc : Scope} {S T : Elem} {φ : Nat → Option Elem} {M : List Elem}
  {obu : List (QName × OrderInfo)} {st st' : List Cell}

/-- The child `o` of the delta comes from the child `k` of the target. -/
structure Link (ω : Prop) (d : Device) (Q : Carried) (sc : Scope) (S : Elem) (f : Found) (k x o : Elem) : Prop where
  out : Outcome ω d Q sc S f k (some x)
  body : SameBody x o
  op : opOf o = opOf x
  names : (o.attrs.map Prod.fst).Nodup
  plain : ¬ UserOrdered d sc k.tag → o = x
  getOp : o.get .operation = x.get .operation

theorem Loops.cell (h : Loops ω d Q sc S T φ M obu st st') {c : Cell} (hc : c ∈ st) {i : Nat}
    (hi : c.1 = some i) : (∃ k, T.kids[i]? = some k) ∧ φ i = some c.2 := by
  have : c ∈ st.filter (fun c => c.1.isSome) := List.mem_filter.2 ⟨hc, by simp [hi]⟩
  rw [h.rep.1] at this
  refine mem_cellsOf.1 ?_
  rw [← hi]; exact this

theorem Loops.noUser (h : Loops ω d Q sc S T φ M obu st st') {t : QName} (hu : ¬ UserOrdered d sc t) :
    obuFor obu t = none := by
  cases ho : obuFor obu t with
  | none => rfl
  | some info =>
    obtain ⟨f, hf, h1, h2⟩ := h.info t info ho
    refine absurd ⟨f, hf, h1, ?_⟩ hu
    rcases h2 with h2 | h2
    · exact Or.inl h2.1
    · exact Or.inr h2.1

theorem Loops.kids (h : Loops ω d Q sc S T φ M obu st st') {o : Elem} (ho : o ∈ st'.map Prod.snd) :
    (∃ i k f x, T.kids[i]? = some k ∧ d.lookup sc k.tag = .ok f ∧ φ i = some x ∧ Link ω d Q sc S f k x o) ∨
      o ∈ M := by
  obtain ⟨c', hc', rfl⟩ := List.mem_map.1 ho
  obtain ⟨c, hc, h1, h2, h3⟩ := forall₂_mem_right (ord_cells h.ord) c' hc'
  cases hi : c.1 with
  | none =>
    right
    rw [h3 (Or.inl hi)]
    refine h.rep.2.subset ?_
    exact List.mem_map.2 ⟨c, List.mem_filter.2 ⟨hc, by simp [hi]⟩, rfl⟩
  | some i =>
    left
    obtain ⟨⟨k, hk⟩, hx⟩ := h.cell hc hi
    obtain ⟨f, hf, _⟩ := h.sideT.valid.shape' k (List.mem_of_getElem? hk)
    have hout := h.out i k hk f hf
    rw [hx] at hout
    have hst := hout.stay
    cases hob : obuFor obu c.2.tag with
    | none =>
      rw [h3 (Or.inr hob)]
      exact ⟨i, k, f, c.2, hk, hf, hx, hout, SameBody.refl _, rfl, hst.names, fun _ => rfl, rfl⟩
    | some info =>
      obtain ⟨l, c2, r, h4, h5, h6⟩ := ord_item h.ord c' hc' (by rw [h1, hi]; simp) info
        (by rw [← h2.1]; exact hob)
      have hx2 := (h.cell (by rw [h4]; simp) (h5.trans (h1.trans hi))).2
      have e2 : c2.2 = c.2 := by rw [hx] at hx2; exact (Option.some.inj hx2).symm
      rw [e2] at h6
      have ha := orderItem_attrs h6
      refine ⟨i, k, f, c.2, hk, hf, hx, hout, orderItem_body h6, ha.1, ha.2 hst.names, ?_, orderItem_op h6⟩
      intro hnu
      rw [hst.tag, h.noUser hnu] at hob
      cases hob

theorem Loops.stays (h : Loops ω d Q sc S T φ M obu st st') {i : Nat} {k x : Elem} (hk : T.kids[i]? = some k)
    (hx : φ i = some x) : ∃ o ∈ st'.map Prod.snd, SameBody x o := by
  have : (some i, x) ∈ st := by
    have : (some i, x) ∈ st.filter (fun c => c.1.isSome) := by
      rw [h.rep.1]; exact mem_cellsOf.2 ⟨⟨k, hk⟩, hx⟩
    exact (List.mem_filter.1 this).1
  obtain ⟨c', hc', h1, h2, h3⟩ := forall₂_mem_left (ord_cells h.ord) _ this
  exact ⟨c'.2, List.mem_map_of_mem hc', h2⟩

theorem Loops.marker (h : Loops ω d Q sc S T φ M obu st st') {m : Elem} (hm : m ∈ M) :
    m ∈ st'.map Prod.snd := by
  have := h.rep.2.symm.subset hm
  obtain ⟨c, hc, rfl⟩ := List.mem_map.1 this
  obtain ⟨hc, hn⟩ := List.mem_filter.1 hc
  obtain ⟨c', hc', h1, h2, h3⟩ := forall₂_mem_left (ord_cells h.ord) c hc
  rw [← h3 (Or.inl (by simpa using hn))]
  exact List.mem_map_of_mem hc'

theorem Loops.uids (h : Loops ω d Q sc S T φ M obu st st') :
    (st'.map Prod.snd).map (uid d sc) = st.map (fun c => uid d sc c.2) := by
  rw [List.map_map]
  symm
  refine forall₂_map_eq (ord_cells h.ord) ?_
  intro c _ c' _ hc
  exact uid_body hc.2.1

/-- A child that stays denotes the instance it comes from. -/
theorem Loops.cellUid (h : Loops ω d Q sc S T φ M obu st st') {i : Nat} {k x : Elem}
    (hk : T.kids[i]? = some k) (hx : φ i = some x) : ∃ f, d.lookup sc k.tag = .ok f ∧ StayOk d sc f k x := by
  obtain ⟨f, hf, _⟩ := h.sideT.valid.shape' k (List.mem_of_getElem? hk)
  have hout := h.out i k hk f hf
  rw [hx] at hout
  exact ⟨f, hf, hout.stay⟩

theorem Loops.cellsUids (h : Loops ω d Q sc S T φ M obu st st') :
    ((cellsOf φ T.kids).map (fun c => uid d sc c.2)).Sublist (T.kids.map (uid d sc)) := by
  have key : ∀ l : List (Elem × Nat), (∀ p ∈ l, T.kids[p.2]? = some p.1) →
      ((l.filterMap (fun p => (φ p.2).map (fun e => ((some p.2, e) : Cell)))).map
        (fun c => uid d sc c.2)).Sublist (l.map (fun p => uid d sc p.1)) := by
    intro l
    induction l with
    | nil => intro _; simp
    | cons p r ih =>
      intro hl
      have := ih (fun x hx => hl x (by simp [hx]))
      cases hx : φ p.2 with
      | none => simpa [hx] using this.cons _
      | some x =>
        obtain ⟨f, _, hs⟩ := h.cellUid (hl p (by simp)) hx
        simp only [List.filterMap_cons, hx, Option.map_some, List.map_cons, hs.uid]
        exact this.cons_cons _
  have := key T.kids.zipIdx (fun p hp => List.mem_zipIdx_iff_getElem?.1 hp)
  have e : T.kids.zipIdx.map (fun p => uid d sc p.1) = T.kids.map (uid d sc) := by
    rw [show (fun p : Elem × Nat => uid d sc p.1) = uid d sc ∘ Prod.fst from rfl, ← List.map_map,
      List.zipIdx_map_fst]
  rw [e] at this
  exact this

theorem Loops.markUid (h : Loops ω d Q sc S T φ M obu st st') {m : Elem} (hm : m ∈ M) :
    uid d sc m ∉ T.kids.map (uid d sc) := by
  obtain ⟨s, hs, habs, f, hf, hM⟩ := h.mark m hm
  intro hmem
  obtain ⟨k, hk, hu⟩ := List.mem_map.1 hmem
  exact habs k hk (hu.trans hM.uid)

theorem Loops.nodup (h : Loops ω d Q sc S T φ M obu st st') : ((st'.map Prod.snd).map (uid d sc)).Nodup := by
  rw [h.uids]
  have hp : (st.filter (fun c => c.1.isSome) ++ st.filter (fun c => !c.1.isSome)).Perm st :=
    List.filter_append_perm _ _
  have e : st.filter (fun c => !c.1.isSome) = st.filter (fun c => c.1.isNone) := by
    refine List.filter_congr ?_
    intro c _; cases c.1 <;> rfl
  rw [← (hp.map (fun c => uid d sc c.2)).nodup_iff, List.map_append, List.nodup_append, h.rep.1, e]
  have hm : (List.map (fun c : Cell => uid d sc c.2) (st.filter (fun c => c.1.isNone))).Perm
      (M.map (uid d sc)) := by
    have := h.rep.2.map (uid d sc)
    rw [List.map_map] at this
    exact this
  refine ⟨h.cellsUids.nodup h.sideT.valid.indexable.nodup, hm.nodup_iff.2 h.once, ?_⟩
  intro a ha b hb hab
  subst hab
  have h1 := h.cellsUids.subset ha
  obtain ⟨m, hm', hu⟩ := List.mem_map.1 (hm.subset hb)
  rw [← hu] at h1
  exact h.markUid hm' h1

theorem Loops.seq (h : Loops ω d Q sc S T φ M obu st st') :
    (((st'.map Prod.snd).map (uid d sc)).filter (fun u => u ∈ T.kids.map (uid d sc))).Sublist
      (T.kids.map (uid d sc)) := by
  rw [h.uids, List.filter_map]
  refine List.Sublist.trans ?_ h.cellsUids
  rw [← h.rep.1]
  refine List.Sublist.map _ ?_
  rw [List.filter_congr (q := fun c : Cell => c.1.isSome)]
  intro c hc
  simp only [Function.comp]
  cases hi : c.1 with
  | none =>
    have : c.2 ∈ M := h.rep.2.subset (List.mem_map.2 ⟨c, List.mem_filter.2 ⟨hc, by simp [hi]⟩, rfl⟩)
    simpa using h.markUid this
  | some i =>
    obtain ⟨⟨k, hk⟩, hx⟩ := h.cell hc hi
    obtain ⟨f, _, hs⟩ := h.cellUid hk hx
    simp only [Option.isSome_some, decide_eq_true_eq]
    rw [hs.uid]
    exact List.mem_map_of_mem (List.mem_of_getElem? hk)

/-- The child of the delta that denotes the instance of `k`. -/
theorem Loops.link (h : Loops ω d Q sc S T φ M obu st st') {o k : Elem} (ho : o ∈ st'.map Prod.snd)
    (hk : k ∈ T.kids) (hu : uid d sc o = uid d sc k) {f : Found} (hf : d.lookup sc k.tag = .ok f) :
    ∃ x, Link ω d Q sc S f k x o := by
  rcases h.kids ho with ⟨i, k', f', x, h1, h2, h3, h4⟩ | hm
  · have : k' = k := by
      refine List.inj_on_of_nodup_map h.sideT.valid.indexable.nodup (List.mem_of_getElem? h1) hk ?_
      rw [← hu, ← uid_body h4.body, h4.out.stay.uid]
    subst this
    rw [hf] at h2; cases h2
    exact ⟨x, h4⟩
  · exact absurd (by rw [hu]; exact List.mem_map_of_mem hk) (h.markUid hm)

/-- The marker for `s`. -/
theorem Loops.markOf (h : Loops ω d Q sc S T φ M obu st st') {m s : Elem} (hm : m ∈ st'.map Prod.snd)
    (hs : s ∈ S.kids) (habs : ∀ k ∈ T.kids, uid d sc k ≠ uid d sc s) (hu : uid d sc m = uid d sc s)
    {f : Found} (hf : d.lookup sc s.tag = .ok f) : Marked ω d Q sc f s m := by
  rcases h.kids hm with ⟨i, k', f', x, h1, h2, h3, h4⟩ | hm
  · refine absurd ?_ (habs k' (List.mem_of_getElem? h1))
    rw [← hu, ← uid_body h4.body, h4.out.stay.uid]
  · obtain ⟨s', hs', _, f', hf', hM⟩ := h.mark m hm
    have : s' = s := List.inj_on_of_nodup_map h.sideS.valid.indexable.nodup hs' hs (by rw [← hM.uid, hu])
    subst this
    rw [hf] at hf'; cases hf'
    exact hM

theorem resolve_url {m m' : NsMap} {q : QName} (hm : NsMapOk m) (hq : q.ns ≠ "")
    (h : ∀ p, (p, q.ns) ∈ m' → (p, q.ns) ∈ m) : resolveKeyId m (urlToPrefix m' q) = .ok q := by
  have hl : ∀ p, (p, q.ns) ∈ m' → m.url p = some q.ns := by
    intro p hp
    have := h p hp
    have hm := hm.1
    unfold NsMap.url
    clear h hp
    induction m with
    | nil => simp at this
    | cons a m ih =>
      rw [List.map_cons, List.nodup_cons] at hm
      rw [List.lookup_cons]
      rcases List.mem_cons.1 this with rfl | hmem
      · simp
      · have : (p == a.1) = false := by
          rw [beq_eq_false_iff_ne]
          intro e; exact hm.1 (by rw [← e]; exact List.mem_map_of_mem (f := Prod.fst) hmem)
        rw [this]
        exact ih ⟨hm.2, fun x hx => ‹NsMapOk _›.2.1 x (by simp [hx]), fun x hx => ‹NsMapOk _›.2.2 x (by simp [hx])⟩ hmem hm.2
  unfold urlToPrefix
  rw [if_neg hq]
  cases hp : m'.prefixOf q.ns with
  | none => rfl
  | some p =>
    have := hl p (NsMap.mem_of_prefixOf hp)
    cases p with
    | none => simp [resolveKeyId, this]
    | some p => simp [resolveKeyId, this]

theorem parse_keyPreds {m : NsMap} {p kp : Elem} : ∀ (keys : List QName) (ps : List (KeyId × String)),
    keyPreds keys p = .ok ps →
    (∀ q ∈ keys, ∃ c, p.find q = some c ∧ c.text = some (keyText kp q) ∧ '\'' ∉ (keyText kp q).toList ∧
      resolveKeyId m (urlToPrefix c.nsmap q) = .ok q) →
    parsePreds m ps = .ok (keys.map (fun q => (q, keyText kp q)))
  | [], ps, h, _ => by cases h; rfl
  | q :: r, ps, h, hq => by
    obtain ⟨c, h1, h2, h3, h4⟩ := hq q (by simp)
    unfold keyPreds at h
    rw [List.mapM_cons] at h
    simp only [h1, h2, bind, Except.bind] at h
    cases hr : keyPreds r p with
    | error x => unfold keyPreds at hr; simp [hr] at h
    | ok ps' =>
      have ih := parse_keyPreds r ps' hr (fun x hx => hq x (by simp [hx]))
      unfold keyPreds at hr
      simp only [hr, pure, Except.pure] at h
      cases h
      simp [parsePreds, h3, h4, ih, bind, Except.bind, pure, Except.pure]

theorem Loops.sibs (h : Loops ω d Q sc S T φ M obu st st') {t : QName} (ht : UserOrdered d sc t) :
    (st.filter (fun c => c.1.isSome && decide (c.2.tag = t))).map (fun c => uid d sc c.2) =
      (T.kids.map (uid d sc)).filter (fun u => u.1 = t) := by
  refine eq_of_sublist_of_subset ?_ (h.sideT.valid.indexable.nodup.filter _) ?_
  · have := h.cellsUids.filter (fun u => decide (u.1 = t))
    refine List.Sublist.trans ?_ this
    rw [List.filter_map, ← h.rep.1, List.filter_filter]
    refine List.Sublist.map _ ?_
    rw [List.filter_congr (p := fun c : Cell => c.1.isSome && decide (c.2.tag = t))]
    intro c _
    simp only [Function.comp, uid_tag, Bool.and_comm]
  · intro u hu
    obtain ⟨hu, hut⟩ := List.mem_filter.1 hu
    obtain ⟨k, hk, rfl⟩ := List.mem_map.1 hu
    simp only [uid_tag, decide_eq_true_eq] at hut
    obtain ⟨i, hi⟩ := List.mem_iff_getElem?.1 hk
    obtain ⟨f, hf, hu1, hu2⟩ := ht
    rw [← hut] at hf
    have hout := h.out i k hi f hf
    cases hx : φ i with
    | none =>
      rw [hx] at hout
      cases hout with
      | out _ _ _ hno _ => exact absurd ⟨hu1, hu2⟩ hno
    | some x =>
      rw [hx] at hout
      refine List.mem_map.2 ⟨(some i, x), ?_, hout.stay.uid⟩
      have : (some i, x) ∈ st.filter (fun c => c.1.isSome) := by
        rw [h.rep.1]; exact mem_cellsOf.2 ⟨⟨k, hi⟩, hx⟩
      refine List.mem_filter.2 ⟨(List.mem_filter.1 this).1, ?_⟩
      simp [hout.stay.tag, hut]

/-- The first two cases of `PosOk`. -/
def PlaceOk (d : Device) (sc : Scope) (T : Elem) (f : Found) (o k : Elem) : Prop :=
  (insertOf o = some "first" ∧
    ∃ r, (T.kids.map (uid d sc)).filter (fun u => u.1 = k.tag) = uid d sc k :: r) ∨
  (insertOf o = some "after" ∧ ∃ p ∈ T.kids, Anchors f.node o p ∧
    ∃ l r, (T.kids.map (uid d sc)).filter (fun u => u.1 = k.tag) = l ++ uid d sc p :: uid d sc k :: r)

theorem Loops.place (h : Loops ω d Q sc S T φ M obu st st') {o k : Elem} (ho : o ∈ st'.map Prod.snd)
    (hk : k ∈ T.kids) (hu : uid d sc o = uid d sc k) {f : Found} (hf : d.lookup sc k.tag = .ok f)
    (hord : f.node.userOrdered = true) (hn : f.node.ntype = .leafList ∨ f.node.ntype = .list) :
    PlaceOk d sc T f o k := by
  have hus : UserOrdered d sc k.tag := ⟨f, hf, hord, hn⟩
  have hot : o.tag = k.tag := tag_of_uid hu
  obtain ⟨c', hc', rfl⟩ := List.mem_map.1 ho
  have hc1 : c'.1 ≠ none := by
    intro hnone
    obtain ⟨c, hc, h1, h2, h3⟩ := forall₂_mem_right (ord_cells h.ord) c' hc'
    rw [hnone] at h1
    have : c'.2 ∈ M := by
      rw [h3 (Or.inl h1.symm)]
      exact h.rep.2.subset (List.mem_map.2 ⟨c, List.mem_filter.2 ⟨hc, by simp [← h1]⟩, rfl⟩)
    exact absurd (by rw [hu]; exact List.mem_map_of_mem hk) (h.markUid this)
  cases hob : obuFor obu k.tag with
  | none => exact absurd hob (h.cover k hk hus)
  | some info =>
    obtain ⟨f', hf', _, hinfo⟩ := h.info k.tag info hob
    rw [hf] at hf'; cases hf'
    obtain ⟨l, c, r, hst, h5, h6⟩ := ord_item h.ord c' hc' hc1 info (by rw [hot]; exact hob)
    have hbody := orderItem_body h6
    have hct : c.2.tag = k.tag := by rw [hbody.1]; exact hot
    have hcu : uid d sc c.2 = uid d sc k := by rw [uid_body hbody]; exact hu
    have hsib := h.sibs hus
    have hcs : c.1.isSome = true := by
      rw [h5]; cases hx : c'.1 with
      | none => exact absurd hx hc1
      | some _ => rfl
    rw [hst, List.filter_append, List.filter_cons, if_pos (by simp [hcs, hct]), List.map_append,
      List.map_cons] at hsib
    rw [hct] at h6
    unfold lastOf at h6
    rcases List.eq_nil_or_concat (l.filter (fun c => c.1.isSome && decide (c.2.tag = k.tag))) with hl | ⟨l', p, hl⟩
    · left
      rw [hl] at h6 hsib
      simp only [List.getLast?_nil, Option.map_none, Option.or_none] at h6
      unfold orderItem at h6
      simp only [Except.ok.injEq] at h6
      refine ⟨?_, (r.filter (fun c => c.1.isSome && decide (c.2.tag = k.tag))).map (fun c => uid d sc c.2), ?_⟩
      · rw [← h6]; unfold insertOf; rw [get_set]; simp
      · rw [← hsib, hcu]; rfl
    · right
      rw [hl] at h6 hsib
      rw [List.concat_eq_append] at h6 hsib
      simp only [List.getLast?_append, List.getLast?_singleton, Option.some_or, Option.map_some] at h6
      have hpm : p ∈ l.filter (fun c => c.1.isSome && decide (c.2.tag = k.tag)) := by rw [hl]; simp
      obtain ⟨hpl, hp1⟩ := List.mem_filter.1 hpm
      simp only [Bool.and_eq_true, decide_eq_true_eq] at hp1
      obtain ⟨j, hj⟩ := Option.isSome_iff_exists.1 hp1.1
      obtain ⟨⟨kp, hkp⟩, hxp⟩ := h.cell (by rw [hst]; simp [hpl] : p ∈ st) hj
      obtain ⟨fp, hfp, hstay⟩ := h.cellUid hkp hxp
      have hkpm := List.mem_of_getElem? hkp
      have hkpt : kp.tag = k.tag := by rw [← hstay.tag]; exact hp1.2
      rw [hkpt, hf] at hfp; cases hfp
      have hins : insertOf c'.2 = some "after" ∧ Anchors f.node c'.2 kp := by
        unfold orderItem at h6
        rcases hinfo with ⟨hn1, rfl⟩ | ⟨hn1, rfl⟩
        · simp only at h6
          cases ht : p.2.text with
          | none => simp [ht] at h6
          | some v =>
            simp only [ht, Except.ok.injEq] at h6
            rw [← h6]
            refine ⟨?_, ?_⟩
            · unfold insertOf; rw [get_set, get_set]; simp
            · unfold Anchors; simp only [hn1]
              exact ⟨v, by rw [get_set]; simp, by rw [← hstay.text]; exact ht⟩
        · simp only at h6
          cases hkp' : keyPreds f.node.keys p.2 with
          | error x => simp [hkp', bind, Except.bind] at h6
          | ok ps =>
            simp only [hkp', bind, Except.bind, pure, Except.pure, Except.ok.injEq] at h6
            rw [← h6]
            refine ⟨?_, ?_⟩
            · unfold insertOf; rw [get_set, get_set]; simp
            · unfold Anchors; simp only [hn1]
              refine ⟨ps, by rw [get_set]; simp, ?_⟩
              have hnm : ((c.2.set .insert (.str "after")).set .key (.pred ps)).nsmap = k.nsmap := by
                show c.2.nsmap = k.nsmap
                obtain ⟨i, hi⟩ := Option.isSome_iff_exists.1 hcs
                obtain ⟨⟨k2, hk2⟩, hx2⟩ := h.cell (by rw [hst]; simp : c ∈ st) hi
                obtain ⟨f2, hf2, hs2⟩ := h.cellUid hk2 hx2
                have : k2 = k := List.inj_on_of_nodup_map h.sideT.valid.indexable.nodup
                  (List.mem_of_getElem? hk2) hk (by rw [← hs2.uid, hcu])
                rw [← this]; exact hs2.nsmap
              rw [hnm]
              refine parse_keyPreds _ _ hkp' ?_
              intro q hq
              have hkid := h.sideT.kid hkpm (by rw [hkpt]; exact hf)
              unfold KidOk at hkid
              simp only [hn1] at hkid
              obtain ⟨c1, hc1⟩ := hkid.2.2.1 q hq
              obtain ⟨c2, hc2, h7, h8⟩ := hstay.same hn1 q hq c1 (by rw [hc1]; simp)
              have hlev := h.sideT.level.here'
              obtain ⟨t, ht, hap⟩ := hlev.orderedKeys kp hkpm f (by rw [hkpt]; exact hf) hord hn1 q hq c1
                (by rw [hc1]; simp)
              obtain ⟨h9, h10⟩ := hlev.orderedPrefixes kp hkpm k hk hkpt f (by rw [hkpt]; exact hf) hord hn1 q hq c1
                (by rw [hc1]; simp)
              have hkt : keyText kp q = t := by
                unfold keyText; rw [find_childrenWith hc1]; simp [ht]
              refine ⟨c2, find_childrenWith hc2, ?_, ?_, ?_⟩
              · rw [hkt, h8]; exact ht
              · rw [hkt]; exact hap
              · rw [h7]; exact resolve_url (h.sideT.kidNs hk) h9 h10
      refine ⟨hins.1, kp, hkpm, hins.2, l'.map (fun c => uid d sc c.2),
        (r.filter (fun c => c.1.isSome && decide (c.2.tag = k.tag))).map (fun c => uid d sc c.2), ?_⟩
      rw [← hsib, List.map_append, List.map_cons, List.map_nil, hstay.uid, hcu]
      simp


theorem Loops.pos (h : Loops ω d Q sc S T φ M obu st st') {o k : Elem} (ho : o ∈ st'.map Prod.snd)
    (hk : k ∈ T.kids) (hu : uid d sc o = uid d sc k) {f : Found} (hf : d.lookup sc k.tag = .ok f)
    (hord : f.node.userOrdered = true) (hn : f.node.ntype = .leafList ∨ f.node.ntype = .list) :
    PosOk d sc S T f o k := by
  rcases h.place ho hk hu hf hord hn with h | h
  · exact Or.inl h
  · exact Or.inr (Or.inl h)

/-- The result of the loops describes the difference. -/
theorem Loops.diff (h : Loops ω d Q sc S T φ M obu st st') {D : Elem} (hD : D.kids = st'.map Prod.snd)
    (hDn : D.nsmap = T.nsmap) (hDa : (D.attrs.map Prod.fst).Nodup) : Diff ω d sc S T D := by
  have hSnd := h.sideS.valid.indexable.nodup
  have hTnd := h.sideT.valid.indexable.nodup
  have hinjS : ∀ x ∈ S.kids, ∀ y ∈ S.kids, uid d sc x = uid d sc y → x = y :=
    fun x hx y hy hu => List.inj_on_of_nodup_map hSnd hx hy hu
  have hkind : ∀ o ∈ D.kids, ∃ f, d.lookup sc o.tag = .ok f ∧ KidOk d f.node o ∧
      Valid d (.node f.node) o ∧ Deep d (DeltaLevel d) (.node f.node) o ∧
      (f.node.ntype = .leaf → LeafValueOk f.node o) ∧
      (f.node.ntype = .list → ∀ q ∈ f.node.keys,
        (∃ g, d.lookup (.node f.node) q = .ok g ∧ g.node.ntype = .leaf ∧
          ∀ c ∈ o.childrenWith q, KeyOk d g.node c) ∧
        ∀ c ∈ o.childrenWith q, opOf c = "merge") ∧
      ((∃ k ∈ T.kids, uid d sc k = uid d sc o) ∨ (∃ s ∈ S.kids, uid d sc s = uid d sc o)) := by
    intro o ho
    rw [hD] at ho
    rcases h.kids ho with ⟨i, k, f, x, h1, h2, h3, h4⟩ | hm
    · have hst := h4.out.stay
      have hk := List.mem_of_getElem? h1
      refine ⟨f, by rw [← h4.body.1, hst.tag]; exact h2, kidOk_body h4.body hst.kid,
        valid_body h4.body h4.names hst.valid, deltaLevel_body h4.body hst.deep,
        fun hn => leafValue_body h4.body (hst.value hn), ?_,
        Or.inl ⟨k, hk, by rw [← uid_body h4.body, hst.uid]⟩⟩
      intro hn q hq
      obtain ⟨g, g1, g2, g3, _⟩ := h.sideT.level.here'.keys k hk f h2 hn q hq
      rw [← childrenWith_body h4.body]
      refine ⟨⟨g, g1, g2, fun c hc => ?_⟩, hst.keys hn q hq⟩
      obtain ⟨f', hf', hkk⟩ := h.sideT.valid.shape' k hk
      rw [h2] at hf'; cases hf'
      unfold KidOk at hkk
      simp only [hn] at hkk
      obtain ⟨c0, hc0⟩ := hkk.2.2.1 q hq
      obtain ⟨c', e1, e2, e3⟩ := hst.same hn q hq c0 (by rw [hc0]; simp)
      rw [e1, List.mem_singleton] at hc
      subst hc
      exact (g3 c0 (by rw [hc0]; simp)).congr e3 ((childrenWith_single e1).2.trans (childrenWith_single hc0).2.symm) e2
    · obtain ⟨s, hs, habs, f, hf, hM⟩ := h.mark o hm
      refine ⟨f, by rw [hM.tag]; exact hf, hM.kid, hM.valid, hM.deep, hM.value, ?_,
        Or.inr ⟨s, hs, hM.uid.symm⟩⟩
      exact hM.keys
  have hfun : ∀ {o : Elem} {f g : Found}, d.lookup sc o.tag = .ok f → d.lookup sc o.tag = .ok g → f = g :=
    fun h1 h2 => Except.ok.inj (h1.symm.trans h2)
  have hvD : Valid d sc D := by
    refine valid_of_nodup hDa ?_ (by rw [hD]; exact h.nodup) ?_
    · intro o ho
      obtain ⟨f, hf, hk, _⟩ := hkind o ho
      exact ⟨f, hf, hk⟩
    · intro o ho f hf
      obtain ⟨g, hg, _, hv, _⟩ := hkind o ho
      obtain rfl := hfun hf hg
      exact hv
  have hlD : Deep d (DeltaLevel d) sc D := by
    refine ⟨⟨by rw [hDn]; exact h.sideT.level.here'.nsmap, ?_, ?_, ?_⟩, ?_⟩
    · intro o ho
      obtain ⟨f, hf, hk, _⟩ := hkind o ho
      exact ⟨f, hf, hk⟩
    · intro o ho f hf hn q hq
      obtain ⟨g, hg, _, _, _, _, hk, _⟩ := hkind o ho
      obtain rfl := hfun hf hg
      exact hk hn q hq
    · intro o ho f hf hn
      obtain ⟨g, hg, _, _, _, hl, _⟩ := hkind o ho
      obtain rfl := hfun hf hg
      exact hl hn
    · intro o ho f hf
      obtain ⟨g, hg, _, _, hl, _⟩ := hkind o ho
      obtain rfl := hfun hf hg
      exact hl
  -- the link of a child that denotes an instance of the target
  have hlink : ∀ k ∈ T.kids, ∀ o ∈ D.kids, uid d sc o = uid d sc k → ∀ f, d.lookup sc k.tag = .ok f →
      ∃ x, Link ω d Q sc S f k x o := by
    intro k hk o ho hu f hf
    rw [hD] at ho
    exact h.link ho hk hu hf
  have hnew : ∀ k ∈ T.kids, (∀ s ∈ S.kids, uid d sc s ≠ uid d sc k) → ∀ o ∈ D.kids,
      uid d sc o = uid d sc k → ∀ f, d.lookup sc k.tag = .ok f →
      ∃ x, NewOk ω d sc f k x ∧ SameBody x o ∧ opOf o = opOf x ∧ (o.attrs.map Prod.fst).Nodup := by
    intro k hk habs o ho hu f hf
    obtain ⟨x, hL⟩ := hlink k hk o ho hu f hf
    cases hL.out with
    | new _ hx => exact ⟨x, hx, hL.body, hL.op, hL.names⟩
    | both hs hsu _ => exact absurd hsu (habs _ hs)
  have hboth : ∀ s ∈ S.kids, ∀ k ∈ T.kids, ∀ o ∈ D.kids, uid d sc s = uid d sc k →
      uid d sc o = uid d sc k → ∀ f, d.lookup sc k.tag = .ok f →
      ∃ x, BothOk ω d Q sc f s k x ∧ SameBody x o ∧ opOf o = opOf x ∧ (o.attrs.map Prod.fst).Nodup := by
    intro s hs k hk o ho hsu hu f hf
    obtain ⟨x, hL⟩ := hlink k hk o ho hu f hf
    cases hL.out with
    | new habs _ => exact absurd hsu (habs _ hs)
    | both hs' hsu' hx =>
      rw [hinjS _ hs' s hs (hsu'.trans hsu.symm)] at hx
      exact ⟨x, hx, hL.body, hL.op, hL.names⟩
  have hmark : ∀ s ∈ S.kids, (∀ k ∈ T.kids, uid d sc k ≠ uid d sc s) → ∀ m ∈ D.kids,
      uid d sc m = uid d sc s → ∀ f, d.lookup sc s.tag = .ok f → Marked ω d Q sc f s m := by
    intro s hs habs m hm hu f hf
    rw [hD] at hm
    exact h.markOf hm hs habs hu hf
  have hfull : ∀ t, UserOrdered d sc t → ∀ k ∈ T.kids, k.tag = t → ∃ o ∈ D.kids, uid d sc o = uid d sc k := by
    intro t ht k hk hkt
    obtain ⟨i, hi⟩ := List.mem_iff_getElem?.1 hk
    obtain ⟨f, hf, hu1, hu2⟩ := ht
    rw [← hkt] at hf
    have hout := h.out i k hi f hf
    cases hx : φ i with
    | none =>
      rw [hx] at hout
      cases hout with
      | out _ _ _ hno _ => exact absurd ⟨hu1, hu2⟩ hno
    | some x =>
      rw [hx] at hout
      obtain ⟨o, ho, hb⟩ := h.stays hi hx
      exact ⟨o, by rw [hD]; exact ho, by rw [← uid_body hb, hout.stay.uid]⟩
  refine .mk ⟨h.sideS.valid, h.sideS.ns, h.sideT.valid, hvD, hlD, h.sideS.bare, h.sideT.bare, h.tag, h.val,
    fun s hs => h.sideS.cell hs, fun k hk => h.sideT.cell hk, ?_, ?_, ?_, ?_, ?_, ?_, ?_, ?_, ?_, fun t ht => Or.inl (hfull t ht),
    ?_, ?_⟩ ?_ ?_ ?_ ?_
  · intro o ho
    obtain ⟨f, _, _, _, _, _, _, hor⟩ := hkind o ho
    exact hor
  · intro s hs habs
    obtain ⟨m, hm, hu⟩ := h.marks s hs habs
    exact ⟨m, by rw [hD]; exact h.marker hm, hu⟩
  · intro s hs habs m hm hu f hf
    rcases (hmark s hs habs m hm hu f hf).op with hop | hop
    · exact Or.inl hop
    · exact Or.inr ⟨hop.1, hop.2.1⟩
  · intro k hk habs
    obtain ⟨i, hi⟩ := List.mem_iff_getElem?.1 hk
    obtain ⟨f, hf, _⟩ := h.sideT.valid.shape' k hk
    have hout := h.out i k hi f hf
    cases hx : φ i with
    | none =>
      rw [hx] at hout
      cases hout with
      | out hs hsu _ _ _ => exact absurd hsu (habs _ hs)
    | some x =>
      rw [hx] at hout
      obtain ⟨o, ho, hb⟩ := h.stays hi hx
      exact ⟨o, by rw [hD]; exact ho, by rw [← uid_body hb, hout.stay.uid]⟩
  · intro k hk habs o ho hu f hf
    obtain ⟨x, hx, hb, hop, _⟩ := hnew k hk habs o ho hu f hf
    rw [hop]
    exact ⟨hx.op, fun _ => by rw [← delAttrib_body hb]; exact hx.copy, by rw [← hb.2.2.2]; exact hx.whole⟩
  · intro s hs k hk o ho hsu hu f hf
    obtain ⟨x, hx, hb, hop, _⟩ := hboth s hs k hk o ho hsu hu f hf
    rw [hop, ← mergeText_body hb, ← delAttrib_body hb, ← hb.2.2.2]
    refine ⟨hx.leaf, hx.leafList, fun hn => ?_⟩
    rcases hx.tree hn with h1 | h1
    · exact Or.inl ⟨h1.1, h1.2.1⟩
    · exact Or.inr h1
  · intro s hs k hk hsu hno f hf
    obtain ⟨i, hi⟩ := List.mem_iff_getElem?.1 hk
    have hout := h.out i k hi f hf
    cases hx : φ i with
    | none =>
      rw [hx] at hout
      cases hout with
      | out hs' hsu' hsame _ _ =>
        rw [hinjS _ hs' s hs (hsu'.trans hsu.symm)] at hsame
        exact hsame
    | some x =>
      rw [hx] at hout
      obtain ⟨o, ho, hb⟩ := h.stays hi hx
      exact absurd (by rw [← uid_body hb, hout.stay.uid]) (hno o (by rw [hD]; exact ho))
  · intro o ho k hk hu f hf hord hn
    rw [hD] at ho
    exact h.pos ho hk hu hf hord hn
  · intro w t ht
    have hord : OrderSettles d sc t S.kids T.kids := by
      cases h.compat with
      | mk _ order _ _ => exact order w t ht
    exact ends_of_settles h.sideS.valid h.sideT.valid hord (hfull t ht) (by rw [hD]; exact h.seq)
  · rw [hD]; exact h.seq
  · intro s hs k hk o ho hsu hu
    obtain ⟨f, hf, _⟩ := h.sideT.valid.shape' k hk
    obtain ⟨x, hx, hb, _⟩ := hboth s hs k hk o ho hsu hu f hf
    exact ⟨hb.2.1.symm.trans hx.nsmap, hb.2.2.1.symm.trans hx.text⟩
  · intro s hs habs m hm hu hop f hf
    rcases (hmark s hs habs m hm hu f hf).op with h1 | h1
    · rw [hop] at h1
      rcases h1.1 with h2 | h2 <;> simp at h2
    · exact h1.2.2
  · intro k hk habs o ho hu hop f hf hn
    obtain ⟨x, hx, hb, hop', hnm⟩ := hnew k hk habs o ho hu f hf
    rw [← hb.1, ← hb.2.1]
    exact diff_body hb hnm (hx.cont (hop' ▸ hop) hn)
  · intro k hk habs o ho hu hop f hf hn sk hsk
    obtain ⟨x, hx, hb, hop', hnm⟩ := hnew k hk habs o ho hu f hf
    refine diff_body hb hnm (hx.list (hop' ▸ hop) hn sk ?_)
    rw [← hsk]
    obtain ⟨h1, h2, _, _⟩ := hb
    unfold listSkeleton
    rw [h1, h2]
    congr 1
    · congr 1; funext q; rw [find_body ⟨h1, h2, by assumption, by assumption⟩]
  · intro s hs k hk o ho hsu hu hop f hf hn
    obtain ⟨x, hx, hb, hop', hnm⟩ := hboth s hs k hk o ho hsu hu f hf
    rcases hx.tree hn with h1 | h1
    · exact diff_body hb hnm h1.2.2
    · rw [← hop', hop] at h1
      exact absurd h1.1 (by decide)

/-- Keys that stay the same stay. -/
theorem Loops.keys (h : Loops ω d Q sc S T φ M obu st st') {s c : Elem} (hs : s ∈ S.kids) (hc : c ∈ T.kids)
    (hu : uid d sc s = uid d sc c) {f : Found} (hf : d.lookup sc c.tag = .ok f)
    (hkey : f.node.info.isKey = true) (hn : f.node.ntype = .leaf)
    (hp : parseText d s f.node = parseText d c f.node) :
    (st'.map Prod.snd).filter (fun x => x.tag = c.tag) = [c] := by
  have hno : ¬ UserOrdered d sc c.tag := by
    rintro ⟨g, hg, _, hg2⟩
    rw [hf] at hg; cases hg
    rcases hg2 with h2 | h2 <;> rw [hn] at h2 <;> cases h2
  have hmem : c ∈ st'.map Prod.snd := by
    obtain ⟨i, hi⟩ := List.mem_iff_getElem?.1 hc
    have hout := h.out i c hi f hf
    cases hx : φ i with
    | none =>
      rw [hx] at hout
      cases hout with
      | out _ _ _ _ hk => exact absurd ⟨hkey, hn⟩ hk
    | some x =>
      rw [hx] at hout
      obtain ⟨o, ho, hb⟩ := h.stays hi hx
      have hou : uid d sc o = uid d sc c := by rw [← uid_body hb, hout.stay.uid]
      obtain ⟨x', hL⟩ := h.link ho hc hou hf
      have ho' := hL.plain hno
      cases hL.out with
      | new habs _ => exact absurd hu (habs _ hs)
      | both hs' hsu' hx' =>
        rw [List.inj_on_of_nodup_map h.sideS.valid.indexable.nodup hs' hs (hsu'.trans hu.symm)] at hx'
        have := hx'.kept hkey hn hp
        rw [← this, ← ho']; exact ho
  have huid : ∀ x ∈ st'.map Prod.snd, x.tag = c.tag → x = c := by
    intro x hx ht
    refine List.inj_on_of_nodup_map h.nodup hx hmem ?_
    have hxl : ∃ g, d.lookup sc x.tag = .ok g := ⟨f, by rw [ht]; exact hf⟩
    unfold uid uidOf
    rw [ht]
    simp [hf, hn, bind, Except.bind, pure, Except.pure]
  have hnd : (st'.map Prod.snd).Nodup := List.Nodup.of_map _ h.nodup
  obtain ⟨l, r, hlr⟩ := List.append_of_mem hmem
  rw [hlr] at hnd huid ⊢
  rw [List.filter_append, List.filter_cons, if_pos (by simp)]
  have h1 : l.filter (fun x => x.tag = c.tag) = [] := by
    rw [List.filter_eq_nil_iff]
    intro x hx
    simp only [decide_eq_true_eq]
    intro ht
    have := huid x (by simp [hx]) ht
    subst this
    exact (List.nodup_append.1 hnd).2.2 x hx x (by simp) rfl
  have h2 : r.filter (fun x => x.tag = c.tag) = [] := by
    rw [List.filter_eq_nil_iff]
    intro x hx
    simp only [decide_eq_true_eq]
    intro ht
    have := huid x (by simp [hx]) ht
    subst this
    exact (List.nodup_cons.1 (List.nodup_append.1 hnd).2.1).1 hx
  rw [h1, h2]; rfl

end

end NcDiff
