import Verif.Proof.Diff
import Verif.Model.NodeSub
/-!
# Computing a delta: the list of children while the loops run
-/

namespace NcDiff

variable {ω : Prop}

/-! ## Elements that differ in their attributes only -/

/-- Same tag, prefixes, text and children. -/
def SameBody (a b : Elem) : Prop :=
  a.tag = b.tag ∧ a.nsmap = b.nsmap ∧ a.text = b.text ∧ a.kids = b.kids

theorem SameBody.refl (a : Elem) : SameBody a a := ⟨rfl, rfl, rfl, rfl⟩
theorem SameBody.symm {a b : Elem} (h : SameBody a b) : SameBody b a :=
  ⟨h.1.symm, h.2.1.symm, h.2.2.1.symm, h.2.2.2.symm⟩
theorem SameBody.trans {a b c : Elem} (h : SameBody a b) (h' : SameBody b c) : SameBody a c :=
  ⟨h.1.trans h'.1, h.2.1.trans h'.2.1, h.2.2.1.trans h'.2.2.1, h.2.2.2.trans h'.2.2.2⟩
theorem SameBody.set (a : Elem) (n : AName) (v : AVal) : SameBody a (a.set n v) := ⟨rfl, rfl, rfl, rfl⟩

theorem SameBody.cases {P : Elem → Elem → Prop} (h : ∀ t n x ks a a', P (.mk t n a x ks) (.mk t n a' x ks))
    {a b : Elem} (hb : SameBody a b) : P a b := by
  cases a; cases b
  obtain ⟨h1, h2, h3, h4⟩ := hb
  simp only [Elem.tag_mk, Elem.nsmap_mk, Elem.text_mk, Elem.kids_mk] at h1 h2 h3 h4
  subst h1 h2 h3 h4
  exact h _ _ _ _ _ _

theorem uid_body {d : Device} {sc : Scope} {a b : Elem} (h : SameBody a b) : uid d sc a = uid d sc b :=
  SameBody.cases (P := fun a b => uid d sc a = uid d sc b) (fun _ _ _ _ _ _ => rfl) h

theorem kidOk_body {d : Device} {sn : SNode} {a b : Elem} (h : SameBody a b) (hk : KidOk d sn a) :
    KidOk d sn b :=
  SameBody.cases (P := fun a b => KidOk d sn a → KidOk d sn b) (fun _ _ _ _ _ _ h => h) h hk

theorem leafValue_body {sn : SNode} {a b : Elem} (h : SameBody a b) (hk : LeafValueOk sn a) :
    LeafValueOk sn b :=
  SameBody.cases (P := fun a b => LeafValueOk sn a → LeafValueOk sn b) (fun _ _ _ _ _ _ h => h) h hk

theorem parseText_body {d : Device} {sn : SNode} {a b : Elem} (h : SameBody a b) :
    parseText d a sn = parseText d b sn :=
  SameBody.cases (P := fun a b => parseText d a sn = parseText d b sn) (fun _ _ _ _ _ _ => rfl) h

theorem mergeText_body {d : Device} {sn : SNode} {a b s : Elem} (h : SameBody a b) :
    mergeText d sn a s = mergeText d sn b s :=
  SameBody.cases (P := fun a b => mergeText d sn a s = mergeText d sn b s) (fun _ _ _ _ _ _ => rfl) h

theorem delAttrib_body {a b : Elem} (h : SameBody a b) : a.delAttrib = b.delAttrib :=
  SameBody.cases (P := fun a b => a.delAttrib = b.delAttrib) (fun _ _ _ _ _ _ => rfl) h

theorem childrenWith_body {a b : Elem} (h : SameBody a b) (q : QName) :
    a.childrenWith q = b.childrenWith q := by
  unfold Elem.childrenWith; rw [h.2.2.2]

theorem find_body {a b : Elem} (h : SameBody a b) (q : QName) : a.find q = b.find q := by
  unfold Elem.find; rw [h.2.2.2]

theorem valid_body {d : Device} {sc : Scope} {a b : Elem} (h : SameBody a b)
    (hb : (b.attrs.map Prod.fst).Nodup) (hv : Valid d sc a) : Valid d sc b := by
  refine Valid.mk hb ?_ ?_ ?_ <;> rw [← h.2.2.2]
  · exact hv.shape'
  · exact hv.unique'
  · exact hv.sub'

theorem deltaLevel_body {d : Device} {sc : Scope} {a b : Elem} (h : SameBody a b)
    (hd : Deep d (DeltaLevel d) sc a) : Deep d (DeltaLevel d) sc b := by
  obtain ⟨n, s, k, v⟩ := hd.here'
  refine ⟨⟨?_, ?_, ?_, ?_⟩, ?_⟩
  · rw [← h.2.1]; exact n
  all_goals rw [← h.2.2.2]
  · exact s
  · exact k
  · exact v
  · exact hd.sub'

theorem diff_body {d : Device} {sc : Scope} {S T a b : Elem} (h : SameBody a b)
    (hb : (b.attrs.map Prod.fst).Nodup) (hd : Diff ω d sc S T a) : Diff ω d sc S T b := by
  cases hd with
  | mk B gone newC newL both =>
    have hv := valid_body h hb B.vD
    have hl := deltaLevel_body h B.lD
    obtain ⟨vS, nS, vT, vD, lD, aS, aT, tag, value, cellS, cellT, only, g1, g2, n1, n2, bo, out, pos, ends, full, seq, tx⟩ := B
    rw [h.2.2.2] at only g1 g2 n1 n2 bo out pos full seq tx gone newC newL both
    have ends' : ω → ∀ t, UserOrdered d sc t → Ends d sc S T b t := by
      intro w t ht
      have := ends w t ht
      unfold Ends addsOf movesOf at this ⊢
      rw [← h.2.2.2]; exact this
    exact .mk ⟨vS, nS, vT, hv, hl, aS, aT, tag, value, cellS, cellT, only, g1, g2, n1, n2, bo, out, pos, ends', full, seq, tx⟩
      gone newC newL both

theorem setA_names {n : AName} {v : AVal} : ∀ {a : Attrs}, (a.map Prod.fst).Nodup →
    ((Elem.setA n v a).map Prod.fst).Nodup ∧
      ∀ x, x ∈ (Elem.setA n v a).map Prod.fst ↔ x = n ∨ x ∈ a.map Prod.fst
  | [], _ => by simp [Elem.setA]
  | (m, w) :: r, h => by
    rw [List.map_cons, List.nodup_cons] at h
    obtain ⟨h1, h2⟩ := setA_names (n := n) (v := v) h.2
    unfold Elem.setA
    split
    · rename_i hm
      subst hm
      exact ⟨by simpa using ⟨by simpa using h.1, h.2⟩, by simp⟩
    · rename_i hm
      refine ⟨?_, ?_⟩
      · rw [List.map_cons, List.nodup_cons]
        refine ⟨?_, h1⟩
        rw [h2]
        rintro (h3 | h3)
        · exact hm h3
        · exact h.1 h3
      · intro x
        rw [List.map_cons, List.mem_cons, h2, List.map_cons, List.mem_cons]
        tauto

theorem set_names {e : Elem} {n : AName} {v : AVal} (h : (e.attrs.map Prod.fst).Nodup) :
    ((e.set n v).attrs.map Prod.fst).Nodup := (setA_names h).1

theorem lookup_setA {n m : AName} {v : AVal} : ∀ {a : Attrs},
    (Elem.setA n v a).lookup m = if m = n then some v else a.lookup m
  | [] => by
    by_cases h : m = n
    · subst h; simp [Elem.setA]
    · have : (m == n) = false := by simpa using h
      simp [Elem.setA, List.lookup, h, this]
  | (k, w) :: r => by
    unfold Elem.setA
    split
    · rename_i hk
      subst hk
      by_cases h : m = k
      · subst h; simp
      · have : (m == k) = false := by simpa using h
        simp [List.lookup, this, h]
    · rename_i hk
      by_cases h : m = k
      · subst h
        simp [List.lookup, hk]
      · have : (m == k) = false := by simpa using h
        rw [List.lookup_cons, this, List.lookup_cons, this]
        exact lookup_setA

theorem get_set {e : Elem} {n m : AName} {v : AVal} :
    (e.set n v).get m = if m = n then some v else e.get m := lookup_setA

/-! ## The state -/

/-- The children that carry a handle. -/
def cellsOf (φ : Nat → Option Elem) (ks : List Elem) : List Cell :=
  ks.zipIdx.filterMap (fun p => (φ p.2).map (fun e => (some p.2, e)))

/-- The state consists of the original children `ks`, now `φ`, and the markers `M`. -/
def Rep (φ : Nat → Option Elem) (ks M : List Elem) (st : List Cell) : Prop :=
  st.filter (fun c => c.1.isSome) = cellsOf φ ks ∧
    List.Perm ((st.filter (fun c => c.1.isNone)).map Prod.snd) M

theorem rep_init (ks : List Elem) :
    Rep (fun i => ks[i]?) ks [] (ks.zipIdx.map (fun p => (some p.2, p.1))) := by
  refine ⟨?_, ?_⟩
  · rw [List.filter_eq_self.2 (by rintro ⟨a, b⟩ h; obtain ⟨x, _, hx⟩ := List.mem_map.1 h; cases hx; rfl)]
    unfold cellsOf
    rw [← List.filterMap_eq_map]
    refine List.filterMap_congr ?_
    intro p hp
    have := List.mem_zipIdx_iff_getElem?.1 hp
    simp [this]
  · rw [List.filter_eq_nil_iff.2 (by rintro ⟨a, b⟩ h; obtain ⟨x, _, hx⟩ := List.mem_map.1 h; cases hx; simp)]
    simp

theorem rep_set {φ : Nat → Option Elem} {ks M : List Elem} {st : List Cell} (h : Rep φ ks M st)
    {i : Nat} (hi : φ i ≠ none) (e : Elem) :
    Rep (Function.update φ i (some e)) ks M (setCell i e st) := by
  refine ⟨?_, ?_⟩
  · unfold setCell
    rw [List.filter_map]
    have : ((fun c : Cell => c.1.isSome) ∘ fun c : Cell => if isCell i c then (c.1, e) else c) =
        fun c : Cell => c.1.isSome := by
      funext c; simp only [Function.comp]; split <;> rfl
    rw [this, h.1]
    unfold cellsOf
    rw [List.map_filterMap]
    refine List.filterMap_congr ?_
    intro p _
    by_cases hp : p.2 = i
    · subst hp
      cases hφ : φ p.2 with
      | none => exact absurd hφ hi
      | some x => simp [isCell]
    · simp only [Function.update_of_ne hp, Option.map_map]
      cases φ p.2 with
      | none => rfl
      | some x => simp [isCell, hp]
  · unfold setCell
    rw [List.filter_map]
    have : ((fun c : Cell => c.1.isNone) ∘ fun c : Cell => if isCell i c then (c.1, e) else c) =
        fun c : Cell => c.1.isNone := by
      funext c; simp only [Function.comp]; split <;> rfl
    rw [this]
    refine List.Perm.trans (List.Perm.of_eq ?_) h.2
    rw [List.map_map]
    refine List.map_congr_left ?_
    intro c hc
    have hc := (List.mem_filter.1 hc).2
    have : isCell i c = false := by
      unfold isCell
      cases hc1 : c.1 with
      | none => simp
      | some x => simp [hc1] at hc
    simp [this]

theorem rep_remove {φ : Nat → Option Elem} {ks M : List Elem} {st : List Cell} (h : Rep φ ks M st)
    (i : Nat) : Rep (Function.update φ i none) ks M (removeCell i st) := by
  refine ⟨?_, ?_⟩
  · unfold removeCell
    rw [List.filter_filter]
    have : st.filter (fun c => c.1.isSome && !isCell i c) =
        (st.filter (fun c => c.1.isSome)).filter (fun c => !isCell i c) := by
      rw [List.filter_filter]
      refine List.filter_congr ?_
      intro c _; exact Bool.and_comm _ _
    rw [this, h.1]
    unfold cellsOf
    rw [List.filter_filterMap]
    refine List.filterMap_congr ?_
    intro p _
    by_cases hp : p.2 = i
    · subst hp
      cases φ p.2 <;> simp [isCell, Option.filter]
    · simp only [Function.update_of_ne hp]
      cases φ p.2 with
      | none => rfl
      | some x => simp [isCell, hp, Option.filter]
  · unfold removeCell
    rw [List.filter_filter]
    have : st.filter (fun c => c.1.isNone && !isCell i c) = st.filter (fun c => c.1.isNone) := by
      refine List.filter_congr ?_
      intro c _
      cases hc : c.1 <;> simp [isCell, hc]
    rw [this]
    exact h.2

theorem rep_mark {φ : Nat → Option Elem} {ks M l r : List _} {m : Elem}
    (h : Rep φ ks M (l ++ r)) : Rep φ ks (M ++ [m]) (l ++ (none, m) :: r) := by
  refine ⟨?_, ?_⟩
  · rw [← h.1]; simp [List.filter_append]
  · have h2 := h.2
    simp only [List.filter_append, List.map_append, List.filter_cons, Option.isNone_none, if_true,
      List.map_cons] at h2 ⊢
    exact List.perm_middle.trans ((List.Perm.cons _ h2).trans (List.perm_append_singleton _ _).symm)

/-! ## Where the markers are -/

/-- A child with the tag of the cell has an index before `j`, for a child of the target its own index. -/
def CellBefore (ks : List Elem) (a : Cell) (j : Nat) : Prop :=
  ∃ i k, i < j ∧ ks[i]? = some k ∧ k.tag = a.2.tag ∧ ∀ i', a.1 = some i' → i' = i

/-- The children of the target are in their order, and a marker precedes only what comes after a
child of its tag. -/
def Late (ks : List Elem) (st : List Cell) : Prop :=
  st.Pairwise (fun a b => ∀ j, b.1 = some j → CellBefore ks a j)

theorem late_init (ks : List Elem) : Late ks (ks.zipIdx.map (fun p => (some p.2, p.1))) := by
  unfold Late
  rw [List.pairwise_map, List.pairwise_iff_getElem]
  intro i j hi hj hij n hn
  simp only [List.getElem_zipIdx, Nat.zero_add, Option.some.injEq] at hn
  subst hn
  simp only [List.length_zipIdx] at hi hj
  exact ⟨i, ks[i], hij, List.getElem?_eq_getElem hi, by simp, by simp⟩

theorem late_set {ks : List Elem} {st : List Cell} (h : Late ks st) {i : Nat} {k e : Elem}
    (hk : ks[i]? = some k) (he : e.tag = k.tag) : Late ks (setCell i e st) := by
  unfold Late setCell
  rw [List.pairwise_map]
  refine List.Pairwise.imp ?_ h
  intro a b hab j hj
  have hj' : b.1 = some j := by
    split at hj
    · exact hj
    · exact hj
  obtain ⟨i', k', h1, h2, h3, h4⟩ := hab j hj'
  split
  · rename_i hc
    have hc : a.1 = some i := by simpa [isCell] using hc
    have := h4 i hc
    subst this
    exact ⟨i, k, h1, hk, he.symm, h4⟩
  · exact ⟨i', k', h1, h2, h3, h4⟩

theorem late_remove {ks : List Elem} {st : List Cell} (h : Late ks st) (i : Nat) : Late ks (removeCell i st) :=
  List.Pairwise.filter _ h

theorem late_append {ks : List Elem} {st : List Cell} (h : Late ks st) (m : Elem) : Late ks (st ++ [(none, m)]) := by
  unfold Late
  rw [List.pairwise_append]
  refine ⟨h, List.pairwise_singleton _ _, ?_⟩
  intro a _ b hb j hj
  simp only [List.mem_singleton] at hb
  subst hb
  cases hj

theorem late_after {ks : List Elem} {st st' : List Cell} (h : Late ks st) {m : Elem} {t : QName}
    (hm : m.tag = t) (hi : insertAfterLast (hasTag t) (none, m) st = some st') : Late ks st' := by
  obtain ⟨l, x, r, rfl, _, hx, rfl⟩ := insertAfterLast_some hi
  have hx : x.2.tag = t := by simpa [hasTag] using hx
  unfold Late at h ⊢
  rw [List.pairwise_append, List.pairwise_cons] at h ⊢
  obtain ⟨h1, ⟨h2, h3⟩, h4⟩ := h
  refine ⟨h1, ⟨?_, ?_⟩, ?_⟩
  · intro b hb
    rcases List.mem_cons.1 hb with rfl | hb
    · intro j hj; cases hj
    · exact h2 b hb
  · rw [List.pairwise_cons]
    refine ⟨?_, h3⟩
    intro b hb j hj
    obtain ⟨i, k, e1, e2, e3, _⟩ := h2 b hb j hj
    exact ⟨i, k, e1, e2, by rw [e3, hx]; exact hm.symm, by simp⟩
  · intro a ha b hb
    rcases List.mem_cons.1 hb with rfl | hb
    · exact h4 a ha _ (by simp)
    · rcases List.mem_cons.1 hb with rfl | hb
      · intro j hj; cases hj
      · exact h4 a ha b (by simp [hb])

/-- Children that no marker precedes come first. -/
theorem prefix_of_filter {α : Type} {p : α → Bool} : ∀ {st A C : List α}, st.filter p = A ++ C →
    st.Pairwise (fun a b => p a = false → b ∉ A) → ∃ B, st = A ++ B
  | st, [], _, _, _ => ⟨st, rfl⟩
  | [], a :: A, _, h, _ => by simp at h
  | c :: st, a :: A, C, h, hp => by
    rw [List.pairwise_cons] at hp
    by_cases hc : p c = true
    · rw [List.filter_cons, if_pos hc, List.cons_append, List.cons.injEq] at h
      obtain ⟨rfl, h⟩ := h
      obtain ⟨B, rfl⟩ := prefix_of_filter h (hp.2.imp (fun h1 h2 h3 => h1 h2 (by simp [h3])))
      exact ⟨B, rfl⟩
    · have hm : a ∈ st := by
        have : a ∈ (c :: st).filter p := by rw [h]; simp
        have := (List.mem_filter.1 this)
        rcases List.mem_cons.1 this.1 with rfl | hm
        · exact absurd this.2 hc
        · exact hm
      exact absurd (by simp) (hp.1 a hm (by simpa using hc))

/-! ## The order attributes -/

/-- An element that `value` or `key` can name. -/
def Nameable : OrderInfo → Elem → Prop
  | none, e => e.text ≠ none
  | some keys, e => ∀ q ∈ keys, e.find q ≠ none

theorem nameable_body {info : OrderInfo} {a b : Elem} (h : SameBody a b) (hn : Nameable info a) :
    Nameable info b := by
  cases info with
  | none =>
    show b.text ≠ none
    rw [← h.2.2.1]; exact hn
  | some keys =>
    intro q hq
    rw [← find_body h]; exact hn q hq

/-- What `ordered_by_user` says about a tag. -/
def obuFor (obu : List (QName × OrderInfo)) (t : QName) : Option OrderInfo := obu.lookup t

/-- The children after all order attributes are set; `pre` gives the last child seen of each
tag. -/
inductive Ord (obu : List (QName × OrderInfo)) : (QName → Option Elem) → List Cell → List Cell → Prop
  | nil {pre : QName → Option Elem} : Ord obu pre [] []
  | skip {pre : QName → Option Elem} {c : Cell} {r r' : List Cell}
      (h : c.1 = none ∨ obuFor obu c.2.tag = none) (hr : Ord obu pre r r') : Ord obu pre (c :: r) (c :: r')
  | item {pre : QName → Option Elem} {c : Cell} {r r' : List Cell} {info : OrderInfo} {e : Elem}
      (hc : c.1 ≠ none) (ho : obuFor obu c.2.tag = some info)
      (he : orderItem info (pre c.2.tag) c.2 = .ok e)
      (hr : Ord obu (Function.update pre c.2.tag (some c.2)) r r') : Ord obu pre (c :: r) ((c.1, e) :: r')

theorem orderItem_ok {info : OrderInfo} {pre : Option Elem} {e : Elem}
    (h : ∀ p, pre = some p → Nameable info p) : ∃ e', orderItem info pre e = .ok e' := by
  cases pre with
  | none => exact ⟨_, rfl⟩
  | some p =>
    have h := h p rfl
    cases info with
    | none =>
      unfold orderItem
      cases ht : p.text with
      | none => exact absurd ht h
      | some t => simp [ht]
    | some keys =>
      have key : ∀ ks : List QName, (∀ q ∈ ks, q ∈ keys) → ∃ r, keyPreds ks p = .ok r := by
        intro ks
        induction ks with
        | nil => intro _; exact ⟨[], rfl⟩
        | cons q r ih =>
          intro hq
          obtain ⟨r', hr'⟩ := ih (fun x hx => hq x (by simp [hx]))
          unfold keyPreds at hr' ⊢
          rw [List.mapM_cons, hr']
          have := h q (hq q (by simp))
          cases hp : p.find q with
          | none => exact absurd hp this
          | some x => exact ⟨_, rfl⟩
      obtain ⟨r, hr⟩ := key keys (fun _ h => h)
      unfold orderItem
      simp [hr, bind, Except.bind, pure, Except.pure]

theorem orderItem_body {info : OrderInfo} {pre : Option Elem} {e e' : Elem}
    (h : orderItem info pre e = .ok e') : SameBody e e' := by
  unfold orderItem at h
  cases pre with
  | none => cases h; exact SameBody.set _ _ _
  | some p =>
    cases info with
    | none =>
      simp only at h
      cases ht : p.text with
      | none => simp [ht] at h
      | some t => simp only [ht] at h; cases h; exact (SameBody.set _ _ _).trans (SameBody.set _ _ _)
    | some keys =>
      simp only at h
      cases hk : keyPreds keys p with
      | error x => simp [hk, bind, Except.bind] at h
      | ok r => simp only [hk, bind, Except.bind, pure, Except.pure] at h; cases h
                exact (SameBody.set _ _ _).trans (SameBody.set _ _ _)

theorem orderItem_pre {info : OrderInfo} {p p' e : Elem} (h : SameBody p p') :
    orderItem info (some p) e = orderItem info (some p') e := by
  unfold orderItem
  cases info with
  | none => simp only; rw [h.2.2.1]
  | some keys =>
    simp only
    have : keyPreds keys p = keyPreds keys p' := by
      unfold keyPreds
      congr 1; funext k; rw [find_body h]
    rw [this]

theorem obuFor_append {obu : List (QName × OrderInfo)} {t : QName} {info : OrderInfo} {x : QName} :
    obuFor (obu ++ [(t, info)]) x =
      (obuFor obu x).or (if x = t then some info else none) := by
  unfold obuFor
  rw [List.lookup_append]
  by_cases h : x = t
  · subst h; simp
  · have : (x == t) = false := by simpa using h
    simp [List.lookup, this, h]

theorem ord_update {obu : List (QName × OrderInfo)} {t : QName} (ht : obuFor obu t = none)
    {pre : QName → Option Elem} {r r' : List Cell} (h : Ord obu pre r r') :
    ∀ x, Ord obu (Function.update pre t x) r r' := by
  induction h with
  | nil => intro x; exact .nil
  | skip h _ ih => intro x; exact .skip h (ih x)
  | @item pre c r r' info' e' hc ho he hr ih =>
    intro x
    have hne : c.2.tag ≠ t := by
      intro h; rw [h, ht] at ho; cases ho
    refine .item hc ho (by rw [Function.update_of_ne hne]; exact he) ?_
    rw [Function.update_comm (Ne.symm hne)]
    exact ih x

/-- The predecessor of the loop is, up to attributes, the one of the specification. -/
def PreOk (p q : Option Elem) : Prop :=
  (p = none ∧ q = none) ∨ ∃ a b, p = some a ∧ q = some b ∧ SameBody a b

/-- One more tag. -/
theorem ord_step {obu : List (QName × OrderInfo)} {t : QName} {info : OrderInfo}
    (ht : obuFor obu t = none) : ∀ (st : List Cell) {pre : QName → Option Elem} {st1 : List Cell},
    Ord obu pre st st1 → ∀ p : Option Elem, PreOk p (pre t) → (∀ a, p = some a → Nameable info a) →
    (∀ c ∈ st, c.1 ≠ none → c.2.tag = t → Nameable info c.2) →
    ∃ st2, orderTag t info p st1 = .ok st2 ∧ Ord (obu ++ [(t, info)]) pre st st2
  | [], _, _, h, _, _, _, _ => by cases h; exact ⟨[], rfl, .nil⟩
  | c :: r, pre, st1, h, p, hp, hn, hst => by
    have hst' : ∀ x ∈ r, x.1 ≠ none → x.2.tag = t → Nameable info x.2 := fun x hx => hst x (by simp [hx])
    cases h with
    | @skip _ _ _ r' hc hr =>
      by_cases hsel : c.1.isSome = true ∧ c.2.tag = t
      · have hc1 : c.1 ≠ none := by
          intro h; rw [h] at hsel; simp at hsel
        obtain ⟨e, he⟩ := orderItem_ok (info := info) (pre := p) (e := c.2) hn
        have hb := orderItem_body he
        obtain ⟨st2, h2, h3⟩ := ord_step ht r (ord_update ht hr (some c.2)) (some e)
          (Or.inr ⟨e, c.2, rfl, by simp, hb.symm⟩)
          (by intro a ha; cases ha; exact nameable_body hb (hst c (by simp) hc1 hsel.2)) hst'
        refine ⟨(c.1, e) :: st2, ?_, ?_⟩
        · rw [orderTag, if_pos hsel]
          simp [he, h2, bind, Except.bind, pure, Except.pure]
        · refine .item (info := info) hc1 (by rw [obuFor_append, hsel.2, ht]; simp) ?_ (by rw [hsel.2]; exact h3)
          rw [hsel.2]
          rcases hp with ⟨h4, h5⟩ | ⟨a, b, h4, h5, h6⟩
          · rw [h5, ← h4]; exact he
          · rw [h5, ← orderItem_pre h6, ← h4]; exact he
      · obtain ⟨st2, h2, h3⟩ := ord_step ht r hr p hp hn hst'
        refine ⟨c :: st2, ?_, ?_⟩
        · rw [orderTag, if_neg hsel]
          simp [h2, bind, Except.bind, pure, Except.pure]
        · refine .skip ?_ h3
          rcases hc with hc | hc
          · exact Or.inl hc
          · by_cases h4 : c.1 = none
            · exact Or.inl h4
            · right
              have h5 : c.2.tag ≠ t := by
                intro h
                apply hsel
                refine ⟨?_, h⟩
                cases h6 : c.1 with
                | none => exact absurd h6 h4
                | some _ => rfl
              rw [obuFor_append, hc]
              simp [h5]
    | @item _ _ _ r' info' e' hc ho he hr =>
      have hne : c.2.tag ≠ t := by
        intro h; rw [h, ht] at ho; cases ho
      have hb := orderItem_body he
      obtain ⟨st2, h2, h3⟩ := ord_step ht r hr p (by rw [Function.update_of_ne (Ne.symm hne)]; exact hp) hn hst'
      refine ⟨(c.1, e') :: st2, ?_, ?_⟩
      · rw [orderTag, if_neg (by rintro ⟨_, h⟩; rw [← hb.1] at h; exact hne h)]
        simp [h2, bind, Except.bind, pure, Except.pure]
      · exact .item hc (by rw [obuFor_append, ho]; rfl) he h3

theorem ord_nil : ∀ (st : List Cell) (pre : QName → Option Elem), Ord [] pre st st
  | [], _ => .nil
  | _ :: r, pre => .skip (Or.inr rfl) (ord_nil r pre)

/-- All tags. -/
theorem orderAll_ord {st : List Cell} : ∀ (obu done : List (QName × OrderInfo)) (st1 : List Cell),
    ((done ++ obu).map Prod.fst).Nodup → Ord done (fun _ => none) st st1 →
    (∀ p ∈ obu, ∀ c ∈ st, c.1 ≠ none → c.2.tag = p.1 → Nameable p.2 c.2) →
    ∃ st2, orderAll obu st1 = .ok st2 ∧ Ord (done ++ obu) (fun _ => none) st st2
  | [], done, st1, _, h, _ => ⟨st1, rfl, by simpa using h⟩
  | (t, info) :: obu, done, st1, hn, h, hst => by
    have ht : obuFor done t = none := by
      unfold obuFor
      rw [List.lookup_eq_none_iff]
      intro p hp
      rw [List.map_append, List.nodup_append] at hn
      have := hn.2.2 p.1 (List.mem_map_of_mem hp) t (by simp)
      simpa using fun h => this h.symm
    obtain ⟨st2, h2, h3⟩ := ord_step (info := info) ht st h none (Or.inl ⟨rfl, rfl⟩) (by simp)
      (hst (t, info) (by simp))
    obtain ⟨st3, h4, h5⟩ := orderAll_ord obu (done ++ [(t, info)]) st2 (by simpa using hn) h3
      (fun p hp => hst p (by simp [hp]))
    refine ⟨st3, ?_, by simpa using h5⟩
    unfold orderAll at h4 ⊢
    rw [List.foldlM_cons]
    simp only [h2, bind, Except.bind]
    exact h4

/-! ## Consequences of `Ord` -/

theorem ord_cells {obu : List (QName × OrderInfo)} {pre : QName → Option Elem} {st st' : List Cell}
    (h : Ord obu pre st st') :
    List.Forall₂ (fun c c' => c'.1 = c.1 ∧ SameBody c.2 c'.2 ∧
      (c.1 = none ∨ obuFor obu c.2.tag = none → c' = c)) st st' := by
  induction h with
  | nil => exact .nil
  | skip _ _ ih => exact .cons ⟨rfl, SameBody.refl _, fun _ => rfl⟩ ih
  | item hc ho he _ ih =>
    refine .cons ⟨rfl, orderItem_body he, ?_⟩ ih
    rintro (h | h)
    · exact absurd h hc
    · rw [h] at ho; cases ho

/-- The last child with the tag that carries a handle. -/
def lastOf (t : QName) (l : List Cell) (p : Option Elem) : Option Elem :=
  (((l.filter (fun c => c.1.isSome && decide (c.2.tag = t))).getLast?).map Prod.snd).or p

theorem lastOf_cons {t : QName} {c : Cell} {l : List Cell} {p : Option Elem} :
    lastOf t (c :: l) p = lastOf t l (if c.1.isSome && decide (c.2.tag = t) then some c.2 else p) := by
  unfold lastOf
  rw [List.filter_cons]
  split
  · rename_i h
    rw [List.getLast?_cons]
    cases (l.filter (fun c => c.1.isSome && decide (c.2.tag = t))).getLast? <;> simp
  · rfl

theorem ord_item {obu : List (QName × OrderInfo)} {pre : QName → Option Elem} {st st' : List Cell}
    (h : Ord obu pre st st') : ∀ c' ∈ st', c'.1 ≠ none → ∀ info, obuFor obu c'.2.tag = some info →
    ∃ l c r, st = l ++ c :: r ∧ c.1 = c'.1 ∧
      orderItem info (lastOf c.2.tag l (pre c.2.tag)) c.2 = .ok c'.2 := by
  induction h with
  | nil => simp
  | @skip pre c r r' hs _ ih =>
    intro c' hc' h1 info hi
    rcases List.mem_cons.1 hc' with rfl | hc'
    · rcases hs with hs | hs
      · exact absurd hs h1
      · rw [hi] at hs; cases hs
    · obtain ⟨l, x, r1, rfl, hx, he⟩ := ih c' hc' h1 info hi
      refine ⟨c :: l, x, r1, rfl, hx, ?_⟩
      rw [lastOf_cons]
      rcases hs with hs | hs
      · simpa [hs] using he
      · have : c.2.tag ≠ x.2.tag := by
          intro h
          rw [h, (orderItem_body he).1, hi] at hs; cases hs
        simpa [this] using he
  | @item pre c r r' info0 e hc ho he0 _ ih =>
    intro c' hc' h1 info hi
    rcases List.mem_cons.1 hc' with rfl | hc'
    · refine ⟨[], c, r, rfl, rfl, ?_⟩
      have : info = info0 := by
        simp only [← (orderItem_body he0).1, ho] at hi
        exact (Option.some.inj hi).symm
      subst this
      simpa [lastOf] using he0
    · obtain ⟨l, x, r1, rfl, hx, he⟩ := ih c' hc' h1 info hi
      refine ⟨c :: l, x, r1, rfl, hx, ?_⟩
      rw [lastOf_cons]
      have hcs : c.1.isSome = true := by cases h : c.1 with
        | none => exact absurd h hc
        | some _ => rfl
      by_cases ht : c.2.tag = x.2.tag
      · rw [← ht, Function.update_self] at he
        rw [if_pos (by simp [hcs, ht]), ← ht]
        exact he
      · rw [Function.update_of_ne (Ne.symm ht)] at he
        simpa [ht] using he

end NcDiff
