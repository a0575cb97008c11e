import Verif.Proof.Order
import Verif.Proof.Unique
import Verif.Proof.Laws
import Verif.Proof.Loose
/-!
# Applying a delta that describes the difference: one level

`Level ω d sc S T D` says, for the children of `S` (source), `T` (target) and `D` (delta), that each
child of the delta turns the source's child into the target's, and that the `insert` attributes
describe the order of the target.  Then `S + D` succeeds and is `T`; the order of user-ordered
entries counts if `ω`.
-/

namespace NcDiff

/-- A child that `value` and `key` attributes can name: leaf-list values have a text; keys are
leaves with a text. -/
def Keyed (sn : SNode) (x : Elem) : Prop :=
  match sn.ntype with
  | .leafList => sn.info.datatype.plain ∧ x.text ≠ none
  | .list => ∀ q ∈ sn.keys, ∃ c t, x.childrenWith q = [c] ∧ c.kids = [] ∧ c.text = some t
  | _ => True

/-- The text of a key. -/
def keyText (x : Elem) (q : QName) : String := ((x.find q).bind Elem.text).getD ""

/-- The `value` or `key` attribute of `o` names `p`. -/
def Anchors (sn : SNode) (o p : Elem) : Prop :=
  match sn.ntype with
  | .leafList => ∃ v, o.get .value = some (.str v) ∧ p.text = some v
  | .list => ∃ ps, o.get .key = some (.pred ps) ∧
      parsePreds o.nsmap ps = .ok (sn.keys.map (fun q => (q, keyText p q)))
  | _ => False

/-- A child with a schema node, of the right shape, that can be named. -/
def CellOk (d : Device) (sc : Scope) (e : Elem) : Prop :=
  ∃ f, d.lookup sc e.tag = .ok f ∧ KidOk d f.node e ∧ (f.node.userOrdered = true → Keyed f.node e)

theorem keyed_keyText {sn : SNode} {x : Elem} (hn : sn.ntype = .list) (h : Keyed sn x) {q : QName}
    (hq : q ∈ sn.keys) : keyTexts x q = [some (keyText x q)] ∧
      ∃ c, x.childrenWith q = [c] ∧ c.itertext = keyText x q := by
  unfold Keyed at h
  simp only [hn] at h
  obtain ⟨c, t, hc, hk, ht⟩ := h q hq
  have e : keyText x q = t := by
    unfold keyText; rw [find_childrenWith hc]; simp [ht]
  refine ⟨by simp [keyTexts, hc, ht, e], c, hc, ?_⟩
  rw [e]
  cases c
  simp only [Elem.kids_mk, Elem.text_mk] at hk ht
  subst hk ht
  simp [Elem.itertext, Elem.itertextList]

/-- The test for the anchor selects exactly the instance of the anchor. -/
theorem anchor_iff {d : Device} {sc : Scope} {o p : Elem} {f : Found}
    (hf : d.lookup sc p.tag = .ok f) (hu : f.node.userOrdered = true) (ht : o.tag = p.tag)
    (hp : CellOk d sc p) (ha : Anchors f.node o p) :
    ∃ P, (f.node.ntype = .leafList → valueAnchor o = .ok P) ∧
      (f.node.ntype = .list → keyAnchor o = .ok P) ∧
      ∀ c : Cell, CellOk d sc c.2 → (P c = true ↔ uid d sc c.2 = uid d sc p) := by
  obtain ⟨f', hf', kp, kdp⟩ := hp
  rw [hf] at hf'; cases hf'
  have kdp := kdp hu
  unfold Anchors at ha
  cases hn : f.node.ntype <;> simp only [hn] at ha
  · -- leaf-list
    obtain ⟨v, hv, hpv⟩ := ha
    refine ⟨valueIs o.tag (.str v), fun _ => by simp [valueAnchor, hv], (by simp), ?_⟩
    intro c hc
    obtain ⟨g, hg, kc, kdc⟩ := hc
    unfold valueIs
    simp only [Bool.and_eq_true, decide_eq_true_eq, ht]
    constructor
    · rintro ⟨h1, h2⟩
      rw [h1, hf] at hg; cases hg
      rw [uid_eq_iff (by rw [h1]; exact hf) kc kp h1]
      refine ⟨h1, fun f' hf' => ?_⟩
      rw [h1, hf] at hf'; cases hf'
      have hpl : f.node.info.datatype.plain := by unfold Keyed at kdp; simp only [hn] at kdp; exact kdp.1
      simp only [hn]
      rw [parseText_plain hpl (by rw [hn]; decide), parseText_plain hpl (by rw [hn]; decide), h2, hpv]
    · intro h
      have h1 : c.2.tag = p.tag := by rw [← uid_tag d sc, h, uid_tag]
      rw [h1, hf] at hg; cases hg
      rw [uid_eq_iff (by rw [h1]; exact hf) kc kp h1] at h
      have h3 := h.2 f (by rw [h1]; exact hf)
      have hpl : f.node.info.datatype.plain := by unfold Keyed at kdp; simp only [hn] at kdp; exact kdp.1
      simp only [hn] at h3
      rw [parseText_plain hpl (by rw [hn]; decide), parseText_plain hpl (by rw [hn]; decide)] at h3
      exact ⟨h1, (Except.ok.inj h3).trans hpv⟩
  · obtain ⟨ps, hps, hq⟩ := ha
    refine ⟨keyIs o.tag (f.node.keys.map (fun q => (q, keyText p q))), (by simp), fun _ => ?_, ?_⟩
    · simp [keyAnchor, hps, hq, bind, Except.bind, pure, Except.pure]
    intro c hc
    obtain ⟨g, hg, kc, kdc⟩ := hc
    unfold keyIs
    simp only [Bool.and_eq_true, decide_eq_true_eq, ht, List.all_eq_true, List.mem_map]
    have hcom : c.2.tag = p.tag → (uid d sc c.2 = uid d sc p ↔
        ∀ q ∈ f.node.keys, keyTexts c.2 q = keyTexts p q) := by
      intro h1
      rw [h1, hf] at hg; cases hg
      rw [uid_eq_iff (by rw [h1]; exact hf) kc kp h1]
      constructor
      · intro h
        have := h.2 f (by rw [h1]; exact hf)
        simpa only [hn] using this
      · intro h
        refine ⟨h1, fun f' hf' => ?_⟩
        rw [h1, hf] at hf'; cases hf'
        simpa only [hn] using h
    constructor
    · rintro ⟨h1, h2⟩
      rw [hcom h1]
      intro q hq
      have := h2 (q, keyText p q) ⟨q, hq, rfl⟩
      rw [h1, hf] at hg; cases hg
      obtain ⟨e1, c1, c2, c3⟩ := keyed_keyText hn (kdc hu) hq
      obtain ⟨e2, _⟩ := keyed_keyText hn kdp hq
      rw [e1, e2]
      rw [c2] at this
      simp only [List.any_cons, List.any_nil, Bool.or_false, decide_eq_true_eq] at this
      rw [← c3, this]
    · intro h
      have h1 : c.2.tag = p.tag := by rw [← uid_tag d sc, h, uid_tag]
      refine ⟨h1, ?_⟩
      rintro _ ⟨q, hq, rfl⟩
      have := (hcom h1).1 h q hq
      rw [h1, hf] at hg; cases hg
      obtain ⟨e1, c1, c2, c3⟩ := keyed_keyText hn (kdc hu) hq
      obtain ⟨e2, _⟩ := keyed_keyText hn kdp hq
      rw [e1, e2] at this
      rw [c2]
      simp only [List.any_cons, List.any_nil, Bool.or_false, decide_eq_true_eq]
      rw [c3]
      simpa using this

/-- The `insert` attribute of `o` describes the position of `k` among the children of `T`. -/
def PosOk (d : Device) (sc : Scope) (S T : Elem) (f : Found) (o k : Elem) : Prop :=
  (insertOf o = some "first" ∧
    ∃ r, (T.kids.map (uid d sc)).filter (fun u => u.1 = k.tag) = uid d sc k :: r) ∨
  (insertOf o = some "after" ∧ ∃ p ∈ T.kids, Anchors f.node o p ∧
    ∃ l r, (T.kids.map (uid d sc)).filter (fun u => u.1 = k.tag) = l ++ uid d sc p :: uid d sc k :: r) ∨
  (insertOf o = none ∧ ((∀ s ∈ S.kids, s.tag ≠ k.tag) ∨
    (S.kids.map (uid d sc)).filter (fun u => u.1 = k.tag) = (T.kids.map (uid d sc)).filter (fun u => u.1 = k.tag)))

/-- The instances with tag `t` of the target. -/
abbrev targetOf (d : Device) (sc : Scope) (T : Elem) (t : QName) : List UID :=
  (T.kids.map (uid d sc)).filter (fun u => u.1 = t)

/-- The instances with tag `t` that stay, in the order of the source. -/
abbrev staysOf (d : Device) (sc : Scope) (S T : Elem) (t : QName) : List UID :=
  (S.kids.map (uid d sc)).filter (fun u => u.1 = t ∧ u ∈ T.kids.map (uid d sc))

/-- The instances with tag `t` that the delta adds. -/
abbrev addsOf (d : Device) (sc : Scope) (S T D : Elem) (t : QName) : List UID :=
  (D.kids.map (uid d sc)).filter (fun u => u.1 = t ∧ u ∈ T.kids.map (uid d sc) ∧ u ∉ S.kids.map (uid d sc))

/-- The instances with tag `t` that stay and are in the delta, in the order of the source. -/
abbrev movesOf (d : Device) (sc : Scope) (S T D : Elem) (t : QName) : List UID :=
  (S.kids.map (uid d sc)).filter (fun u => u.1 = t ∧ u ∈ T.kids.map (uid d sc) ∧ u ∈ D.kids.map (uid d sc))

/-- Moving the instances with tag `t` one after another ends in the order of the target. -/
def Ends (d : Device) (sc : Scope) (S T D : Elem) (t : QName) : Prop :=
  (addsOf d sc S T D t ++ movesOf d sc S T D t).foldl (goTo (targetOf d sc T t)) (staysOf d sc S T t) =
    targetOf d sc T t

/-- See the head of the file. -/
structure Level (ω : Prop) (d : Device) (sc : Scope) (S T D : Elem) : Prop where
  vS : Valid d sc S
  nS : KidsHonest d sc S
  vT : Valid d sc T
  vD : Valid d sc D
  lD : DeltaLevel d sc D
  tag : S.tag = T.tag
  value : parseTextAt d sc S = parseTextAt d sc T
  attrsS : S.attrs = []
  attrsT : T.attrs = []
  cellS : ∀ s ∈ S.kids, CellOk d sc s
  cellT : ∀ k ∈ T.kids, CellOk d sc k
  only : ∀ o ∈ D.kids, (∃ k ∈ T.kids, uid d sc k = uid d sc o) ∨ (∃ s ∈ S.kids, uid d sc s = uid d sc o)
  new : ∀ k ∈ T.kids, (∀ s ∈ S.kids, uid d sc s ≠ uid d sc k) →
    ∃ o ∈ D.kids, uid d sc o = uid d sc k ∧
      (opOf o = "merge" ∨ opOf o = "replace" ∨ opOf o = "create") ∧
      ∀ f, d.lookup sc k.tag = .ok f → ∃ e, newContent f (o, addFn d o) = .ok e ∧ CellOk d sc e ∧
        SameW ω d (.node f.node) e k
  peer : ∀ s ∈ S.kids, ∀ k ∈ T.kids, ∀ o ∈ D.kids, uid d sc s = uid d sc k → uid d sc o = uid d sc k →
    ∀ f, d.lookup sc k.tag = .ok f → ∃ x e, peerContent d f.node (o, addFn d o) s = .ok x ∧
      x.elem s = some e ∧ CellOk d sc e ∧ SameW ω d (.node f.node) e k
  gone : ∀ s ∈ S.kids, (∀ k ∈ T.kids, uid d sc k ≠ uid d sc s) →
    ∃ m ∈ D.kids, uid d sc m = uid d sc s ∧ ∀ f, d.lookup sc s.tag = .ok f →
      (f.node.ntype = .leafList ∨ f.node.ntype = .list → opOf m = "delete" ∨ opOf m = "remove") ∧
      ∃ x, peerContent d f.node (m, addFn d m) s = .ok x ∧ x.elem s = none
  out : ∀ s ∈ S.kids, ∀ k ∈ T.kids, uid d sc s = uid d sc k → (∀ o ∈ D.kids, uid d sc o ≠ uid d sc k) →
    ∀ f, d.lookup sc k.tag = .ok f → SameConfig d (.node f.node) s k
  pos : ∀ o ∈ D.kids, ∀ k ∈ T.kids, uid d sc o = uid d sc k → ∀ f, d.lookup sc k.tag = .ok f →
    f.node.userOrdered = true → (f.node.ntype = .leafList ∨ f.node.ntype = .list) → PosOk d sc S T f o k
  ends : ω → ∀ t, UserOrdered d sc t → Ends d sc S T D t
  seq : ((D.kids.map (uid d sc)).filter (fun u => u ∈ T.kids.map (uid d sc))).Sublist
    (T.kids.map (uid d sc))

/-- Nothing moves if the instances are in the order of the target. -/
theorem Ends.same {d : Device} {sc : Scope} {S T D : Elem} {t : QName} (hT : (T.kids.map (uid d sc)).Nodup)
    (h : (S.kids.map (uid d sc)).filter (fun u => u.1 = t) = targetOf d sc T t) : Ends d sc S T D t := by
  have hs : staysOf d sc S T t = targetOf d sc T t := by
    rw [← h]
    refine List.filter_congr ?_
    intro u hu
    rw [Bool.eq_iff_iff]
    simp only [decide_eq_true_eq]
    refine ⟨fun h => h.1, fun hut => ⟨hut, ?_⟩⟩
    have : u ∈ (S.kids.map (uid d sc)).filter (fun u => u.1 = t) := List.mem_filter.2 ⟨hu, by simpa using hut⟩
    rw [h] at this
    exact (List.mem_filter.1 this).1
  unfold Ends
  rw [hs, fold_self (hT.filter _)]
  intro u hu
  rcases List.mem_append.1 hu with hu | hu
  all_goals
    have := (List.mem_filter.1 hu).2
    simp only [decide_eq_true_eq] at this
    exact List.mem_filter.2 ⟨this.2.1, by simpa using this.1⟩

/-- Everything is new. -/
theorem Ends.fresh {d : Device} {sc : Scope} {S T D : Elem} {t : QName} (hT : (T.kids.map (uid d sc)).Nodup)
    (hD : D.kids.map (uid d sc) = T.kids.map (uid d sc)) (hS : ∀ s ∈ S.kids, s.tag ≠ t) : Ends d sc S T D t := by
  have hno : ∀ u ∈ S.kids.map (uid d sc), u.1 ≠ t := by
    intro u hu
    obtain ⟨s, hs, rfl⟩ := List.mem_map.1 hu
    rw [uid_tag]; exact hS s hs
  have h1 : staysOf d sc S T t = [] := by
    rw [List.filter_eq_nil_iff]
    intro u hu
    simp [hno u hu]
  have h2 : movesOf d sc S T D t = [] := by
    rw [List.filter_eq_nil_iff]
    intro u hu
    simp [hno u hu]
  have h3 : addsOf d sc S T D t = targetOf d sc T t := by
    unfold addsOf targetOf
    rw [hD]
    refine List.filter_congr ?_
    intro u hu
    rw [Bool.eq_iff_iff]
    simp only [decide_eq_true_eq]
    exact ⟨fun h => h.1, fun h => ⟨h, hu, fun hm => hno u hm h⟩⟩
  unfold Ends
  rw [h1, h2, h3, List.append_nil, fold_next (hT.filter _) (A := []) (B := []) (by simp), List.nil_append]

/-! ## Folds -/

theorem foldlM_ok' {σ α : Type} {f : σ → α → Except Err σ} {P : List α → σ → Prop} :
    ∀ (l done : List α) (s : σ), P done s →
    (∀ dn a td s, done ++ l = dn ++ a :: td → P dn s → ∃ s', f s a = .ok s' ∧ P (dn ++ [a]) s') →
    ∃ s', l.foldlM f s = .ok s' ∧ P (done ++ l) s'
  | [], done, s, h, _ => ⟨s, rfl, by simpa using h⟩
  | a :: l, done, s, h, hstep => by
    obtain ⟨s1, h1, h2⟩ := hstep done a l s rfl h
    obtain ⟨s2, h3, h4⟩ := foldlM_ok' (f := f) l (done ++ [a]) s1 h2 (by simpa using hstep)
    refine ⟨s2, ?_, by simpa using h4⟩
    rw [List.foldlM_cons, h1]
    exact h3

theorem foldlM_ok {σ α : Type} {f : σ → α → Except Err σ} {P : List α → σ → Prop} {l : List α} {s : σ}
    (h0 : P [] s)
    (hstep : ∀ dn a td s, l = dn ++ a :: td → P dn s → ∃ s', f s a = .ok s' ∧ P (dn ++ [a]) s') :
    ∃ s', l.foldlM f s = .ok s' ∧ P l s' := by
  simpa using foldlM_ok' (f := f) (P := P) l [] s h0 (by simpa using hstep)

/-! ## Inclusion from instances -/

theorem incl_of_uids {ω : Prop} {d : Device} {sc : Scope} {a b : Elem}
    (ca : ∀ x ∈ a.kids, ∃ f, d.lookup sc x.tag = .ok f ∧ KidOk d f.node x)
    (cb : ∀ x ∈ b.kids, ∃ f, d.lookup sc x.tag = .ok f ∧ KidOk d f.node x)
    (tag : a.tag = b.tag) (value : parseTextAt d sc a = parseTextAt d sc b) (attrs : a.attrs = [])
    (kids : ∀ x ∈ a.kids, ∃ y ∈ b.kids, uid d sc x = uid d sc y)
    (sub : ∀ x ∈ a.kids, ∀ y ∈ b.kids, uid d sc x = uid d sc y → ∀ f, d.lookup sc x.tag = .ok f →
      InclW ω d (.node f.node) x y)
    (ord : ω → ∀ t, UserOrdered d sc t → (a.kids.map (uid d sc)).filter (fun u => u.1 = t) =
      (b.kids.map (uid d sc)).filter (fun u => u.1 = t)) : InclW ω d sc a b := by
  have iff : ∀ x ∈ a.kids, ∀ y ∈ b.kids, uid d sc x = uid d sc y ↔ SameInstance d sc x y := by
    intro x hx y hy
    obtain ⟨f, hf, kf⟩ := ca x hx
    obtain ⟨g, hg, kg⟩ := cb y hy
    exact uid_eq_iff' hf kf hg kg
  refine ⟨tag, value, by simp [attrs], ?_, ?_, ?_⟩
  · intro x hx
    obtain ⟨y, hy, h⟩ := kids x hx
    exact ⟨y, hy, (iff x hx y hy).1 h⟩
  · intro x hx y hy h f hf
    exact sub x hx y hy ((iff x hx y hy).2 h) f hf
  · intro w x y hb ht hu
    have h1 : [uid d sc x, uid d sc y].Sublist ((b.kids.map (uid d sc)).filter (fun u => u.1 = x.tag)) := by
      rw [← ord w _ hu]
      have := (hb.map (uid d sc)).filter (fun u => decide (u.1 = x.tag))
      simpa [List.filter_cons, uid_tag, ht] using this
    have h2 := h1.trans List.filter_sublist
    obtain ⟨l, hl, he⟩ := List.sublist_map_iff.1 h2
    match l, hl, he with
    | [], _, he => simp at he
    | [_], _, he => simp at he
    | _ :: _ :: _ :: _, _, he => simp at he
    | [x', y'], hl, he =>
      simp only [List.map_cons, List.map_nil, List.cons.injEq, and_true] at he
      have hx' : x' ∈ b.kids := hl.subset (by simp)
      have hy' : y' ∈ b.kids := hl.subset (by simp)
      exact ⟨x', y', hl, (iff x hb.mem_left x' hx').1 he.1, (iff y hb.mem_right y' hy').1 he.2⟩

end NcDiff
