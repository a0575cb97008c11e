import Mathlib.Data.List.Perm.Basic
import Mathlib.Data.List.Nodup
import Mathlib.Data.List.Forall2
import Verif.Spec.Compat
import Verif.Proof.ModelDiff
/-!
# Schema trees without the order of siblings
-/

namespace NcDiff

/-- Two schema nodes that differ in the order of siblings only. -/
inductive Alike : SNode → SNode → Prop where
  | mk {a b : SNode} (l : List SNode) (info : a.info = b.info) (perm : l.Perm b.kids)
      (len : a.kids.length = l.length)
      (sub : ∀ (i : Nat) x y, a.kids[i]? = some x → l[i]? = some y → Alike x y) : Alike a b

theorem forall₂_of_idx {R : α → β → Prop} : ∀ {l : List α} {m : List β}, l.length = m.length →
    (∀ (i : Nat) x y, l[i]? = some x → m[i]? = some y → R x y) → List.Forall₂ R l m
  | [], [], _, _ => .nil
  | [], _ :: _, h, _ => by simp at h
  | _ :: _, [], h, _ => by simp at h
  | x :: l, y :: m, hl, h =>
    .cons (h 0 x y rfl rfl) (forall₂_of_idx (by simpa using hl) fun i a b ha hb => h (i + 1) a b (by simpa using ha) (by simpa using hb))

theorem idx_of_forall₂ {R : α → β → Prop} {l : List α} {m : List β} (h : List.Forall₂ R l m) :
    l.length = m.length ∧ ∀ (i : Nat) x y, l[i]? = some x → m[i]? = some y → R x y := by
  induction h with
  | nil => simp
  | cons hab _ ih =>
    refine ⟨by simp [ih.1], fun i x y hx hy => ?_⟩
    cases i with
    | zero => simp at hx hy; subst hx hy; exact hab
    | succ i => exact ih.2 i x y (by simpa using hx) (by simpa using hy)

theorem Alike.of {a b : SNode} {l : List SNode} (info : a.info = b.info) (perm : l.Perm b.kids)
    (sub : List.Forall₂ Alike a.kids l) : Alike a b :=
  .mk l info perm (idx_of_forall₂ sub).1 (idx_of_forall₂ sub).2

theorem Alike.kids {a b : SNode} (h : Alike a b) : ∃ l, l.Perm b.kids ∧ List.Forall₂ Alike a.kids l := by
  cases h with
  | mk l _ hp hl hs => exact ⟨l, hp, forall₂_of_idx hl hs⟩

theorem Alike.info {a b : SNode} (h : Alike a b) : a.info = b.info := by cases h; assumption

/-! ## Look-ups -/

mutual
/-- The nodes of `dataNodes` without their positions. -/
def cands (tag : QName) (inCase : Bool) : List SNode → List (SNode × Bool)
  | [] => []
  | s :: r => cand tag inCase s ++ cands tag inCase r
def cand (tag : QName) (inCase : Bool) : SNode → List (SNode × Bool)
  | .mk info kids =>
    if info.ntype = .choice then cands tag false kids
    else if info.ntype = .case then cands tag true kids
    else if info.tag = tag then [(.mk info kids, inCase)] else []
end

theorem SNode.ind {P : SNode → Prop} (h : ∀ i ks, (∀ k ∈ ks, P k) → P (.mk i ks)) : ∀ s, P s :=
  fun s => SNode.rec (motive_1 := P) (motive_2 := fun ks => ∀ k ∈ ks, P k)
    (fun i ks ih => h i ks ih) (fun _ hk => nomatch hk)
    (fun k ks ih1 ih2 k' hk' => by
      cases hk' with
      | head => exact ih1
      | tail _ hm => exact ih2 _ hm) s

theorem dataNodes_cands_of {tag : QName} : ∀ (ks : List SNode),
    (∀ k ∈ ks, ∀ pre ic i, (dataNode tag pre ic i k).map (fun f => (f.node, f.underCase)) = cand tag ic k) →
    ∀ pre ic i, (dataNodes tag pre ic i ks).map (fun f => (f.node, f.underCase)) = cands tag ic ks
  | [], _, _, _, _ => by simp [dataNodes, cands]
  | k :: r, h, pre, ic, i => by
    rw [dataNodes, cands, List.map_append, h k (by simp), dataNodes_cands_of r fun k hk => h k (by simp [hk])]

theorem dataNode_cand {tag : QName} (s : SNode) : ∀ pre ic i,
    (dataNode tag pre ic i s).map (fun f => (f.node, f.underCase)) = cand tag ic s := by
  induction s using SNode.ind with
  | h info ks ih =>
    intro pre ic i
    rw [dataNode, cand]
    split
    · exact dataNodes_cands_of ks ih _ _ _
    · split
      · exact dataNodes_cands_of ks ih _ _ _
      · split <;> simp

theorem dataNodes_cands {tag : QName} (ks : List SNode) (pre ic i) :
    (dataNodes tag pre ic i ks).map (fun f => (f.node, f.underCase)) = cands tag ic ks :=
  dataNodes_cands_of ks (fun k _ => dataNode_cand k) pre ic i

theorem cands_eq {tag : QName} {ic : Bool} : ∀ ks, cands tag ic ks = ks.flatMap (cand tag ic)
  | [] => rfl
  | k :: r => by rw [cands, cands_eq r]; rfl

/-- Two candidates that correspond. -/
def CandAlike (x y : SNode × Bool) : Prop := Alike x.1 y.1 ∧ x.2 = y.2

/-- Two lists that correspond up to the order. -/
def UpTo (R : α → β → Prop) (l : List α) (m : List β) : Prop := ∃ m', m'.Perm m ∧ List.Forall₂ R l m'

theorem UpTo.append {R : α → β → Prop} {l l' : List α} {m m' : List β} (h : UpTo R l m) (h' : UpTo R l' m') :
    UpTo R (l ++ l') (m ++ m') := by
  obtain ⟨x, hx, hf⟩ := h
  obtain ⟨y, hy, hg⟩ := h'
  exact ⟨x ++ y, hx.append hy, List.rel_append hf hg⟩

theorem UpTo.perm {R : α → β → Prop} {l : List α} {m m' : List β} (h : UpTo R l m) (hp : m.Perm m') : UpTo R l m' := by
  obtain ⟨x, hx, hf⟩ := h
  exact ⟨x, hx.trans hp, hf⟩

theorem cands_forall₂ {tag : QName} {ic : Bool} {l m : List SNode} (h : List.Forall₂ Alike l m)
    (hc : ∀ x ∈ l, ∀ y, Alike x y → ∀ ic, UpTo CandAlike (cand tag ic x) (cand tag ic y)) :
    UpTo CandAlike (cands tag ic l) (cands tag ic m) := by
  induction h with
  | nil => exact ⟨[], by simp [cands], by simp [cands]⟩
  | cons hab _ ih =>
    rw [cands, cands]
    exact (hc _ (by simp) _ hab _).append (ih fun x hx => hc x (by simp [hx]))

theorem cand_alike {tag : QName} (s : SNode) : ∀ t, Alike s t → ∀ ic, UpTo CandAlike (cand tag ic s) (cand tag ic t) := by
  induction s using SNode.ind with
  | h info ks ih =>
    intro t ht ic
    obtain ⟨l, hp, hf⟩ := ht.kids
    have hi : info = t.info := ht.info
    obtain ⟨info', ks'⟩ := t
    obtain rfl : info = info' := hi
    have key : ∀ ic, UpTo CandAlike (cands tag ic ks) (cands tag ic ks') := fun ic =>
      (cands_forall₂ (ic := ic) hf fun x hx => ih x hx).perm
        (by rw [cands_eq, cands_eq]; exact hp.flatMap_right _)
    rw [cand, cand]
    split
    · exact key _
    · split
      · exact key _
      · split
        · exact ⟨_, List.Perm.refl _, .cons ⟨ht, rfl⟩ .nil⟩
        · exact ⟨_, List.Perm.refl _, .nil⟩

/-- Both look-ups succeed with nodes that are alike, or both fail with the same exception. -/
def LookAlike : Except Err Found → Except Err Found → Prop
  | .ok f, .ok g => Alike f.node g.node ∧ f.underCase = g.underCase
  | .error e, .error e' => e = e'
  | _, _ => False

/-- The result of a look-up, from the list of candidates. -/
def pick : List Found → Except Err Found
  | [] => .error .configError
  | [f] => .ok f
  | _ => .error .modelError

theorem pick_alike {l m : List Found}
    (h : UpTo CandAlike (l.map (fun f => (f.node, f.underCase))) (m.map (fun f => (f.node, f.underCase)))) :
    LookAlike (pick l) (pick m) := by
  obtain ⟨m', hp, hf⟩ := h
  have hlen := hf.length_eq
  have hlen' := hp.length_eq
  simp only [List.length_map] at hlen hlen'
  match l, m with
  | [], [] => rfl
  | [], _ :: _ => simp at hlen hlen'; rw [← hlen] at hlen'; simp at hlen'
  | [f], [g] =>
    rw [List.map_cons, List.map_nil, List.perm_singleton] at hp
    subst hp
    cases hf with
    | cons h _ => exact h
  | [f], [] => simp at hlen hlen'; subst hlen'; simp at hlen
  | [f], _ :: _ :: _ => simp at hlen hlen'; omega
  | _ :: _ :: _, [] => simp at hlen hlen'; subst hlen'; simp at hlen
  | _ :: _ :: _, [g] => simp at hlen hlen'; omega
  | _ :: _ :: _, _ :: _ :: _ => rfl

theorem lookup_node (d : Device) (s : SNode) (tag : QName) :
    d.lookup (.node s) tag = pick (dataNodes tag [] (s.info.ntype = .case) 0 s.kids) := by
  unfold Device.lookup pick
  simp only
  split <;> simp_all

theorem kids_upTo {a b : List SNode} {tag : QName} {ic : Bool} {l : List SNode} (hp : l.Perm b)
    (hf : List.Forall₂ Alike a l) : UpTo CandAlike (cands tag ic a) (cands tag ic b) :=
  (cands_forall₂ hf fun x _ => cand_alike x).perm (by rw [cands_eq, cands_eq]; exact hp.flatMap_right _)

theorem lookup_alike (d1 d2 : Device) {a b : SNode} (h : Alike a b) (tag : QName) :
    LookAlike (d1.lookup (.node a) tag) (d2.lookup (.node b) tag) := by
  obtain ⟨l, hp, hf⟩ := h.kids
  rw [lookup_node, lookup_node, h.info]
  apply pick_alike
  rw [dataNodes_cands, dataNodes_cands]
  exact kids_upTo hp hf

/-! ## Keys -/

theorem find_tag {p : SNode → Bool} {a b : List SNode} {l : List SNode} (hp : l.Perm b)
    (hf : List.Forall₂ Alike a l) (hpi : ∀ x y : SNode, x.info = y.info → p x = p y)
    (hu : ∀ x ∈ a, ∀ y ∈ a, p x = true → p y = true → x.tag = y.tag) :
    (a.find? p).map SNode.tag = (b.find? p).map SNode.tag := by
  have h1 : ∀ {a l : List SNode}, List.Forall₂ Alike a l → ∀ y ∈ l, ∃ x ∈ a, x.info = y.info := by
    intro a l hf
    induction hf with
    | nil => simp
    | cons h _ ih =>
      intro y hy
      cases hy with
      | head => exact ⟨_, by simp, h.info⟩
      | tail _ hy => obtain ⟨x, hx, he⟩ := ih y hy; exact ⟨x, by simp [hx], he⟩
  have h2 : ∀ {a l : List SNode}, List.Forall₂ Alike a l → ∀ x ∈ a, ∃ y ∈ l, x.info = y.info := by
    intro a l hf
    induction hf with
    | nil => simp
    | cons h _ ih =>
      intro y hy
      cases hy with
      | head => exact ⟨_, by simp, h.info⟩
      | tail _ hy => obtain ⟨x, hx, he⟩ := ih y hy; exact ⟨x, by simp [hx], he⟩
  cases ha : a.find? p with
  | none =>
    cases hb : b.find? p with
    | none => rfl
    | some y =>
      obtain ⟨x, hx, he⟩ := h1 hf y (hp.mem_iff.2 (List.mem_of_find?_eq_some hb))
      have := List.find?_eq_none.1 ha x hx
      rw [hpi x y he, List.find?_some hb] at this
      exact absurd rfl this
  | some x =>
    obtain ⟨y, hy, he⟩ := h2 hf x (List.mem_of_find?_eq_some ha)
    have hy := hp.mem_iff.1 hy
    cases hb : b.find? p with
    | none =>
      have := List.find?_eq_none.1 hb y hy
      rw [← hpi x y he, List.find?_some ha] at this
      exact absurd rfl this
    | some z =>
      obtain ⟨w, hw, hwe⟩ := h1 hf z (hp.mem_iff.2 (List.mem_of_find?_eq_some hb))
      have : x.tag = w.tag := hu x (List.mem_of_find?_eq_some ha) w hw (List.find?_some ha)
        (by rw [hpi w z hwe]; exact List.find?_some hb)
      simp only [Option.map_some, Option.some.injEq, this]
      unfold SNode.tag; rw [hwe]

theorem Alike.keys {a b : SNode} (h : Alike a b)
    (hc : ∀ n ∈ a.info.keyNames, ∀ c ∈ a.kids, ∀ c' ∈ a.kids, c.tag.name = n → c'.tag.name = n → c.tag = c'.tag) :
    a.keys = b.keys := by
  obtain ⟨l, hp, hf⟩ := h.kids
  unfold SNode.keys
  rw [← h.info]
  split
  · refine List.filterMap_congr fun n hn => ?_
    refine find_tag hp hf (fun x y he => ?_) fun x hx y hy h1 h2 => ?_
    · unfold SNode.tag; rw [he]
    · exact hc n hn x hx y hy (by simpa using h1) (by simpa using h2)
  · rfl

/-! ## Trees of the compiler -/

theorem ofElems_eq : ∀ ks, ofElems ks = ks.map SNode.ofElem
  | [] => rfl
  | k :: r => by rw [ofElems, ofElems_eq r]; rfl

theorem ofElem_info (e : Elem) : (SNode.ofElem e).info = infoOf e := by cases e; rw [SNode.ofElem]; rfl

theorem ofElem_kids (e : Elem) : (SNode.ofElem e).kids = e.kids.map SNode.ofElem := by
  cases e; rw [SNode.ofElem, ← ofElems_eq]; rfl

theorem infoOf_same {a b : Elem} (h : ModelDiff.SameNode a b) : infoOf a = infoOf b := by
  have hs : ∀ n, strAttr a n = strAttr b n := fun n => by unfold strAttr; rw [h.2.2 n]
  unfold infoOf
  simp only [hs, h.1]

open ModelDiff in
theorem SameBelow.kid {a b k : Elem} (ha : SchemaTree a) (hb : SchemaTree b) (h : SameBelow a b) (hk : k ∈ a.kids) :
    ∃ k' ∈ b.kids, SameNode k k' ∧ SameBelow k k' := by
  obtain ⟨n, hn, hs⟩ := h.1 _ _ (by simp) (.down hk .here)
  obtain ⟨k', hk', ht, hn⟩ := at_cons.1 hn
  obtain rfl := at_nil.1 hn
  refine ⟨_, hk', hs, fun p m hp hm => ?_, fun p m hp hm => ?_⟩
  · obtain ⟨m', hm', hs'⟩ := h.1 _ _ (by simp) (.down hk hm)
    obtain ⟨k'', hk'', ht'', hm'⟩ := at_cons.1 hm'
    obtain rfl := hb.kid_unique hk'' hk' (ht''.trans ht.symm)
    exact ⟨m', hm', hs'⟩
  · obtain ⟨m', hm', hs'⟩ := h.2 _ _ (by simp) (.down hk' hm)
    obtain ⟨k'', hk'', ht'', hm'⟩ := at_cons.1 hm'
    obtain rfl := ha.kid_unique hk'' hk (ht''.trans ht)
    exact ⟨m', hm', hs'⟩

open ModelDiff in
theorem SameBelow.symm {a b : Elem} (h : SameBelow a b) : SameBelow b a := ⟨h.2, h.1⟩

open ModelDiff in
theorem SameBelow.peers {a b : Elem} (ha : SchemaTree a) (hb : SchemaTree b) (h : SameBelow a b) :
    ∃ l, l.Perm b.kids ∧ List.Forall₂ (fun k k' => k' ∈ b.kids ∧ SameNode k k' ∧ SameBelow k k') a.kids l := by
  have h0 : ∀ ks : List Elem, (∀ k ∈ ks, k ∈ a.kids) →
      ∃ l, List.Forall₂ (fun k k' => k' ∈ b.kids ∧ SameNode k k' ∧ SameBelow k k') ks l := by
    intro ks
    induction ks with
    | nil => exact fun _ => ⟨[], .nil⟩
    | cons k r ih =>
      intro hk
      obtain ⟨l, hl⟩ := ih fun k hk' => hk k (by simp [hk'])
      obtain ⟨k', hk', hs, hb'⟩ := SameBelow.kid ha hb h (hk k (by simp))
      exact ⟨k' :: l, .cons ⟨hk', hs, hb'⟩ hl⟩
  obtain ⟨l, hl⟩ := h0 a.kids fun _ hk => hk
  refine ⟨l, ?_, hl⟩
  have htags : ∀ {ks l : List Elem}, List.Forall₂ (fun k k' => k' ∈ b.kids ∧ SameNode k k' ∧ SameBelow k k') ks l →
      l.map Elem.tag = ks.map Elem.tag ∧ ∀ k' ∈ l, k' ∈ b.kids := by
    intro ks l hl
    induction hl with
    | nil => simp
    | cons h _ ih => simp [ih.1, h.2.1.1, h.1]; exact ih.2
  obtain ⟨ht, hm⟩ := htags hl
  have nda : (l.map Elem.tag).Nodup := ht ▸ ha.tags _ _ .here
  refine (List.perm_ext_iff_of_nodup (List.Nodup.of_map _ nda) (List.Nodup.of_map _ (hb.tags _ _ .here))).2 fun y => ?_
  refine ⟨hm y, fun hy => ?_⟩
  obtain ⟨x, hx, hs, -⟩ := SameBelow.kid hb ha h.symm hy
  have : x.tag ∈ l.map Elem.tag := ht ▸ List.mem_map_of_mem hx
  obtain ⟨z, hz, hzt⟩ := List.mem_map.1 this
  obtain rfl := hb.kid_unique (hm z hz) hy (hzt.trans hs.1.symm)
  exact hz

open ModelDiff in
theorem ofElem_alike (a : Elem) : ∀ b, SchemaTree a → SchemaTree b → SameNode a b → SameBelow a b →
    Alike (SNode.ofElem a) (SNode.ofElem b) := by
  induction a using Elem.ind with
  | h t n at' x ks ih =>
    intro b ha hb hn hs
    obtain ⟨l, hp, hf⟩ := SameBelow.peers ha hb hs
    refine Alike.of (l := l.map SNode.ofElem) ?_ ?_ ?_
    · rw [ofElem_info, ofElem_info, infoOf_same hn]
    · rw [ofElem_kids]; exact hp.map _
    · rw [ofElem_kids, List.forall₂_map_left_iff, List.forall₂_map_right_iff]
      have hka : ∀ k ∈ (Elem.mk t n at' x ks).kids, k ∈ ks ∧ SchemaTree k := fun k hk => ⟨hk, ha.kid hk⟩
      generalize (Elem.mk t n at' x ks).kids = as at hf hka
      clear hp
      induction hf with
      | nil => exact .nil
      | cons h _ ih' =>
        refine .cons ?_ (ih' fun k hk => hka k (by simp [hk]))
        exact ih _ (hka _ (by simp)).1 _ (hka _ (by simp)).2 (hb.kid h.1) h.2.1 h.2.2

open ModelDiff in
theorem roots_alike {a b : Elem} (ha : SchemaTree a) (hb : SchemaTree b) (h : SameBelow a b) :
    ∃ l, l.Perm (ofElems b.kids) ∧ List.Forall₂ Alike (ofElems a.kids) l := by
  obtain ⟨l, hp, hf⟩ := SameBelow.peers ha hb h
  refine ⟨l.map SNode.ofElem, by rw [ofElems_eq]; exact hp.map _, ?_⟩
  rw [ofElems_eq, List.forall₂_map_left_iff, List.forall₂_map_right_iff]
  have hka : ∀ k ∈ a.kids, SchemaTree k := fun k hk => ha.kid hk
  revert hf hka
  generalize a.kids = as
  clear hp
  intro hf hka
  induction hf with
  | nil => exact .nil
  | cons h _ ih' =>
    refine .cons ?_ (ih' fun k hk => hka k (by simp [hk]))
    exact ofElem_alike _ _ (hka _ (by simp)) (hb.kid h.1) h.2.1 h.2.2

end NcDiff
