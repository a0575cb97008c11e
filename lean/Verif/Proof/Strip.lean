import Verif.Model.NodeSub
import Mathlib.Data.List.Basic
/-!
# Attributes that are not edit-config attributes do not matter
-/

namespace NcDiff

/-- The attribute is one of the four edit-config attributes. -/
def AName.isEdit : AName → Bool
  | .other _ => false
  | _ => true

mutual
/-- The tree without attributes other than edit-config attributes. -/
def strip : Elem → Elem
  | .mk t n a x ks => .mk t n (a.filter (fun p => p.1.isEdit)) x (stripList ks)
/-- See `strip`. -/
def stripList : List Elem → List Elem
  | [] => []
  | k :: ks => strip k :: stripList ks
end

theorem stripList_eq : ∀ ks, stripList ks = ks.map strip
  | [] => rfl
  | k :: ks => by rw [stripList, stripList_eq ks]; rfl

@[simp] theorem strip_tag (e : Elem) : (strip e).tag = e.tag := by cases e; rfl
@[simp] theorem strip_nsmap (e : Elem) : (strip e).nsmap = e.nsmap := by cases e; rfl
@[simp] theorem strip_text (e : Elem) : (strip e).text = e.text := by cases e; rfl
@[simp] theorem strip_kids (e : Elem) : (strip e).kids = e.kids.map strip := by
  cases e; rw [strip, Elem.kids_mk, stripList_eq]; rfl

theorem lookup_filter_edit {n : AName} (hn : n.isEdit = true) : ∀ a : Attrs,
    (a.filter (fun p => p.1.isEdit)).lookup n = a.lookup n
  | [] => rfl
  | (m, v) :: r => by
    have ih := lookup_filter_edit hn r
    rw [List.filter_cons]
    by_cases hm : m.isEdit = true
    · simp only [hm, if_true]
      rw [List.lookup_cons, List.lookup_cons, ih]
    · simp only [hm]
      rw [if_neg (by simp), ih, List.lookup_cons]
      have : (n == m) = false := by
        rw [beq_eq_false_iff_ne]; rintro rfl; exact hm hn
      rw [this]

theorem strip_get {n : AName} (hn : n.isEdit = true) (e : Elem) : (strip e).get n = e.get n := by
  cases e; exact lookup_filter_edit hn _

theorem strip_delAttrib : ∀ e : Elem, (strip e).delAttrib = e.delAttrib := by
  intro e
  induction e using Elem.ind with
  | h t n a x ks ih =>
    rw [strip, Elem.delAttrib, Elem.delAttrib, stripList_eq, Elem.delAttribList_eq, Elem.delAttribList_eq, List.map_map]
    congr 1
    exact List.map_congr_left ih

theorem strip_childrenWith (e : Elem) (q : QName) : (strip e).childrenWith q = (e.childrenWith q).map strip := by
  unfold Elem.childrenWith
  rw [strip_kids, List.filter_map]
  congr 1
  refine List.filter_congr ?_
  intro k _; simp

theorem strip_find (e : Elem) (q : QName) : (strip e).find q = (e.find q).map strip := by
  unfold Elem.find
  rw [strip_kids, List.find?_map]
  congr 2
  funext k; simp

theorem strip_parseText (d : Device) (e : Elem) (sn : SNode) : parseText d (strip e) sn = parseText d e sn := by
  unfold parseText; simp

theorem strip_uidOf (d : Device) (sc : Scope) (e : Elem) : uidOf d sc (strip e) = uidOf d sc e := by
  unfold uidOf
  simp only [strip_tag, strip_parseText]
  congr 1
  funext f
  have : ∀ k, (findOneChild (strip e) k >>= fun c => parseText d c f.node) =
      (findOneChild e k >>= fun c => parseText d c f.node) := by
    intro k
    unfold findOneChild
    rw [strip_childrenWith]
    rcases e.childrenWith k with _ | ⟨c, _ | ⟨c', r⟩⟩
    · rfl
    · simp only [List.map_cons, List.map_nil, bind, Except.bind, strip_parseText]
    · rfl
  simp only [this]

theorem strip_opOf (e : Elem) : opOf (strip e) = opOf e := by
  unfold opOf; rw [strip_get rfl]

theorem strip_insertOf (e : Elem) : insertOf (strip e) = insertOf e := by
  unfold insertOf; rw [strip_get rfl]

theorem strip_valueAnchor (e : Elem) : valueAnchor (strip e) = valueAnchor e := by
  unfold valueAnchor; rw [strip_get rfl, strip_tag]

theorem strip_keyAnchor (e : Elem) : keyAnchor (strip e) = keyAnchor e := by
  unfold keyAnchor; rw [strip_get rfl, strip_tag, strip_nsmap]

theorem strip_listSkeleton (keys : List QName) (e : Elem) : listSkeleton keys (strip e) = listSkeleton keys e := by
  unfold listSkeleton
  simp only [strip_tag, strip_nsmap, strip_find]
  congr 2
  funext k
  cases e.find k with
  | none => rfl
  | some c => simp [strip_delAttrib]

theorem strip_placeNew {sn : SNode} {a : Except Err (Cell → Bool)} (o : Elem) (c : Cell) (st : List Cell) :
    placeNew sn a (strip o) c st = placeNew sn a o c st := by
  unfold placeNew; rw [strip_insertOf, strip_tag]

theorem strip_placeOld {sn : SNode} {a : Except Err (Cell → Bool)} (o : Elem) (h : Nat) (e : Elem) (st : List Cell) :
    placeOld sn a (strip o) h e st = placeOld sn a o h e st := by
  unfold placeOld; rw [strip_insertOf, strip_tag]

theorem strip_addWithoutPeer {d : Device} {sc : Scope} (st : List Cell) (o : Elem) (g : AddFn) :
    addWithoutPeer d sc st (strip o, g) = addWithoutPeer d sc st (o, g) := by
  unfold addWithoutPeer
  simp only [strip_opOf, strip_tag, strip_nsmap, strip_delAttrib, strip_valueAnchor, strip_keyAnchor, strip_placeNew,
    strip_listSkeleton]

theorem strip_mergeText {d : Device} {sn : SNode} (o dst : Elem) : mergeText d sn (strip o) dst = mergeText d sn o dst := by
  unfold mergeText; simp

theorem strip_withPeer {d : Device} {sn : SNode} (o : Elem) (g : AddFn) (h : Nat) (e : Elem) (st : List Cell) :
    withPeer d sn (strip o, g) h e st = withPeer d sn (o, g) h e st := by
  unfold withPeer withPeerLeaf withPeerLeafList withPeerList withPeerTree
  simp only [strip_opOf, strip_delAttrib, strip_valueAnchor, strip_keyAnchor, strip_placeOld, strip_mergeText]

/-! ## Pairing a mapped list -/

section
variable {α β γ : Type} {d : Device} {sc : Scope} {pb : β → Elem} {pc : γ → Elem} {g : γ → β}

theorem indexKids_map (h : ∀ c, uidOf d sc (pb (g c)) = uidOf d sc (pc c)) : ∀ (cs : List γ) (seen : List UID),
    indexKids d sc pb seen (cs.map g) = (indexKids d sc pc seen cs).map (fun l => l.map (fun p => (p.1, g p.2)))
  | [], _ => rfl
  | c :: r, seen => by
    rw [List.map_cons, indexKids, indexKids, h]
    simp only [bind, Except.bind, pure, Except.pure]
    cases uidOf d sc (pc c) with
    | error e => rfl
    | ok u =>
      simp only
      split
      · rfl
      · rw [indexKids_map h r]
        cases indexKids d sc pc (seen ++ [u]) r <;> rfl

theorem lookup_map_snd {k : UID} : ∀ (l : List (UID × γ)),
    (l.map (fun p => (p.1, g p.2))).lookup k = (l.lookup k).map g
  | [] => rfl
  | (u, c) :: r => by
    rw [List.map_cons, List.lookup_cons, List.lookup_cons]
    cases k == u
    · exact lookup_map_snd r
    · rfl

theorem pairUp_map (ones : List (UID × α)) (twos : List (UID × γ)) :
    pairUp ones (twos.map (fun p => (p.1, g p.2))) = (pairUp ones twos).map (fun p => (p.1, p.2.map g)) := by
  unfold pairUp
  rw [List.map_append, List.map_map, List.map_map, List.filter_map, List.map_map]
  congr 1
  refine List.map_congr_left ?_
  intro p _
  simp [lookup_map_snd]

theorem groupPairs_map (ps : List (Option α × Option γ)) :
    (groupPairs (ps.map (fun p => (p.1, p.2.map g)))).onlyTwo = (groupPairs ps).onlyTwo.map g ∧
    (groupPairs (ps.map (fun p => (p.1, p.2.map g)))).both = (groupPairs ps).both.map (fun p => (p.1, g p.2)) := by
  unfold groupPairs
  simp only [List.filterMap_map, List.map_filterMap]
  constructor <;> refine List.filterMap_congr ?_ <;> intro p _ <;> rcases p with ⟨_ | a, _ | b⟩ <;> rfl

end

/-! ## All levels -/

theorem nodeAdd_strip (d : Device) : ∀ (o : Elem) (sc : Scope) (s : Elem), nodeAdd d (strip o) sc s = nodeAdd d o sc s := by
  intro o
  induction o using Elem.ind with
  | h t n a x ks ih =>
    intro sc s
    rw [nodeAdd_eq, nodeAdd_eq, strip_kids]
    simp only [Elem.kids_mk]
    have e1 : (ks.map strip).map (fun k => (k, fun sc sum => nodeAdd d k sc sum)) =
        (ks.map (fun k => (k, fun sc sum => nodeAdd d k sc sum))).map
          (fun p : Elem × AddFn => (strip p.1, p.2)) := by
      rw [List.map_map, List.map_map]
      refine List.map_congr_left ?_
      intro k hk
      simp only [Function.comp_apply, Prod.mk.injEq, true_and]
      funext sc sum
      exact ih k hk sc sum
    rw [e1]
    generalize ks.map (fun k => ((k, fun sc sum => nodeAdd d k sc sum) : Elem × AddFn)) = others
    unfold nodeAddBody groupKids pairChildren
    rw [indexKids_map (pb := Prod.fst) (pc := Prod.fst) (g := fun p : Elem × AddFn => (strip p.1, p.2))
      (fun c => strip_uidOf d sc c.1)]
    simp only [bind, Except.bind, pure, Except.pure]
    cases indexKids d sc Prod.fst [] s.kids.zipIdx with
    | error e => rfl
    | ok ones =>
      simp only
      cases indexKids d sc Prod.fst [] others with
      | error e => rfl
      | ok twos =>
        simp only [Except.map]
        have hp := pairUp_map (g := fun p : Elem × AddFn => (strip p.1, p.2)) ones twos
        have hg := groupPairs_map (g := fun p : Elem × AddFn => (strip p.1, p.2)) (pairUp ones twos)
        rw [hp, hg.1, hg.2, List.foldlM_map]
        simp only [strip_addWithoutPeer]
        cases (groupPairs (pairUp ones twos)).onlyTwo.foldlM (addWithoutPeer d sc)
            (s.kids.zipIdx.map (fun p => (some p.2, p.1))) with
        | error e => rfl
        | ok st =>
          simp only
          rw [List.foldlM_map]
          have : ∀ st (p : (Elem × Nat) × (Elem × AddFn)), addWithPeer d sc st (p.1, (strip p.2.1, p.2.2)) =
              addWithPeer d sc st p := by
            intro st p
            unfold addWithPeer
            simp only [strip_withPeer]
          simp only [this]

theorem filter_setA (s : String) (v : AVal) : ∀ a : Attrs,
    (Elem.setA (.other s) v a).filter (fun p => p.1.isEdit) = a.filter (fun p => p.1.isEdit)
  | [] => rfl
  | (m, w) :: r => by
    rw [Elem.setA]
    split
    · rename_i h; subst h
      simp [List.filter_cons, AName.isEdit]
    · rw [List.filter_cons, List.filter_cons, filter_setA s v r]

theorem addAttrAtDepthList_eq (n : Nat) : ∀ ks, addAttrAtDepthList n ks = ks.map (addAttrAtDepth n)
  | [] => by rw [addAttrAtDepthList]; rfl
  | k :: ks => by rw [addAttrAtDepthList, addAttrAtDepthList_eq n ks]; rfl

theorem strip_addAttr : ∀ (e : Elem) (n : Nat), strip (addAttrAtDepth n e) = strip e := by
  intro e
  induction e using Elem.ind with
  | h t ns a x ks ih =>
    intro n
    cases n with
    | zero =>
      rw [addAttrAtDepth]
      show strip (.mk t ns (Elem.setA (.other "operation") (.str "replace") a) x ks) = _
      rw [strip, strip, filter_setA]
    | succ n =>
      rw [addAttrAtDepth, strip, strip, addAttrAtDepthList_eq, stripList_eq, stripList_eq, List.map_map]
      congr 1
      exact List.map_congr_left (fun k hk => ih k hk n)

/-- Marking the nodes at one depth with an attribute `operation` without a namespace does not change what a
delta does. -/
theorem nodeAdd_addAttr (d : Device) (n : Nat) (o : Elem) (sc : Scope) (s : Elem) :
    nodeAdd d (addAttrAtDepth n o) sc s = nodeAdd d o sc s := by
  rw [← nodeAdd_strip, strip_addAttr, nodeAdd_strip]

end NcDiff
