import Verif.Proof.Apart
import Verif.Proof.Unique
import Verif.Spec.Apart
/-!
# Deltas that are independent of each other commute
-/

namespace NcDiff
namespace Apart

/-! ## Merging into children that exist -/

/-- Merging `k` into the child `e`; `none`: the child vanishes. -/
def step (d : Device) (sc : Scope) (k e : Elem) : Except Err (Option Elem) := do
  let f ← d.lookup sc e.tag
  match f.node.ntype with
  | .leaf => do
    let e' ← mergeText d f.node k e
    pure (some e')
  | _ => do
    let e' ← nodeAdd d k (.node f.node) e
    pure (if e'.kids = [] ∧ f.node.isNP then none else some e')

def upd (h : Nat) (st : List Cell) : Option Elem → List Cell
  | some e => setCell h e st
  | none => removeCell h st

theorem addWithPeer_step {d : Device} {sc : Scope} {k e : Elem} {h : Nat} {f : Found} (hf : d.lookup sc e.tag = .ok f)
    (hn : f.node.ntype = .leaf ∨ f.node.ntype = .container ∨ f.node.ntype = .list) (hop : opOf k = "merge")
    (hins : insertOf k = none) (st : List Cell) :
    addWithPeer d sc st ((e, h), (k, fun sc sum => nodeAdd d k sc sum)) = (step d sc k e).map (upd h st) := by
  unfold addWithPeer step
  rw [hf]
  simp only [bind, Except.bind]
  have hfin : ∀ e' : Elem, finishPeer f.node h ⟨setCell h e' st, e', true⟩ =
      .ok (upd h st (if e'.kids = [] ∧ f.node.isNP then none else some e')) := by
    intro e'
    unfold finishPeer
    simp only
    split
    · simp only [if_true]; rw [removeCell_setCell]; rfl
    · rfl
  have htree : (withPeerTree f.node (k, fun sc sum => nodeAdd d k sc sum) h e st >>= finishPeer f.node h) =
      ((nodeAdd d k (.node f.node) e >>= fun e' =>
        pure (if e'.kids = [] ∧ f.node.isNP then none else some e')).map (upd h st)) := by
    unfold withPeerTree
    simp only [hop, if_true, bind, Except.bind]
    cases nodeAdd d k (.node f.node) e with
    | error x => rfl
    | ok e' => exact hfin e'
  unfold withPeer
  rcases hn with hn | hn | hn
  · simp only [hn]
    unfold withPeerLeaf
    simp only [hop, true_or, if_true, bind, Except.bind]
    cases mergeText d f.node k e with
    | error x => rfl
    | ok e' =>
      have h1 := hfin e'
      have hnp : f.node.isNP = false := by
        have : f.node.info.ntype = .leaf := hn
        simp [SNode.isNP, this]
      simp only [hnp, Bool.false_eq_true, and_false, if_false] at h1
      exact h1
  · simp only [hn]
    exact htree
  · simp only [hn]
    unfold withPeerList
    have hp : placeOld f.node (keyAnchor k) k h e st = .ok st := by
      unfold placeOld
      rw [hins]
      simp
    have hne : opOf k ≠ "delete" ∧ opOf k ≠ "remove" := by rw [hop]; decide
    simp only [hne, ne_eq, not_false_eq_true, and_self, if_true, hp, bind, Except.bind]
    exact htree

/-- A step for every child, in place. -/
def inKids (g : Elem → Except Err (Option Elem)) : List Elem → Except Err (List Elem)
  | [] => .ok []
  | e :: r => do
    let x ← g e
    let y ← inKids g r
    pure (x.toList ++ y)

/-- The step for a child, if the delta is about it. -/
def one (d : Device) (sc : Scope) (os : List Elem) (e : Elem) : Except Err (Option Elem) :=
  match os.find? (fun k => uid d sc k = uid d sc e) with
  | none => .ok (some e)
  | some k => step d sc k e

/-- The delta's child can be merged in place. -/
structure Ready (d : Device) (sc : Scope) (k : Elem) : Prop where
  node : ∃ f, d.lookup sc k.tag = .ok f ∧ (f.node.ntype = .leaf ∨ f.node.ntype = .container ∨ f.node.ntype = .list)
  op : opOf k = "merge"
  ins : insertOf k = none

theorem upd_mid {n : Nat} {done rest : List Cell} {e : Elem} (h1 : ∀ c ∈ done, isCell n c = false)
    (h2 : ∀ c ∈ rest, isCell n c = false) (x : Option Elem) :
    upd n (done ++ (some n, e) :: rest) x = done ++ (x.toList.map (fun e => ((some n, e) : Cell))) ++ rest := by
  have hn : isCell n ((some n, e) : Cell) = true := by simp [isCell]
  cases x with
  | some e' =>
    have hs : ∀ l : List Cell, (∀ c ∈ l, isCell n c = false) → l.map (fun c => if isCell n c then (c.1, e') else c) = l := by
      intro l hl
      conv_rhs => rw [← List.map_id l]
      apply List.map_congr_left
      intro c hc
      simp [hl c hc]
    simp only [upd, setCell, List.map_append, List.map_cons, hs done h1, hs rest h2, hn, if_true, Option.toList_some,
      List.map_nil, List.append_assoc, List.singleton_append]
  | none =>
    have hs : ∀ l : List Cell, (∀ c ∈ l, isCell n c = false) → l.filter (fun c => !isCell n c) = l := by
      intro l hl
      rw [List.filter_eq_self]
      intro c hc
      simp [hl c hc]
    simp [upd, removeCell, List.filter_append, hs done h1, hs rest h2, hn]

theorem fold_inplace {d : Device} {sc : Scope} {os : List Elem} (ho : ∀ k ∈ os, Ready d sc k) : ∀ (ks : List Elem) (n : Nat)
    (done : List Cell), (∀ c ∈ done, ∀ h, c.1 = some h → h < n) →
    ((((ks.zipIdx n).filterMap (fun a => ((table d os).find? (fun b => uid d sc b.1 = uid d sc a.1)).map (fun b => (a, b)))).foldlM
      (addWithPeer d sc) (done ++ (ks.zipIdx n).map (fun p => ((some p.2, p.1) : Cell)))).map (List.map Prod.snd)) =
    (inKids (one d sc os) ks).map (done.map Prod.snd ++ ·)
  | [], n, done, _ => by simp [inKids, Except.map, pure, Except.pure]
  | e :: r, n, done, hd => by
    rw [List.zipIdx_cons, List.filterMap_cons, List.map_cons]
    have hfind : (table d os).find? (fun b => uid d sc b.1 = uid d sc e) =
        (os.find? (fun k => uid d sc k = uid d sc e)).map (fun k => (k, fun sc sum => nodeAdd d k sc sum)) := by
      unfold table
      rw [List.find?_map]; rfl
    simp only [hfind, inKids]
    have hd1 : ∀ c ∈ done, isCell n c = false := by
      intro c hc
      unfold isCell
      rw [decide_eq_false_iff_not]
      intro hcn
      exact Nat.lt_irrefl _ (hd c hc n hcn)
    cases hk : os.find? (fun k => uid d sc k = uid d sc e) with
    | none =>
      have ih := fold_inplace ho r (n + 1) (done ++ [(some n, e)]) (by
        intro c hc h hh
        rcases List.mem_append.1 hc with hc | hc
        · exact Nat.lt_succ_of_lt (hd c hc h hh)
        · rw [List.mem_singleton] at hc; subst hc; cases hh; exact Nat.lt_succ_self _)
      simp only [Option.map_none, one, hk, bind, Except.bind]
      rw [List.append_assoc, List.singleton_append] at ih
      rw [ih]
      cases inKids (one d sc os) r <;> simp [Except.map, pure, Except.pure]
    | some k =>
      have hkm := List.mem_of_find?_eq_some hk
      have hu : uid d sc k = uid d sc e := by simpa using List.find?_some hk
      have ht : k.tag = e.tag := by rw [← uid_tag d sc, hu, uid_tag]
      obtain ⟨⟨f, hf, hn⟩, hop, hins⟩ := ho k hkm
      simp only [Option.map_some, List.foldlM_cons, one, hk]
      rw [addWithPeer_step (by rw [← ht]; exact hf) hn hop hins]
      cases hs : step d sc k e with
      | error x => rfl
      | ok x =>
        have hrest : ∀ c ∈ (r.zipIdx (n + 1)).map (fun p => ((some p.2, p.1) : Cell)), isCell n c = false := by
          intro c hc
          obtain ⟨p, hp, rfl⟩ := List.mem_map.1 hc
          have := List.le_snd_of_mem_zipIdx hp
          simp only [isCell, Option.some.injEq, decide_eq_false_iff_not]
          omega
        have ih := fold_inplace ho r (n + 1) (done ++ x.toList.map (fun e => ((some n, e) : Cell))) (by
          intro c hc h hh
          rcases List.mem_append.1 hc with hc | hc
          · exact Nat.lt_succ_of_lt (hd c hc h hh)
          · obtain ⟨y, _, rfl⟩ := List.mem_map.1 hc
            cases hh; exact Nat.lt_succ_self _)
        simp only [Except.map, bind, Except.bind, upd_mid hd1 hrest] at ih ⊢
        rw [ih]
        cases inKids (one d sc os) r with
        | error y => rfl
        | ok y =>
          simp [pure, Except.pure, List.map_map, Function.comp_def]

theorem nodeAdd_inplace {d : Device} {sc : Scope} {s o : Elem} (i1 : Indexable d sc s.kids) (i2 : Indexable d sc o.kids)
    (ho : ∀ k ∈ o.kids, Ready d sc k ∧ ∃ e ∈ s.kids, uid d sc e = uid d sc k) :
    nodeAdd d o sc s = (inKids (one d sc o.kids) s.kids).map s.setKids := by
  rw [nodeAdd_eq_run i1 i2]
  have h := fold_inplace (sc := sc) (fun k hk => (ho k hk).1) s.kids 0 [] (by simp)
  have honly : (groupsOf (fun a : Elem × Nat => uid d sc a.1) (fun b : Elem × AddFn => uid d sc b.1) s.kids.zipIdx
      (table d o.kids)).onlyTwo = [] := by
    unfold groupsOf
    simp only
    rw [List.filter_eq_nil_iff]
    intro b hb
    obtain ⟨k, hk, rfl⟩ := List.mem_map.1 hb
    obtain ⟨_, e, he, hu⟩ := ho k hk
    obtain ⟨i, hi⟩ := List.mem_iff_getElem?.1 he
    have hz : (e, i) ∈ s.kids.zipIdx := List.mem_zipIdx_iff_getElem?.2 hi
    simp only [Bool.not_eq_true, Option.isNone_eq_false_iff]
    rw [List.find?_isSome]
    exact ⟨(e, i), hz, by simpa using hu⟩
  unfold run
  simp only [honly, List.foldlM_nil, List.nil_append, List.map_nil] at h ⊢
  have hb : (groupsOf (fun a : Elem × Nat => uid d sc a.1) (fun b : Elem × AddFn => uid d sc b.1) s.kids.zipIdx
      (table d o.kids)).both = s.kids.zipIdx.filterMap (fun a => ((table d o.kids).find? (fun b => uid d sc b.1 = uid d sc a.1)).map
        (fun b => (a, b))) := rfl
  simp only [hb, pure, Except.pure, bind, Except.bind]
  revert h
  cases (s.kids.zipIdx.filterMap (fun a => ((table d o.kids).find? (fun b => uid d sc b.1 = uid d sc a.1)).map
    (fun b => (a, b)))).foldlM (addWithPeer d sc) (s.kids.zipIdx.map (fun p => ((some p.2, p.1) : Cell))) <;>
  cases inKids (one d sc o.kids) s.kids <;> simp [Except.map]
  intro h; rw [h]

/-- A step keeps the instance. -/
theorem step_uid {d : Device} {sc : Scope} {s k e' : Elem} {f : Found}
    (hf : d.lookup sc s.tag = .ok f) (hs : KidOk d f.node s) (hk : KidOk d f.node k)
    (hsk : SameInstance d sc s k) (hkeys : KeysPlain d f k) (hh : KeysHonest d f s) (hr : Ready d sc k)
    (h : step d sc k s = .ok (some e')) : uid d sc e' = uid d sc s ∧ e'.tag = s.tag := by
  refine peerContent_uid hf hs hk hsk hkeys hh (x := .set e') ?_ e' rfl
  obtain ⟨⟨g, hg, hn⟩, hop, _⟩ := hr
  rw [← hsk.1, hf] at hg; cases hg
  unfold step at h
  rw [hf] at h
  simp only [bind, Except.bind] at h
  have htree : (nodeAdd d k (.node f.node) s >>= fun e' =>
      pure (if e'.kids = [] ∧ f.node.isNP then none else some e')) = .ok (some e') →
      peerTree f.node (k, fun sc sum => nodeAdd d k sc sum) s = .ok (.set e') := by
    intro h
    unfold peerTree
    simp only [hop, if_true, bind, Except.bind] at h ⊢
    cases hx : nodeAdd d k (.node f.node) s with
    | error y => rw [hx] at h; cases h
    | ok y =>
      rw [hx] at h
      simp only [pure, Except.pure] at h ⊢
      split
      · next hc => rw [if_pos hc] at h; cases h
      · next hc => rw [if_neg hc] at h; cases h; rfl
  unfold peerContent
  rcases hn with hn | hn | hn
  · simp only [hn] at h ⊢
    simp only [hop, true_or, if_true, bind, Except.bind]
    cases hx : mergeText d f.node k s with
    | error y => rw [hx] at h; cases h
    | ok y => rw [hx] at h; cases h; rfl
  · simp only [hn] at h ⊢; exact htree h
  · simp only [hn] at h ⊢; exact htree h

/-! ## Independent deltas -/

/-- A config and a delta that go together. -/
structure Fit (d : Device) (sc : Scope) (o s : Elem) : Prop where
  vs : Valid d sc s
  ns : Deep d (NsLevel d) sc s
  vo : Valid d sc o
  dl : Deep d (DeltaLevel d) sc o

theorem Fit.sub {d : Device} {sc : Scope} {o s k e : Elem} {f : Found} (h : Fit d sc o s) (hk : k ∈ o.kids) (he : e ∈ s.kids)
    (hf : d.lookup sc e.tag = .ok f) (ht : k.tag = e.tag) : Fit d (.node f.node) k e :=
  ⟨h.vs.sub' e he f hf, h.ns.sub' e he f hf, h.vo.sub' k hk f (by rw [ht]; exact hf), h.dl.sub' k hk f (by rw [ht]; exact hf)⟩

theorem Fit.after {d : Device} {sc : Scope} {o o' s r : Elem} (h : Fit d sc o s) (h' : Fit d sc o' s)
    (hr : nodeAdd d o' sc s = .ok r) : Fit d sc o r := by
  obtain ⟨h1, h2⟩ := nodeAdd_valid d o' sc s r h'.vs h'.ns h'.vo h'.dl hr
  exact ⟨h1, h2, h.vo, h.dl⟩

theorem _root_.NcDiff.Independent.symm {d : Device} {sc : Scope} {a b c : Elem} (h : Independent d sc a b c) : Independent d sc b a c := by
  induction h with
  | mk shared leaf inside left ih =>
    refine .mk ?_ ?_ ?_ ?_
    · intro k hk l hl e
      obtain ⟨h1, h2, h3⟩ := shared l hl k hk e.symm
      rw [← e] at h1 h2 h3
      exact ⟨h2, h1, h3⟩
    · intro k hk l hl e f hf hn
      obtain ⟨h1, h2⟩ := leaf l hl k hk e.symm f (by rw [← e]; exact hf) hn
      exact ⟨h1, h2.symm⟩
    · intro k hk l hl e he h1 h2 f hf hn
      exact ih l hl k hk e he h2 h1 f (by rw [← h2.1, h1.1]; exact hf) hn
    · intro k hk l hl e he h1 h2 f hf hn
      obtain ⟨x, hx, h3, h4⟩ := left l hl k hk e he h2 h1 f (by rw [← h2.1, h1.1]; exact hf) hn
      exact ⟨x, hx, h4, h3⟩

theorem nodeAdd_nothing {d : Device} {sc : Scope} {s o : Elem} (i1 : Indexable d sc s.kids) (ho : o.kids = []) :
    nodeAdd d o sc s = .ok s := by
  rw [nodeAdd_inplace i1 (by rw [ho]; exact ⟨by simp, by simp⟩) (by rw [ho]; simp), ho]
  have : ∀ ks, inKids (one d sc []) ks = .ok ks := by
    intro ks
    induction ks with
    | nil => rfl
    | cons e r ih => simp [inKids, one, ih, bind, Except.bind, pure, Except.pure]
  rw [this]
  cases s; rfl

theorem only_none {o : Elem} {P : QName → Bool} (h : ∀ k ∈ o.kids, P k.tag = false) : (only P o).kids = [] := by
  rw [only_kids, List.filter_eq_nil_iff]
  intro k hk
  simp [h k hk]

theorem only_same {d : Device} {sc : Scope} {s o r : Elem} (h : nodeAdd d o sc s = .ok r) {P : QName → Bool}
    (hP : ∀ k ∈ o.kids, P k.tag = false) : only P r = only P s := by
  have h1 := nodeAdd_split h P
  obtain ⟨i1, _⟩ := nodeAdd_inv h
  rw [nodeAdd_nothing (by rw [only_kids]; exact indexable_only i1 _) (only_none hP)] at h1
  exact (Except.ok.inj h1).symm

/-- What the delta does not name stays. -/
theorem mem_left {d : Device} {sc : Scope} {s o r x : Elem} (h : nodeAdd d o sc s = .ok r) (hx : x ∈ s.kids)
    (ho : ∀ y ∈ o.kids, y.tag ≠ x.tag) : x ∈ r.kids := by
  have h1 := only_same h (P := fun t => decide (t = x.tag)) (fun k hk => by simpa using ho k hk)
  have h2 : x ∈ (only (fun t => decide (t = x.tag)) r).kids := by
    rw [h1, only_kids, List.mem_filter]
    exact ⟨hx, by simp⟩
  rw [only_kids] at h2
  exact List.mem_of_mem_filter h2

/-- A step into a container or list entry, or a leaf of a plain type. -/
theorem step_tree {d : Device} {sc : Scope} {k e : Elem} {f : Found} (hf : d.lookup sc e.tag = .ok f)
    (hn : f.node.ntype = .container ∨ f.node.ntype = .list)
    (hleft : f.node.isNP = true → ∃ x ∈ e.kids, ∀ y ∈ k.kids, y.tag ≠ x.tag) :
    step d sc k e = (nodeAdd d k (.node f.node) e).map some := by
  unfold step
  rw [hf]
  have : ∀ e', nodeAdd d k (.node f.node) e = .ok e' → ¬ (e'.kids = [] ∧ f.node.isNP = true) := by
    rintro e' he' ⟨h1, h2⟩
    obtain ⟨x, hx, hy⟩ := hleft h2
    have := mem_left he' hx hy
    rw [h1] at this
    simp at this
  rcases hn with hn | hn <;>
  · simp only [bind, Except.bind, hn]
    cases he : nodeAdd d k (.node f.node) e with
    | error x => rfl
    | ok e' =>
      simp only [pure, Except.pure, if_neg (this e' he)]
      rfl

theorem step_leaf {d : Device} {sc : Scope} {k e : Elem} {f : Found} (hf : d.lookup sc e.tag = .ok f)
    (hn : f.node.ntype = .leaf) (hp : f.node.info.datatype.plain) : step d sc k e = .ok (some (e.setText k.text)) := by
  unfold step
  rw [hf]
  simp only [bind, Except.bind, hn, mergeText_plain hp]
  rfl

theorem find_cases {d : Device} {sc : Scope} (os : List Elem) (e : Elem) : os.find? (fun k => uid d sc k = uid d sc e) = none ∨
    ∃ k ∈ os, uid d sc k = uid d sc e ∧ os.find? (fun k => uid d sc k = uid d sc e) = some k := by
  cases h : os.find? (fun k => uid d sc k = uid d sc e) with
  | none => exact .inl rfl
  | some k => exact .inr ⟨k, List.mem_of_find?_eq_some h, by simpa using List.find?_some h, rfl⟩

section level
variable {d : Device} {sc : Scope} {o1 o2 s : Elem}

theorem Fit.same {o : Elem} (h : Fit d sc o s) {e k : Elem} (he : e ∈ s.kids) (hk : k ∈ o.kids) :
    uid d sc e = uid d sc k ↔ SameInstance d sc e k := by
  obtain ⟨f, hf, kf⟩ := h.vs.shape' e he
  obtain ⟨g, hg, kg⟩ := h.vo.shape' k hk
  exact uid_eq_iff' hf kf hg kg

/-- What is known about a name that both deltas have. -/
structure Shared (d : Device) (sc : Scope) (o1 o2 s : Elem) (t : QName) : Prop where
  i1 : ∃ k ∈ o1.kids, k.tag = t
  i2 : ∃ k ∈ o2.kids, k.tag = t

theorem Shared.symm {t : QName} (h : Shared d sc o1 o2 s t) : Shared d sc o2 o1 s t := ⟨h.i2, h.i1⟩

variable (F1 : Fit d sc o1 s) (F2 : Fit d sc o2 s) (H : Independent d sc o1 o2 s)
include F1 F2 H

theorem ready {t : QName} (hs : Shared d sc o1 o2 s t) {k : Elem} (hk : k ∈ o1.kids) (hkt : k.tag = t) :
    Ready d sc k ∧ ∃ e ∈ s.kids, e.tag = t ∧ uid d sc e = uid d sc k := by
  obtain ⟨l, hl, hlt⟩ := hs.i2
  cases H with
  | mk shared leaf inside left =>
    obtain ⟨h1, _, h3⟩ := shared k hk l hl (hkt.trans hlt.symm)
    obtain ⟨h4, h5, e, he, h6⟩ := h1 k hk rfl
    obtain ⟨f, hf, _⟩ := F1.vo.shape' k hk
    exact ⟨⟨⟨f, hf, h3 f hf⟩, h4, h5⟩, e, he, h6.1.trans hkt, (F1.same he hk).2 h6⟩

theorem left_over {t : QName} (hs : Shared d sc o1 o2 s t) {k e : Elem} {f : Found} (hk : k ∈ o1.kids) (hkt : k.tag = t)
    (he : e ∈ s.kids) (het : e.tag = t) (hf : d.lookup sc t = .ok f) (hnp : f.node.isNP = true) :
    ∃ x ∈ e.kids, (∀ y ∈ k.kids, y.tag ≠ x.tag) ∧ ∀ l ∈ o2.kids, l.tag = t → ∀ y ∈ l.kids, y.tag ≠ x.tag := by
  obtain ⟨l, hl, hlt⟩ := hs.i2
  have hc : f.node.ntype = .container := by
    by_contra hne
    rw [notNP hne] at hnp; cases hnp
  have hsame : ∀ a : Elem, a.tag = t → SameInstance d sc e a := by
    intro a ha
    refine ⟨het.trans ha.symm, ?_⟩
    intro g hg
    rw [het, hf] at hg; cases hg
    simp only [hc]
  cases H with
  | mk shared leaf inside left =>
    obtain ⟨x, hx, h1, h2⟩ := left k hk l hl e he (hsame k hkt) (hsame l hlt) f (by rw [hkt]; exact hf) hnp
    refine ⟨x, hx, h1, ?_⟩
    intro l' hl' hlt'
    have huu : uid d sc l' = uid d sc l := by
      rw [uid_plain (by rw [hlt']; exact hf) (by rw [hc]; decide) (by rw [hc]; decide),
        uid_plain (by rw [hlt]; exact hf) (by rw [hc]; decide) (by rw [hc]; decide), hlt, hlt']
    have : l' = l := List.inj_on_of_nodup_map F2.vo.indexable.nodup hl' hl huu
    subst this
    exact h2

/-- The nodes of a delta with this name. -/
abbrev named (t : QName) (o : Elem) : List Elem := o.kids.filter (fun k => decide (k.tag = t))

theorem one_some {t : QName} (hs : Shared d sc o1 o2 s t) {e : Elem} (he : e ∈ s.kids) (het : e.tag = t) {x : Option Elem}
    (h : one d sc (named t o1) e = .ok x) : ∃ e1, x = some e1 ∧ uid d sc e1 = uid d sc e ∧ e1.tag = e.tag := by
  unfold one at h
  rcases find_cases (d := d) (sc := sc) (named t o1) e with hn | ⟨k, hk, hu, hfk⟩
  · rw [hn] at h
    cases h
    exact ⟨e, rfl, rfl, rfl⟩
  · rw [hfk] at h
    simp only at h
    obtain ⟨hk1, hk2⟩ := List.mem_filter.1 hk
    have hkt : k.tag = t := by simpa using hk2
    obtain ⟨f, hf, kf⟩ := F1.vs.shape' e he
    obtain ⟨g, hg, kg⟩ := F1.vo.shape' k hk1
    have hft : d.lookup sc t = .ok f := by rw [← het]; exact hf
    rw [hkt, hft] at hg; cases hg
    have hr := (ready F1 F2 H hs hk1 hkt).1
    have hx : ∃ e1, x = some e1 := by
      obtain ⟨g, hg, hn⟩ := hr.node
      rw [hkt, hft] at hg; cases hg
      rcases hn with hn | hn
      · unfold step at h
        rw [hf] at h
        simp only [bind, Except.bind, hn] at h
        cases hm : mergeText d f.node k e with
        | error y => rw [hm] at h; cases h
        | ok y => rw [hm] at h; cases h; exact ⟨_, rfl⟩
      · rw [step_tree hf hn (fun hnp => by
          obtain ⟨x, hx, h1, _⟩ := left_over F1 F2 H hs hk1 hkt he het hft hnp
          exact ⟨x, hx, h1⟩)] at h
        cases hm : nodeAdd d k (.node f.node) e with
        | error y => rw [hm] at h; cases h
        | ok y => rw [hm] at h; cases h; exact ⟨_, rfl⟩
    obtain ⟨e1, rfl⟩ := hx
    have := step_uid hf kf kg ((F1.same he hk1).1 hu.symm) (F1.dl.here'.keys k hk1 f (by rw [hkt]; exact hft))
      (F1.ns.here'.2 e he f hf) hr h
    exact ⟨e1, rfl, this⟩

end level

theorem one_congr {d : Device} {sc : Scope} {os : List Elem} {e e' : Elem} (h : uid d sc e' = uid d sc e)
    (hn : os.find? (fun k => uid d sc k = uid d sc e) = none) : one d sc os e' = .ok (some e') := by
  unfold one
  rw [h, hn]

/-- For one name, a delta can be carried out after the other exactly if it can be carried out at once. -/
theorem inKids_iff {g1 g2 : Elem → Except Err (Option Elem)} : ∀ {ks ks2 : List Elem},
    (∀ e ∈ ks, ∀ x, g2 e = .ok x → ∃ e2, x = some e2 ∧ ((∃ y, g1 e = .ok y) ↔ ∃ y, g1 e2 = .ok y)) →
    inKids g2 ks = .ok ks2 → ((∃ y, inKids g1 ks = .ok y) ↔ ∃ y, inKids g1 ks2 = .ok y)
  | [], ks2, _, h => by cases h; exact Iff.rfl
  | e :: r, ks2, hg, h => by
    unfold inKids at h
    obtain ⟨x, hx, h⟩ := bind_ok.1 h
    obtain ⟨y, hy, h⟩ := bind_ok.1 h
    cases h
    obtain ⟨e2, rfl, hiff⟩ := hg e (by simp) x hx
    have ih := inKids_iff (fun e he => hg e (by simp [he])) hy
    have key : ∀ (e : Elem) (r : List Elem), (∃ y, inKids g1 (e :: r) = .ok y) ↔ (∃ y, g1 e = .ok y) ∧ ∃ y, inKids g1 r = .ok y := by
      intro e r
      constructor
      · rintro ⟨z, hz⟩
        unfold inKids at hz
        obtain ⟨a, ha, hz⟩ := bind_ok.1 hz
        obtain ⟨b, hb, hz⟩ := bind_ok.1 hz
        exact ⟨⟨a, ha⟩, ⟨b, hb⟩⟩
      · rintro ⟨⟨a, ha⟩, ⟨b, hb⟩⟩
        exact ⟨a.toList ++ b, by simp [inKids, ha, hb, bind, Except.bind, pure, Except.pure]⟩
    simp only [Option.toList_some, List.singleton_append]
    rw [key, key, hiff, ih]

theorem inKids_cons {g : Elem → Except Err (Option Elem)} {e : Elem} {r ks : List Elem} (h : inKids g (e :: r) = .ok ks) :
    ∃ x y, g e = .ok x ∧ inKids g r = .ok y ∧ ks = x.toList ++ y := by
  unfold inKids at h
  obtain ⟨x, hx, h⟩ := bind_ok.1 h
  obtain ⟨y, hy, h⟩ := bind_ok.1 h
  cases h
  exact ⟨x, y, hx, hy, rfl⟩

theorem inKids_comm {R : Elem → Elem → Prop} {g1 g2 : Elem → Except Err (Option Elem)} : ∀ {ks ks1 ks2 ks12 ks21 : List Elem},
    (∀ e ∈ ks, ∀ x1 x2, g1 e = .ok x1 → g2 e = .ok x2 → ∃ e1 e2, x1 = some e1 ∧ x2 = some e2 ∧
      ∀ y12 y21, g2 e1 = .ok y12 → g1 e2 = .ok y21 → ∃ e12 e21, y12 = some e12 ∧ y21 = some e21 ∧ R e12 e21) →
    inKids g1 ks = .ok ks1 → inKids g2 ks = .ok ks2 → inKids g2 ks1 = .ok ks12 → inKids g1 ks2 = .ok ks21 →
    List.Forall₂ R ks12 ks21
  | [], _, _, _, _, _, h1, h2, h3, h4 => by
    cases h1; cases h2; cases h3; cases h4; exact .nil
  | e :: r, _, _, _, _, hg, h1, h2, h3, h4 => by
    obtain ⟨x1, y1, a1, b1, rfl⟩ := inKids_cons h1
    obtain ⟨x2, y2, a2, b2, rfl⟩ := inKids_cons h2
    obtain ⟨e1, e2, rfl, rfl, hh⟩ := hg e (by simp) x1 x2 a1 a2
    simp only [Option.toList_some, List.singleton_append] at h3 h4
    obtain ⟨x12, y12, a3, b3, rfl⟩ := inKids_cons h3
    obtain ⟨x21, y21, a4, b4, rfl⟩ := inKids_cons h4
    obtain ⟨e12, e21, rfl, rfl, hR⟩ := hh x12 x21 a3 a4
    exact .cons hR (inKids_comm (fun e he => hg e (by simp [he])) b1 b2 b3 b4)

theorem _root_.NcDiff.UpToOrder.refl : ∀ e : Elem, UpToOrder e e := by
  intro e
  induction e using Elem.ind with
  | h t n a x ks ih =>
    refine .mk rfl rfl rfl rfl (fun _ => rfl) ?_
    intro t i x y hx hy
    rw [hx] at hy; cases hy
    have := List.mem_of_getElem? hx
    exact ih x (List.mem_of_mem_filter this)

theorem _root_.NcDiff.UpToOrder.of_parts {a b : Elem} (h1 : a.tag = b.tag) (h2 : a.nsmap = b.nsmap) (h3 : a.attrs = b.attrs)
    (h4 : a.text = b.text) (h : ∀ t, List.Forall₂ UpToOrder (named t a) (named t b)) : UpToOrder a b := by
  refine .mk h1 h2 h3 h4 (fun t => (h t).length_eq) ?_
  intro t i x y hx hy
  obtain ⟨hi, rfl⟩ := List.getElem?_eq_some_iff.1 hx
  obtain ⟨hj, rfl⟩ := List.getElem?_eq_some_iff.1 hy
  exact (h t).get hi hj

theorem forall2_refl (l : List Elem) : List.Forall₂ UpToOrder l l := by
  induction l with
  | nil => exact .nil
  | cons x r ih => exact .cons (.refl x) ih

section parts
variable {d : Device} {sc : Scope} {o1 o2 s : Elem}

/-- For a shared name, the sum in place. -/
theorem part_inplace (F1 : Fit d sc o1 s) (F2 : Fit d sc o2 s) (H : Independent d sc o1 o2 s) {t : QName}
    (hs : Shared d sc o1 o2 s t) {r : Elem} (hr : Indexable d sc r.kids)
    (hu : ∀ e ∈ s.kids, e.tag = t → ∃ e' ∈ r.kids, e'.tag = t ∧ uid d sc e' = uid d sc e) :
    nodeAdd d (only (fun q => decide (q = t)) o1) sc (only (fun q => decide (q = t)) r) =
      (inKids (one d sc (named t o1)) (named t r)).map (only (fun q => decide (q = t)) r).setKids := by
  have i1 : Indexable d sc (only (fun q => decide (q = t)) r).kids := by rw [only_kids]; exact indexable_only hr _
  have i2 : Indexable d sc (only (fun q => decide (q = t)) o1).kids := by
    rw [only_kids]; exact indexable_only F1.vo.indexable _
  rw [nodeAdd_inplace i1 i2 ?_, only_kids, only_kids]
  intro k hk
  rw [only_kids, List.mem_filter] at hk
  have hkt : k.tag = t := by simpa using hk.2
  obtain ⟨h1, e, he, het, h2⟩ := ready F1 F2 H hs hk.1 hkt
  obtain ⟨e', he', het', h3⟩ := hu e he het
  exact ⟨h1, e', by rw [only_kids, List.mem_filter]; exact ⟨he', by simp [het']⟩, h3.trans h2⟩

/-- The children with a shared name after a delta. -/
theorem part_after (F1 : Fit d sc o1 s) (F2 : Fit d sc o2 s) (H : Independent d sc o1 o2 s) {t : QName}
    (hs : Shared d sc o1 o2 s t) {r : Elem} (h : nodeAdd d o1 sc s = .ok r) :
    inKids (one d sc (named t o1)) (named t s) = .ok (named t r) ∧
      ∀ e ∈ s.kids, e.tag = t → ∃ e' ∈ r.kids, e'.tag = t ∧ uid d sc e' = uid d sc e := by
  have h1 := nodeAdd_split h (fun q => decide (q = t))
  rw [part_inplace F1 F2 H hs F1.vs.indexable (fun e he het => ⟨e, he, het, rfl⟩)] at h1
  cases hx : inKids (one d sc (named t o1)) (named t s) with
  | error x => rw [hx] at h1; cases h1
  | ok ks =>
    rw [hx] at h1
    have h2 := congrArg Elem.kids (Except.ok.inj h1)
    rw [Elem.kids_setKids, only_kids] at h2
    have h3 : ks = named t r := h2
    subst h3
    refine ⟨rfl, ?_⟩
    have hall : ∀ e ∈ named t s, e ∈ s.kids ∧ e.tag = t := fun e he => by
      have := List.mem_filter.1 he
      exact ⟨this.1, by simpa using this.2⟩
    have key : ∀ (l m : List Elem), (∀ e ∈ l, e ∈ s.kids ∧ e.tag = t) → inKids (one d sc (named t o1)) l = .ok m →
        ∀ e ∈ l, ∃ e' ∈ m, e'.tag = t ∧ uid d sc e' = uid d sc e := by
      intro l
      induction l with
      | nil => intro m _ _ e he; simp at he
      | cons a l ih =>
        intro m hl hm e he
        obtain ⟨x, y, hx, hy, rfl⟩ := inKids_cons hm
        obtain ⟨e1, rfl, hu, ht⟩ := one_some F1 F2 H hs (hl a (by simp)).1 (hl a (by simp)).2 hx
        rcases List.mem_cons.1 he with rfl | he
        · exact ⟨e1, by simp, ht.trans (hl e (by simp)).2, hu⟩
        · obtain ⟨e', h1, h2⟩ := ih y (fun e he => hl e (by simp [he])) hy e he
          exact ⟨e', by simp [h1], h2⟩
    intro e he het
    obtain ⟨e', h1, h2⟩ := key _ _ hall hx e (List.mem_filter.2 ⟨he, by simp [het]⟩)
    exact ⟨e', List.mem_of_mem_filter h1, h2⟩

end parts

/-- A delta can be applied after another one that is independent of it exactly if it can be applied at once. -/
theorem nodeAdd_after_iff (d : Device) : ∀ (o1 : Elem) (sc : Scope) (o2 s r2 : Elem), Fit d sc o1 s → Fit d sc o2 s →
    Independent d sc o1 o2 s → nodeAdd d o2 sc s = .ok r2 →
    ((∃ r, nodeAdd d o1 sc s = .ok r) ↔ ∃ r, nodeAdd d o1 sc r2 = .ok r) := by
  intro o1
  induction o1 using Elem.ind with
  | h t n a x ks ih =>
  generalize ho : Elem.mk t n a x ks = o1 at *
  have ih' : ∀ k ∈ o1.kids, ∀ (sc : Scope) (o2 s r2 : Elem), Fit d sc k s → Fit d sc o2 s →
      Independent d sc k o2 s → nodeAdd d o2 sc s = .ok r2 →
      ((∃ r, nodeAdd d k sc s = .ok r) ↔ ∃ r, nodeAdd d k sc r2 = .ok r) := by
    intro k hk; rw [← ho] at hk; exact ih k hk
  clear ih ho
  intro sc o2 s r2 F1 F2 H h2
  have F12 := F1.after F2 h2
  have part : ∀ t : QName,
      ((∃ r, nodeAdd d (only (fun q => decide (q = t)) o1) sc (only (fun q => decide (q = t)) s) = .ok r) ↔
        ∃ r, nodeAdd d (only (fun q => decide (q = t)) o1) sc (only (fun q => decide (q = t)) r2) = .ok r) := by
    intro t
    by_cases c1 : ∃ k ∈ o1.kids, k.tag = t
    · by_cases c2 : ∃ k ∈ o2.kids, k.tag = t
      · have hs : Shared d sc o1 o2 s t := ⟨c1, c2⟩
        obtain ⟨p1, p2⟩ := part_after F2 F1 (Independent.symm H) hs.symm h2
        rw [part_inplace F1 F2 H hs F1.vs.indexable (fun e he het => ⟨e, he, het, rfl⟩),
          part_inplace F1 F2 H hs F12.vs.indexable p2]
        have hmap : ∀ (x : Except Err (List Elem)) (g : List Elem → Elem), (∃ r, x.map g = .ok r) ↔ ∃ y, x = .ok y := by
          intro x g
          cases x <;> simp [Except.map]
        rw [hmap, hmap]
        refine inKids_iff ?_ p1
        intro e he x hx
        obtain ⟨he1, he2⟩ := List.mem_filter.1 he
        have het : e.tag = t := by simpa using he2
        obtain ⟨e2, rfl, hu, ht⟩ := one_some F2 F1 (Independent.symm H) hs.symm he1 het hx
        refine ⟨e2, rfl, ?_⟩
        rcases find_cases (d := d) (sc := sc) (named t o1) e with hn | ⟨k, hk, hku, hfk⟩
        · rw [one_congr rfl hn, one_congr hu hn]
          simp
        · obtain ⟨hk1, hk2⟩ := List.mem_filter.1 hk
          have hkt : k.tag = t := by simpa using hk2
          rcases find_cases (d := d) (sc := sc) (named t o2) e with hn | ⟨l, hl, hlu, hfl⟩
          · rw [one_congr rfl hn] at hx
            cases hx
            exact Iff.rfl
          · obtain ⟨hl1, hl2⟩ := List.mem_filter.1 hl
            have hlt : l.tag = t := by simpa using hl2
            obtain ⟨f, hf, _⟩ := F1.vs.shape' e he1
            have hft : d.lookup sc t = .ok f := by rw [← het]; exact hf
            have hek := (F1.same he1 hk1).1 hku.symm
            have hel := (F2.same he1 hl1).1 hlu.symm
            obtain ⟨g, hg, hn⟩ := (ready F1 F2 H hs hk1 hkt).1.node
            rw [hkt, hft] at hg; cases hg
            unfold one at hx ⊢
            rw [hu, hfk]
            rw [hfl] at hx
            simp only at hx ⊢
            cases H with
            | mk shared leaf inside left =>
            rcases hn with hn | hn
            · have hp := (leaf k hk1 l hl1 (hkt.trans hlt.symm) f (by rw [hkt]; exact hft) hn).1
              rw [step_leaf hf hn hp, step_leaf (by rw [ht]; exact hf) hn hp]
              simp
            · have hin := inside k hk1 l hl1 e he1 hek hel f (by rw [hkt]; exact hft) hn
              have hle : f.node.isNP = true → ∃ x ∈ e.kids, (∀ y ∈ k.kids, y.tag ≠ x.tag) ∧ ∀ y ∈ l.kids, y.tag ≠ x.tag :=
                left k hk1 l hl1 e he1 hek hel f (by rw [hkt]; exact hft)
              rw [step_tree hf hn (fun hnp => by obtain ⟨x, h1, h2, h3⟩ := hle hnp; exact ⟨x, h1, h3⟩)] at hx
              cases hx2 : nodeAdd d l (.node f.node) e with
              | error y => rw [hx2] at hx; cases hx
              | ok y =>
                rw [hx2] at hx
                have hy : y = e2 := by cases hx; rfl
                subst hy
                rw [step_tree hf hn (fun hnp => by obtain ⟨x, h1, h2, h3⟩ := hle hnp; exact ⟨x, h1, h2⟩),
                  step_tree (by rw [ht]; exact hf) hn (fun hnp => by
                    obtain ⟨x, h1, h2, h3⟩ := hle hnp
                    exact ⟨x, mem_left hx2 h1 h3, h2⟩)]
                have := ih' k hk1 (.node f.node) l e y (F1.sub hk1 he1 hf (hkt.trans het.symm))
                  (F2.sub hl1 he1 hf (hlt.trans het.symm)) hin hx2
                have hmap : ∀ (x : Except Err Elem), (∃ r, x.map some = .ok r) ↔ ∃ y, x = .ok y := by
                  intro x
                  cases x <;> simp [Except.map]
                rw [hmap, hmap]
                exact this
      · have : only (fun q => decide (q = t)) r2 = only (fun q => decide (q = t)) s :=
          only_same h2 (fun k hk => by simpa using fun h => c2 ⟨k, hk, h⟩)
        rw [this]
    · have h0 : (only (fun q => decide (q = t)) o1).kids = [] := only_none (fun k hk => by simpa using fun h => c1 ⟨k, hk, h⟩)
      rw [nodeAdd_nothing (by rw [only_kids]; exact indexable_only F1.vs.indexable _) h0,
        nodeAdd_nothing (by rw [only_kids]; exact indexable_only F12.vs.indexable _) h0]
      simp
  constructor
  · rintro ⟨r, hr⟩
    exact nodeAdd_join F12.vs.indexable F1.vo.indexable fun t => (part t).1 ⟨_, nodeAdd_split hr _⟩
  · rintro ⟨r, hr⟩
    exact nodeAdd_join F1.vs.indexable F1.vo.indexable fun t => (part t).2 ⟨_, nodeAdd_split hr _⟩

/-- Independent deltas commute. -/
theorem nodeAdd_commute (d : Device) : ∀ (o1 : Elem) (sc : Scope) (o2 s r1 r2 r12 r21 : Elem), Fit d sc o1 s → Fit d sc o2 s →
    Independent d sc o1 o2 s → nodeAdd d o1 sc s = .ok r1 → nodeAdd d o2 sc s = .ok r2 → nodeAdd d o2 sc r1 = .ok r12 →
    nodeAdd d o1 sc r2 = .ok r21 → UpToOrder r12 r21 := by
  intro o1
  induction o1 using Elem.ind with
  | h t n a x ks ih =>
  generalize ho : Elem.mk t n a x ks = o1 at *
  have ih' : ∀ k ∈ o1.kids, ∀ (sc : Scope) (o2 s r1 r2 r12 r21 : Elem), Fit d sc k s → Fit d sc o2 s →
      Independent d sc k o2 s → nodeAdd d k sc s = .ok r1 → nodeAdd d o2 sc s = .ok r2 → nodeAdd d o2 sc r1 = .ok r12 →
      nodeAdd d k sc r2 = .ok r21 → UpToOrder r12 r21 := by
    intro k hk; rw [← ho] at hk; exact ih k hk
  clear ih ho
  intro sc o2 s r1 r2 r12 r21 F1 F2 H h1 h2 h12 h21
  have F12 := F1.after F2 h2
  have F21 := F2.after F1 h1
  obtain ⟨a1, a2, a3, a4⟩ := nodeAdd_tag h1
  obtain ⟨b1, b2, b3, b4⟩ := nodeAdd_tag h2
  obtain ⟨c1, c2, c3, c4⟩ := nodeAdd_tag h12
  obtain ⟨e1, e2, e3, e4⟩ := nodeAdd_tag h21
  refine UpToOrder.of_parts (by rw [c1, e1, a1, b1]) (by rw [c4, e4, a4, b4]) (by rw [c3, e3, a3, b3])
    (by rw [c2, e2, a2, b2]) ?_
  intro t
  have knd : ∀ e : Elem, named t e = (only (fun q => decide (q = t)) e).kids := fun e => by rw [only_kids]
  by_cases c1 : ∃ k ∈ o1.kids, k.tag = t
  · by_cases c2 : ∃ k ∈ o2.kids, k.tag = t
    · have hs : Shared d sc o1 o2 s t := ⟨c1, c2⟩
      obtain ⟨p1, p1'⟩ := part_after F1 F2 H hs h1
      obtain ⟨p2, p2'⟩ := part_after F2 F1 (Independent.symm H) hs.symm h2
      have q12 := nodeAdd_split h12 (fun q => decide (q = t))
      have q21 := nodeAdd_split h21 (fun q => decide (q = t))
      rw [part_inplace F2 F1 (Independent.symm H) hs.symm F21.vs.indexable p1'] at q12
      rw [part_inplace F1 F2 H hs F12.vs.indexable p2'] at q21
      have hout : ∀ (x : Except Err (List Elem)) (y z : Elem), x.map y.setKids = .ok (only (fun q => decide (q = t)) z) →
          x = .ok (named t z) := by
        intro x y z h
        cases x with
        | error e => cases h
        | ok l =>
          have := congrArg Elem.kids (Except.ok.inj h)
          rw [Elem.kids_setKids, only_kids] at this
          rw [this]
      refine inKids_comm ?_ p1 p2 (hout _ _ _ q12) (hout _ _ _ q21)
      intro e he x1 x2 hx1 hx2
      obtain ⟨he1, he2⟩ := List.mem_filter.1 he
      have het : e.tag = t := by simpa using he2
      obtain ⟨e1, rfl, hu1, ht1⟩ := one_some F1 F2 H hs he1 het hx1
      obtain ⟨e2, rfl, hu2, ht2⟩ := one_some F2 F1 (Independent.symm H) hs.symm he1 het hx2
      refine ⟨e1, e2, rfl, rfl, ?_⟩
      intro y12 y21 hy12 hy21
      rcases find_cases (d := d) (sc := sc) (named t o1) e with hn | ⟨k, hk, hku, hfk⟩
      · rw [one_congr rfl hn] at hx1
        cases hx1
        rw [one_congr hu2 hn] at hy21
        cases hy21
        rw [hx2] at hy12
        cases hy12
        exact ⟨e2, e2, rfl, rfl, .refl _⟩
      · rcases find_cases (d := d) (sc := sc) (named t o2) e with hn | ⟨l, hl, hlu, hfl⟩
        · rw [one_congr rfl hn] at hx2
          cases hx2
          rw [one_congr hu1 hn] at hy12
          cases hy12
          rw [hx1] at hy21
          cases hy21
          exact ⟨e1, e1, rfl, rfl, .refl _⟩
        · obtain ⟨hk1, hk2⟩ := List.mem_filter.1 hk
          have hkt : k.tag = t := by simpa using hk2
          obtain ⟨hl1, hl2⟩ := List.mem_filter.1 hl
          have hlt : l.tag = t := by simpa using hl2
          obtain ⟨f, hf, _⟩ := F1.vs.shape' e he1
          have hft : d.lookup sc t = .ok f := by rw [← het]; exact hf
          have hek := (F1.same he1 hk1).1 hku.symm
          have hel := (F2.same he1 hl1).1 hlu.symm
          obtain ⟨g, hg, hn⟩ := (ready F1 F2 H hs hk1 hkt).1.node
          rw [hkt, hft] at hg; cases hg
          unfold one at hx1 hx2 hy12 hy21
          rw [hu1] at hy12
          rw [hu2] at hy21
          rw [hfk] at hx1 hy21
          rw [hfl] at hx2 hy12
          simp only at hx1 hx2 hy12 hy21
          cases H with
          | mk shared leaf inside left =>
          rcases hn with hn | hn
          · obtain ⟨hp, htx⟩ := leaf k hk1 l hl1 (hkt.trans hlt.symm) f (by rw [hkt]; exact hft) hn
            rw [step_leaf hf hn hp] at hx1 hx2
            rw [step_leaf (by rw [ht1]; exact hf) hn hp] at hy12
            rw [step_leaf (by rw [ht2]; exact hf) hn hp] at hy21
            cases hx1; cases hx2; cases hy12; cases hy21
            refine ⟨_, _, rfl, rfl, ?_⟩
            have : (e.setText k.text).setText l.text = (e.setText l.text).setText k.text := by rw [htx]
            rw [this]
            exact .refl _
          · have hin := inside k hk1 l hl1 e he1 hek hel f (by rw [hkt]; exact hft) hn
            have hle : f.node.isNP = true → ∃ x ∈ e.kids, (∀ y ∈ k.kids, y.tag ≠ x.tag) ∧ ∀ y ∈ l.kids, y.tag ≠ x.tag :=
              left k hk1 l hl1 e he1 hek hel f (by rw [hkt]; exact hft)
            have hmap : ∀ (x : Except Err Elem) (y : Option Elem), x.map some = .ok y → ∃ z, x = .ok z ∧ y = some z := by
              intro x y h
              cases x with
              | error e => cases h
              | ok z => cases h; exact ⟨z, rfl, rfl⟩
            rw [step_tree hf hn (fun hnp => by obtain ⟨x, h1, h2, h3⟩ := hle hnp; exact ⟨x, h1, h2⟩)] at hx1
            rw [step_tree hf hn (fun hnp => by obtain ⟨x, h1, h2, h3⟩ := hle hnp; exact ⟨x, h1, h3⟩)] at hx2
            obtain ⟨z1, m1, m1'⟩ := hmap _ _ hx1
            obtain ⟨z2, m2, m2'⟩ := hmap _ _ hx2
            cases m1'; cases m2'
            rw [step_tree (by rw [ht1]; exact hf) hn (fun hnp => by
              obtain ⟨x, h1, h2, h3⟩ := hle hnp; exact ⟨x, mem_left m1 h1 h2, h3⟩)] at hy12
            rw [step_tree (by rw [ht2]; exact hf) hn (fun hnp => by
              obtain ⟨x, h1, h2, h3⟩ := hle hnp; exact ⟨x, mem_left m2 h1 h3, h2⟩)] at hy21
            obtain ⟨z12, m12, rfl⟩ := hmap _ _ hy12
            obtain ⟨z21, m21, rfl⟩ := hmap _ _ hy21
            exact ⟨z12, z21, rfl, rfl, ih' k hk1 (.node f.node) l e e1 e2 z12 z21 (F1.sub hk1 he1 hf (hkt.trans het.symm))
              (F2.sub hl1 he1 hf (hlt.trans het.symm)) hin m1 m2 m12 m21⟩
    · have n2 : ∀ k ∈ o2.kids, decide (k.tag = t) = false := fun k hk => by simpa using fun h => c2 ⟨k, hk, h⟩
      have u1 := only_same h2 (P := fun q => decide (q = t)) n2
      have u2 := only_same h12 (P := fun q => decide (q = t)) n2
      have u3 := nodeAdd_split h21 (fun q => decide (q = t))
      rw [u1, nodeAdd_split h1 (fun q => decide (q = t))] at u3
      rw [knd, knd, u2, Except.ok.inj u3]
      exact forall2_refl _
  · have n1 : ∀ k ∈ o1.kids, decide (k.tag = t) = false := fun k hk => by simpa using fun h => c1 ⟨k, hk, h⟩
    have u1 := only_same h1 (P := fun q => decide (q = t)) n1
    have u2 := only_same h21 (P := fun q => decide (q = t)) n1
    have u3 := nodeAdd_split h12 (fun q => decide (q = t))
    rw [u1, nodeAdd_split h2 (fun q => decide (q = t))] at u3
    rw [knd, knd, u2, Except.ok.inj u3]
    exact forall2_refl _

/-! ## Trees that differ in the order of nodes with different names only -/

theorem _root_.NcDiff.UpToOrder.parts {a b : Elem} (h : UpToOrder a b) (t : QName) :
    List.Forall₂ UpToOrder (a.childrenWith t) (b.childrenWith t) := by
  cases h with
  | mk _ _ _ _ count kids =>
    rw [List.forall₂_iff_get]
    refine ⟨count t, fun i h1 h2 => kids t i _ _ ?_ ?_⟩
    · simp [List.getElem?_eq_getElem h1]
    · simp [List.getElem?_eq_getElem h2]

theorem _root_.NcDiff.UpToOrder.symm {a b : Elem} (h : UpToOrder a b) : UpToOrder b a := by
  induction h with
  | mk h1 h2 h3 h4 count kids ih =>
    exact .mk h1.symm h2.symm h3.symm h4.symm (fun t => (count t).symm) (fun t i x y hx hy => ih t i y x hy hx)

theorem forall2_sub {R : Elem → Elem → Prop} {l m : List Elem} (h : List.Forall₂ R l m) : ∀ {l' : List Elem}, l'.Sublist l →
    ∃ m' : List Elem, m'.Sublist m ∧ List.Forall₂ R l' m' := by
  induction h with
  | nil => intro l' hl; cases hl; exact ⟨[], .refl _, .nil⟩
  | cons hxy _ ih =>
    intro l' hl
    cases hl with
    | cons _ hl =>
      obtain ⟨m', h1, h2⟩ := ih hl
      exact ⟨m', h1.cons _, h2⟩
    | cons_cons _ hl =>
      obtain ⟨m', h1, h2⟩ := ih hl
      exact ⟨_, h1.cons_cons _, .cons hxy h2⟩

theorem forall2_mem {R : Elem → Elem → Prop} {l m : List Elem} (h : List.Forall₂ R l m) {x : Elem} (hx : x ∈ l) :
    ∃ y ∈ m, R x y := by
  induction h with
  | nil => simp at hx
  | cons hxy _ ih =>
    rcases List.mem_cons.1 hx with rfl | hx
    · exact ⟨_, by simp, hxy⟩
    · obtain ⟨y, hy, hr⟩ := ih hx
      exact ⟨y, by simp [hy], hr⟩

theorem forall2_texts {l m : List Elem} (h : List.Forall₂ UpToOrder l m) : l.map Elem.text = m.map Elem.text := by
  induction h with
  | nil => rfl
  | cons hxy _ ih =>
    cases hxy with
    | mk _ _ _ h4 _ _ => simp [h4, ih]

theorem _root_.NcDiff.UpToOrder.same {d : Device} {sc : Scope} {x y : Elem} (h : UpToOrder x y) : SameInstance d sc x y := by
  have hp := h.parts
  cases h with
  | mk h1 h2 h3 h4 count kids =>
    refine ⟨h1, fun f hf => ?_⟩
    split
    · exact parseText_congr h1 h4 h2
    · intro k _
      exact forall2_texts (hp k)
    · trivial

theorem _root_.NcDiff.UpToOrder.incl {d : Device} {a b : Elem} (h : UpToOrder a b) : ∀ {sc : Scope}, Valid d sc b → Incl d sc a b := by
  induction a using Elem.ind generalizing b with
  | h t n at' x ks ih =>
  generalize ho : Elem.mk t n at' x ks = a at *
  have ih' : ∀ k ∈ a.kids, ∀ {b : Elem}, UpToOrder k b → ∀ {sc : Scope}, Valid d sc b → Incl d sc k b := by
    intro k hk; rw [← ho] at hk; exact fun h => ih k hk h
  clear ih ho
  intro sc hb
  have hp := h.parts
  have part : ∀ x ∈ a.kids, ∃ y ∈ b.kids, UpToOrder x y := by
    intro x hx
    obtain ⟨y, hy, hr⟩ := forall2_mem (hp x.tag) (List.mem_filter.2 ⟨hx, by simp⟩)
    exact ⟨y, List.mem_of_mem_filter hy, hr⟩
  cases h with
  | mk h1 h2 h3 h4 count kids =>
    refine .mk h1 ?_ (fun p hp => h3 ▸ hp) (fun x hx => ?_) (fun x hx y hy hs f hf => ?_) ?_
    · cases sc with
      | root => unfold parseTextAt; rw [h4]
      | node sn => rw [parseTextAt_node, parseTextAt_node, parseText_congr h1 h4 h2]
    · obtain ⟨y, hy, hr⟩ := part x hx
      exact ⟨y, hy, hr.same⟩
    · obtain ⟨y', hy', hr⟩ := part x hx
      have : y' = y := hb.eq_of_same hy' hy ((hr.same (d := d) (sc := sc)).symm.trans hs)
      subst this
      exact ih' x hx hr (hb.sub' y' hy f (by rw [← hs.1]; exact hf))
    · intro x y hxy ht _
      have hsub : [x, y].Sublist (a.childrenWith x.tag) := by
        have := hxy.filter (fun k => decide (k.tag = x.tag))
        simpa [ht, Elem.childrenWith] using this
      obtain ⟨m', h1, h2⟩ := forall2_sub (hp x.tag) hsub
      cases h2 with
      | cons hx h2 =>
      cases h2 with
      | cons hy h2 =>
      cases h2
      exact ⟨_, _, h1.trans List.filter_sublist, hx.same, hy.same⟩

end Apart
end NcDiff
