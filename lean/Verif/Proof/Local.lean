import Verif.Proof.Frame
import Verif.Spec.Deep
/-!
# The loops of `node_add`, one instance at a time

Each iteration is split in where the child goes (`newPlace`, `peerPlace`) and what it becomes
(`newContent`, `peerContent`).  An iteration only changes the cells of its own instance, so the
result at an instance can be read off from the one iteration that concerns it.
-/

namespace NcDiff

/-! ## Splitting an iteration -/

/-- What becomes of an existing child. -/
inductive PeerRes where
  | gone
  | keep
  | set (e : Elem)
  | repl (e : Elem)

def PeerRes.apply (h : Nat) : PeerRes → List Cell → List Cell
  | .gone, st => removeCell h st
  | .keep, st => st
  | .set e, st => setCell h e st
  | .repl e, st => replaceCell h e st

def peerPlace (sn : SNode) (o : Elem) (h : Nat) (e : Elem) (st : List Cell) : Except Err (List Cell) :=
  match sn.ntype with
  | .leafList =>
    if opOf o = "merge" ∨ opOf o = "replace" then placeOld sn (valueAnchor o) o h e st else .ok st
  | .list =>
    if opOf o ≠ "delete" ∧ opOf o ≠ "remove" then placeOld sn (keyAnchor o) o h e st else .ok st
  | _ => .ok st

def peerTree (sn : SNode) (p : Elem × AddFn) (e : Elem) : Except Err PeerRes :=
  if opOf p.1 = "merge" then do
    let e' ← p.2 (.node sn) e
    if e'.kids = [] ∧ sn.isNP = true then pure .gone else pure (.set e')
  else if opOf p.1 = "replace" then
    if e.kids = [] ∧ sn.isNP = true then .error .valueError else pure (.repl p.1.delAttrib)
  else if opOf p.1 = "create" then .error (.configDelta .dataExists)
  else if opOf p.1 = "delete" ∨ opOf p.1 = "remove" then
    if e.kids = [] ∧ sn.isNP = true then .error .valueError else pure .gone
  else .error (.configDelta .unknownOp)

def peerContent (d : Device) (sn : SNode) (p : Elem × AddFn) (e : Elem) : Except Err PeerRes :=
  match sn.ntype with
  | .leaf =>
    if opOf p.1 = "merge" ∨ opOf p.1 = "replace" then do
      let e' ← mergeText d sn p.1 e
      pure (.set e')
    else if opOf p.1 = "create" then .error (.configDelta .dataExists)
    else if opOf p.1 = "delete" ∨ opOf p.1 = "remove" then pure .gone
    else .error (.configDelta .unknownOp)
  | .leafList =>
    if opOf p.1 = "merge" ∨ opOf p.1 = "replace" then pure .keep
    else if opOf p.1 = "create" then .error (.configDelta .dataExists)
    else if opOf p.1 = "delete" ∨ opOf p.1 = "remove" then pure .gone
    else .error (.configDelta .unknownOp)
  | .container => peerTree sn p e
  | .list => peerTree sn p e
  | _ => pure .keep

theorem notNP {sn : SNode} (h : sn.ntype ≠ .container) : sn.isNP = false := by
  unfold SNode.isNP
  unfold SNode.ntype at h
  simp [h]

theorem withPeerTree_eq (sn : SNode) (p : Elem × AddFn) (h : Nat) (e : Elem) (st : List Cell) :
    (withPeerTree sn p h e st >>= finishPeer sn h) =
      (peerTree sn p e >>= fun x => pure (x.apply h st)) := by
  unfold withPeerTree peerTree
  simp only [bind, Except.bind]
  split_ifs with h1 h2 h3 h4 h5 h6
  · cases hr : p.2 (.node sn) e with
    | error x => rfl
    | ok e' =>
      simp only [pure, Except.pure, finishPeer]
      split_ifs with hc
      · simp [PeerRes.apply, removeCell_setCell]
      · rfl
  · simp [pure, Except.pure, finishPeer, h3]
  · simp [pure, Except.pure, finishPeer, h3, PeerRes.apply]
  · rfl
  · simp [pure, Except.pure, finishPeer, h6]
  · simp [pure, Except.pure, finishPeer, h6, PeerRes.apply]
  · rfl

theorem withPeer_eq (d : Device) (sn : SNode) (p : Elem × AddFn) (h : Nat) (e : Elem)
    (st : List Cell) :
    (withPeer d sn p h e st >>= finishPeer sn h) =
      (do let st1 ← peerPlace sn p.1 h e st
          let x ← peerContent d sn p e
          pure (x.apply h st1)) := by
  unfold withPeer peerPlace peerContent
  cases hn : sn.ntype <;> simp only
  · -- leaf
    have hNP := notNP (sn := sn) (by rw [hn]; decide)
    unfold withPeerLeaf
    simp only [bind, Except.bind]
    split_ifs with h1 h2 h3
    · cases hr : mergeText d sn p.1 e with
      | error x => rfl
      | ok e' => simp [pure, Except.pure, finishPeer, hNP, PeerRes.apply]
    · rfl
    · simp [pure, Except.pure, finishPeer, hNP, PeerRes.apply]
    · rfl
  · have hNP := notNP (sn := sn) (by rw [hn]; decide)
    unfold withPeerLeafList
    simp only [bind, Except.bind]
    split_ifs with h1 h2 h3
    · cases hr : placeOld sn (valueAnchor p.1) p.1 h e st with
      | error x => rfl
      | ok e' => simp [pure, Except.pure, finishPeer, hNP, PeerRes.apply]
    · rfl
    · simp [pure, Except.pure, finishPeer, hNP, PeerRes.apply]
    · rfl
  · exact withPeerTree_eq sn p h e st
  · unfold withPeerList
    simp only [bind, Except.bind]
    split_ifs with h1
    · cases hr : placeOld sn (keyAnchor p.1) p.1 h e st with
      | error x => rfl
      | ok st1 => exact withPeerTree_eq sn p h e st1
    · exact withPeerTree_eq sn p h e st
  all_goals
    have hNP := notNP (sn := sn) (by rw [hn]; decide)
    simp [bind, Except.bind, pure, Except.pure, finishPeer, hNP, PeerRes.apply]

theorem addWithPeer_eq (d : Device) (sc : Scope) (st : List Cell) (e o : Elem) (h : Nat)
    (rec : AddFn) :
    addWithPeer d sc st ((e, h), (o, rec)) =
      (do let f ← d.lookup sc e.tag
          let st1 ← peerPlace f.node o h e st
          let x ← peerContent d f.node (o, rec) e
          pure (x.apply h st1)) := by
  unfold addWithPeer
  simp only [bind, Except.bind]
  cases d.lookup sc e.tag with
  | error x => rfl
  | ok f => exact withPeer_eq d f.node (o, rec) h e st

theorem addWithPeer_ok {d : Device} {sc : Scope} {st st' : List Cell} {e o : Elem} {h : Nat}
    {rec : AddFn} {f : Found} (hf : d.lookup sc e.tag = .ok f) :
    addWithPeer d sc st ((e, h), (o, rec)) = .ok st' ↔
      ∃ st1 x, peerPlace f.node o h e st = .ok st1 ∧ peerContent d f.node (o, rec) e = .ok x ∧
        st' = x.apply h st1 := by
  rw [addWithPeer_eq]
  simp only [hf, bind, Except.bind]
  cases h1 : peerPlace f.node o h e st with
  | error x => simp
  | ok st1 =>
    cases h2 : peerContent d f.node (o, rec) e with
    | error x => simp
    | ok x =>
      simp only [pure, Except.pure, Except.ok.injEq, exists_and_left, exists_eq_left', eq_comm]

/-- What a new child is. -/
def newContent (f : Found) (p : Elem × AddFn) : Except Err Elem :=
  match f.node.ntype with
  | .container =>
    if opOf p.1 = "merge" then p.2 (.node f.node) (Elem.new p.1.tag p.1.nsmap) else .ok p.1.delAttrib
  | .list =>
    if opOf p.1 = "merge" then do
      let e ← listSkeleton f.node.keys p.1
      p.2 (.node f.node) e
    else .ok p.1.delAttrib
  | _ => .ok p.1.delAttrib

/-- Where a new child goes. -/
def newPlace (f : Found) (o : Elem) (c : Cell) (st : List Cell) : Except Err (List Cell) :=
  match f.node.ntype with
  | .leaf => .ok (append st c)
  | .container => .ok (append st c)
  | .leafList => placeNew f.node (valueAnchor o) o c st
  | .list => placeNew f.node (keyAnchor o) o c st
  | _ => .ok st

theorem insertBefore_indep {p : Cell → Bool} {c c' : Cell} {st st1 : List Cell}
    (h : insertBefore p c st = some st1) : ∃ st2, insertBefore p c' st = some st2 := by
  cases h2 : insertBefore p c' st with
  | some s => exact ⟨s, rfl⟩
  | none => rw [insertBefore_none.2 (insertBefore_none.1 h2)] at h; cases h

theorem insertAfter_indep {p : Cell → Bool} {c c' : Cell} {st st1 : List Cell}
    (h : insertAfter p c st = some st1) : ∃ st2, insertAfter p c' st = some st2 := by
  cases h2 : insertAfter p c' st with
  | some s => exact ⟨s, rfl⟩
  | none => rw [insertAfter_none.2 (insertAfter_none.1 h2)] at h; cases h

theorem placeNew_indep {sn : SNode} {a : Except Err (Cell → Bool)} {o : Elem} {c c' : Cell}
    {st st1 : List Cell} (h : placeNew sn a o c st = .ok st1) :
    ∃ st2, placeNew sn a o c' st = .ok st2 := by
  unfold placeNew at h ⊢
  generalize (if sn.userOrdered = true then insertOf o else none) = oi at h ⊢
  cases oi with
  | none => exact ⟨_, rfl⟩
  | some i =>
    simp only at h ⊢
    by_cases h1 : i = "first"
    · simp [h1]
    by_cases h2 : i = "last"
    · simp [h1, h2]
    by_cases h3 : i = "before"
    · simp only [h1, h2, h3, if_true, if_false] at h ⊢
      cases a with
      | error x => simp [bind, Except.bind] at h
      | ok p =>
        simp only [bind, Except.bind] at h ⊢
        obtain ⟨s, hs⟩ := insertBefore_indep (c' := c') (orWrong_ok h)
        simp [hs, orWrong]
    by_cases h4 : i = "after"
    · simp only [h1, h2, h3, h4, if_true, if_false] at h ⊢
      cases a with
      | error x => simp [bind, Except.bind] at h
      | ok p =>
        simp only [bind, Except.bind] at h ⊢
        obtain ⟨s, hs⟩ := insertAfter_indep (c' := c') (orWrong_ok h)
        simp [hs, orWrong]
    · simp [h1, h2, h3, h4]

theorem addWithoutPeer_ok {d : Device} {sc : Scope} {st st' : List Cell} {o : Elem} {rec : AddFn}
    {f : Found} (hf : d.lookup sc o.tag = .ok f) :
    addWithoutPeer d sc st (o, rec) = .ok st' ↔
      (opOf o = "remove" ∧ st' = st) ∨
      ((opOf o = "merge" ∨ opOf o = "replace" ∨ opOf o = "create") ∧
        ∃ e, newContent f (o, rec) = .ok e ∧ newPlace f o (none, e) st = .ok st') := by
  unfold addWithoutPeer
  by_cases h1 : opOf o = "delete"
  · simp [h1]
  by_cases h2 : opOf o = "remove"
  · simp [h2, eq_comm]
  by_cases h3 : opOf o = "merge" ∨ opOf o = "replace" ∨ opOf o = "create"
  · simp only [h1, h2, h3, if_true, if_false, hf, bind, Except.bind, false_and, false_or, true_and]
    unfold newContent newPlace
    cases hn : f.node.ntype <;> simp only [Except.ok.injEq, exists_eq_left', pure, Except.pure]
    · by_cases h4 : opOf o = "merge"
      · simp only [h4, if_true]
        cases hr : rec (.node f.node) (Elem.new o.tag o.nsmap) <;> simp
      · simp only [h4, if_false, Except.ok.injEq, exists_eq_left']
    · by_cases h4 : opOf o = "merge"
      · simp only [h4, if_true, bind, Except.bind]
        cases hs : listSkeleton f.node.keys o with
        | error x => simp
        | ok sk =>
          simp only
          constructor
          · intro h
            cases hp : placeNew f.node (keyAnchor o) o (none, sk) st with
            | error x => simp [hp] at h
            | ok s1 =>
              simp only [hp] at h
              cases hr : rec (.node f.node) sk with
              | error x => simp [hr] at h
              | ok e => simp only [hr] at h; exact ⟨e, rfl, h⟩
          · rintro ⟨e, hr, h⟩
            obtain ⟨s1, hp⟩ := placeNew_indep (c' := (none, sk)) h
            simp only [hp, hr, h]
      · simp only [h4, if_false, Except.ok.injEq, exists_eq_left']
  · simp [h1, h2, h3]

/-! ## Cells of one instance -/

/-- The cells of instance `u`. -/
def atU (d : Device) (sc : Scope) (u : UID) (st : List Cell) : List Cell :=
  st.filter (fun c => uid d sc c.2 = u)

/-- The cells of the other instances. -/
def othU (d : Device) (sc : Scope) (u : UID) (st : List Cell) : List Cell :=
  st.filter (fun c => uid d sc c.2 ≠ u)

theorem atU_of_othU {d : Device} {sc : Scope} {u v : UID} {st st' : List Cell} (hne : v ≠ u)
    (h : othU d sc u st' = othU d sc u st) : atU d sc v st' = atU d sc v st := by
  have e : ∀ l : List Cell, atU d sc v l = (othU d sc u l).filter (fun c => uid d sc c.2 = v) := by
    intro l
    unfold atU othU
    rw [List.filter_filter]
    congr 1
    funext c
    by_cases hc : uid d sc c.2 = v
    · simp [hc, hne]
    · simp [hc]
  rw [e, h, ← e]

/-- Uids of the cells. -/
def uidsOf (d : Device) (sc : Scope) (st : List Cell) : List UID := st.map (fun c => uid d sc c.2)

theorem nodup_of_local {d : Device} {sc : Scope} {u : UID} {st : List Cell}
    (h1 : (uidsOf d sc (othU d sc u st)).Nodup) (h2 : (atU d sc u st).length ≤ 1) :
    (uidsOf d sc st).Nodup := by
  induction st with
  | nil => simp [uidsOf]
  | cons c r ih =>
    unfold uidsOf othU atU at *
    rw [List.map_cons, List.nodup_cons]
    by_cases hc : uid d sc c.2 = u
    · simp only [List.filter_cons, hc, decide_true, if_true, List.length_cons, ne_eq, not_true,
        decide_false, Bool.false_eq_true, if_false] at h1 h2
      have hnil : r.filter (fun c => uid d sc c.2 = u) = [] := by
        rw [← List.length_eq_zero_iff]; omega
      refine ⟨?_, ih h1 (by rw [hnil]; simp)⟩
      intro hm
      obtain ⟨x, hx, he⟩ := List.mem_map.1 hm
      have := List.filter_eq_nil_iff.1 hnil x hx
      simp [he, hc] at this
    · simp only [List.filter_cons, hc, decide_false, Bool.false_eq_true, if_false, ne_eq,
        not_false_eq_true, decide_true, if_true, List.map_cons, List.nodup_cons] at h1 h2
      refine ⟨?_, ih h1.2 h2⟩
      intro hm
      obtain ⟨x, hx, he⟩ := List.mem_map.1 hm
      refine h1.1 (List.mem_map.2 ⟨x, List.mem_filter.2 ⟨hx, ?_⟩, he⟩)
      simp only [decide_eq_true_eq]; rw [he]; exact hc

/-- A loop whose iterations work on different instances: what an iteration does at its instance is
what the loop does there. -/
theorem foldlM_local {α : Type} {d : Device} {sc : Scope} {f : List Cell → α → Except Err (List Cell)}
    {u : α → UID} {R : α → List Cell → List Cell → Prop} {Inv : List Cell → Prop} :
    ∀ {l : List α} {s s' : List Cell}, (l.map u).Nodup → Inv s →
    (∀ a ∈ l, ∀ s s', Inv s → f s a = .ok s' →
      Inv s' ∧ othU d sc (u a) s' = othU d sc (u a) s ∧ R a (atU d sc (u a) s) (atU d sc (u a) s')) →
    l.foldlM f s = .ok s' →
    Inv s' ∧ (∀ a ∈ l, R a (atU d sc (u a) s) (atU d sc (u a) s')) ∧
      ∀ v, v ∉ l.map u → atU d sc v s' = atU d sc v s
  | [], s, s', _, hI, _, h => by
    simp only [List.foldlM_nil, pure, Except.pure] at h; cases h
    exact ⟨hI, by simp, fun _ _ => rfl⟩
  | a :: l, s, s', hn, hI, hstep, h => by
    rw [List.foldlM_cons] at h
    rw [List.map_cons, List.nodup_cons] at hn
    cases hf : f s a with
    | error e => simp [hf, bind, Except.bind] at h
    | ok t =>
      simp only [hf, bind, Except.bind] at h
      obtain ⟨hI1, ho, hR⟩ := hstep a (by simp) s t hI hf
      obtain ⟨hI2, hR2, hV⟩ := foldlM_local hn.2 hI1 (fun b hb => hstep b (by simp [hb])) h
      refine ⟨hI2, ?_, ?_⟩
      · intro b hb
        rcases List.mem_cons.1 hb with rfl | hb
        · rw [hV (u b) hn.1]; exact hR
        · have hne : u b ≠ u a := fun e => hn.1 (by rw [← e]; exact List.mem_map_of_mem hb)
          rw [← atU_of_othU hne ho]; exact hR2 b hb
      · intro v hv
        rw [List.map_cons, List.mem_cons, not_or] at hv
        rw [hV v hv.2, atU_of_othU hv.1 ho]

end NcDiff
