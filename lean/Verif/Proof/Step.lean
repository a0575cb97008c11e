import Verif.Proof.Insert
import Verif.Proof.Pairing
/-!
# What one iteration of the loops of `node_add` can do
-/

namespace NcDiff

/-- The instance that the first loop may create for a child `o` of the delta. -/
inductive NewChild (d : Device) (sc : Scope) (o : Elem) (rec : AddFn) (e : Elem) : Prop
  | copy (h : e = o.delAttrib)
  | container (f : Found) (hf : d.lookup sc o.tag = .ok f) (hn : f.node.ntype = .container)
      (hop : opOf o = "merge") (hr : rec (.node f.node) (Elem.new o.tag o.nsmap) = .ok e)
  | list (f : Found) (sk : Elem) (hf : d.lookup sc o.tag = .ok f) (hn : f.node.ntype = .list)
      (hop : opOf o = "merge") (hs : listSkeleton f.node.keys o = .ok sk)
      (hr : rec (.node f.node) sk = .ok e)

theorem addWithoutPeer_inv {d : Device} {sc : Scope} {st st' : List Cell} {o : Elem} {rec : AddFn}
    (h : addWithoutPeer d sc st (o, rec) = .ok st') :
    st' = st ∨ ∃ e, Ins (none, e) st st' ∧ NewChild d sc o rec e := by
  unfold addWithoutPeer at h
  simp only at h
  split at h
  · cases h
  split at h
  · cases h; exact Or.inl rfl
  split at h
  · cases hl : d.lookup sc o.tag with
    | error x => simp [hl, bind, Except.bind] at h
    | ok f =>
      simp only [hl, bind, Except.bind] at h
      cases hn : f.node.ntype <;> simp only [hn] at h
      · cases h; exact Or.inr ⟨_, Ins.append .., .copy rfl⟩
      · rcases placeNew_ins h with h | h
        · exact Or.inl h
        · exact Or.inr ⟨_, h, .copy rfl⟩
      · split at h
        · rename_i hop
          cases hr : rec (.node f.node) (Elem.new o.tag o.nsmap) with
          | error x => simp [hr] at h
          | ok e =>
            simp only [hr] at h
            cases h; exact Or.inr ⟨_, Ins.append .., .container f hl hn hop hr⟩
        · cases h; exact Or.inr ⟨_, Ins.append .., .copy rfl⟩
      · split at h
        · rename_i hop
          cases hs : listSkeleton f.node.keys o with
          | error x => simp [hs] at h
          | ok sk =>
            simp only [hs] at h
            cases hp : placeNew f.node (keyAnchor o) o (none, sk) st with
            | error x => simp [hp] at h
            | ok st1 =>
              simp only [hp] at h
              cases hr : rec (.node f.node) sk with
              | error x => simp [hr] at h
              | ok e =>
                simp only [hr] at h
                rcases placeNew_ins h with h | h
                · exact Or.inl h
                · exact Or.inr ⟨_, h, .list f sk hl hn hop hs hr⟩
        · rcases placeNew_ins h with h | h
          · exact Or.inl h
          · exact Or.inr ⟨_, h, .copy rfl⟩
      all_goals cases h; exact Or.inl rfl
  · cases h

/-- What the second loop may make of the existing instance `e` that matches `o`. -/
inductive PeerChild (d : Device) (sc : Scope) (o : Elem) (rec : AddFn) (e e' : Elem) : Prop
  | leaf (f : Found) (hf : d.lookup sc e.tag = .ok f) (hn : f.node.ntype = .leaf)
      (hm : mergeText d f.node o e = .ok e')
  | merge (f : Found) (hf : d.lookup sc e.tag = .ok f)
      (hn : f.node.ntype = .container ∨ f.node.ntype = .list) (hop : opOf o = "merge")
      (hr : rec (.node f.node) e = .ok e')

theorem removeCell_setCell (h : Nat) (e : Elem) (st : List Cell) :
    removeCell h (setCell h e st) = removeCell h st := by
  induction st with
  | nil => rfl
  | cons c r ih =>
    simp only [removeCell, setCell, List.map_cons, List.filter_cons] at ih ⊢
    by_cases hc : isCell h c = true
    · have : isCell h (c.1, e) = true := by simpa [isCell] using hc
      simp [hc, this, ih]
    · simp [hc, ih]

/-- The possible outcomes of one iteration of the second loop. -/
theorem addWithPeer_inv {d : Device} {sc : Scope} {st st' : List Cell} {e o : Elem} {h : Nat}
    {rec : AddFn} (hs : addWithPeer d sc st ((e, h), (o, rec)) = .ok st') :
    ∃ st1, (st1 = st ∨ Ins (some h, e) (removeCell h st) st1) ∧
      (st' = st1 ∨ st' = removeCell h st1 ∨
        (∃ e', st' = setCell h e' st1 ∧ PeerChild d sc o rec e e') ∨
        (opOf o = "replace" ∧ st' = replaceCell h o.delAttrib st1)) := by
  unfold addWithPeer at hs
  simp only [bind, Except.bind] at hs
  cases hl : d.lookup sc e.tag with
  | error x => simp [hl] at hs
  | ok f =>
    simp only [hl] at hs
    cases hr : withPeer d f.node (o, rec) h e st with
    | error x => simp [hr] at hs
    | ok r =>
      simp only [hr] at hs
      unfold withPeer at hr
      -- outcome of the helper
      have key : ∃ st1, (st1 = st ∨ Ins (some h, e) (removeCell h st) st1) ∧
          (r.st = st1 ∨ r.st = removeCell h st1 ∨
            (∃ e', r.st = setCell h e' st1 ∧ PeerChild d sc o rec e e') ∨
            (opOf o = "replace" ∧ r.attached = false ∧ r.st = replaceCell h o.delAttrib st1)) := by
        have tree : ∀ st1, (f.node.ntype = .container ∨ f.node.ntype = .list) →
            withPeerTree f.node (o, rec) h e st1 = .ok r →
            (r.st = st1 ∨ r.st = removeCell h st1 ∨
            (∃ e', r.st = setCell h e' st1 ∧ PeerChild d sc o rec e e') ∨
            (opOf o = "replace" ∧ r.attached = false ∧ r.st = replaceCell h o.delAttrib st1)) := by
          intro st1 hn ht
          unfold withPeerTree at ht
          simp only [bind, Except.bind] at ht
          split at ht
          · rename_i hop
            cases hrec : rec (.node f.node) e with
            | error x => simp [hrec] at ht
            | ok e' =>
              simp only [hrec] at ht
              cases ht; exact Or.inr (Or.inr (Or.inl ⟨e', rfl, .merge f hl hn hop hrec⟩))
          split at ht
          · rename_i hop
            cases ht; exact Or.inr (Or.inr (Or.inr ⟨hop, rfl, rfl⟩))
          split at ht
          · cases ht
          split at ht
          · cases ht; exact Or.inr (Or.inl rfl)
          · cases ht
        cases hn : f.node.ntype <;> simp only [hn] at hr
        · unfold withPeerLeaf at hr
          simp only [bind, Except.bind] at hr
          split at hr
          · cases hm : mergeText d f.node o e with
            | error x => simp [hm] at hr
            | ok e' =>
              simp only [hm] at hr
              cases hr
              exact ⟨st, Or.inl rfl, Or.inr (Or.inr (Or.inl ⟨e', rfl, .leaf f hl hn hm⟩))⟩
          split at hr
          · cases hr
          split at hr
          · cases hr; exact ⟨st, Or.inl rfl, Or.inr (Or.inl rfl)⟩
          · cases hr
        · unfold withPeerLeafList at hr
          simp only [bind, Except.bind] at hr
          split at hr
          · cases hp : placeOld f.node (valueAnchor o) o h e st with
            | error x => simp [hp] at hr
            | ok st1 =>
              simp only [hp] at hr
              cases hr; exact ⟨st1, placeOld_ins hp, Or.inl rfl⟩
          split at hr
          · cases hr
          split at hr
          · cases hr; exact ⟨st, Or.inl rfl, Or.inr (Or.inl rfl)⟩
          · cases hr
        · exact ⟨st, Or.inl rfl, tree st (Or.inl hn) hr⟩
        · unfold withPeerList at hr
          simp only [bind, Except.bind] at hr
          split at hr
          · cases hp : placeOld f.node (keyAnchor o) o h e st with
            | error x => simp [hp] at hr
            | ok st1 =>
              simp only [hp] at hr
              exact ⟨st1, placeOld_ins hp, tree st1 (Or.inr hn) hr⟩
          · exact ⟨st, Or.inl rfl, tree st (Or.inr hn) hr⟩
        all_goals cases hr; exact ⟨st, Or.inl rfl, Or.inl rfl⟩
      obtain ⟨st1, h1, h2⟩ := key
      refine ⟨st1, h1, ?_⟩
      unfold finishPeer at hs
      split at hs
      · split at hs
        · rename_i hatt
          cases hs
          rcases h2 with h2 | h2 | ⟨e', h2, _⟩ | ⟨_, hc, _⟩
          · exact Or.inr (Or.inl (by rw [h2]))
          · refine Or.inr (Or.inl ?_)
            rw [h2]; simp [removeCell, List.filter_filter]
          · refine Or.inr (Or.inl ?_)
            rw [h2, removeCell_setCell]
          · rw [hatt] at hc; cases hc
        · cases hs
      · cases hs
        rcases h2 with h2 | h2 | h2 | ⟨a, _, b⟩
        · exact Or.inl h2
        · exact Or.inr (Or.inl h2)
        · exact Or.inr (Or.inr (Or.inl h2))
        · exact Or.inr (Or.inr (Or.inr ⟨a, b⟩))

/-- Inversion of `node_add`. -/
theorem nodeAdd_inv {d : Device} {sc : Scope} {sum o r : Elem} (h : nodeAdd d o sc sum = .ok r) :
    Indexable d sc sum.kids ∧ Indexable d sc o.kids ∧
    ∃ st1 st2, ((groupsOf (fun a : Elem × Nat => uid d sc a.1) (fun b : Elem × AddFn => uid d sc b.1)
        sum.kids.zipIdx (o.kids.map (fun k => (k, fun sc sum => nodeAdd d k sc sum)))).onlyTwo).foldlM
        (addWithoutPeer d sc) (sum.kids.zipIdx.map (fun p => (some p.2, p.1))) = .ok st1 ∧
      ((groupsOf (fun a : Elem × Nat => uid d sc a.1) (fun b : Elem × AddFn => uid d sc b.1)
        sum.kids.zipIdx (o.kids.map (fun k => (k, fun sc sum => nodeAdd d k sc sum)))).both).foldlM
        (addWithPeer d sc) st1 = .ok st2 ∧
      r = sum.setKids (st2.map Prod.snd) := by
  rw [nodeAdd_eq] at h
  unfold nodeAddBody at h
  simp only [bind, Except.bind] at h
  cases hg : groupKids d sc Prod.fst Prod.fst sum.kids.zipIdx
      (o.kids.map (fun k => (k, fun sc sum => nodeAdd d k sc sum))) with
  | error x => simp [hg] at h
  | ok g =>
    obtain ⟨i1, i2, hgo⟩ := groupKids_inv hg
    simp only [hg] at h
    rw [List.zipIdx_map_fst] at i1
    rw [List.map_map] at i2
    have i2' : Indexable d sc o.kids := by simpa [Function.comp_def] using i2
    refine ⟨i1, i2', ?_⟩
    rw [← hgo]
    cases h1 : g.onlyTwo.foldlM (addWithoutPeer d sc) (sum.kids.zipIdx.map (fun p => (some p.2, p.1))) with
    | error x => simp [h1] at h
    | ok st1 =>
      simp only [h1] at h
      cases h2 : g.both.foldlM (addWithPeer d sc) st1 with
      | error x => simp [h2] at h
      | ok st2 =>
        simp only [h2, pure, Except.pure] at h
        cases h
        exact ⟨st1, st2, rfl, h2, rfl⟩

end NcDiff
