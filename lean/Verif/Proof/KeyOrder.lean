import Verif.Spec.KeyOrder
import Verif.Proof.Prefer
/-!
# The keys come first in every list entry of a delta
-/

namespace NcDiff

section
variable {d : Device} {sc : Scope}

/-- The keys of the list are leaves that are marked as keys. -/
def KeyLeaves (d : Device) (sn : SNode) : Prop :=
  ∀ q ∈ sn.keys, ∃ g, d.lookup (.node sn) q = .ok g ∧ g.node.ntype = .leaf ∧ g.node.info.isKey = true

theorem Side.keyLeaves {e k : Elem} {f : Found} (h : Side d sc e) (hk : k ∈ e.kids)
    (hf : d.lookup sc k.tag = .ok f) (hn : f.node.ntype = .list) : KeyLeaves d f.node := by
  intro q hq
  obtain ⟨g, h1, h2, _, h3⟩ := h.level.here'.keys k hk f hf hn q hq
  exact ⟨g, h1, h2, h3⟩

/-! ## Attributes do not matter -/

theorem keysFirst_tags {sn : SNode} {a b : Elem} (h : a.kids.map Elem.tag = b.kids.map Elem.tag)
    (hk : KeysFirst sn a) : KeysFirst sn b := by
  unfold KeysFirst at *; rwa [← h]

theorem keysLead_body {a b : Elem} (h : SameBody a b) (hk : KeysLead d sc a) : KeysLead d sc b := by
  refine ⟨?_, ?_⟩
  · unfold KeysFirstHere; rw [← h.2.2.2]; exact hk.here'
  · rw [← h.2.2.2]; exact hk.sub'

theorem strip_tags {a b : Elem} (h : strip a = strip b) : a.kids.map Elem.tag = b.kids.map Elem.tag := by
  have := congrArg (List.map Elem.tag) (strip_kids_eq h)
  simpa [List.map_map, Function.comp_def] using this

theorem strip_keysLead {D : Elem} (hk : KeysLead d sc D) : ∀ {D' : Elem}, strip D = strip D' → KeysLead d sc D' := by
  unfold KeysLead at *
  induction hk with
  | @mk sc D here sub ih =>
    intro D' h
    refine ⟨?_, ?_⟩
    · intro k' hk' f hf hn
      obtain ⟨k, hk, hs⟩ := strip_kid h hk'
      exact keysFirst_tags (strip_tags hs) (here k hk f (by rw [strip_tag_eq hs]; exact hf) hn)
    · intro k' hk' f hf
      obtain ⟨k, hk, hs⟩ := strip_kid h hk'
      exact ih k hk f (by rw [strip_tag_eq hs]; exact hf) hs

theorem del_tags (x : Elem) : x.delAttrib.kids.map Elem.tag = x.kids.map Elem.tag := by
  rw [delAttrib_kids, List.map_map]
  exact List.map_congr_left (fun k _ => delAttrib_tag k)

theorem del_keysLead : ∀ (x : Elem) {sc : Scope}, KeysLead d sc x.delAttrib → KeysLead d sc x := by
  intro x
  induction x using Elem.ind with
  | h t n a tx ks ih =>
    intro sc h
    have hk : ∀ k ∈ ks, k.delAttrib ∈ (Elem.mk t n a tx ks).delAttrib.kids := by
      intro k hk
      rw [delAttrib_kids]
      exact List.mem_map_of_mem hk
    refine ⟨?_, ?_⟩
    · intro k hk' f hf hn
      exact keysFirst_tags (del_tags k) (h.here' _ (hk k hk') f (by rw [delAttrib_tag]; exact hf) hn)
    · intro k hk' f hf
      exact ih k hk' (h.sub' _ (hk k hk') f (by rw [delAttrib_tag]; exact hf))

/-- Without list entries there is nothing to show. -/
theorem keysLead_childless {e : Elem} (h : e.kids = []) : KeysLead d sc e :=
  ⟨by intro k hk; rw [h] at hk; simp at hk, by intro k hk; rw [h] at hk; simp at hk⟩

/-- The children are childless, and none is a list entry. -/
theorem keysLead_flat {e : Elem} (h : ∀ k ∈ e.kids, k.kids = [])
    (hn : ∀ k ∈ e.kids, ∀ f, d.lookup sc k.tag = .ok f → f.node.ntype ≠ .list) : KeysLead d sc e :=
  ⟨fun k hk f hf hl => absurd hl (hn k hk f hf), fun k hk _ _ => keysLead_childless (h k hk)⟩

/-! ## Markers -/

theorem keyCopies_tags {o : Elem} : ∀ {keys : List QName} {ks : List Elem}, keyCopies keys o = .ok ks →
    ks.map Elem.tag = keys ∧ ∀ k ∈ ks, k.kids = []
  | [], ks, h => by cases h; simp
  | q :: r, ks, h => by
    unfold keyCopies at h
    rw [List.mapM_cons] at h
    obtain ⟨x, hx, h⟩ := bind_ok.1 h
    obtain ⟨ys, hy, h⟩ := bind_ok.1 h
    cases h
    obtain ⟨h1, h2⟩ := keyCopies_tags (keys := r) hy
    cases hq : o.find q with
    | none => simp [hq] at hx
    | some e =>
      simp only [hq, Except.ok.injEq] at hx
      subst hx
      refine ⟨by rw [List.map_cons, h1]; rfl, ?_⟩
      intro k hk
      rcases List.mem_cons.1 hk with rfl | hk
      · rfl
      · exact h2 k hk

theorem marker_keys {opts : Opts} : ∀ {s : Elem} {f : Found} {m : Elem},
    deleteMarker d opts f s = .ok m → Side d (.node f.node) s → (f.node.ntype = .list → KeyLeaves d f.node) →
    KeysLead d (.node f.node) m ∧ (f.node.ntype = .list → KeysFirst f.node m) := by
  intro s
  induction s using Elem.ind with
  | h t n a x ks ih =>
    intro f m h hs hl
    unfold deleteMarker at h
    split at h
    · rename_i hn
      obtain ⟨tx, rfl⟩ := mergeText_ok h
      exact ⟨keysLead_childless rfl, fun h => by rw [hn] at h; cases h⟩
    · rename_i hn
      obtain ⟨cs, hcs, h⟩ := bind_ok.1 h
      cases h
      obtain ⟨h1, h2⟩ := keyCopies_tags hcs
      refine ⟨keysLead_flat h2 ?_, fun _ => ?_⟩
      · intro k hk g hg hgl
        have : k.tag ∈ f.node.keys := by rw [← h1]; exact List.mem_map_of_mem hk
        obtain ⟨g', hg', hleaf, _⟩ := hl hn _ this
        rw [hg] at hg'; cases hg'
        rw [hgl] at hleaf; cases hleaf
      · show f.node.keys <+: cs.map Elem.tag
        rw [h1]; exact List.prefix_refl _
    · rename_i hne1 hne2
      split at h
      · rename_i hc
        obtain ⟨cs, hcs, h⟩ := bind_ok.1 h
        cases h
        have key : ∀ c ∈ cs, ∀ g, d.lookup (.node f.node) c.tag = .ok g →
            KeysLead d (.node g.node) c ∧ (g.node.ntype = .list → KeysFirst g.node c) := by
          intro c hc' g hg
          obtain ⟨r, hr, h5⟩ := deleteKids_mem hcs c hc'
          rw [deleteKid_eq d opts hc.2] at h5
          obtain ⟨g', hg', h6⟩ := bind_ok.1 h5
          rw [deleteMarker_tag h6, hg'] at hg; cases hg
          exact ih r hr h6 (hs.sub hr hg') (fun hn => hs.keyLeaves hr hg' hn)
        exact ⟨⟨fun c hc' g hg hn => (key c hc' g hg).2 hn, fun c hc' g hg => (key c hc' g hg).1⟩,
          fun h => absurd h hne2⟩
      · cases h
        exact ⟨keysLead_childless rfl, fun h => absurd h hne2⟩

/-! ## The keys of an entry that both sides have -/

theorem cells_tags {φ : Nat → Option Elem} : ∀ {L : List (Elem × Nat)},
    (∀ p ∈ L, ∃ x, φ p.2 = some x ∧ x.tag = p.1.tag) →
    (L.filterMap (fun p => (φ p.2).map (fun e => ((some p.2, e) : Cell)))).map (fun c => c.2.tag) =
      L.map (fun p => p.1.tag)
  | [], _ => rfl
  | p :: L, h => by
    obtain ⟨x, hx, ht⟩ := h p (by simp)
    have ih := cells_tags (L := L) (fun q hq => h q (by simp [hq]))
    rw [List.filterMap_cons]
    simp only [hx, Option.map_some, List.map_cons, ih, ht]

theorem Loops.keysFirst {ω : Prop} {Q : Carried} {sn : SNode} {S T : Elem} {φ : Nat → Option Elem} {M : List Elem}
    {obu : List (QName × OrderInfo)} {st st' : List Cell} (h : Loops ω d Q (.node sn) S T φ M obu st st')
    (hl : KeyLeaves d sn) (hT : KeysFirst sn T) : KeysFirst sn (T.setKids (st'.map Prod.snd)) := by
  obtain ⟨l, hl'⟩ := hT
  obtain ⟨A, B, hAB, hA, -⟩ := List.map_eq_append_iff.1 hl'.symm
  have hget : ∀ {i : Nat} {k : Elem}, A[i]? = some k → T.kids[i]? = some k := by
    intro i k hk
    rw [hAB, List.getElem?_append_left (List.getElem?_eq_some_iff.1 hk).1]; exact hk
  have hkey : ∀ {k : Elem}, k ∈ A → ∃ g, d.lookup (.node sn) k.tag = .ok g ∧ g.node.ntype = .leaf ∧
      g.node.info.isKey = true := fun hk => hl _ (by rw [← hA]; exact List.mem_map_of_mem hk)
  -- the keys stay
  have hstay : ∀ p ∈ A.zipIdx, ∃ x, φ p.2 = some x ∧ x.tag = p.1.tag := by
    intro p hp
    have hk := List.mem_zipIdx_iff_getElem?.1 hp
    obtain ⟨g, hg, h1, h2⟩ := hkey (List.mem_of_getElem? hk)
    have hout := h.out p.2 p.1 (hget hk) g hg
    cases hφ : φ p.2 with
    | none =>
      rw [hφ] at hout
      cases hout with
      | out _ _ _ _ hno => exact absurd ⟨h2, h1⟩ hno
    | some x =>
      rw [hφ] at hout
      exact ⟨x, rfl, hout.stay.tag⟩
  -- no marker precedes them
  have hcells : ∃ R, st.filter (fun c => c.1.isSome) =
      A.zipIdx.filterMap (fun p => (φ p.2).map (fun e => ((some p.2, e) : Cell))) ++ R := by
    rw [h.rep.1, hAB]
    unfold cellsOf
    rw [List.zipIdx_append, List.filterMap_append]
    exact ⟨_, rfl⟩
  obtain ⟨R, hR⟩ := hcells
  obtain ⟨B', hst⟩ := prefix_of_filter hR (by
    refine List.Pairwise.imp_of_mem ?_ h.late
    intro a b ha _ hab hna hb
    have hna : a.1 = none := by simpa using hna
    obtain ⟨p, hp, he⟩ := List.mem_filterMap.1 hb
    obtain ⟨x, hx, _⟩ := hstay p hp
    simp only [hx, Option.map_some, Option.some.injEq] at he
    subst he
    obtain ⟨i, k, hi, hk, ht, _⟩ := hab p.2 rfl
    have hlt : p.2 < A.length := (List.getElem?_eq_some_iff.1 (List.mem_zipIdx_iff_getElem?.1 hp)).1
    have hkA : k ∈ A := by
      rw [hAB, List.getElem?_append_left (by omega)] at hk
      exact List.mem_of_getElem? hk
    obtain ⟨g, hg, h1, _⟩ := hkey hkA
    have hm : a.2 ∈ M := h.rep.2.subset (List.mem_map.2 ⟨a, List.mem_filter.2 ⟨ha, by simp [hna]⟩, rfl⟩)
    obtain ⟨s, hs, habs, f, hf, hM⟩ := h.mark _ hm
    refine habs k (by rw [hAB]; simp [hkA]) ?_
    exact uid_leaf hg h1 (ht.trans hM.tag))
  refine ⟨B'.map (fun c => c.2.tag), ?_⟩
  have e1 : (st'.map Prod.snd).map Elem.tag = st.map (fun c => c.2.tag) := by
    rw [List.map_map]
    symm
    exact forall₂_map_eq (ord_cells h.ord) (fun c _ c' _ hc => hc.2.1.1)
  show sn.keys ++ _ = (st'.map Prod.snd).map Elem.tag
  rw [e1, hst, List.map_append, cells_tags hstay, ← hA]
  congr 1
  rw [show (fun p : Elem × Nat => p.1.tag) = Elem.tag ∘ Prod.fst from rfl, ← List.map_map, List.zipIdx_map_fst]

/-! ## All levels -/

/-- If the target has the keys first, so has the delta. -/
def KeepsKeys (d : Device) (sc : Scope) (_ T D : Elem) : Prop :=
  (KeysLead d sc T → KeysLead d sc D) ∧
    ∀ sn, sc = .node sn → KeyLeaves d sn → KeysFirst sn T → KeysFirst sn D

theorem carry_keys {opts : Opts} : Carry d opts ⟨fun _ => KeepsKeys d, fun _ _ _ => True,
    fun f s m => Side d (.node f.node) s → (f.node.ntype = .list → KeyLeaves d f.node) →
      KeysLead d (.node f.node) m ∧ (f.node.ntype = .list → KeysFirst f.node m),
    fun _ _ _ _ _ => True⟩ where
  whole _ _ _ := ⟨keysLead_body (SameBody.set _ _ _), fun _ _ _ h => h⟩
  keys {n sn s k} _ hs hk hsame := by
    refine ⟨fun _ => keysLead_flat ?_ ?_, ?_⟩
    · intro o ho
      obtain ⟨h1, f, hf, h2, h3⟩ := key_kids hk ho
      have := hk.kid h1 hf
      unfold KidOk at this
      simp only [h3] at this
      exact this.1
    · intro o ho f hf hn
      obtain ⟨h1, g, hg, h2, h3⟩ := key_kids hk ho
      rw [hf] at hg; cases hg
      rw [hn] at h3; cases h3
    · rintro sn' hsn hl ⟨r, hr⟩
      cases hsn
      obtain ⟨A, B, hAB, hA, -⟩ := List.map_eq_append_iff.1 hr.symm
      refine ⟨(B.filter (isKeyKid d sn)).map Elem.tag, ?_⟩
      show _ = (k.kids.filter (isKeyKid d sn)).map Elem.tag
      have hself : A.filter (isKeyKid d sn) = A := List.filter_eq_self.2 ?_
      · rw [hAB, List.filter_append, List.map_append, hself, hA]
      intro c hc
      obtain ⟨g, hg, _, h2⟩ := hl c.tag (by rw [← hA]; exact List.mem_map_of_mem hc)
      unfold isKeyKid
      simp only [hg, h2]
  level {ω n sc S T φ M obu st st'} _ _ h := by
    refine ⟨fun hT => ?_, fun sn hsn hl hT => by subst hsn; exact h.keysFirst hl hT⟩
    have key : ∀ o ∈ st'.map Prod.snd, ∀ f, d.lookup sc o.tag = .ok f →
        KeysLead d (.node f.node) o ∧ (f.node.ntype = .list → KeysFirst f.node o) := by
      intro o ho f hf
      rcases h.kids ho with ⟨i, k, g, x, hk, hg, hx, hL⟩ | hm
      · have hkm := List.mem_of_getElem? hk
        have ht : o.tag = k.tag := by rw [← hL.body.1, hL.out.stay.tag]
        obtain rfl : g = f := by rw [ht, hg] at hf; exact Except.ok.inj hf
        have hTk := hT.sub' k hkm g hg
        have hTf := hT.here' k hkm g hg
        suffices hs : KeysLead d (.node g.node) x ∧ (g.node.ntype = .list → KeysFirst g.node x) from
          ⟨keysLead_body hL.body hs.1, fun hn => keysFirst_tags (by rw [hL.body.2.2.2]) (hs.2 hn)⟩
        cases hL.out with
        | new _ hN _ =>
          rw [← hN.copy] at hTk
          refine ⟨del_keysLead _ hTk, fun hn => keysFirst_tags ?_ (hTf hn)⟩
          rw [← hN.copy, del_tags]
        | both hs hu hB =>
          cases hn : g.node.ntype with
          | container => exact ⟨(hB.carried (Or.inl hn)).1 hTk, by simp⟩
          | list =>
            have := hB.carried (Or.inr hn)
            exact ⟨this.1 hTk, fun _ => this.2 _ rfl (h.sideT.keyLeaves hkm hg hn) (hTf hn)⟩
          | leaf | leafList =>
            have := hB.kid
            unfold KidOk at this
            simp only [hn] at this
            exact ⟨keysLead_childless this.1, by simp⟩
          | _ =>
            have := hB.kid
            unfold KidOk at this
            simp [hn] at this
      · obtain ⟨s, hs, _, g, hg, hM⟩ := h.mark o hm
        obtain rfl : g = f := by rw [hM.tag, hg] at hf; exact Except.ok.inj hf
        exact hM.carried (h.sideS.sub hs hg) (fun hn => h.sideS.keyLeaves hs hg hn)
    exact ⟨fun o ho f hf hn => (key o ho f hf).2 hn, fun o ho f hf => (key o ho f hf).1⟩
  new _ _ _ := trivial
  gone h := marker_keys h
  leaf _ _ _ := trivial
  replaced _ _ _ := trivial

end

/-- The names of the keys are those in the key statement, in its order. -/
theorem keys_names {sn : SNode} (hn : sn.ntype = .list) (h : KeysDefined sn) :
    sn.keys.map QName.name = sn.info.keyNames := by
  unfold SNode.keys
  rw [if_pos (show sn.info.ntype = .list from hn)]
  have : ∀ l : List String, (∀ n ∈ l, ∃ c ∈ sn.kids, c.tag.name = n) →
      (l.filterMap fun n => (sn.kids.find? (fun c => c.tag.name = n)).map SNode.tag).map QName.name = l := by
    intro l
    induction l with
    | nil => intro _; rfl
    | cons n l ih =>
      intro hl
      have := ih (fun x hx => hl x (by simp [hx]))
      obtain ⟨c, hc, he⟩ := hl n (by simp)
      rw [List.filterMap_cons]
      cases hf : sn.kids.find? (fun c => c.tag.name = n) with
      | none => exact absurd (List.find?_eq_none.1 hf c hc) (by simp [he])
      | some x =>
        have hx := List.find?_some hf
        simp only [decide_eq_true_eq] at hx
        simp only [Option.map_some, List.map_cons, this, hx]
  exact this _ h

end NcDiff
