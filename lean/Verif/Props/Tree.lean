import Verif.Proof.Tree
import Verif.Props.RoundTrip
/-!
# Properties C17, C18 and C35
-/

namespace NcDiff

/-! ## C35 -/

/-- C35.  `extract_config` succeeds whenever the config of the reply can be built, and keeps exactly
the nodes that are read-write with all their ancestors, in document order, each with its content and
its place in the tree. -/
theorem C35_read_only_removed (d : Device) (reply c : Elem) (rd : Bool) (hc : newConfig d reply true rd = .ok c) :
    ∃ r, extractConfig d reply rd = .ok r ∧ r.label = c.label ∧
      (occs d r).map Occ.shape = ((occs d c).filter (fun o => ReadWrite o)).map Occ.shape := by
  obtain ⟨r, hr⟩ := removeReadOnly_ok c (newConfig_known hc)
  refine ⟨r, ?_, removeReadOnly_occs c hr rfl (by simp)⟩
  unfold extractConfig
  rw [hc]
  exact hr

/-! ## C17 -/

theorem newConfig_label {d : Device} {e c : Elem} {v rd : Bool} (h : newConfig d e v rd = .ok c) :
    c.label = emptyConfig.label := by
  unfold newConfig at h
  obtain ⟨c', hc, h⟩ := bind_ok.mp h
  obtain ⟨ks, _, rfl⟩ := trimDefaults_inv hc
  cases v with
  | false => cases h; rfl
  | true =>
    rw [if_pos rfl] at h
    unfold validateConfig at h
    obtain ⟨_, _, h⟩ := bind_ok.mp h
    obtain ⟨ks, hks, h⟩ := bind_ok.mp h
    cases h; rfl

open Classical in
/-- C17.  Filtering a config gives exactly the nodes that are inside a selected node, contain a
selected node or are keys of a list entry that contains a selected node: in document order, each with
its content and its place in the tree. -/
theorem C17_filter (d : Device) (c c' : Elem) (sel : List (List Nat)) (hc : newConfig d c = .ok c') :
    ∃ r, configFilter d c sel = .ok r ∧ r.label = c'.label ∧
      (occs d r).map Occ.shape = ((occs d c').filter (fun o => Selected sel o)).map Occ.shape := by
  unfold configFilter
  rw [hc]
  simp only [bind, Except.bind]
  by_cases h1 : sel = []
  · subst h1
    refine ⟨emptyConfig, rfl, (newConfig_label hc).symm, ?_⟩
    rw [List.filter_eq_nil_iff.mpr]
    · rfl
    · intro o _
      simp [Selected, KeyOfAncestor]
  · rw [if_neg h1]
    by_cases h2 : [] ∈ sel
    · rw [if_pos h2]
      refine ⟨c', rfl, rfl, ?_⟩
      rw [List.filter_eq_self.mpr]
      intro o _
      exact decide_eq_true (show Selected sel o from .inl ⟨[], h2, .inl (List.nil_prefix)⟩)
    · rw [if_neg h2]
      obtain ⟨r, hr⟩ := filterNode_ok c' sel (newConfig_known hc)
      refine ⟨r, hr, (filterNode_occs c' (above := []) (above' := []) hr h2 rfl).1, ?_⟩
      have := (filterNode_occs c' (above := []) (above' := []) hr h2 rfl).2
      unfold occs
      rw [this]
      congr 2
      funext o
      have : SelectedIn (keepsKeys .root) sel (o.way.drop ([] : List Step).length) ↔ Selected sel o := by
        simp [Selected, SelectedIn, keepsKeys, Occ.pos]
      exact decide_eq_decide.mpr this

/-- C17, keys: if a list entry is kept, so are its keys. -/
theorem C17_keys_kept (sel : List (List Nat)) (o k : Occ) (i j : Nat) (w : List Step) (sn key : SNode)
    (ho : o.way = w ++ [(i, some sn)]) (hsn : sn.ntype = .list) (hk : k.way = o.way ++ [(j, some key)])
    (hkey : key.info.isKey = true) (h : Selected sel o) : Selected sel k := by
  rcases h with ⟨s, hs, h | h⟩ | ⟨pre, x, y, rest, hw, hx, hy, s, hs, hp⟩
  · refine .inl ⟨s, hs, .inl (h.trans ?_)⟩
    rw [Occ.pos, Occ.pos, hk, List.map_append]
    exact ⟨_, rfl⟩
  · exact .inr ⟨w, (i, some sn), (j, some key), [], by rw [hk, ho]; simp, ⟨sn, rfl, hsn⟩, ⟨key, rfl, hkey⟩, s, hs,
      by rw [← ho]; exact h⟩
  · exact .inr ⟨pre, x, y, rest ++ [(j, some key)], by rw [hk, hw]; simp, hx, hy, s, hs, hp⟩

/-! ## C18 -/

/-- C18.  If the edit-config `x` of a delta can be computed, then reordering it succeeds for every
depth and every permutation that the seed can give.  The result differs only by a permutation of
children at that depth which leaves leading keys in front.  So it has the same nodes. -/
theorem C18_reorder (d : Device) (rnd : Nat → List Nat) (hr : ∀ n, (rnd n).Perm (List.range n)) (depth : Nat)
    (δ : Delta) (x : Elem) (hs : δ.shuffle = none) (hx : δ.nc d = .ok x) (hk : Known d .root x) :
    ∃ y, ({ δ with shuffle := some (depth, rnd) } : Delta).nc d = .ok y ∧ Shuffled d depth .root x y ∧
      ((occs d y).map Occ.shape).Perm ((occs d x).map Occ.shape) := by
  obtain ⟨y, hy⟩ := reorder_ok depth (rnd := rnd) hk
  have hsh := reorder_spec hr hy
  refine ⟨y, ?_, hsh, shuffled_perm [] hsh⟩
  unfold Delta.nc at hx ⊢
  rw [hs] at hx
  obtain ⟨x', h1, h2⟩ := bind_ok.mp hx
  cases h2
  simp only [h1, bind, Except.bind]
  exact hy

theorem Valid.allKnown {d : Device} {sc : Scope} {e : Elem} (h : Valid d sc e) : Known d sc e := by
  induction h with
  | mk h0 h1 h2 h3 ih => exact ⟨(Valid.mk h0 h1 h2 h3).known, ih⟩

theorem addAttr_known {d : Device} : ∀ (e : Elem) {n : Nat} {sc : Scope}, Known d sc e → Known d sc (addAttrAtDepth n e) := by
  intro e
  induction e using Elem.ind with
  | _ t m a x ks ih =>
    intro n sc h
    cases n with
    | zero => exact ⟨fun k hk => h.here' k (by simpa [addAttrAtDepth] using hk),
        fun k hk => h.sub' k (by simpa [addAttrAtDepth] using hk)⟩
    | succ n =>
      rw [addAttrAtDepth, addAttrAtDepthList_eq]
      have htag : ∀ k : Elem, (addAttrAtDepth n k).tag = k.tag := by
        intro k; cases k; cases n <;> rfl
      refine ⟨fun k hk => ?_, fun k hk f hf => ?_⟩
      · obtain ⟨k, hm, rfl⟩ := List.mem_map.1 (show k ∈ ks.map _ from hk)
        rw [htag]; exact h.here' k hm
      · obtain ⟨k, hm, rfl⟩ := List.mem_map.1 (show k ∈ ks.map _ from hk)
        rw [htag] at hf; exact ih k hm (h.sub' k hm f hf)

/-- C18 for the delta between two configs. -/
theorem C18_reorder_difference (d : Device) (opts : Opts) (c1 c2 : Elem) (h : AnyOrder d c1 c2)
    (hll : RootSafe d opts c2)
    (rnd : Nat → List Nat) (hr : ∀ n, (rnd n).Perm (List.range n)) (depth : Nat) :
    ∃ δ δ' x y, newDelta d c1 c2 opts = .ok δ ∧ newDelta d c1 c2 opts (some (depth, rnd)) = .ok δ' ∧
      δ.nc d = .ok x ∧ δ'.nc d = .ok y ∧ Shuffled d depth .root x y ∧
      ((occs d y).map Occ.shape).Perm ((occs d x).map Occ.shape) := by
  obtain ⟨D, hx, _, hdiff⟩ := calcSub_ok carry_deletes.carry h.loose (fun _ => h.src.filled)
  obtain ⟨_, hdiff⟩ := hdiff hll
  have hK : Known d .root (if opts.diffType = .minimumReplace then addAttrAtDepth (opts.replaceDepth + 1) D else D) := by
    split
    · exact addAttr_known _ hdiff.base'.vD.allKnown
    · exact hdiff.base'.vD.allKnown
  generalize (if opts.diffType = .minimumReplace then addAttrAtDepth (opts.replaceDepth + 1) D else D) = x at hx hK
  have hnc : (⟨c1, c2, opts, none⟩ : Delta).nc d = .ok x := by
    simp only [Delta.nc, hx, bind, Except.bind, pure, Except.pure]
  obtain ⟨y, h1, h2⟩ := C18_reorder d rnd hr depth ⟨c1, c2, opts, none⟩ _ rfl hnc hK
  have hnd := newDelta_ok (opts := opts) h.src.valid.valid h.dst.valid.valid
  refine ⟨_, ⟨c1, c2, opts, some (depth, rnd)⟩, _, y, hnd, ?_, hnc, h1, h2⟩
  unfold newDelta at hnd ⊢
  obtain ⟨_, h3, _⟩ := bind_ok.mp hnd
  rw [h3]; rfl

/-! ## The hypotheses can be met -/

namespace Demo

/-- A device with state data. -/
def devR : Device :=
  { namespaces := [("demo", "d", u)], roots := [(q "top", "demo")],
    models := [("demo", [.mk { tag := q "top", ntype := .container }
      [leafS "a", .mk { tag := q "st", ntype := .container, readOnly := true } [leafS "a"],
       .mk { tag := q "item", ntype := .list, keyNames := ["name"] }
         [leafS "name" (isKey := true), leafS "val", .mk { tag := q "cnt", ntype := .leaf, readOnly := true } []]]])] }

def reply : Elem := cfg [el "top" [el "st" [lf "a" "1"], lf "a" "2",
  el "item" [lf "name" "x", lf "cnt" "7", lf "val" "1"], el "item" [lf "name" "y", lf "val" "1", lf "cnt" "8"]]]

example : ∃ r, extractConfig devR reply false = .ok r ∧ r.label = reply.label ∧
    (occs devR r).map Occ.shape = ((occs devR reply).filter (fun o => ReadWrite o)).map Occ.shape :=
  C35_read_only_removed devR reply reply false (by decide +kernel)

example : extractConfig devR reply false = .ok (cfg [el "top" [lf "a" "2", item "x" "1", item "y" "1"]]) := by
  decide +kernel

open Classical in
example : ∃ r, configFilter dev rt1 [[0, 0], [0, 3, 1], [0, 10]] = .ok r ∧ r.label = rt1.label ∧
    (occs dev r).map Occ.shape =
      ((occs dev rt1).filter (fun o => Selected [[0, 0], [0, 3, 1], [0, 10]] o)).map Occ.shape :=
  C17_filter dev rt1 rt1 _ (by decide +kernel)

example : configFilter dev rt1 [[0, 0], [0, 3, 1], [0, 10]] =
    .ok (cfg [el "top" [lf "a" "1", item "y" "2", el "np" [lf "w" "1"]]]) := by decide +kernel

example : ∃ δ δ' x y, newDelta dev rt1 rt2 = .ok δ ∧ newDelta dev rt1 rt2 {} (some (1, fun n => (List.range n).reverse)) = .ok δ' ∧
    δ.nc dev = .ok x ∧ δ'.nc dev = .ok y ∧ Shuffled dev 1 .root x y ∧
    ((occs dev y).map Occ.shape).Perm ((occs dev x).map Occ.shape) :=
  C18_reorder_difference dev {} rt1 rt2 rt_transition.anyOrder (Or.inl rfl) _ (fun _ => List.reverse_perm _) 1

/-- Reordering can make a delta unusable: an entry comes before the one it is to be inserted after. -/
theorem C18_reordered_delta_fails : ∃ c1 c2 rnd δ e, (∀ n, (rnd n).Perm (List.range n)) ∧ Transition dev c1 c2 ∧
    newDelta dev c1 c2 {} (some (1, rnd)) = .ok δ ∧ configAddDelta dev c1 δ = .error e :=
  ⟨cfg [el "top" [rule "1" "deny"]], cfg [el "top" [rule "1" "deny", rule "2" "deny", rule "3" "deny"]],
    fun n => (List.range n).reverse, ⟨_, _, {}, _⟩, .configDelta .insertWrong, fun _ => List.reverse_perm _, transitionB_sound (by decide +kernel), rfl,
    by decide +kernel⟩

end Demo

end NcDiff
