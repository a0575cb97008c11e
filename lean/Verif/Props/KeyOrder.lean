import Verif.Proof.KeyOrder
import Verif.Props.RoundTrip
/-!
# Property C43: the keys come first in the list entries of an edit-config
-/

namespace NcDiff

/-- C43: if every list entry of the target begins with its keys, in the order of the key statement, then so does every
list entry of the edit-config, whether it is created, changed or deleted. -/
theorem C43_keys_first (d : Device) (opts : Opts) (c1 c2 : Elem) (h : AnyOrder d c1 c2) (hk : KeysLead d .root c2) :
    ∃ δ x, newDelta d c1 c2 opts = .ok δ ∧ δ.nc d = .ok x ∧ KeysLead d .root x := by
  obtain ⟨D, hx, hok, _⟩ := calcSub_ok (carry_keys (opts := opts)) h.loose (fun _ => h.src.filled)
  refine ⟨_, _, newDelta_ok h.src.valid.valid h.dst.valid.valid, ?_, strip_keysLead (hok.carried.1 hk)
    (D' := if opts.diffType = .minimumReplace then addAttrAtDepth (opts.replaceDepth + 1) D else D) ?_⟩
  rotate_left
  · split
    · rw [strip_addAttr]
    · rfl
  simp only [Delta.nc, hx, bind, Except.bind, pure, Except.pure]

/-- C43: the order of the keys is that of the key statement. -/
theorem C43_key_statement (sn : SNode) (e : Elem) (hn : sn.ntype = .list) (hd : KeysDefined sn) (h : KeysFirst sn e) :
    sn.info.keyNames <+: e.kids.map (fun k => k.tag.name) := by
  have := List.IsPrefix.map QName.name h
  rw [keys_names hn hd, List.map_map] at this
  exact this

/-! ## The hypotheses can be met -/

namespace Demo

/-- Executable `KeysFirstHere`. -/
def keysFirstB (sc : Scope) (e : Elem) : Bool :=
  e.kids.all (fun k => match dev.lookup sc k.tag with
    | .ok f => if f.node.ntype = .list then decide (KeysFirst f.node k) else true
    | .error _ => true)

theorem keysFirstB_iff {sc : Scope} {e : Elem} : keysFirstB sc e = true ↔ KeysFirstHere dev sc e := by
  unfold keysFirstB KeysFirstHere
  rw [List.all_eq_true]
  refine forall_congr' fun k => forall_congr' fun _ => ?_
  cases hl : dev.lookup sc k.tag with
  | error x => simp
  | ok f => by_cases hn : f.node.ntype = .list <;> simp [hn]

example : ∃ δ x, newDelta dev rt1 rt2 { create := .create, delete := .remove } = .ok δ ∧ δ.nc dev = .ok x ∧
    KeysLead dev .root x :=
  C43_keys_first dev _ rt1 rt2 rt_transition.anyOrder
    (deepB_sound (p := keysFirstB) (fun _ _ h => keysFirstB_iff.1 h) _ _ (by decide +kernel))

/-- A target with an entry whose key is not in front. -/
def keyLast : Elem := cfg [el "top" [el "item" [lf "val" "v", lf "name" "n"]]]

/-- The library does not put the keys in front. -/
theorem C43_not_sorted : ∃ δ x, newDelta dev (cfg []) keyLast {} = .ok δ ∧ δ.nc dev = .ok x ∧
    ¬ KeysLead dev .root x := by
  have h : ∃ δ x, newDelta dev (cfg []) keyLast {} = .ok δ ∧ δ.nc dev = .ok x ∧ x = keyLast :=
    ⟨_, _, rfl, rfl, by decide +kernel⟩
  obtain ⟨δ, x, h1, h2, rfl⟩ := h
  refine ⟨δ, _, h1, h2, fun hk => ?_⟩
  have hl : ∃ f, dev.lookup .root (q "top") = .ok f ∧
      keysFirstB (.node f.node) (el "top" [el "item" [lf "val" "v", lf "name" "n"]]) = false :=
    ⟨_, rfl, by decide +kernel⟩
  obtain ⟨f, hf, hb⟩ := hl
  have := keysFirstB_iff.2 (hk.sub' (el "top" [el "item" [lf "val" "v", lf "name" "n"]]) (by simp [keyLast, cfg]) f hf).here'
  rw [hb] at this
  cases this

end Demo

end NcDiff
