import Verif.Proof.SumClosed
/-!
# C76: laws of sums of configs

For modules without order by the user, types that refer to nodes or identities, and leaf-lists with defaults.  All theorems are
about configs of documents and sums of such configs.
-/

namespace NcDiff
namespace Compile

section
variable (h : Host) (mods : List Module) (rd : Bool) (hl : Loads h mods) (hp : ProperModules rd mods) (ha : AdditiveModules mods)
include hl hp ha

/-- C76: any two configs can be added. -/
theorem C76_total (a b : Elem) (sa : SumOf h mods rd a) (sb : SumOf h mods rd b) :
    ∃ r, configAdd h.device a b = .ok r ∧ SumOf h mods rd r := by
  obtain ⟨r, hr, _⟩ := good_add (easy h.device rd) (add_root hl hp ha) (sa.good hl hp ha) (sb.good hl hp ha)
  exact ⟨r, hr, .add sa sb hr⟩

/-- C76: `(a + b) + c == a + (b + c)`. -/
theorem C76_associative (a b c : Elem) (sa : SumOf h mods rd a) (sb : SumOf h mods rd b) (sc : SumOf h mods rd c)
    (ab bc r r' : Elem) (hab : configAdd h.device a b = .ok ab) (hbc : configAdd h.device b c = .ok bc)
    (hr : configAdd h.device ab c = .ok r) (hr' : configAdd h.device a bc = .ok r') : cfgEq h.device r r' = .ok true := by
  have W := easy h.device rd
  have hE := add_root hl hp ha
  have ga := sa.good hl hp ha
  have gb := sb.good hl hp ha
  have gc := sc.good hl hp ha
  obtain ⟨x, hx, g1, m1⟩ := good_add W hE ga gb
  obtain rfl := Except.ok.inj (hx.symm.trans hab)
  obtain ⟨y, hy, g2, m2⟩ := good_add W hE gb gc
  obtain rfl := Except.ok.inj (hy.symm.trans hbc)
  obtain ⟨z, hz, g3, m3⟩ := good_add W hE g1 gc
  obtain rfl := Except.ok.inj (hz.symm.trans hr)
  obtain ⟨w, hw, g4, m4⟩ := good_add W hE ga g2
  obtain rfl := Except.ok.inj (hw.symm.trans hr')
  obtain ⟨t, ht, hi⟩ := good_eq W hE g3 g4
  rw [ht, hi.2 (merged_assoc m1 m3 m2 m4)]

/-- C76: `b <= a + b`. -/
theorem C76_upper (a b r : Elem) (sa : SumOf h mods rd a) (sb : SumOf h mods rd b) (hr : configAdd h.device a b = .ok r) :
    cfgLe h.device b r = .ok true := by
  have W := easy h.device rd
  have hE := add_root hl hp ha
  obtain ⟨x, hx, g, m⟩ := good_add W hE (sa.good hl hp ha) (sb.good hl hp ha)
  obtain rfl := Except.ok.inj (hx.symm.trans hr)
  obtain ⟨t, ht, hi⟩ := good_le W hE (sb.good hl hp ha) g
  rw [ht, hi.2 m.has]

/-- C76: if `a <= m` and `b <= m` then `a + b <= m`. -/
theorem C76_least (a b m r : Elem) (sa : SumOf h mods rd a) (sb : SumOf h mods rd b) (sm : SumOf h mods rd m)
    (h1 : cfgLe h.device a m = .ok true) (h2 : cfgLe h.device b m = .ok true) (hr : configAdd h.device a b = .ok r) :
    cfgLe h.device r m = .ok true := by
  have W := easy h.device rd
  have hE := add_root hl hp ha
  have ga := sa.good hl hp ha
  have gb := sb.good hl hp ha
  have gm := sm.good hl hp ha
  obtain ⟨x, hx, g, hm⟩ := good_add W hE ga gb
  obtain rfl := Except.ok.inj (hx.symm.trans hr)
  obtain ⟨t1, ht1, hi1⟩ := good_le W hE ga gm
  obtain ⟨t2, ht2, hi2⟩ := good_le W hE gb gm
  have e1 := hi1.1 (Except.ok.inj (ht1.symm.trans h1))
  have e2 := hi2.1 (Except.ok.inj (ht2.symm.trans h2))
  obtain ⟨t, ht, hi⟩ := good_le W hE g gm
  rw [ht, hi.2 (merged_least _ hm e2 (e1.kept a))]

/-- C76: `a + b == a` is true if and only if `b <= a` is true. -/
theorem C76_absorbs (a b r : Elem) (sa : SumOf h mods rd a) (sb : SumOf h mods rd b) (hr : configAdd h.device a b = .ok r) :
    cfgEq h.device r a = .ok true ↔ cfgLe h.device b a = .ok true := by
  have W := easy h.device rd
  have hE := add_root hl hp ha
  have ga := sa.good hl hp ha
  have gb := sb.good hl hp ha
  obtain ⟨x, hx, g, hm⟩ := good_add W hE ga gb
  obtain rfl := Except.ok.inj (hx.symm.trans hr)
  obtain ⟨t1, ht1, hi1⟩ := good_eq W hE g ga
  obtain ⟨t2, ht2, hi2⟩ := good_le W hE gb ga
  rw [ht1, ht2, Except.ok.injEq, Except.ok.injEq, hi1, hi2]
  constructor
  · intro e
    exact hm.has.trans b e.1
  · intro e
    have h1 := merged_least _ hm e ((hasAll_refl a ga.plain.valid.valid).kept a)
    exact ⟨h1, h1.back a hm.wi⟩

/-- C76: `a + b == b + a` is true if and only if the leaves that are in both have the same values in both. -/
theorem C76_commutes (a b r r' : Elem) (sa : SumOf h mods rd a) (sb : SumOf h mods rd b) (hr : configAdd h.device a b = .ok r)
    (hr' : configAdd h.device b a = .ok r') : cfgEq h.device r r' = .ok true ↔ Agree h.device .root a b := by
  have W := easy h.device rd
  have hE := add_root hl hp ha
  have ga := sa.good hl hp ha
  have gb := sb.good hl hp ha
  obtain ⟨x, hx, g1, m1⟩ := good_add W hE ga gb
  obtain rfl := Except.ok.inj (hx.symm.trans hr)
  obtain ⟨y, hy, g2, m2⟩ := good_add W hE gb ga
  obtain rfl := Except.ok.inj (hy.symm.trans hr')
  obtain ⟨t1, ht1, hi1⟩ := good_eq W hE g1 g2
  rw [ht1, Except.ok.injEq, hi1]
  constructor
  · intro e
    exact agree_of a (m2.has.trans a e.2) m1.has
  · intro e
    have h1 : HasAll h.device .root b y := e.hasAll b m2.has (m2.kept b)
    have h2 : HasAll h.device .root a x := (e.symm a).hasAll a m1.has (m1.kept a)
    exact ⟨merged_least _ m1 h1 (m2.has.kept a), merged_least _ m2 h2 (m1.has.kept b)⟩

/-- C76: `a <= a + b` is true if and only if the leaves that are in both have the same values in both. -/
theorem C76_keeps (a b r : Elem) (sa : SumOf h mods rd a) (sb : SumOf h mods rd b) (hr : configAdd h.device a b = .ok r) :
    cfgLe h.device a r = .ok true ↔ Agree h.device .root a b := by
  have W := easy h.device rd
  have hE := add_root hl hp ha
  have ga := sa.good hl hp ha
  have gb := sb.good hl hp ha
  obtain ⟨x, hx, g1, m1⟩ := good_add W hE ga gb
  obtain rfl := Except.ok.inj (hx.symm.trans hr)
  obtain ⟨t1, ht1, hi1⟩ := good_le W hE ga g1
  rw [ht1, Except.ok.injEq, hi1]
  exact ⟨fun e => agree_of a e m1.has, fun e => (e.symm a).hasAll a m1.has (m1.kept a)⟩

end

end Compile
end NcDiff

/-! ## The hypotheses can be met -/

namespace NcDiff.YangDemo

open Compile Demo

instance (s : Stmt) : Decidable (Additive s) := by unfold Additive; infer_instance

def sroots3 : List Elem := [el "top" [entry "1" "b" "5", entry "3" "a" "0", lf "tags" "x", lf "tags" "z"]]

/-- The hypotheses of the theorems are met: three documents of a module give configs, two of which differ in a leaf of an entry
that both have, and two of which do not. -/
example : Loads simpleHost simpleMods ∧ ProperModules false simpleMods ∧ AdditiveModules simpleMods ∧
    ∃ a b c ab ba ac ca bc r r', SumOf simpleHost simpleMods false a ∧ SumOf simpleHost simpleMods false b ∧ SumOf simpleHost simpleMods false c ∧
      configAdd simpleHost.device a b = .ok ab ∧ configAdd simpleHost.device b a = .ok ba ∧ cfgEq simpleHost.device ab ba = .ok false ∧
      configAdd simpleHost.device a c = .ok ac ∧ configAdd simpleHost.device c a = .ok ca ∧ cfgEq simpleHost.device ac ca = .ok true ∧
      configAdd simpleHost.device b c = .ok bc ∧ configAdd simpleHost.device ab c = .ok r ∧ configAdd simpleHost.device a bc = .ok r' ∧
      cfgEq simpleHost.device r ab = .ok false ∧ cfgLe simpleHost.device a ab = .ok false ∧
      cfgLe simpleHost.device a ac = .ok true ∧ cfgLe simpleHost.device c ac = .ok true := by
  have hd1 : Document simpleHost simpleMods (reply sroots1) sroots1 := ⟨.reply (e := reply sroots1) rfl, instB_sound _ (by decide +kernel)⟩
  have hd2 : Document simpleHost simpleMods (reply sroots2) sroots2 := ⟨.reply (e := reply sroots2) rfl, instB_sound _ (by decide +kernel)⟩
  have hd3 : Document simpleHost simpleMods (reply sroots3) sroots3 := ⟨.reply (e := reply sroots3) rfl, instB_sound _ (by decide +kernel)⟩
  have hl : Loads simpleHost simpleMods := .cons ⟨rfl, by decide +kernel⟩ .nil
  have hp : ProperModules false simpleMods := properModulesB_sound (by decide +kernel)
  have ha : AdditiveModules simpleMods := by
    intro m hm s hs
    obtain rfl := List.mem_singleton.1 hm
    exact (everyListB_sound (P := fun s => decide (Additive s)) simpleStmts (by decide +kernel) s hs).imp
      fun _ h => of_decide_eq_true h
  have key : ∃ a b c ab ba ac ca bc r r', newConfig simpleHost.device (reply sroots1) false false = .ok a ∧
      newConfig simpleHost.device (reply sroots2) false false = .ok b ∧ newConfig simpleHost.device (reply sroots3) false false = .ok c ∧
      configAdd simpleHost.device a b = .ok ab ∧ configAdd simpleHost.device b a = .ok ba ∧ cfgEq simpleHost.device ab ba = .ok false ∧
      configAdd simpleHost.device a c = .ok ac ∧ configAdd simpleHost.device c a = .ok ca ∧ cfgEq simpleHost.device ac ca = .ok true ∧
      configAdd simpleHost.device b c = .ok bc ∧ configAdd simpleHost.device ab c = .ok r ∧ configAdd simpleHost.device a bc = .ok r' ∧
      cfgEq simpleHost.device r ab = .ok false ∧ cfgLe simpleHost.device a ab = .ok false ∧
      cfgLe simpleHost.device a ac = .ok true ∧ cfgLe simpleHost.device c ac = .ok true := by
    let get (x : Except Err Elem) : Elem := x.toOption.getD noConfig
    let a := get (newConfig simpleHost.device (reply sroots1) false false)
    let b := get (newConfig simpleHost.device (reply sroots2) false false)
    let c := get (newConfig simpleHost.device (reply sroots3) false false)
    let add (x y : Elem) : Elem := get (configAdd simpleHost.device x y)
    refine ⟨a, b, c, add a b, add b a, add a c, add c a, add b c, add (add a b) c, add a (add b c), ?_⟩
    decide +kernel
  obtain ⟨a, b, c, ab, ba, ac, ca, bc, r, r', h1, h2, h3, rest⟩ := key
  exact ⟨hl, hp, ha, a, b, c, ab, ba, ac, ca, bc, r, r', .doc hd1 h1, .doc hd2 h2, .doc hd3 h3, rest⟩

end NcDiff.YangDemo
