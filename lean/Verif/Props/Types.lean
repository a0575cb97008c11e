import Verif.Proof.Types
import Verif.Props.Compile
import Verif.Props.Identity
/-!
# C57: values of leaves
-/

namespace NcDiff.Types
open Compile
open NcDiff.ModelDiff (At)

/-- C57: the text of the attribute `values` of a type, split at `|`, has exactly the values of the type. -/
theorem C57_values {known t s} (h : typeValues known t = .ok s) (hs : Separable known t) :
    (∀ v, v ≠ "" → (v.toList ∈ splitOn '|' s.toList ↔ Offers known t v)) ∧ (s = "" ↔ ∀ v, ¬ Offers known t v) := by
  obtain ⟨l, ⟨rfl, hl⟩, hv⟩ := lists_of t h fun v hv => (hs v hv).1
  refine ⟨fun v hne => ?_, ?_⟩
  · rw [← hv v]
    by_cases hn : l = []
    · subst hn
      simpa [joinWith, splitOn] using hne
    · rw [split_join hn fun w hw => (hs w ((hv w).1 hw)).2]
      exact List.mem_map_of_injective fun _ _ => String.toList_inj.1
  · rw [join_empty hl]
    constructor
    · rintro rfl v o
      exact absurd ((hv v).2 o) (by simp)
    · intro ho
      exact List.eq_nil_iff_forall_not_mem.2 fun v hm => ho v ((hv v).1 hm)

/-- C57: it fails only if the identities below a base are not known. -/
theorem C57_fails {known t} : (∃ x, typeValues known t = .error x) ↔ ∃ x, Unknown known t x :=
  ⟨fun ⟨x, h⟩ => ⟨x, unknown_of t h⟩, fun ⟨_, h⟩ => fails_of_unknown h⟩

/-- C57: a node of a compiled tree for a leaf or a leaf-list lists exactly the values of its type. -/
theorem C57_leaf {known ns name pfx kids tree path e} (h : compileTree ns name pfx kids = .ok tree) (hp : path ≠ [])
    (he : At tree path e) : ∃ c s, TreeChain kids c ∧ c.getLast? = some s ∧ List.Forall₂ (Named ns) path c ∧
      ∀ t st, s.info.LeafLike → s.info.type = some st → TypeS.stmt known t = .ok st → Separable known t →
        (∀ v, v ≠ "" → ((∃ w, strAttr e (.other "values") = some w ∧ v.toList ∈ splitOn '|' w.toList) ↔
          Offers known t v)) ∧
        (strAttr e (.other "values") = none ↔ ∀ v, ¬ Offers known t v) := by
  obtain ⟨c, s, hc, hs, hq, hd, _⟩ := C46_nodes h hp he
  refine ⟨c, s, hc, hs, hq, fun t st hl hty hst hsep => ?_⟩
  rw [hd.values st hl hty]
  cases hv : typeValues known t with
  | error x => rw [TypeS.stmt, hv] at hst; cases hst
  | ok w =>
    rw [TypeS.stmt, hv] at hst
    obtain rfl := Except.ok.inj hst
    obtain ⟨h1, h2⟩ := C57_values hv hsep
    dsimp only
    by_cases hw : w = ""
    · rw [if_pos hw]
      exact ⟨fun v _ => ⟨(by rintro ⟨_, c, _⟩; cases c), fun o => absurd o (h2.1 hw v)⟩, fun _ => h2.1 hw, fun _ => rfl⟩
    · rw [if_neg hw]
      refine ⟨fun v hne => ?_, by simp, fun o => absurd (h2.2 o) hw⟩
      rw [← h1 v hne]
      simp

/-- C57: for an identityref, also behind typedefs and in unions, the values are identities that are derived from the base, and all of
them but perhaps the first that the compiler saw (see C38).  The base is looked up from the module in which the `type` statement is
written, not from the module of the leaf. -/
theorem C57_identity {hist : Identity.History} (ho : Identity.OwnBases hist) {ms i td l b x y}
    (hn : ∀ t, ¬ Renames i td t) (ha : i.arg = "identityref") (hb : i.base = some b)
    (hx : ms.find? (fun x => x.name = i.module) = some x) {base} (hw : BaseText b base)
    (hm : Identity.meaning x base = some y) :
    (∀ v, Offers (fromCompiler (Identity.after hist) ms) (.mk i td l) v →
      ∃ z ∈ Identity.derived y (Identity.seen hist), Identity.Written hist v z) ∧
    (∀ z ∈ (Identity.derived y (Identity.seen hist)).tail, ∃ v, Identity.Written hist v z ∧
      Offers (fromCompiler (Identity.after hist) ms) (.mk i td l) v) := by
  obtain rfl := baseOf_text hw
  obtain ⟨vs, hv, h1, _, h2⟩ := Identity.C38_offered ho hm
  have hk : fromCompiler (Identity.after hist) ms i.module b = .ok vs := by
    simp only [fromCompiler, hx, hv]
  refine ⟨fun v o => ?_, fun z hz => ?_⟩
  · cases o with
    | typedef r => exact absurd r (hn _)
    | boolean _ e => exact absurd (ha.symm.trans e) (by decide)
    | enum _ e => exact absurd (ha.symm.trans e) (by decide)
    | member _ e => exact absurd (ha.symm.trans e) (by decide)
    | identity _ _ e k hm =>
      rw [hb] at e
      cases e
      rw [hk] at k
      cases k
      exact h1 v hm
  · obtain ⟨v, hv, hw⟩ := h2 z hz
    exact ⟨v, hw, .identity hn ha hb hk hv⟩

/-- C57: a type that restricts another one and is known by the name of that one has no values. -/
theorem C57_restricted {known i t ms} (hr : i.restricted = true)
    (hb : i.arg ≠ "boolean" ∧ i.arg ≠ "enumeration" ∧ i.arg ≠ "union" ∧ i.arg ≠ "identityref") :
    typeValues known (.mk i (some t) ms) = .ok "" ∧ ∀ v, ¬ Offers known (.mk i (some t) ms) v := by
  have hn : ∀ u, ¬ Renames i (some t) u := fun u hu => by rw [hu.2] at hr; cases hr
  refine ⟨?_, fun v o => ?_⟩
  · rw [typeValues_own hn, ownValues, if_neg hb.1, if_neg hb.2.2.1, if_neg hb.2.1, if_neg hb.2.2.2]
  · cases o with
    | typedef r => exact hn _ r
    | boolean _ e => exact hb.1 e
    | enum _ e => exact hb.2.1 e
    | member _ e => exact hb.2.2.1 e
    | identity _ e => exact hb.2.2.2 e

namespace Demo
open NcDiff.Demo (st modNs)
open Identity.Demo (crypto vendor once once_own)

/-- An enumeration. -/
def colour : TypeS := .mk { arg := "enumeration", module := "demo", enums := ["red", "green"] } none []

/-- A typedef of it. -/
def named : TypeS := .mk { arg := "d:colour", module := "demo" } (some colour) []

/-- A typedef of it with fewer names. -/
def fewer : TypeS := .mk { arg := "d:colour", module := "demo", restricted := true, enums := ["red"] } (some colour) []

/-- An identityref in another module, and its typedef. -/
def alg : TypeS := .mk { arg := "cr:alg-ref", module := "vendor" }
  (some (.mk { arg := "identityref", module := "crypto", base := some "alg" } none [])) []

/-- A union. -/
def anyOf : TypeS :=
  .mk { arg := "union", module := "demo" } none
    [named, .mk { arg := "string", module := "demo" } none [], .mk { arg := "boolean", module := "demo" } none [], alg]

/-- The identities of `Props/Identity.lean`. -/
def known : Known := fromCompiler (Identity.after once) [crypto, vendor]

theorem union_values : typeValues known anyOf = .ok "red|green|true|false|c:aes|c:des|v:rot13" := by decide +kernel

theorem alg_values : known "crypto" "alg" = .ok ["c:aes", "c:des", "v:rot13"] := by decide +kernel

theorem own_none {i : TInfo} : ∀ t, ¬ Renames i none t := fun _ h => by cases h.1

theorem colour_offers {v} : Offers known colour v ↔ v ∈ ["red", "green"] := by
  constructor
  · intro o
    cases o with
    | typedef r => exact absurd r (own_none _)
    | boolean _ e => exact absurd e (by decide)
    | enum _ _ h => exact h
    | member _ e => exact absurd e (by decide)
    | identity _ e => exact absurd e (by decide)
  · exact fun h => .enum own_none rfl h

theorem anyOf_separable : Separable known anyOf := by
  obtain ⟨l, hl, hv⟩ : ∃ l : List String, (∀ v ∈ l, v ≠ "" ∧ '|' ∉ v.toList) ∧ ∀ v, Offers known anyOf v → v ∈ l := by
    refine ⟨["red", "green", "true", "false", "c:aes", "c:des", "v:rot13"], by decide, fun v o => ?_⟩
    cases o with
    | typedef r => exact absurd r (own_none _)
    | boolean _ e => exact absurd e (by decide)
    | enum _ e => exact absurd e (by decide)
    | identity _ e => exact absurd e (by decide)
    | member _ _ hm o =>
      simp only [List.mem_cons, List.not_mem_nil, or_false] at hm
      rcases hm with rfl | rfl | rfl | rfl
      · have := colour_offers.1 ((offers_renames (t := colour) ⟨rfl, rfl⟩).1 o)
        simp only [List.mem_cons, List.not_mem_nil, or_false] at this ⊢
        tauto
      · cases o with
        | typedef r => exact absurd r (own_none _)
        | boolean _ e => exact absurd e (by decide)
        | enum _ e => exact absurd e (by decide)
        | member _ e => exact absurd e (by decide)
        | identity _ e => exact absurd e (by decide)
      · cases o with
        | typedef r => exact absurd r (own_none _)
        | boolean _ _ h =>
          simp only [List.mem_cons, List.not_mem_nil, or_false] at h ⊢
          tauto
        | enum _ e => exact absurd e (by decide)
        | member _ e => exact absurd e (by decide)
        | identity _ e => exact absurd e (by decide)
      · have o := (offers_renames (t := .mk { arg := "identityref", module := "crypto", base := some "alg" } none [])
          ⟨rfl, rfl⟩).1 o
        cases o with
        | typedef r => exact absurd r (own_none _)
        | boolean _ e => exact absurd e (by decide)
        | enum _ e => exact absurd e (by decide)
        | member _ e => exact absurd e (by decide)
        | identity _ _ e k h =>
          cases e
          rw [show known "crypto" "alg" = _ from alg_values] at k
          cases k
          simp only [List.mem_cons, List.not_mem_nil, or_false] at h ⊢
          tauto
  exact fun v o => hl v (hv v o)

/-- The union has the identity of the other module among its values. -/
example : Offers known anyOf "v:rot13" :=
  ((C57_values union_values anyOf_separable).1 "v:rot13" (by decide)).1 (by decide +kernel)

/-- A module with a leaf of the union. -/
def module : List Compile.Stmt :=
  [st "container" "top" [st "leaf" "any" (type := (anyOf.stmt known).toOption)]]

/-- The hypotheses of `C57_leaf` hold. -/
example : ∃ tree e, compileTree modNs "demo" (some "d") module = .ok tree ∧
    At tree [NcDiff.Demo.q "top", NcDiff.Demo.q "any"] e ∧
    strAttr e (.other "values") = some "red|green|true|false|c:aes|c:des|v:rot13" ∧
    ∃ t, anyOf.stmt known = .ok t := by
  obtain ⟨tree, ht, a, ha, hat, b, hb, hbt, hv⟩ : ∃ tree, compileTree modNs "demo" (some "d") module = .ok tree ∧
      ∃ a ∈ tree.kids, a.tag = NcDiff.Demo.q "top" ∧ ∃ b ∈ a.kids, b.tag = NcDiff.Demo.q "any" ∧
        strAttr b (.other "values") = some "red|green|true|false|c:aes|c:des|v:rot13" :=
    ⟨_, rfl, by decide +kernel⟩
  refine ⟨tree, b, ht, ?_, hv, _, rfl⟩
  rw [← hat, ← hbt]
  exact .down ha (.down hb .here)

/-- The hypotheses of `C57_identity` hold for the type behind the typedef. -/
example : ∃ z ∈ Identity.derived ("crypto", "alg") (Identity.seen once), Identity.Written once "v:rot13" z :=
  (C57_identity (ms := [crypto, vendor]) (i := { arg := "identityref", module := "crypto", base := some "alg" }) (td := none)
    (l := []) (b := "alg") (x := crypto) (y := ("crypto", "alg")) once_own own_none rfl rfl rfl
    (.plain (by decide)) (by decide +kernel)).1 "v:rot13" (.identity own_none rfl rfl alg_values (by decide))

/-- The same for a base with the prefix of another module. -/
example : ∃ v, Identity.Written once v ("vendor", "rot13") ∧
    Offers known (.mk { arg := "identityref", module := "vendor", base := some "cr:alg" } none []) v :=
  (C57_identity (ms := [crypto, vendor]) (i := { arg := "identityref", module := "vendor", base := some "cr:alg" }) (td := none)
    (l := []) (b := "cr:alg") (x := vendor) (y := ("crypto", "alg")) once_own own_none rfl rfl rfl
    (.pre (p := "cr") (n := "alg") (by decide)) (by decide +kernel)).2 ("vendor", "rot13") (by decide +kernel)

/-- C57: a typedef with a restriction lists no values, although each of its values is one of the enumeration, and the values of an
enumeration that are names with `|` cannot be told apart. -/
theorem C57_limits : typeValues known named = .ok "red|green" ∧ typeValues known fewer = .ok "" ∧
    ∃ a b : TInfo, a.enums ≠ b.enums ∧ typeValues known (.mk a none []) = typeValues known (.mk b none []) ∧
      typeValues known (.mk a none []) = .ok "x|y" :=
  ⟨by decide +kernel, by decide +kernel, { arg := "enumeration", enums := ["x|y"] }, { arg := "enumeration", enums := ["x", "y"] },
    by decide, by decide +kernel, by decide +kernel⟩

end Demo

end NcDiff.Types
