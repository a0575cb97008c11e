import Verif.Proof.Meaning
import Verif.Props.Yang
/-!
# C67: configs are equal exactly if the documents mean the same
-/

namespace NcDiff
namespace Compile

/-- C67: the config of a document means the same as the document. -/
theorem C67_config (h : Host) (mods : List Module) (rd : Bool) (hl : Loads h mods) (hp : ProperModules rd mods)
    (hc : ∀ m ∈ mods, ∀ s ∈ m.kids, Everywhere (Clear rd) s) (x : Elem) (l : List Elem) (hx : Document h mods x l)
    (hr : ∀ k ∈ l, ReadByLxml k) (v : Bool) :
    ∃ c, newConfig h.device x v rd = .ok c ∧ SameMeaning (topPlaces mods) l c.kids := by
  obtain ⟨c, hn, _⟩ := C65_accepted h mods rd hl hp x l hx v
  exact ⟨c, hn, (document_means hl hp (regular_of_clear hc) hx hr hn).2.2.2.2⟩

/-- C67: the configs of two documents are equal exactly if the documents mean the same. -/
theorem C67_equal (h : Host) (mods : List Module) (rd : Bool) (hl : Loads h mods) (hp : ProperModules rd mods)
    (hc : ∀ m ∈ mods, ∀ s ∈ m.kids, Everywhere (Clear rd) s) (x1 x2 : Elem) (l1 l2 : List Elem)
    (hx1 : Document h mods x1 l1) (hx2 : Document h mods x2 l2) (hr1 : ∀ k ∈ l1, ReadByLxml k)
    (hr2 : ∀ k ∈ l2, ReadByLxml k) (v1 v2 : Bool) (c1 c2 : Elem) (h1 : newConfig h.device x1 v1 rd = .ok c1)
    (h2 : newConfig h.device x2 v2 rd = .ok c2) :
    cfgEq h.device c1 c2 = .ok true ↔ SameMeaning (topPlaces mods) l1 l2 := by
  have hF := field_root hl hp (regular_of_clear hc)
  obtain ⟨s1, t1, g1, n1, m1⟩ := document_means hl hp (regular_of_clear hc) hx1 hr1 h1
  obtain ⟨s2, t2, g2, n2, m2⟩ := document_means hl hp (regular_of_clear hc) hx2 hr2 h2
  obtain ⟨r, hr, hri⟩ := cfgEq_iff (d := h.device) ⟨s1.valid, n1⟩ ⟨s2.valid, n2⟩
  rw [hr, Except.ok.injEq, hri]
  constructor
  · intro hs
    exact m1.trans ((meaning_of_same c1 hF s1.valid s2.valid s1.fits s2.fits hs).trans m2.symm)
  · intro hs
    have hm : SameMeaning (topPlaces mods) c1.kids c2.kids := m1.symm.trans (hs.trans m2)
    have hv : ∀ {a b : Elem}, a.text = none → b.text = none → parseTextAt h.device .root a = parseTextAt h.device .root b := by
      intro a b ha hb
      unfold parseTextAt
      rw [ha, hb]
    exact ⟨incl_of_meaning c1 hF s1 s2 t1 t2 (g1.trans g2.symm) (hv n1 n2) hm,
      incl_of_meaning c2 hF s2 s1 t2 t1 (g2.trans g1.symm) (hv n2 n1) hm.symm⟩

/-- C67: the delta between the configs of two documents takes the first to a config that means the same as the second
document, if they are compatible. -/
theorem C67_delta (h : Host) (mods : List Module) (rd : Bool) (hl : Loads h mods) (hp : ProperModules rd mods)
    (hc : ∀ m ∈ mods, ∀ s ∈ m.kids, Everywhere (Clear rd) s) (x1 x2 : Elem) (l1 l2 : List Elem)
    (hx1 : Document h mods x1 l1) (hx2 : Document h mods x2 l2)
    (hr2 : ∀ k ∈ l2, ReadByLxml k) (v1 v2 : Bool) (c1 c2 : Elem) (h1 : newConfig h.device x1 v1 rd = .ok c1)
    (h2 : newConfig h.device x2 v2 rd = .ok c2) (hcom : Compat h.device .root c1 c2) (opts : Opts) (hs : TopSafe opts mods)
    (hpl : PlainModules mods) :
    ∃ δ r, newDelta h.device c1 c2 opts = .ok δ ∧ configAddDelta h.device c1 δ = .ok r ∧
      SameMeaning (topPlaces mods) l2 r.kids := by
  obtain ⟨a, ha, _, ha1, ha2, _, _⟩ := C65_accepted h mods rd hl hp x1 l1 hx1 v1
  obtain ⟨b, hb, _, hb1, hb2, hb3, hb4⟩ := C65_accepted h mods rd hl hp x2 l2 hx2 v2
  obtain rfl : a = c1 := Except.ok.inj (ha.symm.trans h1)
  obtain rfl : b = c2 := Except.ok.inj (hb.symm.trans h2)
  obtain ⟨δ, r, e1, e2, hv, hs⟩ := round_trip h.device opts a b ⟨ha1, hb1, ha2, hb2, hcom, hb3, hb4⟩ (rootSafe_of hl hp hs)
  obtain ⟨s2, _, _, _, hm⟩ := document_means hl hp (regular_of_clear hc) hx2 hr2 h2
  have hF := field_root hl hp (regular_of_clear hc)
  exact ⟨δ, r, e1, e2, hm.trans (meaning_of_same r hF hv.valid hb1.valid.valid
    (fits_of_same r hF (plain_top hpl) s2.fits hs) s2.fits hs).symm⟩

end Compile

namespace MeaningDemo

open Compile Demo YangDemo

def clearB (rd : Bool) (s : Stmt) : Bool :=
  decide (s.info.keyword ≠ "choice" ∧ s.info.keyword ≠ "case" ∧ (PlainType s ∨ isIdentity s = true) ∧
    (s.info.keyword = "leaf" → s.info.defaults.length ≤ 1) ∧
    (∀ v ∈ s.info.defaults, v ≠ "" ∧ (s.info.keyword = "leaf-list" → ',' ∉ v.toList)) ∧
    (s.info.keyword = "list" → ∃ c ∈ s.kids, c.info.isKey = true) ∧
    ¬ s.info.Says "status" "obsolete" ∧ (rd = true → ¬ s.info.Says "status" "deprecated"))

theorem clearB_sound {rd : Bool} {s : Stmt} (h : clearB rd s = true) : Clear rd s := by
  obtain ⟨h1, h2, h3, h4, h5, h6, h7, h8⟩ := of_decide_eq_true h
  exact ⟨⟨h3, h4, h5, h6, h7, h8⟩, h1, h2⟩

mutual
def lxmlB : Elem → Bool
  | .mk _ _ _ t ks => decide (t ≠ some "") && lxmlKidsB ks
def lxmlKidsB : List Elem → Bool
  | [] => true
  | k :: r => lxmlB k && lxmlKidsB r
end

mutual
theorem lxmlB_sound : ∀ (e : Elem), lxmlB e = true → ReadByLxml e
  | .mk _ _ _ t ks, h => by
    rw [lxmlB, Bool.and_eq_true] at h
    exact ⟨of_decide_eq_true h.1, lxmlKidsB_sound ks h.2⟩
theorem lxmlKidsB_sound : ∀ (l : List Elem), lxmlKidsB l = true → ∀ k ∈ l, ReadByLxml k
  | [], _, _, hk => by cases hk
  | x :: r, h, k, hk => by
    rw [lxmlKidsB, Bool.and_eq_true] at h
    rcases List.mem_cons.1 hk with hx | hk
    · rw [hx]; exact lxmlB_sound x h.1
    · exact lxmlKidsB_sound r h.2 k hk
end

def str : Option TypeStmt := some { arg := "string" }

/-- A module with defaults, a presence container, and order by the user. -/
def mstmts : List Stmt :=
  [ st "container" "top"
      [ st "list" "item" [st "leaf" "id" (type := str) (isKey := true), st "leaf" "val" [] [("default", "0")] (type := str)]
          [("key", "id"), ("ordered-by", "user")],
        st "container" "np" [st "leaf" "w" [] [("default", "x")] (type := str)],
        st "container" "on" [] [("presence", "on")],
        st "leaf-list" "tags" [] [("default", "a"), ("default", "b")] (type := str) ] ]

def mmods : List Module := [⟨"demo", "d", modNs, mstmts⟩]

def hostOf (l : List Stmt) : Host :=
  { compiled with models := [("demo", (compileTree modNs "demo" (some "d") l).toOption.getD default)] }

def it (i : String) (r : List Elem) : Elem := el "item" (lf "id" i :: r)
def mroots1 : List Elem := [el "top" [it "1" [lf "val" "0"], it "2" [lf "val" "5"], el "np" [lf "w" "x"], lf "tags" "b", lf "tags" "a"]]
def mroots2 : List Elem := [el "top" [it "1" [], it "2" [lf "val" "5"]]]
def mroots3 : List Elem := [el "top" [it "2" [lf "val" "5"], it "1" []]]

theorem mclear : ∀ m ∈ mmods, ∀ s ∈ m.kids, Everywhere (Clear true) s := by
  intro m hm s hs
  obtain rfl := List.mem_singleton.1 hm
  exact (everyListB_sound (P := clearB true) mstmts (by decide +kernel) s hs).imp fun _ => clearB_sound

/-- The hypotheses of C67 are met; the first two documents mean the same, and the third does not. -/
example : Loads (hostOf mstmts) mmods ∧ ProperModules true mmods ∧ (∀ m ∈ mmods, ∀ s ∈ m.kids, Everywhere (Clear true) s) ∧
    (∀ l ∈ [mroots1, mroots2, mroots3], Document (hostOf mstmts) mmods (reply l) l ∧ ∀ k ∈ l, ReadByLxml k) ∧
    SameMeaning (topPlaces mmods) mroots1 mroots2 ∧ ¬ SameMeaning (topPlaces mmods) mroots1 mroots3 := by
  have hl : Loads (hostOf mstmts) mmods := .cons ⟨rfl, by decide +kernel⟩ .nil
  have hp : ProperModules true mmods := properModulesB_sound (by decide +kernel)
  have hd : ∀ l ∈ [mroots1, mroots2, mroots3], Document (hostOf mstmts) mmods (reply l) l ∧ ∀ k ∈ l, ReadByLxml k := by
    intro l hl
    simp only [List.mem_cons, List.not_mem_nil, or_false] at hl
    rcases hl with rfl | rfl | rfl
    · exact ⟨⟨.reply (e := reply mroots1) rfl, instB_sound _ (by decide +kernel)⟩, lxmlKidsB_sound _ (by decide +kernel)⟩
    · exact ⟨⟨.reply (e := reply mroots2) rfl, instB_sound _ (by decide +kernel)⟩, lxmlKidsB_sound _ (by decide +kernel)⟩
    · exact ⟨⟨.reply (e := reply mroots3) rfl, instB_sound _ (by decide +kernel)⟩, lxmlKidsB_sound _ (by decide +kernel)⟩
  have hn2 : ∀ l ∈ [mroots1, mroots2], newConfig (hostOf mstmts).device (reply l) true true = .ok (noConfig.setKids mroots2) := by
    decide +kernel
  refine ⟨hl, hp, mclear, hd, ?_, ?_⟩
  · exact (C67_equal _ mmods true hl hp mclear _ _ _ _ (hd mroots1 (by simp)).1 (hd mroots2 (by simp)).1 (hd mroots1 (by simp)).2
      (hd mroots2 (by simp)).2 true true _ _ (hn2 _ (by simp)) (hn2 _ (by simp))).1 (by decide +kernel)
  · intro h
    have := (C67_equal _ mmods true hl hp mclear _ _ _ _ (hd mroots1 (by simp)).1 (hd mroots3 (by simp)).1 (hd mroots1 (by simp)).2
      (hd mroots3 (by simp)).2 true true _ (noConfig.setKids mroots3) (hn2 _ (by simp)) (by decide +kernel)).2 h
    revert this
    decide +kernel

theorem plainModules_of {mods : List Module} (h : (mods.all fun m => everyListB (fun s => decide (PlainType s)) m.kids) = true) :
    PlainModules mods :=
  fun m hm s hs => (everyListB_sound m.kids (List.all_eq_true.1 h m hm) s hs).imp fun _ h => of_decide_eq_true h

theorem mplain : PlainModules mmods := plainModules_of (by decide +kernel)

/-- The conditions of `C67_delta` are met by the configs of the first and the third document, which have other orders
of the entries. -/
example : newConfig (hostOf mstmts).device (reply mroots1) true true = .ok (noConfig.setKids mroots2) ∧
    newConfig (hostOf mstmts).device (reply mroots3) true true = .ok (noConfig.setKids mroots3) ∧
    Compat (hostOf mstmts).device .root (noConfig.setKids mroots2) (noConfig.setKids mroots3) ∧ TopSafe {} mmods ∧
    PlainModules mmods :=
  ⟨by decide +kernel, by decide +kernel, compatB_sound _ (by decide +kernel), Or.inl rfl, mplain⟩

/-! ## The conditions are needed -/

/-- A choice without a default, one case of which has a leaf with a default. -/
def caseStmts : List Stmt :=
  [st "container" "top" [st "choice" "ch" [st "case" "c1" [st "leaf" "x" [] [("default", "1")] (type := str)],
    st "case" "c2" [st "leaf" "y" (type := str)]]]]

/-- C67 is false with choices: `x` with its default value is the same as no `x` for the library, although no case is
chosen without `x`, and so its default is not in use (RFC 7950, section 7.6.1).  The document with `x` is taken for the
document with nothing in it. -/
theorem C67_false_for_case : Loads (hostOf caseStmts) [⟨"demo", "d", modNs, caseStmts⟩] ∧
    ProperModules true [⟨"demo", "d", modNs, caseStmts⟩] ∧
    (∀ l ∈ [[el "top" [lf "x" "1"]], []], Document (hostOf caseStmts) [⟨"demo", "d", modNs, caseStmts⟩] (reply l) l ∧
      newConfig (hostOf caseStmts).device (reply l) true true = .ok noConfig) := by
  refine ⟨.cons ⟨rfl, by decide +kernel⟩ .nil, properModulesB_sound (by decide +kernel), fun l hl => ?_⟩
  simp only [List.mem_cons, List.not_mem_nil, or_false] at hl
  rcases hl with rfl | rfl
  · exact ⟨⟨.reply (e := reply [el "top" [lf "x" "1"]]) rfl, instB_sound _ (by decide +kernel)⟩, by decide +kernel⟩
  · exact ⟨⟨.reply (e := reply []) rfl, instB_sound _ (by decide +kernel)⟩, by decide +kernel⟩

/-- A leaf-list with a default that has a comma. -/
def commaStmts : List Stmt := [st "leaf-list" "tags" [] [("default", "a,b")] (type := str)]

/-- C67 is false for a default of a leaf-list with a comma: the values `a` and `b` are taken for the default `a,b`. -/
theorem C67_false_for_comma : Loads (hostOf commaStmts) [⟨"demo", "d", modNs, commaStmts⟩] ∧
    ProperModules true [⟨"demo", "d", modNs, commaStmts⟩] ∧
    (∀ l ∈ [[lf "tags" "a", lf "tags" "b"], []], Document (hostOf commaStmts) [⟨"demo", "d", modNs, commaStmts⟩] (reply l) l ∧
      newConfig (hostOf commaStmts).device (reply l) true true = .ok noConfig) ∧
    ¬ SameMeaning (topPlaces [⟨"demo", "d", modNs, commaStmts⟩]) [lf "tags" "a", lf "tags" "b"] [] := by
  refine ⟨.cons ⟨rfl, by decide +kernel⟩ .nil, properModulesB_sound (by decide +kernel), fun l hl => ?_, ?_⟩
  · simp only [List.mem_cons, List.not_mem_nil, or_false] at hl
    rcases hl with rfl | rfl
    · exact ⟨⟨.reply (e := reply [lf "tags" "a", lf "tags" "b"]) rfl, instB_sound _ (by decide +kernel)⟩, by decide +kernel⟩
    · exact ⟨⟨.reply (e := reply []) rfl, instB_sound _ (by decide +kernel)⟩, by decide +kernel⟩
  · rintro ⟨_, h, _⟩
    have := ((h (modNs, st "leaf-list" "tags" [] [("default", "a,b")] (type := str)) (by simp [topPlaces, commaStmts]) rfl (q "tags")
      (by decide +kernel)).1 "a").1 (by decide +kernel)
    revert this
    decide +kernel

/-- A leaf whose default is the empty string. -/
def emptyStmts : List Stmt := [st "leaf" "w" [] [("default", "")] (type := str)]

/-- C67 is false for an empty default: `<w/>` says what is the default anyway, but is kept in the config, and so the
config differs from the one without it. -/
theorem C67_false_for_empty : Loads (hostOf emptyStmts) [⟨"demo", "d", modNs, emptyStmts⟩] ∧
    ProperModules true [⟨"demo", "d", modNs, emptyStmts⟩] ∧
    (∀ l ∈ [[el "w" []], []], Document (hostOf emptyStmts) [⟨"demo", "d", modNs, emptyStmts⟩] (reply l) l ∧
      newConfig (hostOf emptyStmts).device (reply l) true true = .ok (noConfig.setKids l)) ∧
    cfgEq (hostOf emptyStmts).device (noConfig.setKids [el "w" []]) noConfig = .ok false ∧
    SameMeaning (topPlaces [⟨"demo", "d", modNs, emptyStmts⟩]) [el "w" []] [] := by
  refine ⟨.cons ⟨rfl, by decide +kernel⟩ .nil, properModulesB_sound (by decide +kernel), fun l hl => ?_, by decide +kernel, ?_⟩
  · simp only [List.mem_cons, List.not_mem_nil, or_false] at hl
    rcases hl with rfl | rfl
    · exact ⟨⟨.reply (e := reply [el "w" []]) rfl, instB_sound _ (by decide +kernel)⟩, by decide +kernel⟩
    · exact ⟨⟨.reply (e := reply []) rfl, instB_sound _ (by decide +kernel)⟩, by decide +kernel⟩
  · have hp : ∀ p ∈ topPlaces [⟨"demo", "d", modNs, emptyStmts⟩], p = (modNs, st "leaf" "w" [] [("default", "")] (type := str)) := by
      simp [topPlaces, emptyStmts]
    refine ⟨fun p h _ q' hq => ?_, fun p h hk => ?_, fun p h hk => ?_, fun p h hk => ?_, fun p h hk => ?_, fun p h hk => ?_⟩ <;>
      rw [hp p h] at *
    · obtain rfl : q' = q "w" := named_inj hq (by decide +kernel)
      decide +kernel
    all_goals exact absurd hk (by decide)

end MeaningDemo
end NcDiff
