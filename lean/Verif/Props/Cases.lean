import Verif.Proof.CasesDelta
import Verif.Props.Server
/-!
# C70: a server with choices that gets the delta ends with the target
-/

namespace NcDiff
namespace Compile

/-- What is asked of modules with choices. -/
structure ChoiceModules (rd : Bool) (mods : List Module) : Prop where
  regular : ∀ m ∈ mods, ∀ s ∈ m.kids, Everywhere (Regular rd) s
  plain : ∀ m ∈ mods, ∀ s ∈ m.kids, Everywhere PlainChoice s
  /-- there are no choices at the top of a module -/
  top : ∀ m ∈ mods, ∀ s ∈ m.kids, s.info.keyword ≠ "choice" ∧ s.info.keyword ≠ "case"

/-- The document has at most one case of each choice, as RFC 7950 (section 7.9) says. -/
def OneCaseEach (mods : List Module) (l : List Elem) : Prop := SingleCase noRivals (topPlaces mods) (noConfig.setKids l)

/-- C70: the configs of any two documents of the modules, which may have choices: a server that holds the first, and that
removes the nodes of the other cases when it gets a node of a case, accepts the edit-config of the delta, and then holds
the second. -/
theorem C70_server (h : Host) (mods : List Module) (rd : Bool) (hl : Loads h mods) (hp : ProperModules rd mods)
    (hc : ChoiceModules rd mods) (x1 x2 : Elem) (l1 l2 : List Elem) (hx1 : Document h mods x1 l1)
    (hx2 : Document h mods x2 l2) (hr1 : ∀ k ∈ l1, ReadByLxml k) (hr2 : ∀ k ∈ l2, ReadByLxml k) (o1 : OneCaseEach mods l1)
    (o2 : OneCaseEach mods l2) (v1 v2 : Bool) (c1 c2 : Elem) (h1 : newConfig h.device x1 v1 rd = .ok c1)
    (h2 : newConfig h.device x2 v2 rd = .ok c2) (opts : Opts) (hr : opts.diffType ≠ .replace) (hs : TopSafe opts mods)
    (hw : Spellable mods l1 l2) :
    ∃ δ x, newDelta h.device c1 c2 opts = .ok δ ∧ δ.nc h.device = .ok x ∧
      ∀ m, Holds (topPlaces mods) c1.kids m →
        ∃ r, serveCases (topPlaces mods) noRivals x.kids m = some r ∧ Holds (topPlaces mods) c2.kids r := by
  obtain ⟨a, ha, ⟨t1, q1, q1'⟩, ha1, ha2, _, _⟩ := C65_accepted h mods rd hl hp x1 l1 hx1 v1
  obtain ⟨b, hb, ⟨t2, q2, q2'⟩, hb1, hb2, _, _⟩ := C65_accepted h mods rd hl hp x2 l2 hx2 v2
  obtain rfl : a = c1 := Except.ok.inj (ha.symm.trans h1)
  obtain rfl : b = c2 := Except.ok.inj (hb.symm.trans h2)
  obtain ⟨s1, _⟩ := document_means hl hp hc.regular hx1 hr1 h1
  obtain ⟨s2, _⟩ := document_means hl hp hc.regular hx2 hr2 h2
  obtain ⟨us, w1, w2⟩ := hw
  exact delta_serveCases hl hp (floor_root hl hp hc.regular hc.plain hc.top) ha1 hb1 ha2 hb2 s1.fits s2.fits
    (single_pruned q1' (single_pruned q1 o1)) (w1.declares_pruned q1 q1') (w2.within_pruned q2 q2') (single_pruned q2' (single_pruned q2 o2)) hr hs

/-- C70: a server with the nodes of a config of a document holds the config. -/
theorem C70_holds (h : Host) (mods : List Module) (rd : Bool) (hl : Loads h mods) (hp : ProperModules rd mods)
    (hc : ChoiceModules rd mods) (x : Elem) (l : List Elem) (hx : Document h mods x l)
    (hr : ∀ k ∈ l, ReadByLxml k) (v : Bool) (c : Elem) (h1 : newConfig h.device x v rd = .ok c) : Holds (topPlaces mods) c.kids c.kids := by
  obtain ⟨a, ha, _, ha1, _⟩ := C65_accepted h mods rd hl hp x l hx v
  obtain rfl : a = c := Except.ok.inj (ha.symm.trans h1)
  obtain ⟨s, _⟩ := document_means hl hp hc.regular hx hr h1
  exact holds_of_same a (field_root hl hp hc.regular) ha1.valid.valid ha1.valid.valid s.fits s.fits (SameConfig.refl ha1.valid.valid)

/-- What a server with choices has after one edit-config after another, see `follow`. -/
def followCases (d : Device) (pl : List Place) : List Elem → Elem → List (Opts × Elem) → Option (List Elem)
  | m, _, [] => some m
  | m, c, (o, c') :: rest =>
    match newDelta d c c' o >>= fun δ => δ.nc d with
    | .error _ => none
    | .ok x =>
      match serveCases pl noRivals x.kids m with
      | none => none
      | some m' => followCases d pl m' c' rest

/-- The config is that of a document with one case of each choice, whose identities are in the namespaces `us`. -/
def OfCases (h : Host) (mods : List Module) (us : List String) (rd : Bool) (c : Elem) : Prop :=
  ∃ x l v, Document h mods x l ∧ (∀ k ∈ l, ReadByLxml k) ∧ OneCaseEach mods l ∧ WellSpelled us mods l ∧ newConfig h.device x v rd = .ok c

/-- C70, history: a server that gets one delta after another accepts all of them, and holds the last config. -/
theorem C70_history (h : Host) (mods : List Module) (us : List String) (rd : Bool) (hl : Loads h mods) (hp : ProperModules rd mods)
    (hc : ChoiceModules rd mods) : ∀ (rest : List (Opts × Elem)) (c : Elem) (m : List Elem), OfCases h mods us rd c →
    (∀ p ∈ rest, OfCases h mods us rd p.2 ∧ p.1.diffType ≠ .replace ∧ TopSafe p.1 mods) → Holds (topPlaces mods) c.kids m →
    ∃ r, followCases h.device (topPlaces mods) m c rest = some r ∧
      Holds (topPlaces mods) ((rest.getLast?.map Prod.snd).getD c).kids r
  | [], c, m, _, _, hm => ⟨m, rfl, hm⟩
  | (o, c') :: rest, c, m, hd, hall, hm => by
    obtain ⟨hd', hr, hs⟩ := hall (o, c') (by simp)
    have hd2 := hd'
    obtain ⟨x1, l1, v1, a1, a2, a3, a0, a4⟩ := hd
    obtain ⟨x2, l2, v2, b1, b2, b3, b0, b4⟩ := hd'
    obtain ⟨δ, x, e1, e2, e3⟩ := C70_server h mods rd hl hp hc x1 x2 l1 l2 a1 b1 a2 b2 a3 b3 v1 v2 c c' a4 b4 o hr hs (a0.spellable b0)
    obtain ⟨r, r1, r2⟩ := e3 m hm
    obtain ⟨s, s1, s2⟩ := C70_history h mods us rd hl hp hc rest c' r hd2 (fun p hp => hall p (by simp [hp])) r2
    refine ⟨s, ?_, ?_⟩
    · rw [followCases, e1]
      simp only [bind, Except.bind, e2, r1]
      exact s1
    · cases rest with
      | nil => exact s2
      | cons y ys =>
        rw [List.getLast?_cons_cons]
        rw [List.getLast?_cons, Option.map_some, Option.getD_some] at s2 ⊢
        exact s2

/-- For modules without choices the server is that of C68. -/
theorem C70_without_choices (mods : List Module)
    (hc : ∀ m ∈ mods, ∀ s ∈ m.kids, Everywhere (fun s => s.info.keyword ≠ "choice" ∧ s.info.keyword ≠ "case") s)
    (D m : List Elem) : serveCases (topPlaces mods) noRivals D m = serve (topPlaces mods) D m := by
  refine serveCases_plain D m (fun _ _ => rfl) fun p hpm => ?_
  obtain ⟨m, hm, h⟩ := List.mem_flatMap.1 hpm
  obtain ⟨s, hs, rfl⟩ := List.mem_map.1 h
  exact hc m hm s hs

/-! ## Checks -/

def regularB (rd : Bool) (s : Stmt) : Bool :=
  decide ((PlainType s ∨ isIdentity s = true) ∧ (s.info.keyword = "leaf" → s.info.defaults.length ≤ 1) ∧
    (∀ v ∈ s.info.defaults, v ≠ "" ∧ (s.info.keyword = "leaf-list" → ',' ∉ v.toList)) ∧
    (s.info.keyword = "list" → ∃ c ∈ s.kids, c.info.isKey = true) ∧
    ¬ s.info.Says "status" "obsolete" ∧ (rd = true → ¬ s.info.Says "status" "deprecated"))

theorem regularB_sound {rd : Bool} {s : Stmt} (h : regularB rd s = true) : Regular rd s := by
  obtain ⟨h3, h4, h5, h6, h7, h8⟩ := of_decide_eq_true h
  exact ⟨h3, h4, h5, h6, h7, h8⟩

def plainChoiceB (s : Stmt) : Bool :=
  decide ((s.info.keyword = "choice" → ∀ c ∈ s.kids, c.info.keyword = "case") ∧
    (s.info.keyword ≠ "choice" → ∀ c ∈ s.kids, c.info.keyword ≠ "case") ∧
    (s.info.keyword = "case" → ∀ c ∈ s.kids, c.info.keyword ≠ "choice"))

theorem plainChoiceB_sound {s : Stmt} (h : plainChoiceB s = true) : PlainChoice s := by
  obtain ⟨h1, h2, h3⟩ := of_decide_eq_true h
  exact ⟨h1, h2, h3⟩

mutual
def singleB (ex : QName → QName → Bool) (pl : List Place) : Elem → Bool
  | .mk _ _ _ _ ks => (ks.all fun a => ks.all fun b => !ex a.tag b.tag) && singleKidsB pl ks
def singleKidsB (pl : List Place) : List Elem → Bool
  | [] => true
  | k :: r => (pl.all fun p => decide (nameOf p.1 p.2 ≠ some k.tag) || singleB (rivals p) (places p.1 p.2.kids) k) && singleKidsB pl r
end

mutual
theorem singleB_sound : ∀ (e : Elem) {ex : QName → QName → Bool} {pl : List Place}, singleB ex pl e = true → SingleCase ex pl e
  | .mk _ _ _ _ ks, ex, pl, h => by
    rw [singleB, Bool.and_eq_true, List.all_eq_true] at h
    refine ⟨fun a ha b hb => ?_, singleKidsB_sound ks h.2⟩
    have := List.all_eq_true.1 (h.1 a ha) b hb
    simpa using this
theorem singleKidsB_sound : ∀ (ks : List Elem) {pl : List Place}, singleKidsB pl ks = true → ∀ k ∈ ks, ∀ p ∈ pl,
    Named p.1 k.tag p.2 → SingleCase (rivals p) (places p.1 p.2.kids) k
  | [], _, _ => by simp
  | k :: r, pl, h => by
    rw [singleKidsB, Bool.and_eq_true, List.all_eq_true] at h
    intro k' hk' p hp hn
    rcases List.mem_cons.1 hk' with he | hk'
    · rw [he] at hn ⊢
      have := h.1 p hp
      rw [Bool.or_eq_true] at this
      rcases this with h1 | h1
      · exact absurd (nameOf_named.2 hn) (of_decide_eq_true h1)
      · exact singleB_sound k h1
    · exact singleKidsB_sound r h.2 k' hk' p hp hn
end

end Compile

namespace CasesDemo

open Compile Demo YangDemo MeaningDemo

/-- A list ordered by the user whose entries have a choice, and a choice in a container. -/
def cstmts : List Stmt :=
  [ st "container" "top"
      [ st "list" "item" [st "leaf" "id" (type := str) (isKey := true),
            st "choice" "how" [st "case" "static" [st "leaf" "addr" (type := str), st "leaf" "mask" (type := str)],
              st "case" "auto" [st "container" "dhcp" [st "leaf" "client" (type := str)] [("presence", "on")]]]]
          [("key", "id"), ("ordered-by", "user")],
        st "choice" "mode" [st "case" "a" [st "leaf-list" "x" (type := str), st "container" "np" [st "leaf" "w" (type := str)]],
          st "case" "b" [st "leaf" "y" (type := str)]] ] ]

def cmods : List Module := [⟨"demo", "d", modNs, cstmts⟩]
def d : Device := (hostOf cstmts).device
def pl : List Place := topPlaces cmods

def l1 : List Elem := [el "top" [it "1" [lf "addr" "5", lf "mask" "8"], it "2" [el "dhcp" []], lf "x" "p", lf "x" "q", el "np" [lf "w" "1"]]]
def l2 : List Elem := [el "top" [it "2" [lf "addr" "6"], it "1" [el "dhcp" [lf "client" "7"]], lf "y" "r"]]
def c1 : Elem := noConfig.setKids l1
def c2 : Elem := noConfig.setKids l2

theorem loads : Loads (hostOf cstmts) cmods := .cons ⟨rfl, by decide +kernel⟩ .nil
theorem proper : ProperModules true cmods := properModulesB_sound (by decide +kernel)
theorem choices : ChoiceModules true cmods := by
  refine ⟨?_, ?_, ?_⟩ <;> (intro m hm s hs; obtain rfl := List.mem_singleton.1 hm)
  · exact (everyListB_sound (P := regularB true) cstmts (by decide +kernel) s hs).imp fun _ => regularB_sound
  · exact (everyListB_sound (P := plainChoiceB) cstmts (by decide +kernel) s hs).imp fun _ => plainChoiceB_sound
  · revert s; decide +kernel
theorem cplain : PlainModules cmods := plainModules_of (by decide +kernel)
theorem doc1 : Document (hostOf cstmts) cmods (reply l1) l1 := ⟨.reply (e := reply l1) rfl, instB_sound _ (by decide +kernel)⟩
theorem doc2 : Document (hostOf cstmts) cmods (reply l2) l2 := ⟨.reply (e := reply l2) rfl, instB_sound _ (by decide +kernel)⟩
theorem conf1 : newConfig d (reply l1) true true = .ok c1 := by decide +kernel
theorem conf2 : newConfig d (reply l2) true true = .ok c2 := by decide +kernel
theorem one1 : OneCaseEach cmods l1 := singleB_sound _ (by decide +kernel)
theorem one2 : OneCaseEach cmods l2 := singleB_sound _ (by decide +kernel)

/-- The hypotheses of C70 are met. -/
example : ∀ opts ∈ [{}, { create := .create, replace := .replace, delete := .remove }, { diffType := .minimumReplace, replaceDepth := 1 }],
    ∃ δ x, newDelta d c1 c2 opts = .ok δ ∧ δ.nc d = .ok x ∧
      ∀ m, Holds pl c1.kids m → ∃ r, serveCases pl noRivals x.kids m = some r ∧ Holds pl c2.kids r :=
  fun opts ho => C70_server (hostOf cstmts) cmods true loads proper choices _ _ _ _ doc1 doc2
    (lxmlKidsB_sound _ (by decide +kernel)) (lxmlKidsB_sound _ (by decide +kernel)) one1 one2 true true c1 c2 conf1 conf2 opts
    (by revert opts; decide) (Or.inr (Or.inr (by decide +kernel))) (spellable_of_plain cplain _ _)

/-- A server with the nodes of the first config has, in the end, those of the second.  A server that does not remove the
nodes of the other cases has both: the delta does not delete them. -/
theorem C70_needs_removal : Holds pl c1.kids c1.kids ∧ ∃ x, (newDelta d c1 c2 >>= fun δ => δ.nc d) = .ok x ∧
    serveCases pl noRivals x.kids c1.kids = some l2 ∧
    serve pl x.kids c1.kids = some [el "top" [it "2" [el "dhcp" [], lf "addr" "6"],
      it "1" [lf "addr" "5", lf "mask" "8", el "dhcp" [lf "client" "7"]], lf "x" "p", lf "x" "q", el "np" [lf "w" "1"], lf "y" "r"]] :=
  ⟨C70_holds (hostOf cstmts) cmods true loads proper choices _ _ doc1 (lxmlKidsB_sound _ (by decide +kernel)) true c1 conf1,
    (newDelta d c1 c2 >>= fun δ => δ.nc d).toOption.getD default, by decide +kernel, by decide +kernel, by decide +kernel⟩

/-- C70 is false for diff='replace': the delta deletes nodes of the old case that the server has already removed, and the
server refuses it with data-missing. -/
theorem C70_false_for_replace : ∃ x, (newDelta d c1 c2 { diffType := .replace, replaceDepth := 1 } >>= fun δ => δ.nc d) = .ok x ∧
    serveCases pl noRivals x.kids c1.kids = none :=
  ⟨(newDelta d c1 c2 { diffType := .replace, replaceDepth := 1 } >>= fun δ => δ.nc d).toOption.getD default,
    by decide +kernel, by decide +kernel⟩

/-- The choice `inner` is in the case `a` of the choice `outer`. -/
def nstmts : List Stmt :=
  [ st "container" "top"
      [ st "choice" "outer" [st "case" "a" [st "choice" "inner" [st "case" "p" [st "leaf" "x" (type := str)],
              st "case" "q" [st "leaf" "z" (type := str)]]],
          st "case" "b" [st "leaf" "y" (type := str)]] ] ]

/-- C70 is false for a choice in a case: the delta deletes the node of the inner choice, and the server has already removed
it with its case of the outer choice. -/
theorem C70_false_for_nested_choice : ∃ x,
    (newDelta (hostOf nstmts).device (noConfig.setKids [el "top" [lf "x" "1"]]) (noConfig.setKids [el "top" [lf "y" "2"]]) >>=
      fun δ => δ.nc (hostOf nstmts).device) = .ok x ∧
    serveCases (topPlaces [⟨"demo", "d", modNs, nstmts⟩]) noRivals x.kids [el "top" [lf "x" "1"]] = none :=
  ⟨(newDelta (hostOf nstmts).device (noConfig.setKids [el "top" [lf "x" "1"]]) (noConfig.setKids [el "top" [lf "y" "2"]]) >>=
      fun δ => δ.nc (hostOf nstmts).device).toOption.getD default, by decide +kernel, by decide +kernel⟩

end CasesDemo
end NcDiff
