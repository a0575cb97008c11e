import Verif.Proof.ExplicitCases
import Verif.Props.Cases
import Verif.Props.Explicit
/-!
# C73: what a server reports after an edit-config
-/

namespace NcDiff
namespace Compile

/-- The document is a report of a server that has the data `m`: it means the same, so that default values may be reported
or not, see RFC 6243. -/
def Reports (h : Host) (mods : List Module) (x : Elem) (m : List Elem) : Prop :=
  ∃ l, Document h mods x l ∧ (∀ k ∈ l, ReadByLxml k) ∧ OneCaseEach mods l ∧ SameMeaning (topPlaces mods) l m

/-- The document is one that a config can be made of. -/
def Wanted (h : Host) (mods : List Module) (x : Elem) : Prop :=
  ∃ l, Document h mods x l ∧ (∀ k ∈ l, ReadByLxml k) ∧ OneCaseEach mods l

/-- C73: a report of a server, the config of it, any other config, the delta, the edit-config, and any report after that:
nothing raises, and the config of the last report is equal to the one that was wanted. -/
theorem C73_loop (h : Host) (mods : List Module) (rd : Bool) (hl : Loads h mods) (hp : ProperModules rd mods)
    (hc : ChoiceModules rd mods) (m : List Elem) (hm : Sane (topPlaces mods) m) (x1 x2 : Elem) (hx1 : Reports h mods x1 m)
    (hx2 : Wanted h mods x2) (v : Bool) (opts : Opts) (hr : opts.diffType ≠ .replace) (hs : TopSafe opts mods)
    (ho : opts.create ≠ .create) (hw : ∀ l1 l2, Document h mods x1 l1 → Document h mods x2 l2 → Spellable mods l1 l2) :
    ∃ c1 c2 δ x r, newConfig h.device x1 v rd = .ok c1 ∧ newConfig h.device x2 v rd = .ok c2 ∧
      newDelta h.device c1 c2 opts = .ok δ ∧ δ.nc h.device = .ok x ∧ serveCases (topPlaces mods) noRivals x.kids m = some r ∧
      Sane (topPlaces mods) r ∧
      ∀ x3, Reports h mods x3 r → ∃ c3, newConfig h.device x3 v rd = .ok c3 ∧ cfgEq h.device c3 c2 = .ok true := by
  obtain ⟨l1, d1, r1, o1, e1⟩ := hx1
  obtain ⟨l2, d2, r2, o2⟩ := hx2
  obtain ⟨c1, h1, _⟩ := C65_accepted h mods rd hl hp x1 l1 d1 v
  obtain ⟨c2, h2, _⟩ := C65_accepted h mods rd hl hp x2 l2 d2 v
  obtain ⟨δ, x, f1, f2, f3⟩ := C70_server h mods rd hl hp hc x1 x2 l1 l2 d1 d2 r1 r2 o1 o2 v v c1 c2 h1 h2 opts hr hs
    (hw l1 l2 d1 d2)
  have hF := field_root hl hp hc.regular
  obtain ⟨s1, t1, _, _, m1⟩ := document_means hl hp hc.regular d1 r1 h1
  obtain ⟨s2, t2, _, _, m2⟩ := document_means hl hp hc.regular d2 r2 h2
  obtain ⟨m0, hm0, hme⟩ := holds_shed hF s1 t1 hm (m1.symm.trans e1)
  obtain ⟨r0, g1, g2⟩ := f3 m0 hm0
  obtain ⟨r, hr1, hre⟩ := serveCases_explicit x.kids hF (notCreate_nc (.inl ho) f1 s2.bare f2).sub' hme g1
  have sr := (hre.sane hF).1 (g2.sane (config_sane c2 hF s2 t2).1)
  refine ⟨c1, c2, δ, x, r, h1, h2, f1, f2, hr1, sr, fun x3 hx3 => ?_⟩
  obtain ⟨l3, d3, r3, _, e3⟩ := hx3
  obtain ⟨c3, h3, _⟩ := C65_accepted h mods rd hl hp x3 l3 d3 v
  exact ⟨c3, h3, equal_regular hl hp hc.regular d3 d2 r3 r2 h3 h2
    (e3.trans (m2.trans (g2.meaning.trans (hre.meaning hF sr))).symm)⟩

/-- C73 for modules without choices, and then also for diff='replace'. -/
theorem C73_loop_plain (h : Host) (mods : List Module) (rd : Bool) (hl : Loads h mods) (hp : ProperModules rd mods)
    (hc : ∀ m ∈ mods, ∀ s ∈ m.kids, Everywhere (Clear rd) s) (m : List Elem) (hm : Sane (topPlaces mods) m) (x1 x2 : Elem)
    (hx1 : Reports h mods x1 m) (hx2 : Wanted h mods x2) (v : Bool) (opts : Opts) (hs : TopSafe opts mods)
    (ho : opts.create ≠ .create ∨ opts.diffType = .replace)
    (hw : ∀ l1 l2, Document h mods x1 l1 → Document h mods x2 l2 → Spellable mods l1 l2) :
    ∃ c1 c2 δ x r, newConfig h.device x1 v rd = .ok c1 ∧ newConfig h.device x2 v rd = .ok c2 ∧
      newDelta h.device c1 c2 opts = .ok δ ∧ δ.nc h.device = .ok x ∧ serve (topPlaces mods) x.kids m = some r ∧
      Sane (topPlaces mods) r ∧
      ∀ x3, Reports h mods x3 r → ∃ c3, newConfig h.device x3 v rd = .ok c3 ∧ cfgEq h.device c3 c2 = .ok true := by
  obtain ⟨l1, d1, r1, _, e1⟩ := hx1
  obtain ⟨l2, d2, r2, _⟩ := hx2
  obtain ⟨c1, h1, _⟩ := C65_accepted h mods rd hl hp x1 l1 d1 v
  obtain ⟨c2, h2, _⟩ := C65_accepted h mods rd hl hp x2 l2 d2 v
  obtain ⟨δ, x, f1, f2, f3⟩ := C72_server h mods rd hl hp hc x1 x2 l1 l2 d1 d2 r1 r2 v v c1 c2 h1 h2 opts hs ho
    (hw l1 l2 d1 d2)
  obtain ⟨r, g1, g2, g3⟩ := f3 m hm e1
  refine ⟨c1, c2, δ, x, r, h1, h2, f1, f2, g1, g2, fun x3 hx3 => ?_⟩
  obtain ⟨l3, d3, r3, _, e3⟩ := hx3
  obtain ⟨c3, h3, _⟩ := C65_accepted h mods rd hl hp x3 l3 d3 v
  exact ⟨c3, h3, (C67_equal h mods rd hl hp hc x3 x2 l3 l2 d3 d2 r3 r2 v v c3 c2 h3 h2).2 (e3.trans g3.symm)⟩

/-- A session with a server that has the data `m` and ends with the data `r`: again and again, the server reports, and an
edit-config takes it from the config of the report to that of another document. -/
inductive Session (h : Host) (mods : List Module) (rd v : Bool) : List Elem → List (Elem × Opts) → List Elem → Prop
  | nil (m : List Elem) : Session h mods rd v m [] m
  | cons {m m' r : List Elem} {x1 x2 c1 c2 x : Elem} {δ : Delta} {o : Opts} {rest : List (Elem × Opts)}
      (report : Reports h mods x1 m) (spell : ∀ l1 l2, Document h mods x1 l1 → Document h mods x2 l2 → Spellable mods l1 l2) (source : newConfig h.device x1 v rd = .ok c1) (target : newConfig h.device x2 v rd = .ok c2)
      (delta : newDelta h.device c1 c2 o = .ok δ) (nc : δ.nc h.device = .ok x)
      (edit : serveCases (topPlaces mods) noRivals x.kids m = some m') (rest' : Session h mods rd v m' rest r) :
      Session h mods rd v m ((x2, o) :: rest) r

/-- C73, history: after a session of any length, the config of any report is equal to that of the last document.  By
`C73_loop`, a session goes on as long as the server reports. -/
theorem C73_session (h : Host) (mods : List Module) (rd v : Bool) (hl : Loads h mods) (hp : ProperModules rd mods)
    (hc : ChoiceModules rd mods) (m r : List Elem) (steps : List (Elem × Opts)) (hS : Session h mods rd v m steps r) :
    Sane (topPlaces mods) m → (∀ s ∈ steps, Wanted h mods s.1 ∧ s.2.diffType ≠ .replace ∧ TopSafe s.2 mods ∧ s.2.create ≠ .create) →
    Sane (topPlaces mods) r ∧ ∀ last, steps.getLast? = some last → ∀ x3, Reports h mods x3 r →
      ∃ c2 c3, newConfig h.device last.1 v rd = .ok c2 ∧ newConfig h.device x3 v rd = .ok c3 ∧ cfgEq h.device c3 c2 = .ok true := by
  induction hS with
  | nil m => exact fun hm _ => ⟨hm, fun _ h => by cases h⟩
  | @cons m m' r x1 x2 c1 c2 x δ o rest report spell source target delta nc edit _ ih =>
    intro hm hall
    obtain ⟨w1, w2, w3, w4⟩ := hall (x2, o) (by simp)
    obtain ⟨a1, a2, a3, a4, a5, b1, b2, b3, b4, b5, b6, b7⟩ := C73_loop h mods rd hl hp hc m hm x1 x2 report w1 v o w2 w3 w4 spell
    obtain rfl := Except.ok.inj (source.symm.trans b1)
    obtain rfl := Except.ok.inj (target.symm.trans b2)
    obtain rfl := Except.ok.inj (delta.symm.trans b3)
    obtain rfl := Except.ok.inj (nc.symm.trans b4)
    obtain rfl := Option.some.inj (edit.symm.trans b5)
    obtain ⟨i1, i2⟩ := ih b6 fun s hs => hall s (by simp [hs])
    refine ⟨i1, fun last hlast x3 hx3 => ?_⟩
    cases rest with
    | nil =>
      rw [List.getLast?_singleton] at hlast
      cases hlast
      rename_i hs
      cases hs
      obtain ⟨c3, k1, k2⟩ := b7 x3 hx3
      exact ⟨_, c3, b2, k1, k2⟩
    | cons y ys =>
      rw [List.getLast?_cons_cons] at hlast
      exact i2 last hlast x3 hx3

end Compile

namespace ReportedDemo

open Compile Demo YangDemo MeaningDemo ServerDemo.Given

/-- A choice, and defaults next to it and below it. -/
def rstmts : List Stmt :=
  [ st "container" "top"
      [ st "leaf" "mtu" [] [("default", "1500")] (type := str),
        st "choice" "how" [st "case" "static" [st "leaf" "addr" (type := str)],
          st "case" "auto" [st "container" "dhcp" [st "leaf" "lease" [] [("default", "60")] (type := str)] [("presence", "on")]]] ] ]

def rmods : List Module := [⟨"demo", "d", modNs, rstmts⟩]
def d : Device := (hostOf rstmts).device
def pl : List Place := topPlaces rmods

/-- What the server has: two explicit defaults. -/
def m1 : List Elem := [el "top" [lf "mtu" "1500", el "dhcp" [lf "lease" "60"]]]
/-- What it reports, without one of them. -/
def l1 : List Elem := [el "top" [el "dhcp" [lf "lease" "60"]]]
/-- What is wanted. -/
def l2 : List Elem := [el "top" [lf "mtu" "9000", lf "addr" "1"]]

theorem loads : Loads (hostOf rstmts) rmods := .cons ⟨rfl, by decide +kernel⟩ .nil
theorem proper : ProperModules true rmods := properModulesB_sound (by decide +kernel)
theorem choices : ChoiceModules true rmods := by
  refine ⟨?_, ?_, ?_⟩ <;> (intro m hm s hs; obtain rfl := List.mem_singleton.1 hm)
  · exact (everyListB_sound (P := regularB true) rstmts (by decide +kernel) s hs).imp fun _ => regularB_sound
  · exact (everyListB_sound (P := plainChoiceB) rstmts (by decide +kernel) s hs).imp fun _ => plainChoiceB_sound
  · revert s; decide +kernel

theorem spell {x1 x2 : Elem} (l1 l2 : List Elem) (_ : Document (hostOf rstmts) rmods x1 l1) (_ : Document (hostOf rstmts) rmods x2 l2) :
    Spellable rmods l1 l2 := spellable_of_plain (plainModules_of (by decide +kernel)) l1 l2

theorem docM : Document (hostOf rstmts) rmods (reply m1) m1 := ⟨.reply (e := reply m1) rfl, instB_sound _ (by decide +kernel)⟩
theorem doc1 : Document (hostOf rstmts) rmods (reply l1) l1 := ⟨.reply (e := reply l1) rfl, instB_sound _ (by decide +kernel)⟩
theorem doc2 : Document (hostOf rstmts) rmods (reply l2) l2 := ⟨.reply (e := reply l2) rfl, instB_sound _ (by decide +kernel)⟩

/-- Documents with the same config mean the same. -/
theorem same {a b : List Elem} {c : Elem} (ha : Document (hostOf rstmts) rmods (reply a) a) (hb : Document (hostOf rstmts) rmods (reply b) b)
    (ra : ∀ k ∈ a, ReadByLxml k) (rb : ∀ k ∈ b, ReadByLxml k) (h1 : newConfig d (reply a) true true = .ok c)
    (h2 : newConfig d (reply b) true true = .ok c) : SameMeaning pl a b :=
  (document_means loads proper choices.regular ha ra h1).2.2.2.2.trans
    (document_means loads proper choices.regular hb rb h2).2.2.2.2.symm

theorem reports1 : Reports (hostOf rstmts) rmods (reply l1) m1 :=
  ⟨l1, doc1, lxmlKidsB_sound _ (by decide +kernel), singleB_sound _ (by decide +kernel),
    same (c := noConfig.setKids [el "top" [el "dhcp" []]]) doc1 docM (lxmlKidsB_sound _ (by decide +kernel))
      (lxmlKidsB_sound _ (by decide +kernel)) (by decide +kernel) (by decide +kernel)⟩

theorem wanted2 : Wanted (hostOf rstmts) rmods (reply l2) :=
  ⟨l2, doc2, lxmlKidsB_sound _ (by decide +kernel), singleB_sound _ (by decide +kernel)⟩

/-- The hypotheses of C73 are met. -/
example : ∃ c1 c2 δ x r, newConfig d (reply l1) true true = .ok c1 ∧ newConfig d (reply l2) true true = .ok c2 ∧
    newDelta d c1 c2 = .ok δ ∧ δ.nc d = .ok x ∧ serveCases pl noRivals x.kids m1 = some r ∧ Sane pl r ∧
    ∀ x3, Reports (hostOf rstmts) rmods x3 r → ∃ c3, newConfig d x3 true true = .ok c3 ∧ cfgEq d c3 c2 = .ok true :=
  C73_loop (hostOf rstmts) rmods true loads proper choices m1 (saneB_sound _ _ (by decide +kernel)) _ _ reports1 wanted2 true {}
    (by decide) (.inl rfl) (by decide) spell

/-- What the server has then, and that it can report it: the explicit default is overwritten, and the other case is removed
with its explicit default. -/
theorem after : ∃ x r, (newDelta d (noConfig.setKids [el "top" [el "dhcp" []]]) (noConfig.setKids l2) >>= fun δ => δ.nc d) = .ok x ∧
    serveCases pl noRivals x.kids m1 = some r ∧ Reports (hostOf rstmts) rmods (reply r) r := by
  refine ⟨(newDelta d (noConfig.setKids [el "top" [el "dhcp" []]]) (noConfig.setKids l2) >>= fun δ => δ.nc d).toOption.getD default,
    l2, by decide +kernel, by decide +kernel, l2, doc2, lxmlKidsB_sound _ (by decide +kernel), singleB_sound _ (by decide +kernel), ?_⟩
  exact same (c := noConfig.setKids l2) doc2 doc2 (lxmlKidsB_sound _ (by decide +kernel)) (lxmlKidsB_sound _ (by decide +kernel))
    (by decide +kernel) (by decide +kernel)

/-- A session of two steps, and what is known about it. -/
example : ∃ r, Session (hostOf rstmts) rmods true true m1 [(reply l2, {}), (reply l1, { delete := .remove })] r ∧ Sane pl r ∧
    ∀ x3, Reports (hostOf rstmts) rmods x3 r → ∃ c2 c3, newConfig d (reply l1) true true = .ok c2 ∧
      newConfig d x3 true true = .ok c3 ∧ cfgEq d c3 c2 = .ok true := by
  have w1 : Wanted (hostOf rstmts) rmods (reply l1) := ⟨l1, doc1, lxmlKidsB_sound _ (by decide +kernel), singleB_sound _ (by decide +kernel)⟩
  have s2 : Reports (hostOf rstmts) rmods (reply l2) l2 :=
    ⟨l2, doc2, lxmlKidsB_sound _ (by decide +kernel), singleB_sound _ (by decide +kernel),
      same (c := noConfig.setKids l2) doc2 doc2 (lxmlKidsB_sound _ (by decide +kernel)) (lxmlKidsB_sound _ (by decide +kernel))
        (by decide +kernel) (by decide +kernel)⟩
  have hm : Sane (topPlaces rmods) m1 := saneB_sound _ _ (by decide +kernel)
  obtain ⟨c1, c2, δ, x, r, a1, a2, a3, a4, a5, a6, _⟩ := C73_loop (hostOf rstmts) rmods true loads proper choices m1 hm _ _ reports1
    wanted2 true {} (by decide) (.inl rfl) (by decide) spell
  obtain rfl : r = l2 := by
    obtain rfl := Except.ok.inj (a1.symm.trans (show newConfig d (reply l1) true true = .ok (noConfig.setKids [el "top" [el "dhcp" []]]) by decide +kernel))
    obtain rfl := Except.ok.inj (a2.symm.trans (show newConfig d (reply l2) true true = .ok (noConfig.setKids l2) by decide +kernel))
    have hx : (newDelta d (noConfig.setKids [el "top" [el "dhcp" []]]) (noConfig.setKids l2) >>= fun δ => δ.nc d) = .ok x := by
      rw [show newDelta d _ _ = .ok δ from a3]; exact a4
    have e : (newDelta d (noConfig.setKids [el "top" [el "dhcp" []]]) (noConfig.setKids l2) >>= fun δ => δ.nc d) =
        .ok ((newDelta d (noConfig.setKids [el "top" [el "dhcp" []]]) (noConfig.setKids l2) >>= fun δ => δ.nc d).toOption.getD default) := by
      decide +kernel
    obtain rfl := Except.ok.inj (hx.symm.trans e)
    exact Option.some.inj (a5.symm.trans (by decide +kernel))
  obtain ⟨c1', c2', δ', x', r', b1, b2, b3, b4, b5, b6, _⟩ := C73_loop (hostOf rstmts) rmods true loads proper choices _ a6 _ _ s2
    w1 true { delete := .remove } (by decide) (.inl rfl) (by decide) spell
  have hS : Session (hostOf rstmts) rmods true true m1 [(reply l2, {}), (reply l1, { delete := .remove })] r' :=
    .cons reports1 spell a1 a2 a3 a4 a5 (.cons s2 spell b1 b2 b3 b4 b5 (.nil r'))
  obtain ⟨k1, k2⟩ := C73_session (hostOf rstmts) rmods true true loads proper choices m1 r' _ hS hm (by
    intro s hs
    simp only [List.mem_cons, List.not_mem_nil, or_false] at hs
    rcases hs with rfl | rfl
    · exact ⟨wanted2, by decide, .inl rfl, by decide⟩
    · exact ⟨w1, by decide, .inl rfl, by decide⟩)
  exact ⟨r', hS, k1, k2 _ rfl⟩

end ReportedDemo
end NcDiff
