import Verif.Proof.ServerMain
import Verif.Props.Meaning
/-!
# C68: a server that gets the delta ends with the target
-/

namespace NcDiff
namespace Compile

/-- C68: the configs of any two documents of the modules: a server that holds the first and gets the edit-config of the
delta accepts it and then holds the second, whatever the options and the order of the entries. -/
theorem C68_server (h : Host) (mods : List Module) (rd : Bool) (hl : Loads h mods) (hp : ProperModules rd mods)
    (hc : ∀ m ∈ mods, ∀ s ∈ m.kids, Everywhere (Clear rd) s) (x1 x2 : Elem) (l1 l2 : List Elem)
    (hx1 : Document h mods x1 l1) (hx2 : Document h mods x2 l2) (hr1 : ∀ k ∈ l1, ReadByLxml k)
    (hr2 : ∀ k ∈ l2, ReadByLxml k) (v1 v2 : Bool) (c1 c2 : Elem) (h1 : newConfig h.device x1 v1 rd = .ok c1)
    (h2 : newConfig h.device x2 v2 rd = .ok c2) (opts : Opts) (hs : TopSafe opts mods) (hw : Spellable mods l1 l2) :
    ∃ δ x, newDelta h.device c1 c2 opts = .ok δ ∧ δ.nc h.device = .ok x ∧
      ∀ m, Holds (topPlaces mods) c1.kids m →
        ∃ r, serve (topPlaces mods) x.kids m = some r ∧ Holds (topPlaces mods) c2.kids r ∧
          SameMeaning (topPlaces mods) l2 r := by
  obtain ⟨a, ha, ⟨t1, q1, q1'⟩, ha1, ha2, _, _⟩ := C65_accepted h mods rd hl hp x1 l1 hx1 v1
  obtain ⟨b, hb, ⟨t2, q2, q2'⟩, hb1, hb2, hb3, hb4⟩ := C65_accepted h mods rd hl hp x2 l2 hx2 v2
  obtain rfl : a = c1 := Except.ok.inj (ha.symm.trans h1)
  obtain rfl : b = c2 := Except.ok.inj (hb.symm.trans h2)
  obtain ⟨s1, _, _, _, _⟩ := document_means hl hp (regular_of_clear hc) hx1 hr1 h1
  obtain ⟨s2, _, _, _, m2⟩ := document_means hl hp (regular_of_clear hc) hx2 hr2 h2
  obtain ⟨us, w1, w2⟩ := hw
  obtain ⟨δ, x, e1, e2, e3⟩ := delta_serve hl hp hc
    ⟨ha1, hb1, ha2, hb2, clear_matched a (clear_root hl hc) (field_root hl hp (regular_of_clear hc)) s2.fits
      (w1.declares_pruned q1 q1') (w2.within_pruned q2 q2'), hb3, hb4⟩ s1.fits s2.fits hs
  refine ⟨δ, x, e1, e2, fun m hm => ?_⟩
  obtain ⟨r, r1, r2⟩ := e3 m hm
  exact ⟨r, r1, r2, m2.trans r2.meaning⟩

/-- C68: a server with the nodes of a config of a document holds the config. -/
theorem C68_holds (h : Host) (mods : List Module) (rd : Bool) (hl : Loads h mods) (hp : ProperModules rd mods)
    (hc : ∀ m ∈ mods, ∀ s ∈ m.kids, Everywhere (Clear rd) s) (x : Elem) (l : List Elem) (hx : Document h mods x l)
    (hr : ∀ k ∈ l, ReadByLxml k) (v : Bool) (c : Elem) (h1 : newConfig h.device x v rd = .ok c) : Holds (topPlaces mods) c.kids c.kids := by
  obtain ⟨a, ha, _, ha1, _⟩ := C65_accepted h mods rd hl hp x l hx v
  obtain rfl : a = c := Except.ok.inj (ha.symm.trans h1)
  obtain ⟨s, _⟩ := document_means hl hp (regular_of_clear hc) hx hr h1
  exact holds_of_same a (field_root hl hp (regular_of_clear hc)) ha1.valid.valid ha1.valid.valid s.fits s.fits (SameConfig.refl ha1.valid.valid)

/-- What a server has after the edit-configs of the deltas from `c` to the first config, from the first to the second,
and so on; each delta has its own options. -/
def follow (d : Device) (pl : List Place) : List Elem → Elem → List (Opts × Elem) → Option (List Elem)
  | m, _, [] => some m
  | m, c, (o, c') :: rest =>
    match newDelta d c c' o >>= fun δ => δ.nc d with
    | .error _ => none
    | .ok x =>
      match serve pl x.kids m with
      | none => none
      | some m' => follow d pl m' c' rest

/-- The config is that of a document, whose identities are in the namespaces `us`. -/
def OfDocument (h : Host) (mods : List Module) (us : List String) (rd : Bool) (c : Elem) : Prop :=
  ∃ x l v, Document h mods x l ∧ (∀ k ∈ l, ReadByLxml k) ∧ WellSpelled us mods l ∧ newConfig h.device x v rd = .ok c

/-- C68, history: a server that gets one delta after another accepts all of them, and holds the last config. -/
theorem C68_history (h : Host) (mods : List Module) (us : List String) (rd : Bool) (hl : Loads h mods) (hp : ProperModules rd mods)
    (hc : ∀ m ∈ mods, ∀ s ∈ m.kids, Everywhere (Clear rd) s) : ∀ (rest : List (Opts × Elem)) (c : Elem) (m : List Elem),
    OfDocument h mods us rd c → (∀ p ∈ rest, OfDocument h mods us rd p.2 ∧ TopSafe p.1 mods) → Holds (topPlaces mods) c.kids m →
    ∃ r, follow h.device (topPlaces mods) m c rest = some r ∧
      Holds (topPlaces mods) ((rest.getLast?.map Prod.snd).getD c).kids r
  | [], c, m, _, _, hm => ⟨m, rfl, hm⟩
  | (o, c') :: rest, c, m, hd, hall, hm => by
    obtain ⟨hd', hs⟩ := hall (o, c') (by simp)
    have hd2 := hd'
    obtain ⟨x1, l1, v1, a1, a2, a0, a3⟩ := hd
    obtain ⟨x2, l2, v2, b1, b2, b0, b3⟩ := hd'
    obtain ⟨δ, x, e1, e2, e3⟩ := C68_server h mods rd hl hp hc x1 x2 l1 l2 a1 b1 a2 b2 v1 v2 c c' a3 b3 o hs (a0.spellable b0)
    obtain ⟨r, r1, r2, _⟩ := e3 m hm
    obtain ⟨s, s1, s2⟩ := C68_history h mods us rd hl hp hc rest c' r hd2 (fun p hp => hall p (by simp [hp])) r2
    refine ⟨s, ?_, ?_⟩
    · rw [follow, e1]
      simp only [bind, Except.bind, e2, r1]
      exact s1
    · cases rest with
      | nil => exact s2
      | cons y ys =>
        rw [List.getLast?_cons_cons]
        rw [List.getLast?_cons, Option.map_some, Option.getD_some] at s2 ⊢
        exact s2

end Compile

namespace ServerDemo

open Compile Demo YangDemo MeaningDemo

def d : Device := (hostOf mstmts).device
def pl : List Place := topPlaces mmods

def l1 : List Elem := [el "top" [it "1" [lf "val" "5"], it "2" [], it "3" [lf "val" "6"], el "on" [], lf "tags" "c"]]
def l2 : List Elem := [el "top" [it "3" [lf "val" "6"], it "2" [lf "val" "7"], it "4" [], it "1" [], el "np" [lf "w" "y"]]]
def c1 : Elem := noConfig.setKids l1
def c2 : Elem := noConfig.setKids l2

theorem loads : Loads (hostOf mstmts) mmods := .cons ⟨rfl, by decide +kernel⟩ .nil
theorem proper : ProperModules true mmods := properModulesB_sound (by decide +kernel)
theorem doc1 : Document (hostOf mstmts) mmods (reply l1) l1 := ⟨.reply (e := reply l1) rfl, instB_sound _ (by decide +kernel)⟩
theorem doc2 : Document (hostOf mstmts) mmods (reply l2) l2 := ⟨.reply (e := reply l2) rfl, instB_sound _ (by decide +kernel)⟩
theorem conf1 : newConfig d (reply l1) true true = .ok c1 := by decide +kernel
theorem conf2 : newConfig d (reply l2) true true = .ok c2 := by decide +kernel

/-- The hypotheses of C68 are met, with each of the types of deltas. -/
example : ∀ opts ∈ [{}, { create := .create, replace := .replace, delete := .remove }, { diffType := .minimumReplace, replaceDepth := 1 },
    { diffType := .replace, replaceDepth := 1 }], ∃ δ x, newDelta d c1 c2 opts = .ok δ ∧ δ.nc d = .ok x ∧
      ∀ m, Holds pl c1.kids m → ∃ r, serve pl x.kids m = some r ∧ Holds pl c2.kids r ∧ SameMeaning pl l2 r :=
  fun opts _ => C68_server (hostOf mstmts) mmods true loads proper mclear _ _ _ _ doc1 doc2
    (lxmlKidsB_sound _ (by decide +kernel)) (lxmlKidsB_sound _ (by decide +kernel)) true true c1 c2 conf1 conf2 opts
    (Or.inr (Or.inr (by decide +kernel))) (spellable_of_plain mplain _ _)

/-- A server with the nodes of the first config has, in the end, those of the second, in this order; the container `np`
is appended. -/
example : Holds pl c1.kids c1.kids ∧ ∃ x, (newDelta d c1 c2 >>= fun δ => δ.nc d) = .ok x ∧
    serve pl x.kids c1.kids = some l2 :=
  ⟨C68_holds (hostOf mstmts) mmods true loads proper mclear _ _ doc1 (lxmlKidsB_sound _ (by decide +kernel)) true c1 conf1, (newDelta d c1 c2 >>= fun δ => δ.nc d).toOption.getD default,
    by decide +kernel, by decide +kernel⟩

/-- The library itself does not reach the order of the second config from the first with the same delta, see C60. -/
example : ∃ r, (newDelta d c1 c2 >>= fun δ => configAddDelta d c1 δ) = .ok r ∧ cfgEq d r c2 = .ok false :=
  ⟨(newDelta d c1 c2 >>= fun δ => configAddDelta d c1 δ).toOption.getD default, by decide +kernel, by decide +kernel⟩

/-- A server that follows the deltas there and back again. -/
example : ∃ r, follow d pl c1.kids c1 [({}, c2), ({ create := .create }, c1), ({ diffType := .replace }, c2)] = some r ∧
    Holds pl c2.kids r := by
  have h1 : OfDocument (hostOf mstmts) mmods [] true c1 := ⟨_, _, true, doc1, lxmlKidsB_sound _ (by decide +kernel), spelled_of_plain mplain _ _, conf1⟩
  have h2 : OfDocument (hostOf mstmts) mmods [] true c2 := ⟨_, _, true, doc2, lxmlKidsB_sound _ (by decide +kernel), spelled_of_plain mplain _ _, conf2⟩
  refine C68_history (hostOf mstmts) mmods [] true loads proper mclear _ c1 c1.kids h1 ?_
    (C68_holds (hostOf mstmts) mmods true loads proper mclear _ _ doc1 (lxmlKidsB_sound _ (by decide +kernel)) true c1 conf1)
  intro p hp
  have ht : ∀ opts, TopSafe opts mmods := fun opts => Or.inr (Or.inr (by decide +kernel))
  simp only [List.mem_cons, List.not_mem_nil, or_false] at hp
  rcases hp with rfl | rfl | rfl
  · exact ⟨h2, ht _⟩
  · exact ⟨h1, ht _⟩
  · exact ⟨h2, ht _⟩

/-! ## What the server has matters -/

def l3 : List Elem := [el "top" [it "1" []]]
def l4 : List Elem := [el "top" [it "1" [lf "val" "9"]]]

/-- C68 is false for a server that has set a default value explicitly: the config is the same, but the leaf is there, and
so the server refuses to create it.  With `preferred_create='merge'` it is accepted. -/
theorem C68_false_for_explicit_default : ∃ m x x', newConfig d (reply m) true true = .ok (noConfig.setKids l3) ∧
    (newDelta d (noConfig.setKids l3) (noConfig.setKids l4) { create := .create } >>= fun δ => δ.nc d) = .ok x ∧
    serve pl x.kids m = none ∧
    (newDelta d (noConfig.setKids l3) (noConfig.setKids l4) >>= fun δ => δ.nc d) = .ok x' ∧
    serve pl x'.kids m = some l4 :=
  ⟨[el "top" [it "1" [lf "val" "0"]]],
    (newDelta d (noConfig.setKids l3) (noConfig.setKids l4) { create := .create } >>= fun δ => δ.nc d).toOption.getD default,
    (newDelta d (noConfig.setKids l3) (noConfig.setKids l4) >>= fun δ => δ.nc d).toOption.getD default,
    by decide +kernel, by decide +kernel, by decide +kernel, by decide +kernel, by decide +kernel⟩

end ServerDemo
end NcDiff
