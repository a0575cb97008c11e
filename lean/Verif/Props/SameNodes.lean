import Verif.Proof.ServeShuffle
import Verif.Props.Cases
/-!
# C71: the siblings of an edit-config may be processed in any order
-/

namespace NcDiff
namespace Compile

/-- No list and no leaf-list of the modules is ordered by the user. -/
def NoUserOrder (mods : List Module) : Prop := ∀ m ∈ mods, ∀ s ∈ m.kids, Everywhere FreeOrder s

theorem free_top {mods : List Module} (h : NoUserOrder mods) : ∀ p ∈ topPlaces mods, Everywhere FreeOrder p.2 := by
  intro p hpm
  obtain ⟨m, hm, h'⟩ := List.mem_flatMap.1 hpm
  obtain ⟨s, hs, rfl⟩ := List.mem_map.1 h'
  exact h m hm s hs

theorem ground_root {h : Host} {mods : List Module} {rd : Bool} (hl : Loads h mods) (hp : ProperModules rd mods)
    (hc : ChoiceModules rd mods) (hu : NoUserOrder mods) : Ground h.device rd .root (topPlaces mods) noRivals :=
  ⟨floor_root hl hp hc.regular hc.plain hc.top, free_top hu⟩

theorem choices_of_clear {mods : List Module} {rd : Bool} (hc : ∀ m ∈ mods, ∀ s ∈ m.kids, Everywhere (Clear rd) s) :
    ChoiceModules rd mods :=
  ⟨regular_of_clear hc, fun m hm s hs => plainChoice_of_flat (everywhere_imp (fun _ h => h.noChoice) (hc m hm s hs)),
    fun m hm s hs => (hc m hm s hs).here'.noChoice⟩

/-- C71: the siblings of the edit-config of C70 may come in any order, at any depth.  The server accepts it, and then holds
the second config. -/
theorem C71_any_order (h : Host) (mods : List Module) (rd : Bool) (hl : Loads h mods) (hp : ProperModules rd mods)
    (hc : ChoiceModules rd mods) (hu : NoUserOrder mods) (x1 x2 : Elem) (l1 l2 : List Elem) (hx1 : Document h mods x1 l1)
    (hx2 : Document h mods x2 l2) (hr1 : ∀ k ∈ l1, ReadByLxml k) (hr2 : ∀ k ∈ l2, ReadByLxml k) (o1 : OneCaseEach mods l1)
    (o2 : OneCaseEach mods l2) (v1 v2 : Bool) (c1 c2 : Elem) (h1 : newConfig h.device x1 v1 rd = .ok c1)
    (h2 : newConfig h.device x2 v2 rd = .ok c2) (opts : Opts) (hr : opts.diffType ≠ .replace) (hs : TopSafe opts mods)
    (hw : Spellable mods l1 l2) :
    ∃ δ x, newDelta h.device c1 c2 opts = .ok δ ∧ δ.nc h.device = .ok x ∧
      (∀ D, SameNodes x.kids D → ∀ m, Holds (topPlaces mods) c1.kids m →
        ∃ r, serveCases (topPlaces mods) noRivals D m = some r ∧ Holds (topPlaces mods) c2.kids r) ∧
      ∀ depth rnd, (∀ n, (rnd n).Perm (List.range n)) →
        ∃ δ' y, newDelta h.device c1 c2 opts (some (depth, rnd)) = .ok δ' ∧ δ'.nc h.device = .ok y ∧ SameNodes x.kids y.kids := by
  obtain ⟨a, ha, ⟨t1, q1, q1'⟩, ha1, ha2, _, _⟩ := C65_accepted h mods rd hl hp x1 l1 hx1 v1
  obtain ⟨b, hb, ⟨t2, q2, q2'⟩, hb1, hb2, _, _⟩ := C65_accepted h mods rd hl hp x2 l2 hx2 v2
  obtain rfl : a = c1 := Except.ok.inj (ha.symm.trans h1)
  obtain rfl : b = c2 := Except.ok.inj (hb.symm.trans h2)
  obtain ⟨s1, _⟩ := document_means hl hp hc.regular hx1 hr1 h1
  obtain ⟨s2, _⟩ := document_means hl hp hc.regular hx2 hr2 h2
  obtain ⟨us, w1, w2⟩ := hw
  have hG := ground_root hl hp hc hu
  obtain ⟨δ, x, hS, hall⟩ := sent_cases hl hp hG.floor ha1 hb1 ha2 hb2 s1.fits s2.fits
    (single_pruned q1' (single_pruned q1 o1)) (w1.declares_pruned q1 q1') (w2.within_pruned q2 q2') (single_pruned q2' (single_pruned q2 o2)) hr hs
  refine ⟨δ, x, hS.delta, hS.nc, fun D hD m hm => ?_, fun depth rnd hrnd => hS.random hrnd depth⟩
  obtain ⟨r, r1, r2⟩ := hall m hm
  exact any_order_strip hS.ready hG hD hm r1 r2

/-- C71, without choices: the same for the edit-config of C68, that is for every type of delta. -/
theorem C71_any_order_plain (h : Host) (mods : List Module) (rd : Bool) (hl : Loads h mods) (hp : ProperModules rd mods)
    (hc : ∀ m ∈ mods, ∀ s ∈ m.kids, Everywhere (Clear rd) s) (hu : NoUserOrder mods) (x1 x2 : Elem) (l1 l2 : List Elem)
    (hx1 : Document h mods x1 l1) (hx2 : Document h mods x2 l2) (hr1 : ∀ k ∈ l1, ReadByLxml k)
    (hr2 : ∀ k ∈ l2, ReadByLxml k) (v1 v2 : Bool) (c1 c2 : Elem) (h1 : newConfig h.device x1 v1 rd = .ok c1)
    (h2 : newConfig h.device x2 v2 rd = .ok c2) (opts : Opts) (hs : TopSafe opts mods) (hw : Spellable mods l1 l2) :
    ∃ δ x, newDelta h.device c1 c2 opts = .ok δ ∧ δ.nc h.device = .ok x ∧
      (∀ D, SameNodes x.kids D → ∀ m, Holds (topPlaces mods) c1.kids m →
        ∃ r, serve (topPlaces mods) D m = some r ∧ Holds (topPlaces mods) c2.kids r ∧ SameMeaning (topPlaces mods) l2 r) ∧
      ∀ depth rnd, (∀ n, (rnd n).Perm (List.range n)) →
        ∃ δ' y, newDelta h.device c1 c2 opts (some (depth, rnd)) = .ok δ' ∧ δ'.nc h.device = .ok y ∧ SameNodes x.kids y.kids := by
  obtain ⟨a, ha, ⟨t1, q1, q1'⟩, ha1, ha2, _, _⟩ := C65_accepted h mods rd hl hp x1 l1 hx1 v1
  obtain ⟨b, hb, ⟨t2, q2, q2'⟩, hb1, hb2, hb3, hb4⟩ := C65_accepted h mods rd hl hp x2 l2 hx2 v2
  obtain rfl : a = c1 := Except.ok.inj (ha.symm.trans h1)
  obtain rfl : b = c2 := Except.ok.inj (hb.symm.trans h2)
  obtain ⟨s1, _, _, _, _⟩ := document_means hl hp (regular_of_clear hc) hx1 hr1 h1
  obtain ⟨s2, _, _, _, m2⟩ := document_means hl hp (regular_of_clear hc) hx2 hr2 h2
  obtain ⟨us, w1, w2⟩ := hw
  have hG := ground_root hl hp (choices_of_clear hc) hu
  have hsame := C70_without_choices mods fun m hm s hs => everywhere_imp (fun _ h => h.noChoice) (hc m hm s hs)
  obtain ⟨δ, x, hS, hall⟩ := sent_plain hl hp hc
    ⟨ha1, hb1, ha2, hb2, clear_matched a (clear_root hl hc) hG.floor.field s2.fits
      (w1.declares_pruned q1 q1') (w2.within_pruned q2 q2'), hb3, hb4⟩ s1.fits s2.fits hs
  refine ⟨δ, x, hS.delta, hS.nc, fun D hD m hm => ?_, fun depth rnd hrnd => hS.random hrnd depth⟩
  obtain ⟨r, r1, r2⟩ := hall m hm
  rw [← hsame] at r1
  obtain ⟨r', r1', r2'⟩ := any_order_strip hS.ready hG hD hm r1 r2
  rw [hsame] at r1'
  exact ⟨r', r1', r2', m2.trans r2'.meaning⟩

/-- C71, random_depth: the server accepts the edit-config of a delta with `random_depth`, whatever the order that the seed
leads to, and then holds the second config. -/
theorem C71_random (h : Host) (mods : List Module) (rd : Bool) (hl : Loads h mods) (hp : ProperModules rd mods)
    (hc : ChoiceModules rd mods) (hu : NoUserOrder mods) (x1 x2 : Elem) (l1 l2 : List Elem) (hx1 : Document h mods x1 l1)
    (hx2 : Document h mods x2 l2) (hr1 : ∀ k ∈ l1, ReadByLxml k) (hr2 : ∀ k ∈ l2, ReadByLxml k) (o1 : OneCaseEach mods l1)
    (o2 : OneCaseEach mods l2) (v1 v2 : Bool) (c1 c2 : Elem) (h1 : newConfig h.device x1 v1 rd = .ok c1)
    (h2 : newConfig h.device x2 v2 rd = .ok c2) (opts : Opts) (hr : opts.diffType ≠ .replace) (hs : TopSafe opts mods)
    (hw : Spellable mods l1 l2)
    (depth : Nat) (rnd : Nat → List Nat) (hrnd : ∀ n, (rnd n).Perm (List.range n)) :
    ∃ δ y, newDelta h.device c1 c2 opts (some (depth, rnd)) = .ok δ ∧ δ.nc h.device = .ok y ∧
      ∀ m, Holds (topPlaces mods) c1.kids m →
        ∃ r, serveCases (topPlaces mods) noRivals y.kids m = some r ∧ Holds (topPlaces mods) c2.kids r := by
  obtain ⟨_, x, _, _, e3, e4⟩ := C71_any_order h mods rd hl hp hc hu x1 x2 l1 l2 hx1 hx2 hr1 hr2 o1 o2 v1 v2 c1 c2 h1 h2 opts hr hs hw
  obtain ⟨δ', y, e5, e6, e7⟩ := e4 depth rnd hrnd
  exact ⟨δ', y, e5, e6, e3 y.kids e7⟩

def freeB (s : Stmt) : Bool := decide (¬ s.info.Says "ordered-by" "user")

theorem noUserOrder_of {mods : List Module} (h : (mods.all fun m => everyListB freeB m.kids) = true) : NoUserOrder mods :=
  fun m hm s hs => (everyListB_sound (P := freeB) m.kids (List.all_eq_true.1 h m hm) s hs).imp fun _ h => of_decide_eq_true h

end Compile

namespace OrderDemo

open Compile Demo YangDemo MeaningDemo

/-- A list whose entries have a choice, a leaf-list, and a choice in a container. -/
def ostmts : List Stmt :=
  [ st "container" "top"
      [ st "list" "item" [st "leaf" "id" (type := str) (isKey := true),
            st "choice" "how" [st "case" "static" [st "leaf" "addr" (type := str), st "leaf" "mask" (type := str)],
              st "case" "auto" [st "container" "dhcp" [st "leaf" "client" (type := str)] [("presence", "on")]]]]
          [("key", "id")],
        st "leaf-list" "tags" (type := str),
        st "choice" "mode" [st "case" "a" [st "leaf-list" "x" (type := str), st "container" "np" [st "leaf" "w" (type := str)]],
          st "case" "b" [st "leaf" "y" (type := str)]] ] ]

def omods : List Module := [⟨"demo", "d", modNs, ostmts⟩]
def d : Device := (hostOf ostmts).device
def pl : List Place := topPlaces omods

def l1 : List Elem := [el "top" [it "1" [lf "addr" "5", lf "mask" "8"], it "2" [], lf "tags" "a", lf "x" "p", el "np" [lf "w" "1"]]]
def l2 : List Elem := [el "top" [it "3" [], it "1" [el "dhcp" [lf "client" "7"]], lf "tags" "b", lf "y" "r"]]
def c1 : Elem := noConfig.setKids l1
def c2 : Elem := noConfig.setKids l2

theorem loads : Loads (hostOf ostmts) omods := .cons ⟨rfl, by decide +kernel⟩ .nil
theorem proper : ProperModules true omods := properModulesB_sound (by decide +kernel)
theorem choices : ChoiceModules true omods := by
  refine ⟨?_, ?_, ?_⟩ <;> (intro m hm s hs; obtain rfl := List.mem_singleton.1 hm)
  · exact (everyListB_sound (P := regularB true) ostmts (by decide +kernel) s hs).imp fun _ => regularB_sound
  · exact (everyListB_sound (P := plainChoiceB) ostmts (by decide +kernel) s hs).imp fun _ => plainChoiceB_sound
  · revert s; decide +kernel
theorem free : NoUserOrder omods := noUserOrder_of (by decide +kernel)
theorem doc1 : Document (hostOf ostmts) omods (reply l1) l1 := ⟨.reply (e := reply l1) rfl, instB_sound _ (by decide +kernel)⟩
theorem doc2 : Document (hostOf ostmts) omods (reply l2) l2 := ⟨.reply (e := reply l2) rfl, instB_sound _ (by decide +kernel)⟩
theorem conf1 : newConfig d (reply l1) true true = .ok c1 := by decide +kernel
theorem conf2 : newConfig d (reply l2) true true = .ok c2 := by decide +kernel
theorem one1 : OneCaseEach omods l1 := singleB_sound _ (by decide +kernel)
theorem one2 : OneCaseEach omods l2 := singleB_sound _ (by decide +kernel)

/-- The hypotheses of C71 are met. -/
example : ∀ opts ∈ [{}, { create := .create, replace := .replace, delete := .remove }, { diffType := .minimumReplace, replaceDepth := 1 }],
    ∃ δ y, newDelta d c1 c2 opts (some (1, fun n => (List.range n).reverse)) = .ok δ ∧ δ.nc d = .ok y ∧
      ∀ m, Holds pl c1.kids m → ∃ r, serveCases pl noRivals y.kids m = some r ∧ Holds pl c2.kids r :=
  fun opts ho => C71_random (hostOf ostmts) omods true loads proper choices free _ _ _ _ doc1 doc2
    (lxmlKidsB_sound _ (by decide +kernel)) (lxmlKidsB_sound _ (by decide +kernel)) one1 one2 true true c1 c2 conf1 conf2 opts
    (by revert opts; decide) (Or.inr (Or.inr (by decide +kernel)))
    (spellable_of_plain (plainModules_of (by decide +kernel)) _ _) 1 _ fun _ => List.reverse_perm _

/-- The order is another one, and what the server has in the end has another order. -/
example : ∃ x y r r', (newDelta d c1 c2 >>= fun δ => δ.nc d) = .ok x ∧
    (newDelta d c1 c2 {} (some (1, fun n => (List.range n).reverse)) >>= fun δ => δ.nc d) = .ok y ∧ x ≠ y ∧
    serveCases pl noRivals x.kids c1.kids = some r ∧ serveCases pl noRivals y.kids c1.kids = some r' ∧ r ≠ r' :=
  ⟨(newDelta d c1 c2 >>= fun δ => δ.nc d).toOption.getD default,
    (newDelta d c1 c2 {} (some (1, fun n => (List.range n).reverse)) >>= fun δ => δ.nc d).toOption.getD default,
    (serveCases pl noRivals ((newDelta d c1 c2 >>= fun δ => δ.nc d).toOption.getD default).kids c1.kids).getD [],
    (serveCases pl noRivals ((newDelta d c1 c2 {} (some (1, fun n => (List.range n).reverse)) >>= fun δ => δ.nc d).toOption.getD default).kids
      c1.kids).getD [],
    by decide +kernel, by decide +kernel, by decide +kernel, by decide +kernel, by decide +kernel, by decide +kernel⟩

/-! ## Without choices -/

/-- A list and a leaf-list. -/
def pstmts : List Stmt :=
  [ st "container" "top"
      [ st "list" "item" [st "leaf" "id" (type := str) (isKey := true), st "leaf" "val" (type := str)] [("key", "id")],
        st "leaf-list" "tags" (type := str) ] ]

def pmods : List Module := [⟨"demo", "d", modNs, pstmts⟩]

def k1 : List Elem := [el "top" [it "1" [lf "val" "5"], it "2" [], lf "tags" "a"]]
def k2 : List Elem := [el "top" [it "3" [], it "1" [lf "val" "6"], lf "tags" "b"]]

theorem pclear : ∀ m ∈ pmods, ∀ s ∈ m.kids, Everywhere (Clear true) s := by
  intro m hm s hs
  obtain rfl := List.mem_singleton.1 hm
  exact (everyListB_sound (P := clearB true) pstmts (by decide +kernel) s hs).imp fun _ => clearB_sound

/-- The hypotheses of C71 are met, also with diff='replace'. -/
example : ∃ δ x, newDelta (hostOf pstmts).device (noConfig.setKids k1) (noConfig.setKids k2) { diffType := .replace, replaceDepth := 1 } = .ok δ ∧
    δ.nc (hostOf pstmts).device = .ok x ∧
    (∀ D, SameNodes x.kids D → ∀ m, Holds (topPlaces pmods) k1 m →
      ∃ r, serve (topPlaces pmods) D m = some r ∧ Holds (topPlaces pmods) k2 r ∧ SameMeaning (topPlaces pmods) k2 r) ∧
    ∀ depth rnd, (∀ n, (rnd n).Perm (List.range n)) →
      ∃ δ' y, newDelta (hostOf pstmts).device (noConfig.setKids k1) (noConfig.setKids k2) { diffType := .replace, replaceDepth := 1 }
        (some (depth, rnd)) = .ok δ' ∧ δ'.nc (hostOf pstmts).device = .ok y ∧ SameNodes x.kids y.kids :=
  C71_any_order_plain (hostOf pstmts) pmods true (.cons ⟨rfl, by decide +kernel⟩ .nil) (properModulesB_sound (by decide +kernel)) pclear
    (noUserOrder_of (by decide +kernel)) (reply k1) (reply k2) k1 k2 ⟨.reply (e := reply k1) rfl, instB_sound _ (by decide +kernel)⟩
    ⟨.reply (e := reply k2) rfl, instB_sound _ (by decide +kernel)⟩ (lxmlKidsB_sound _ (by decide +kernel))
    (lxmlKidsB_sound _ (by decide +kernel)) true true _ _ (by decide +kernel) (by decide +kernel) _ (Or.inr (Or.inr (by decide +kernel)))
    (spellable_of_plain (plainModules_of (by decide +kernel)) _ _)

/-! ## With order by the user -/

/-- C71 is false for lists that are ordered by the user: with `random_depth` an entry is to be inserted after one that is not
there yet, and the server refuses the edit-config. -/
theorem C71_false_for_user_order : ∃ rnd : Nat → List Nat, (∀ n, (rnd n).Perm (List.range n)) ∧ ∃ x y r,
    (newDelta CasesDemo.d (noConfig.setKids [el "top" [it "1" []]]) (noConfig.setKids [el "top" [it "1" [], it "2" [], it "3" []]]) >>=
      fun δ => δ.nc CasesDemo.d) = .ok x ∧
    (newDelta CasesDemo.d (noConfig.setKids [el "top" [it "1" []]]) (noConfig.setKids [el "top" [it "1" [], it "2" [], it "3" []]]) {}
      (some (1, rnd)) >>= fun δ => δ.nc CasesDemo.d) = .ok y ∧
    serveCases CasesDemo.pl noRivals x.kids [el "top" [it "1" []]] = some r ∧ serveCases CasesDemo.pl noRivals y.kids [el "top" [it "1" []]] = none :=
  ⟨fun n => (List.range n).reverse, fun _ => List.reverse_perm _,
    (newDelta CasesDemo.d (noConfig.setKids [el "top" [it "1" []]]) (noConfig.setKids [el "top" [it "1" [], it "2" [], it "3" []]]) >>=
      fun δ => δ.nc CasesDemo.d).toOption.getD default,
    (newDelta CasesDemo.d (noConfig.setKids [el "top" [it "1" []]]) (noConfig.setKids [el "top" [it "1" [], it "2" [], it "3" []]]) {}
      (some (1, fun n => (List.range n).reverse)) >>= fun δ => δ.nc CasesDemo.d).toOption.getD default,
    [el "top" [it "1" [], it "2" [], it "3" []]],
    by decide +kernel, by decide +kernel, by decide +kernel, by decide +kernel⟩

end OrderDemo
end NcDiff
