import Verif.Proof.MergeServer
import Verif.Props.MergeDeep
/-!
# C84: two clients that start from the same config do not undo the changes of each other
-/

namespace NcDiff
namespace Compile

/-- C84: two clients have read the config `b` from a server.  One of them wants `x`, the other one wants `y`, and wherever both have
changed the same node, it is a container or an entry of a list in which they have changed different things.  The first one sends its
delta, and then the second one sends the delta that it has computed from `b`, which is outdated by now.  The server accepts both, and it
ends with every config that has the changes of both. -/
theorem C84_outdated_delta (h : Host) (mods : List Module) (us : List String) (rd : Bool) (hl : Loads h mods) (hp : ProperModules rd mods)
    (hc : ∀ m ∈ mods, ∀ s ∈ m.kids, Everywhere (Clear rd) s) (hpl : PlainModules mods) (b x y w : Elem)
    (db : OfDocument h mods us rd b) (dx : OfDocument h mods us rd x) (dy : OfDocument h mods us rd y) (dw : OfDocument h mods us rd w)
    (o1 o2 : Opts) (s1 : TopSafe o1 mods) (r2 : o2.replace = .merge) (t2 : o2.diffType ≠ .replace) (n2 : o2.create ≠ .replace)
    (hm : DeepMerge h.device .root b x y w) :
    ∃ δ1 δ2 e1 e2, newDelta h.device b x o1 = .ok δ1 ∧ newDelta h.device b y o2 = .ok δ2 ∧ δ1.nc h.device = .ok e1 ∧
      δ2.nc h.device = .ok e2 ∧ ∀ m, Holds (topPlaces mods) b.kids m →
        ∃ m1 m2, serve (topPlaces mods) e1.kids m = some m1 ∧ Holds (topPlaces mods) x.kids m1 ∧
          serve (topPlaces mods) e2.kids m1 = some m2 ∧ Holds (topPlaces mods) w.kids m2 := by
  have hF := field_root hl hp (regular_of_clear hc)
  obtain ⟨xb, lb, vb, b1, b2, b3, b4⟩ := db
  obtain ⟨xx, lx, vx, x1, x2, x3, x4⟩ := dx
  obtain ⟨xy, ly, vy, y1, y2, y3, y4⟩ := dy
  obtain ⟨xw, lw, vw, w1, w2, w3, w4⟩ := dw
  obtain ⟨δ1, e1, a1, a2, a3⟩ := C68_server h mods rd hl hp hc xb xx lb lx b1 x1 b2 x2 vb vx b x b4 x4 o1 s1 (b3.spellable x3)
  obtain ⟨b', hb', ⟨t1, q1, q1'⟩, pb, tb, _, _⟩ := C65_accepted h mods rd hl hp xb lb b1 vb
  obtain rfl : b' = b := Except.ok.inj (hb'.symm.trans b4)
  obtain ⟨x', hx', _, px, _⟩ := C65_accepted h mods rd hl hp xx lx x1 vx
  obtain rfl : x' = x := Except.ok.inj (hx'.symm.trans x4)
  obtain ⟨y', hy', ⟨t2', q2, q2'⟩, py, ty, yt, yd⟩ := C65_accepted h mods rd hl hp xy ly y1 vy
  obtain rfl : y' = y := Except.ok.inj (hy'.symm.trans y4)
  obtain ⟨w', hw', _, pw, _⟩ := C65_accepted h mods rd hl hp xw lw w1 vw
  obtain rfl : w' = w := Except.ok.inj (hw'.symm.trans w4)
  obtain ⟨sx, _⟩ := document_means hl hp (regular_of_clear hc) x1 x2 x4
  obtain ⟨sy, _⟩ := document_means hl hp (regular_of_clear hc) y1 y2 y4
  obtain ⟨sw, _⟩ := document_means hl hp (regular_of_clear hc) w1 w2 w4
  obtain ⟨us', u1, u2⟩ := b3.spellable y3
  obtain ⟨δ2, e2, c1, c2, c3⟩ := stale_serve hl hp hc hpl
    ⟨pb, py, tb, ty, clear_matched b' (clear_root hl hc) hF sy.fits (u1.declares_pruned q1 q1') (u2.within_pruned q2 q2'), yt, yd⟩
    px pw sx.fits sy.fits sw.fits r2 t2 n2 hm
  refine ⟨δ1, δ2, e1, e2, a1, c1, a2, c2, fun m hm => ?_⟩
  obtain ⟨m1, p1, p2, _⟩ := a3 m hm
  obtain ⟨m2, p3, p4⟩ := c3 m1 p2
  exact ⟨m1, m2, p1, p2, p3, p4⟩

/-- C84, either order: it does not matter which of the clients is the first. -/
theorem C84_either_order (h : Host) (mods : List Module) (us : List String) (rd : Bool) (hl : Loads h mods) (hp : ProperModules rd mods)
    (hc : ∀ m ∈ mods, ∀ s ∈ m.kids, Everywhere (Clear rd) s) (hpl : PlainModules mods) (b x y w : Elem)
    (db : OfDocument h mods us rd b) (dx : OfDocument h mods us rd x) (dy : OfDocument h mods us rd y) (dw : OfDocument h mods us rd w)
    (o1 o2 : Opts) (r1 : o1.replace = .merge) (t1 : o1.diffType ≠ .replace) (n1 : o1.create ≠ .replace)
    (r2 : o2.replace = .merge) (t2 : o2.diffType ≠ .replace) (n2 : o2.create ≠ .replace) (hm : DeepMerge h.device .root b x y w) :
    ∃ δ1 δ2 e1 e2, newDelta h.device b x o1 = .ok δ1 ∧ newDelta h.device b y o2 = .ok δ2 ∧ δ1.nc h.device = .ok e1 ∧
      δ2.nc h.device = .ok e2 ∧ ∀ m, Holds (topPlaces mods) b.kids m →
        ∃ m1 m12 m2 m21, serve (topPlaces mods) e1.kids m = some m1 ∧ serve (topPlaces mods) e2.kids m1 = some m12 ∧
          serve (topPlaces mods) e2.kids m = some m2 ∧ serve (topPlaces mods) e1.kids m2 = some m21 ∧
          Holds (topPlaces mods) w.kids m12 ∧ Holds (topPlaces mods) w.kids m21 := by
  obtain ⟨δ1, δ2, e1, e2, p1, p2, p3, p4, p5⟩ := C84_outdated_delta h mods us rd hl hp hc hpl b x y w db dx dy dw o1 o2 (.inl r1) r2 t2 n2 hm
  obtain ⟨δ2', δ1', e2', e1', q1, q2, q3, q4, q5⟩ := C84_outdated_delta h mods us rd hl hp hc hpl b y x w db dy dx dw o2 o1 (.inl r2) r1 t1 n1 hm.swap
  obtain rfl := Except.ok.inj (p1.symm.trans q2)
  obtain rfl := Except.ok.inj (p2.symm.trans q1)
  obtain rfl := Except.ok.inj (p3.symm.trans q4)
  obtain rfl := Except.ok.inj (p4.symm.trans q3)
  refine ⟨δ1, δ2, e1, e2, p1, p2, p3, p4, fun m hm => ?_⟩
  obtain ⟨m1, m12, a1, _, a3, a4⟩ := p5 m hm
  obtain ⟨m2, m21, b1, _, b3, b4⟩ := q5 m hm
  exact ⟨m1, m12, m2, m21, a1, a3, b1, b3, a4, b4⟩

end Compile

/-! ## The hypotheses can be met -/

namespace Clients84

open Compile Demo YangDemo MeaningDemo

def stmts : List Stmt :=
  [ st "container" "top"
      [ st "list" "item" [st "leaf" "id" (type := str) (isKey := true), st "leaf" "val" (type := str), st "leaf" "mtu" [] [("default", "0")] (type := str)]
          [("key", "id")],
        st "list" "rule" [st "leaf" "id" (type := str) (isKey := true)] [("key", "id"), ("ordered-by", "user")],
        st "container" "np" [st "leaf" "w" (type := str), st "leaf" "v" (type := str)],
        st "leaf-list" "tags" [] (type := str) ],
    st "container" "sys" [st "leaf" "host" (type := str), st "leaf" "site" (type := str)] ]

def mods : List Module := [⟨"demo", "d", modNs, stmts⟩]
def d : Device := (hostOf stmts).device
def pl : List Place := topPlaces mods

def ru (i : String) : Elem := el "rule" [lf "id" i]
def lb : List Elem := [el "top" [it "1" [lf "val" "5"], it "2" [], ru "a", ru "b", lf "tags" "c"], el "sys" [lf "host" "h"]]
/-- One of the clients changes an entry, adds another one, removes a value, and adds a leaf. -/
def lx : List Elem := [el "top" [it "1" [lf "val" "6"], it "2" [], it "3" [], ru "a", ru "b"], el "sys" [lf "host" "h", lf "site" "s"]]
/-- The other one adds a leaf to the same entry, removes another one, adds a container, and changes a leaf. -/
def ly : List Elem := [el "top" [it "1" [lf "val" "5", lf "mtu" "9"], ru "a", ru "b", lf "tags" "c", el "np" [lf "w" "1"]], el "sys" [lf "host" "g"]]
def lw : List Elem := [el "sys" [lf "host" "g", lf "site" "s"], el "top" [it "3" [], it "1" [lf "mtu" "9", lf "val" "6"], ru "a", ru "b", el "np" [lf "w" "1"]]]
def b : Elem := noConfig.setKids lb
def x : Elem := noConfig.setKids lx
def y : Elem := noConfig.setKids ly
def w : Elem := noConfig.setKids lw

theorem loads : Loads (hostOf stmts) mods := .cons ⟨rfl, by decide +kernel⟩ .nil
theorem proper : ProperModules true mods := properModulesB_sound (by decide +kernel)
theorem clear : ∀ m ∈ mods, ∀ s ∈ m.kids, Everywhere (Clear true) s := by
  intro m hm s hs
  obtain rfl := List.mem_singleton.1 hm
  exact (everyListB_sound (P := clearB true) stmts (by decide +kernel) s hs).imp fun _ => clearB_sound
theorem plain : PlainModules mods := plainModules_of (by decide +kernel)

theorem doc_b : OfDocument (hostOf stmts) mods [] true b := ⟨reply lb, lb, true, ⟨.reply (e := reply lb) rfl, instB_sound _ (by decide +kernel)⟩,
  lxmlKidsB_sound _ (by decide +kernel), spelled_of_plain plain _ _, by decide +kernel⟩
theorem doc_x : OfDocument (hostOf stmts) mods [] true x := ⟨reply lx, lx, true, ⟨.reply (e := reply lx) rfl, instB_sound _ (by decide +kernel)⟩,
  lxmlKidsB_sound _ (by decide +kernel), spelled_of_plain plain _ _, by decide +kernel⟩
theorem doc_y : OfDocument (hostOf stmts) mods [] true y := ⟨reply ly, ly, true, ⟨.reply (e := reply ly) rfl, instB_sound _ (by decide +kernel)⟩,
  lxmlKidsB_sound _ (by decide +kernel), spelled_of_plain plain _ _, by decide +kernel⟩
theorem doc_w : OfDocument (hostOf stmts) mods [] true w := ⟨reply lw, lw, true, ⟨.reply (e := reply lw) rfl, instB_sound _ (by decide +kernel)⟩,
  lxmlKidsB_sound _ (by decide +kernel), spelled_of_plain plain _ _, by decide +kernel⟩
theorem merged : DeepMerge d .root b x y w := Demo.DeepMerge83.deepMergeB_sound 4 (by decide +kernel)

example := C84_either_order (hostOf stmts) mods [] true loads proper clear plain b x y w doc_b doc_x doc_y doc_w {}
  { create := .create, delete := .remove } rfl (by decide) (by decide) rfl (by decide) (by decide) merged

/-- What the two clients send, one after the other, and what the server has in the end. -/
def after (o1 o2 : Opts) : Option (List Elem) :=
  match newDelta d b x o1 >>= fun δ => δ.nc d, newDelta d b y o2 >>= fun δ => δ.nc d with
  | .ok e1, .ok e2 => (serve pl e1.kids b.kids).bind (serve pl e2.kids)
  | _, _ => none

/-- The server has the changes of both. -/
example : ∃ r, after {} { create := .create } = some r ∧ cfgEq d (noConfig.setKids r) w = .ok true :=
  ⟨(after {} { create := .create }).getD [], by decide +kernel, by decide +kernel⟩

/-- C84 is false for a delta that replaces: the second client brings back what the first one has changed. -/
theorem C84_false_with_replace : ∃ r, after {} { diffType := .replace } = some r ∧ cfgEq d (noConfig.setKids r) y = .ok true ∧
    cfgEq d (noConfig.setKids r) w = .ok false :=
  ⟨(after {} { diffType := .replace }).getD [], by decide +kernel, by decide +kernel, by decide +kernel⟩

end Clients84
end NcDiff
