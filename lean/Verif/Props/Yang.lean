import Verif.Proof.YangSimple
import Verif.Proof.CheckYang
import Verif.Props.RoundTrip
import Verif.Props.Compile
/-!
# C65: from YANG modules to round trips of deltas

The theorems join the compiler of schema trees (C46), the building of configs (C41) and deltas (C01): all hypotheses
are about statements of YANG modules and about XML documents.
-/

namespace NcDiff
namespace Compile

/-- C65: a document with an instance of the modules is accepted.  The config is the document without some nodes, none
of which is a key (which ones, see C41), and it is one that deltas are proved to be right for. -/
theorem C65_accepted (h : Host) (mods : List Module) (rd : Bool) (hl : Loads h mods) (hp : ProperModules rd mods)
    (x : Elem) (l : List Elem) (hx : Document h mods x l) (v : Bool) :
    ∃ c, newConfig h.device x v rd = .ok c ∧ (∃ t, Pruned h.device .root (noConfig.setKids l) t ∧ Pruned h.device .root t c) ∧
      PlainConfig h.device c ∧ c.tag = ncTag "config" ∧ trimDefaults h.device .root c = .ok c ∧
      Deep h.device (DefaultLevel h.device) .root c :=
  config_of_raw hx.roots (raw_of_document hl hp hx) v

/-- C65: the delta between the configs of two documents takes the one to the other, if they are compatible. -/
theorem C65_round_trip (h : Host) (mods : List Module) (rd : Bool) (hl : Loads h mods) (hp : ProperModules rd mods)
    (x1 x2 : Elem) (l1 l2 : List Elem) (hx1 : Document h mods x1 l1) (hx2 : Document h mods x2 l2) (v1 v2 : Bool)
    (c1 c2 : Elem) (h1 : newConfig h.device x1 v1 rd = .ok c1) (h2 : newConfig h.device x2 v2 rd = .ok c2)
    (hc : Compat h.device .root c1 c2) (opts : Opts) (hs : TopSafe opts mods) :
    ∃ δ r, newDelta h.device c1 c2 opts = .ok δ ∧ configAddDelta h.device c1 δ = .ok r ∧ cfgEq h.device r c2 = .ok true := by
  obtain ⟨a, ha, _, ha1, ha2, _, _⟩ := C65_accepted h mods rd hl hp x1 l1 hx1 v1
  obtain ⟨b, hb, _, hb1, hb2, hb3, hb4⟩ := C65_accepted h mods rd hl hp x2 l2 hx2 v2
  obtain rfl : a = c1 := Except.ok.inj (ha.symm.trans h1)
  obtain rfl : b = c2 := Except.ok.inj (hb.symm.trans h2)
  exact C01_round_trip h.device opts a b ⟨ha1, hb1, ha2, hb2, hc, hb3, hb4⟩ (rootSafe_of hl hp hs)

/-- C65: for modules without choices, order by the user, and types that refer to nodes or identities, any two
documents can be compared, and the delta takes the one to the other. -/
theorem C65_simple (h : Host) (mods : List Module) (rd : Bool) (hl : Loads h mods) (hp : ProperModules rd mods)
    (hsim : ∀ m ∈ mods, ∀ s ∈ m.kids, Everywhere Simple s)
    (x1 x2 : Elem) (l1 l2 : List Elem) (hx1 : Document h mods x1 l1) (hx2 : Document h mods x2 l2) (v1 v2 : Bool)
    (opts : Opts) (hs : TopSafe opts mods) :
    ∃ c1 c2 δ r, newConfig h.device x1 v1 rd = .ok c1 ∧ newConfig h.device x2 v2 rd = .ok c2 ∧
      newDelta h.device c1 c2 opts = .ok δ ∧ configAddDelta h.device c1 δ = .ok r ∧ cfgEq h.device r c2 = .ok true := by
  obtain ⟨a, ha, _⟩ := C65_accepted h mods rd hl hp x1 l1 hx1 v1
  obtain ⟨b, hb, _⟩ := C65_accepted h mods rd hl hp x2 l2 hx2 v2
  obtain ⟨δ, r, h1, h2, h3⟩ := C65_round_trip h mods rd hl hp x1 x2 l1 l2 hx1 hx2 v1 v2 a b ha hb
    (simple_compat a b _ (simple_root hl hsim)) opts hs
  exact ⟨a, b, δ, r, ha, hb, h1, h2, h3⟩

end Compile

namespace YangDemo

open Compile Demo

/-- The module of the examples of C46. -/
def mods : List Module := [⟨"demo", "d", modNs, stmts⟩]

theorem mods_loaded : Loads compiled mods :=
  .cons ⟨rfl, show compileTree modNs "demo" (some "d") stmts = .ok tree by decide +kernel⟩ .nil

theorem mods_proper : ProperModules true mods := properModulesB_sound (by decide +kernel)

/-- Two documents, as replies of a device. -/
def reply (ks : List Elem) : Elem := .mk (ncTag "rpc-reply") [(some "nc", ncUrl)] [] none
  [.mk (ncTag "data") [(some "nc", ncUrl)] [] none ks]
def nsd : NsMap := [(none, u), (some "d", u)]
def roots1 : List Elem :=
  [el "top" [el "item" [lf "name" "a", .mk (q "kind") nsd [] (some "d:x") []], el "item" [lf "name" "b"], lf "tags" "a"]]
def roots2 : List Elem :=
  [el "top" [el "item" [lf "name" "b", .mk (q "kind") nsd [] (some "d:y") []], el "item" [lf "name" "c"], lf "tags" "z"]]

theorem roots1_doc : Document compiled mods (reply roots1) roots1 :=
  ⟨.reply (e := reply roots1) rfl, instB_sound _ (by decide +kernel)⟩
theorem roots2_doc : Document compiled mods (reply roots2) roots2 :=
  ⟨.reply (e := reply roots2) rfl, instB_sound _ (by decide +kernel)⟩

/-- The hypotheses of `C65_accepted` and `C65_round_trip` are met, and the documents are different configs. -/
example : Loads compiled mods ∧ ProperModules true mods ∧ Document compiled mods (reply roots1) roots1 ∧
    Document compiled mods (reply roots2) roots2 ∧ ∃ c1 c2, newConfig compiled.device (reply roots1) true true = .ok c1 ∧
      newConfig compiled.device (reply roots2) true true = .ok c2 ∧ Compat compiled.device .root c1 c2 ∧
      cfgEq compiled.device c1 c2 = .ok false := by
  refine ⟨mods_loaded, mods_proper, roots1_doc, roots2_doc, noConfig.setKids roots1, noConfig.setKids roots2,
    by decide +kernel, by decide +kernel, compatB_sound _ (by decide +kernel), by decide +kernel⟩

/-- A simple module: a list with two keys, one of them in another place of the list than of the key statement. -/
def simpleStmts : List Stmt :=
  [ st "container" "top"
      [ st "list" "item"
          [st "leaf" "val" [] [("default", "0")] (type := some { arg := "string" }),
           st "leaf" "name" (type := some { arg := "string" }) (isKey := true),
           st "leaf" "id" (type := some { arg := "string" }) (isKey := true)] [("key", "id name")],
        st "container" "np" [st "leaf" "w" (type := some { arg := "string" })],
        st "leaf-list" "tags" [] (type := some { arg := "string" }) ] ]

def simpleMods : List Module := [⟨"demo", "d", modNs, simpleStmts⟩]

def simpleHost : Host :=
  { compiled with models := [("demo", (compileTree modNs "demo" (some "d") simpleStmts).toOption.getD default)] }

def entry (i n v : String) : Elem := el "item" [lf "id" i, lf "name" n, lf "val" v]
def sroots1 : List Elem := [el "top" [entry "1" "a" "0", entry "1" "b" "5", el "np" [], lf "tags" "x"]]
def sroots2 : List Elem := [el "top" [entry "1" "b" "7", entry "2" "a" "1", el "np" [lf "w" "p"], lf "tags" "y"]]

/-- The hypotheses of `C65_simple` are met. -/
example : Loads simpleHost simpleMods ∧ ProperModules false simpleMods ∧ (∀ m ∈ simpleMods, ∀ s ∈ m.kids, Everywhere Simple s) ∧
    Document simpleHost simpleMods (reply sroots1) sroots1 ∧ Document simpleHost simpleMods (reply sroots2) sroots2 ∧
    TopSafe {} simpleMods := by
  refine ⟨.cons ⟨rfl, by decide +kernel⟩ .nil, properModulesB_sound (by decide +kernel), ?_,
    ⟨.reply (e := reply sroots1) rfl, instB_sound _ (by decide +kernel)⟩,
    ⟨.reply (e := reply sroots2) rfl, instB_sound _ (by decide +kernel)⟩, Or.inl rfl⟩
  intro m hm s hs
  obtain rfl := List.mem_singleton.1 hm
  exact (everyListB_sound (P := fun s => decide (Simple s)) simpleStmts (by decide +kernel) s hs).imp
    fun _ h => of_decide_eq_true h

/-- A module with a choice at the top. -/
def topChoice : List Stmt :=
  [st "choice" "ch" [st "case" "c1" [st "leaf" "x" (type := some { arg := "string" })],
    st "case" "c2" [st "leaf" "y" (type := some { arg := "string" })]]]

def choiceHost : Host :=
  { compiled with models := [("demo", (compileTree modNs "demo" (some "d") topChoice).toOption.getD default)] }

/-- C65 is false without the condition that there is no choice at the top of a module: a leaf of such a choice is an
instance of the module, and everything else that is asked of the module holds, but the library does not accept it, as
it takes the choice for the root. -/
theorem C65_false_for_top_choice :
    Loads choiceHost [⟨"demo", "d", modNs, topChoice⟩] ∧ DistinctNames modNs (visible topChoice) ∧
      (∀ s ∈ topChoice, Everywhere (Proper true modNs) s) ∧
      InstanceOf choiceHost.device (places modNs topChoice) (cfg [lf "x" "1"]) ∧
      newConfig choiceHost.device (cfg [lf "x" "1"]) true true = .error .modelMissing :=
  ⟨.cons ⟨rfl, by decide +kernel⟩ .nil, by decide +kernel,
    fun s hs => (everyListB_sound _ (by decide +kernel) s hs).imp fun _ => properB_sound,
    instB_sound _ (by decide +kernel), by decide +kernel⟩

end YangDemo
end NcDiff
