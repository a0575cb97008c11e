import Verif.Proof.KeyNames
import Verif.Props.Yang
/-!
# C66: which leaves are the keys of a list
-/

namespace NcDiff
open ModelDiff (At)
namespace Compile

theorem keyNames_of {ns s e} (h : Made ns s e) (hl : s.info.keyword = "list") {v : String} (hv : s.info.Says "key" v) :
    (SNode.ofElem e).info.ntype = .list ∧ (SNode.ofElem e).info.keyNames = keyNamesOf v := by
  obtain ⟨a, hu⟩ := h.understood
  refine ⟨hu.list.2 hl, ?_⟩
  obtain ⟨mode, h⟩ := h
  have : (SNode.ofElem e).info = infoOf e := by cases e; rfl
  rw [this, infoOf]
  dsimp only
  rw [((describes h).key v).2 ⟨hl, hv⟩]

theorem made_at {ns name pfx kids t path e} (h : compileTree ns name pfx kids = .ok t) (hp : path ≠ [])
    (he : At t path e) : ∃ c s, TreeChain kids c ∧ c.getLast? = some s ∧ List.Forall₂ (Named ns) path c ∧ Made ns s e := by
  obtain ⟨s, c, hc, hq, hd⟩ := tree_down h hp he
  refine ⟨s :: c, endOf s c, hc, ?_, hq, _, hd⟩
  rw [endOf_eq, List.getLast?_eq_some_getLast (by simp)]

/-- C66: in a compiled module, a child of a list is one of the keys by which the library tells entries apart if and
only if its name stands in the key statement between two spaces, or between a space and the end. -/
theorem C66_keys {ns name pfx kids t path e} (h : compileTree ns name pfx kids = .ok t) (hp : path ≠ [])
    (he : At t path e) : ∃ c s, TreeChain kids c ∧ c.getLast? = some s ∧ List.Forall₂ (Named ns) path c ∧
      (s.info.keyword = "list" → ∀ v, s.info.Says "key" v → ':' ∉ v.toList → ∀ k ∈ s.kids, FirstNamed s.kids k →
        PlainName k.info.arg → ∀ q, Named ns q k →
        (q ∈ (SNode.ofElem e).keys ↔ StandsIn (· = ' ') k.info.arg.toList v.toList)) := by
  obtain ⟨c, s, hc, hs, hq, hm⟩ := made_at h hp he
  refine ⟨c, s, hc, hs, hq, fun hl v hv hcol k _ hfirst hk q hqk => ?_⟩
  obtain ⟨hn, hkn⟩ := keyNames_of hm hl hv
  obtain ⟨a, b, hab, ha⟩ := hfirst
  obtain ⟨e', he', hf⟩ := find_first (by rw [← hab]; exact hm.kids) ha
  rw [← mem_keyNamesOf hcol hk]
  unfold SNode.keys
  rw [if_pos hn, hkn, ofElem_kids]
  constructor
  · intro hm'
    obtain ⟨n, hn', hf'⟩ := List.mem_filterMap.1 hm'
    obtain ⟨x, hx, rfl⟩ := Option.map_eq_some_iff.1 hf'
    have hname : x.tag.name = n := by simpa using List.find?_some hx
    rw [← hqk.2]
    exact hname ▸ hn'
  · intro hm'
    refine List.mem_filterMap.2 ⟨_, hm', ?_⟩
    rw [hf, Option.map_some, ofElem_tag]
    congr 1
    exact named_inj he'.named hqk

/-- C66: if names are separated by spaces only, and they are names of children of the list, then these children are
the keys, in the order of the key statement. -/
theorem C66_order {ns name pfx kids t path e} (h : compileTree ns name pfx kids = .ok t) (hp : path ≠ [])
    (he : At t path e) : ∃ c s, TreeChain kids c ∧ c.getLast? = some s ∧ List.Forall₂ (Named ns) path c ∧
      (s.info.keyword = "list" → ∀ v l, s.info.Says "key" v → KeysSpelled v l →
        (∀ n ∈ l.map Prod.snd, ∃ k ∈ s.kids, k.info.arg = n) →
        (SNode.ofElem e).keys.map QName.name = l.map Prod.snd ∧
        ∀ q ∈ (SNode.ofElem e).keys, ∃ k ∈ s.kids, FirstNamed s.kids k ∧ Named ns q k) := by
  obtain ⟨c, s, hc, hs, hq, hm⟩ := made_at h hp he
  refine ⟨c, s, hc, hs, hq, fun hl v l hv hsp hall => ?_⟩
  obtain ⟨hn, hkn⟩ := keyNames_of hm hl hv
  rw [keyNamesOf_spelled hsp] at hkn
  unfold SNode.keys
  rw [if_pos hn, hkn, ofElem_kids]
  generalize l.map Prod.snd = ns' at hall
  have hfind : ∀ n ∈ ns', ∃ k ∈ s.kids, FirstNamed s.kids k ∧ ∃ e', Made ns k e' ∧ e'.tag.name = n ∧
      ((e.kids.map SNode.ofElem).find? fun x => x.tag.name = n) = some (SNode.ofElem e') := by
    intro n hn
    obtain ⟨k, hk, hkn⟩ := hall n hn
    obtain ⟨k, a, b, hab, hka, ha⟩ : ∃ k a b, s.kids = a ++ k :: b ∧ k.info.arg = n ∧ ∀ y ∈ a, y.info.arg ≠ n := by
      generalize s.kids = l at hk
      induction l with
      | nil => cases hk
      | cons x r ih =>
        by_cases hx : x.info.arg = n
        · exact ⟨x, [], r, rfl, hx, by simp⟩
        · rcases List.mem_cons.1 hk with rfl | hk
          · exact absurd hkn hx
          · obtain ⟨k', a, b, rfl, h1, h2⟩ := ih hk
            exact ⟨k', x :: a, b, rfl, h1, by simpa [hx] using h2⟩
    subst hka
    obtain ⟨e', he', hf⟩ := find_first (by rw [← hab]; exact hm.kids) ha
    exact ⟨k, by rw [hab]; simp, ⟨a, b, hab, ha⟩, e', he', he'.named.2, hf⟩
  clear hall hkn hsp
  induction ns' with
  | nil => simp
  | cons n r ih =>
    obtain ⟨k, hk, hfk, e', he', hen, hf⟩ := hfind n (.head _)
    obtain ⟨ih1, ih2⟩ := ih fun n hn => hfind n (.tail _ hn)
    rw [List.filterMap_cons, hf]
    simp only [Option.map_some]
    refine ⟨by rw [List.map_cons, ih1, ofElem_tag, hen], ?_⟩
    intro q hq
    rcases List.mem_cons.1 hq with rfl | hq
    · exact ⟨k, hk, hfk, by rw [ofElem_tag]; exact he'.named⟩
    · exact ih2 q hq

/-- C66: if there is no other white space than spaces in a key statement, what stands between spaces is what the
statement names. -/
theorem C66_names (v n : String) (h : ∀ c ∈ v.toList, White c → c = ' ') :
    StandsIn (· = ' ') n.toList v.toList ↔ NamesKey v n :=
  ⟨fun hs => hs.mono fun _ _ hc => hc ▸ white_space, fun hs => hs.mono fun c hc hw => h c hc hw⟩

end Compile

namespace KeyDemo

open Compile Demo YangDemo

/-- A list with two keys, and a text for the key statement. -/
def stmts (v : String) : List Stmt :=
  [ st "container" "top"
      [ st "list" "item"
          [st "leaf" "id" (type := some { arg := "string" }) (isKey := true),
           st "leaf" "name" (type := some { arg := "string" }) (isKey := true),
           st "leaf" "val" (type := some { arg := "string" })] [("key", v)] ] ]

def host (v : String) : Host :=
  { compiled with models := [("demo", (compileTree modNs "demo" (some "d") (stmts v)).toOption.getD default)] }

theorem host_loads (v : String) (h : (compileTree modNs "demo" (some "d") (stmts v)).isOk) :
    Loads (host v) [⟨"demo", "d", modNs, stmts v⟩] := by
  refine .cons ⟨rfl, ?_⟩ .nil
  show compileTree modNs "demo" (some "d") (stmts v) = .ok ((compileTree modNs "demo" (some "d") (stmts v)).toOption.getD default)
  cases hc : compileTree modNs "demo" (some "d") (stmts v) with
  | error _ => rw [hc] at h; cases h
  | ok t => rfl

def item (i n v : String) : Elem := el "item" [lf "id" i, lf "name" n, lf "val" v]
def one : Elem := cfg [el "top" [item "1" "a" "0"]]
def other : Elem := cfg [el "top" [item "1" "b" "0"]]
def both : Elem := cfg [el "top" [item "1" "a" "0", item "1" "b" "0"]]

/-- The compiled tree, and two nodes of it. -/
def tree (v : String) : Elem := (compileTree modNs "demo" (some "d") (stmts v)).toOption.getD default
def topNode (v : String) : Elem := (tree v).kids.headD default
def listNode (v : String) : Elem := (topNode v).kids.headD default

/-- The hypotheses of `C66_keys` and `C66_order` are met by a key statement with more spaces than needed. -/
example : compileTree modNs "demo" (some "d") (stmts "  name   id ") = .ok (tree "  name   id ") ∧
    At (tree "  name   id ") [q "top", q "item"] (listNode "  name   id ") ∧
    (SNode.ofElem (listNode "  name   id ")).keys = [q "name", q "id"] ∧
    KeysSpelled "  name   id " [(none, "name"), (none, "id")] := by
  have h1 : (topNode "  name   id ").tag = q "top" := by decide +kernel
  have h2 : (listNode "  name   id ").tag = q "item" := by decide +kernel
  refine ⟨by decide +kernel, ?_, by decide +kernel, ?_⟩
  · rw [← h1, ← h2]
    exact .down (by decide +kernel) (.down (by decide +kernel) .here)
  · exact spelled_words (v := "  name   id ".toList) (by decide +kernel)

/-- C66 is false for key statements with a line break: the key statement names both leaves, but the library has
neither for a key.  So it sends an edit to the device that makes another config of the first one than the second one,
and it refuses to compare configs with more than one entry. -/
theorem C66_false_for_line_break :
    let bad := (host "id\nname").device
    let good := (host "id name").device
    Loads (host "id\nname") [⟨"demo", "d", modNs, stmts "id\nname"⟩] ∧ NamesKey "id\nname" "id" ∧ NamesKey "id\nname" "name" ∧
    (∀ x ∈ [one, other, both], InstanceOf bad (places modNs (stmts "id\nname")) x) ∧
    (∃ δ n r, newDelta bad one other = .ok δ ∧ δ.nc bad = .ok n ∧ configAddElem good one n = .ok r ∧
      cfgEq good r other = .ok false) ∧
    (∃ δ, newDelta bad one both = .ok δ ∧ δ.nc bad = .error .configError) := by
  refine ⟨host_loads _ (by decide +kernel), ⟨[], "\nname".toList, by decide, by simp, by simp [White]⟩,
    ⟨"id\n".toList, [], by decide, by simp [White], by simp⟩, ?_, ?_, ?_⟩
  · intro x hx
    simp only [List.mem_cons, List.not_mem_nil, or_false] at hx
    rcases hx with rfl | rfl | rfl <;> exact instB_sound _ (by decide +kernel)
  · exact ⟨⟨one, other, {}, none⟩, cfg [el "top" [el "item" [lf "id" "1", lf "name" "b"]]],
      cfg [el "top" [item "1" "a" "0", el "item" [lf "id" "1", lf "name" "b"]]], by
        rw [newDelta, show compatible (host "id\nname").device [one, other] = .ok () by decide +kernel]; rfl, by decide +kernel,
      by decide +kernel, by decide +kernel⟩
  · exact ⟨⟨one, both, {}, none⟩, by
      rw [newDelta, show compatible (host "id\nname").device [one, both] = .ok () by decide +kernel]; rfl, by decide +kernel⟩

end KeyDemo
end NcDiff
