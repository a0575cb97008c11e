import Verif.Proof.Hoist
/-!
# C88: commands that look like children but are siblings
-/

namespace NcDiff.Running

/-- Moving siblings up loses no command and makes none, whatever the tables and however the commands are nested. -/
theorem C88_nothing_lost (t : Tables) (l : List Item) : (allCommands (handleSibling t l)).Perm (allCommands l) :=
  siblingFuel_perm _ l

/-- A config in which no sibling looks like a child stays as it is. -/
theorem C88_unchanged {t : Tables} {rx : Str → Bool} (ht : t.sibling = [rx]) {l : List Item} (h : Flat rx l) : handleSibling t l = l :=
  flat_fuel ht _ l h

/-- If there is at most one place in each section where siblings look like children, they are moved up as it is meant, and none is left. -/
theorem C88_as_meant {t : Tables} {rx : Str → Bool} (ht : t.sibling = [rx]) {l : List Item} (h : OneNest rx l) :
    handleSibling t l = hoistList rx l ∧ Flat rx (handleSibling t l) := by
  have e : handleSibling t l = hoistList rx l := nest_fuel ht _ l h (Nat.le_refl _)
  exact ⟨e, e ▸ hoistList_flat rx l⟩

/-- The diff is then a diff of the configs that are meant, in both directions. -/
theorem C88_diff {t : Tables} {rx : Str → Bool} (ht : t.sibling = [rx]) {s1 s2 : Str} (h1 : OneNest rx (running2list t s1 s2).1)
    (h2 : OneNest rx (running2list t s1 s2).2) :
    getDiff t s1 s2 false = compare (hoistList rx (running2list t s1 s2).1) (hoistList rx (running2list t s1 s2).2) ∧
    getDiff t s1 s2 true = compare (hoistList rx (running2list t s1 s2).2) (hoistList rx (running2list t s1 s2).1) := by
  unfold getDiff
  simp only [(C88_as_meant ht h1).1, (C88_as_meant ht h2).1, if_true, Bool.false_eq_true, if_false, and_self]

end NcDiff.Running

namespace NcDiff.Hoist88

open Running

/-- The pattern for clients. -/
def client (s : Str) : Bool := (searchToks (litPat "client ") s).isSome

theorem cisco_client : ciscoTables.sibling = [client] := rfl

/-- As a device prints it: the second and the third client are below the first. -/
def printed : Str :=
  "aaa server radius proxy\n client 10.0.0.0\n  timer 23\n  !\n  client 11.0.0.0\n  port 34\n  timer 22\n  !\n  client 12.0.0.0\n  port 56\n".toList

def written : Str :=
  "aaa server radius proxy\n client 10.0.0.0\n  timer 23\n client 11.0.0.0\n  port 34\n  timer 22\n client 12.0.0.0\n  port 56\n".toList

def leafOf (s : String) : Item := .mk s.toList none .ctx
def nodeOf (s : String) (l : List Item) : Item := .mk s.toList (some l) .ctx

/-- What is read from the text of the device. -/
def printedList : List Item :=
  [nodeOf "aaa server radius proxy" [nodeOf "client 10.0.0.0" [leafOf "timer 23",
    nodeOf "client 11.0.0.0" [leafOf "port 34", leafOf "timer 22"], nodeOf "client 12.0.0.0" [leafOf "port 56"]]]]

theorem printed_read : running2list ciscoTables printed written = (printedList,
    [nodeOf "aaa server radius proxy" [nodeOf "client 10.0.0.0" [leafOf "timer 23"],
      nodeOf "client 11.0.0.0" [leafOf "port 34", leafOf "timer 22"], nodeOf "client 12.0.0.0" [leafOf "port 56"]]]) := by
  decide +kernel

theorem flat_leaf {k : Str} {i : Info} {r : List Item} (h : Flat client r) : Flat client (.mk k none i :: r) :=
  .cons (by simp) (by simp) h

theorem flat_node {k : Str} {a : Item} {s : List Item} {i : Info} {r : List Item} (hs : Flat client (a :: s))
    (hc : ∀ c ∈ a :: s, client c.key = false) (h : Flat client r) : Flat client (.mk k (some (a :: s)) i :: r) :=
  .cons (by rintro l ⟨⟩; exact hs) (by rintro _ l ⟨⟩; exact ⟨by simp, hc⟩) h

theorem printed_nest : OneNest client printedList := by
  refine .plain (by decide +kernel) (.nest (by decide +kernel) ?_ ?_ .nil) .nil
  · have e : ([leafOf "timer 23", nodeOf "client 11.0.0.0" [leafOf "port 34", leafOf "timer 22"],
        nodeOf "client 12.0.0.0" [leafOf "port 56"]].filter fun c => client c.key) =
      [nodeOf "client 11.0.0.0" [leafOf "port 34", leafOf "timer 22"], nodeOf "client 12.0.0.0" [leafOf "port 56"]] := by
      decide +kernel
    rw [e]
    exact flat_node (flat_leaf (flat_leaf .nil)) (by decide +kernel) (flat_node (flat_leaf .nil) (by decide +kernel) .nil)
  · have e : ([leafOf "timer 23", nodeOf "client 11.0.0.0" [leafOf "port 34", leafOf "timer 22"],
        nodeOf "client 12.0.0.0" [leafOf "port 56"]].filter fun c => !client c.key) = [leafOf "timer 23"] := by
      decide +kernel
    rw [e]
    exact .leaf .nil

theorem written_flat : Flat client (running2list ciscoTables printed written).2 := by
  rw [printed_read]
  refine .cons (by
    rintro l ⟨⟩
    exact flat_node (flat_leaf .nil) (by decide +kernel) (flat_node (flat_leaf (flat_leaf .nil)) (by decide +kernel)
      (flat_node (flat_leaf .nil) (by decide +kernel) .nil))) ?_ .nil
  intro h
  exact absurd h (by decide +kernel)

/-- The text of a device meets the condition, and all clients become siblings. -/
example : handleSibling ciscoTables printedList =
    [nodeOf "aaa server radius proxy" [nodeOf "client 10.0.0.0" [leafOf "timer 23"],
      nodeOf "client 11.0.0.0" [leafOf "port 34", leafOf "timer 22"], nodeOf "client 12.0.0.0" [leafOf "port 56"]]] :=
  (C88_as_meant cisco_client printed_nest).1.trans (by decide +kernel)

/-- The other text has nothing to move. -/
example : handleSibling ciscoTables (running2list ciscoTables printed written).2 = (running2list ciscoTables printed written).2 :=
  C88_unchanged cisco_client written_flat

theorem flat_nest {rx : Str → Bool} : ∀ {l : List Item}, Flat rx l → OneNest rx l
  | [], _ => .nil
  | .mk k none i :: r, .cons _ _ h => .leaf (flat_nest h)
  | .mk k (some s) i :: r, .cons h1 h2 h => by
    cases hk : rx k
    · exact .plain hk (flat_nest (h1 s rfl)) (flat_nest h)
    · exact .alone hk (h2 hk s rfl).2 (flat_nest (h1 s rfl)) (flat_nest h)

/-- The diff of the two texts is a diff of what they mean. -/
example := C88_diff cisco_client (s1 := printed) (s2 := written) (by rw [printed_read]; exact printed_nest) (flat_nest written_flat)

/-- Both texts mean the same, and the diff of them is empty. -/
example : getDiff ciscoTables printed written false = some [] := by decide +kernel

/-- Two clients that both have a client below. -/
def twice : Str := "aaa server radius proxy\n client 1.0.0.0\n  client 2.0.0.0\n client 3.0.0.0\n  client 4.0.0.0\n".toList
def twiceFlat : Str := "aaa server radius proxy\n client 1.0.0.0\n client 2.0.0.0\n client 3.0.0.0\n client 4.0.0.0\n".toList
def deep : Str := "aaa server radius proxy\n client 1.0.0.0\n  client 2.0.0.0\n   client 3.0.0.0\n    client 4.0.0.0\n".toList

/-- The number of commands that are looked at is fixed before siblings are moved up.  So the condition is needed: the second client with a
client below is not reached, nor are clients of the third level, and the diff shows differences that are not meant. -/
theorem C88_not_reached :
    diffStr ciscoTables twice twiceFlat =
      some "  aaa server radius proxy\n    client 3.0.0.0\n-     client 4.0.0.0\n+   client 4.0.0.0\n".toList ∧
    compare (hoistList client (running2list ciscoTables twice twiceFlat).1)
      (hoistList client (running2list ciscoTables twice twiceFlat).2) = some [] ∧
    diffStr ciscoTables deep twiceFlat =
      some "  aaa server radius proxy\n    client 2.0.0.0\n-     client 3.0.0.0\n-       client 4.0.0.0\n+   client 3.0.0.0\n+   client 4.0.0.0\n".toList ∧
    compare (hoistList client (running2list ciscoTables deep twiceFlat).1)
      (hoistList client (running2list ciscoTables deep twiceFlat).2) = some [] := by decide +kernel

/-- Nothing is lost there either. -/
example : (allCommands (handleSibling ciscoTables (running2list ciscoTables deep twiceFlat).1)).Perm
    (allCommands (running2list ciscoTables deep twiceFlat).1) := C88_nothing_lost _ _

end NcDiff.Hoist88
