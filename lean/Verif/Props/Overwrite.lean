import Verif.Proof.OverwriteTable
/-!
# C69: commands that overwrite one another
-/

namespace NcDiff.Running

/-- What is found in a command, without blanks around it. -/
def headsOf (t : Tables) (s : Str) : List Str := (found t s).map strip

/-- C69, added commands: of the commands that overwrite one another the last one remains; all other commands remain, in
their order. -/
theorem C69_positive {t : Tables} {c : Cmds} (h : Apart t c.pos) :
    (overwrite t c).pos = keepLast (headsOf t) c.pos := by
  unfold overwrite
  simp only
  rw [over_fold]
  have key := keepLast_filter (heads := headsOf t) (l := c.pos) (k := 0)
    (P := fun i => decide (i ∉ ((events t.overwritable c.pos.zipIdx).foldl overOne ⟨c.neg, [], []⟩).drop)) (by
      intro i a ha
      rw [Nat.zero_add, decide_eq_true_iff, not_iff_not, drop_iff h.apart]
      constructor
      · rintro ⟨a', ha', m, hm, j, b, hij, hb, n, hn, e⟩
        cases Option.some.inj (ha.symm.trans ha')
        exact ⟨strip m, List.mem_map_of_mem hm, j, b, hij, hb, e ▸ List.mem_map_of_mem hn⟩
      · rintro ⟨x, hx, j, b, hij, hb, hxb⟩
        obtain ⟨m, hm, rfl⟩ := List.mem_map.1 hx
        obtain ⟨n, hn, e⟩ := List.mem_map.1 hxb
        exact ⟨a, ha, m, hm, j, b, hij, hb, n, hn, e⟩)
  exact key

/-- C69, negations: each added command of the tables takes away one negation with the same head; all other negations
remain, in their order. -/
theorem C69_negative {t : Tables} {c : Cmds} (h : Apart t c.pos) :
    (overwrite t c).neg = spend ((c.pos.flatMap (found t)).map lstrip) c.neg := by
  unfold overwrite
  simp only
  rw [over_fold, over_neg]
  have hp : ((events t.overwritable c.pos.zipIdx).map fun e => lstrip e.1).Perm ((c.pos.flatMap (found t)).map lstrip) := by
    have := (events_perm t c.pos).map lstrip
    rwa [List.map_map] at this
  have hex : Exclusive ((c.pos.flatMap (found t)).map lstrip) := by
    intro x hx y hy hxy
    obtain ⟨m, hm, rfl⟩ := List.mem_map.1 hx
    obtain ⟨n, hn, rfl⟩ := List.mem_map.1 hy
    obtain ⟨a, ha, hm⟩ := List.mem_flatMap.1 hm
    obtain ⟨b, hb, hn⟩ := List.mem_flatMap.1 hn
    exact h.exclusive a ha b hb m hm n hn hxy
  have hex' : Exclusive ((events t.overwritable c.pos.zipIdx).map fun e => lstrip e.1) :=
    fun x hx y hy => hex x (hp.mem_iff.1 hx) y (hp.mem_iff.1 hy)
  rw [eraseAll_spend _ _ hex']
  exact spend_perm _ hp hex'

/-- C69 for the tables of the code: they are apart, so this is what happens for all commands. -/
theorem C69_cisco {c : Cmds} (h : ∀ a ∈ c.pos, a.dropWhile (· = ' ') ≠ "ip address".toList ∧
    a.dropWhile (· = ' ') ≠ "ipv6 address".toList) :
    overwrite ciscoTables c = ⟨keepLast (headsOf ciscoTables) c.pos,
      spend ((c.pos.flatMap (found ciscoTables)).map lstrip) c.neg⟩ := by
  have ha := cisco_apart h
  rw [← C69_positive ha, ← C69_negative ha]

/-- C69, the printed section: after this come the removal of duplicates and of commands covered by longer or shorter
ones. -/
theorem C69_section {c : Cmds} (h : ∀ a ∈ c.pos, a.dropWhile (· = ' ') ≠ "ip address".toList ∧
    a.dropWhile (· = ' ') ≠ "ipv6 address".toList) :
    finishCli ciscoTables c = (joinLines (removePositive ciscoTables (removeDuplicates []
      (keepLast (headsOf ciscoTables) c.pos))), joinLines (removeNegative (removeDuplicates []
      (spend ((c.pos.flatMap (found ciscoTables)).map lstrip) c.neg))).reverse) := by
  unfold finishCli
  rw [C69_cisco h]

namespace OverwriteDemo

/-- Added and removed commands of an interface. -/
def cmds : Cmds := ⟨["description new".toList, "mtu 1500".toList, " description newer".toList, "ip address 10.0.0.2 255.0.0.0".toList],
  ["no description old".toList, "no shutdown".toList, "no ip address 10.0.0.1 255.0.0.0".toList]⟩

example : ∀ a ∈ cmds.pos, a.dropWhile (· = ' ') ≠ "ip address".toList ∧ a.dropWhile (· = ' ') ≠ "ipv6 address".toList := by
  decide +kernel

example : keepLast (headsOf ciscoTables) cmds.pos =
    ["mtu 1500".toList, " description newer".toList, "ip address 10.0.0.2 255.0.0.0".toList] := by decide +kernel

example : spend ((cmds.pos.flatMap (found ciscoTables)).map lstrip) cmds.neg = ["no shutdown".toList] := by decide +kernel

/-- An interface with an address and the one with two addresses in addition. -/
def before : Str := "interface Vlan1\n mtu 1500\n".toList
def after : Str := "interface Vlan1\n mtu 1500\n ip address 10.0.0.1 255.0.0.0\n ip address 10.1.0.1 255.0.0.0 secondary\n".toList

/-- C69: an interface may have a primary address and secondary ones, which do not overwrite one another on a device.
The commands are nevertheless treated as if they did: the primary address is lost, and the printed commands do not lead
to the second config. -/
theorem C69_false_for_secondary_address :
    getCli ciscoTables before after false = some "interface Vlan1\n  ip address 10.1.0.1 255.0.0.0 secondary".toList ∧
    (config2list ciscoTables after).any fun i => i.sub.any fun s => s.any fun j =>
      j.key == "ip address 10.0.0.1 255.0.0.0".toList := by
  decide +kernel

/-- An interface without an address, and the same one with an address and its lines in another order. -/
def unset : Str := "interface A\n mtu 1500\n no ip address\n".toList
def addressed : Str := "interface A\n ip address 1 2\n mtu 1500\n".toList

/-- C69: the bare command is really left out of the statement.  A removed `no ip address` is printed as `ip address`; if
it comes after the new address, it counts as the last command with this head, and the new address is lost. -/
theorem C69_false_for_bare_address :
    getCli ciscoTables unset addressed false = some "interface A\n  ip address".toList ∧
    (config2list ciscoTables addressed).any fun i => i.sub.any fun s => s.any fun j =>
      j.key == "ip address 1 2".toList := by
  decide +kernel

end OverwriteDemo

end NcDiff.Running
