import Verif.Proof.PrintedPaths
import Verif.Props.Text
/-!
# Property C48: the printed running-config diff

The theorems hold for every table of special commands.
-/

namespace NcDiff.Running

/-- C48: printing a diff of any two texts works; the result is a sequence of lines, each of which can
be read (`readLine`) as the mark, the depth and the command of a line of the diff, in the order of the
diff; nothing is left out and nothing is added. -/
theorem C48_lines (t : Tables) (s1 s2 : Str) : ∃ d ls, getDiff t s1 s2 false = some d ∧
    diffStr t s1 s2 = some (unlines ls) ∧ (∀ l ∈ ls, '\n' ∉ l) ∧
    ls.map readLine = (entries .ctx 0 d).map some ∧ (ls = [] ↔ diffBool t s1 s2 = some false) := by
  have p1 := siblingFuel_parsed (t := t) (Item.heightList (running2list t s1 s2).1) _
    (orderlessFuel_parsed (t := t) (Item.heightList (config2list t (replaceCommands t s1))) 0 _
      (config2list t (replaceCommands t s2)) (config2list_ok t (replaceCommands t s1)))
  have p2 := siblingFuel_parsed (t := t) (Item.heightList (running2list t s1 s2).2) _
    (config2list_ok t (replaceCommands t s2))
  obtain ⟨d, hd, hf⟩ := compare_faithful (handleSibling t (running2list t s1 s2).1)
    (handleSibling t (running2list t s1 s2).2)
  have hg : getDiff t s1 s2 false = some d := hd
  have hs : DiffShape d := hf.shape p1 p2
  have hb : Below .ctx d := hs
  have hok := entries_ok (m := .ctx) (by decide) 0 d hb
  refine ⟨d, (entries .ctx 0 d).map entryLine, hg, ?_, ?_, ?_, ?_⟩
  · unfold diffStr
    rw [hg, Option.map_some, list2config_entries (by decide) d hb]
  · intro l hl hn
    obtain ⟨e, he, rfl⟩ := List.mem_map.1 hl
    exact absurd (entryLine_oneLine (hok e he) _ hn) (by decide)
  · rw [List.map_map]
    exact List.map_congr_left (fun e he => readLine_entry (hok e he))
  · unfold diffBool
    rw [hg]
    cases d with
    | nil => simp [entries]
    | cons a r => obtain ⟨k, s, i⟩ := a; simp [entries, itemEntries]

/-- C48: what one reads from the printed diff of any two texts.  The lists are the compared ones, after
orderless commands were aligned and sibling commands were moved up.  A `-` line is a line of the first
list, a `+` line one of the second, an unmarked line is in both; every line that is only in the first
is printed with `-` and every line that is only in the second with `+`. -/
theorem C48_reading (t : Tables) (s1 s2 : Str) : ∃ ls, diffStr t s1 s2 = some (unlines ls) ∧
    (∀ l ∈ ls, '\n' ∉ l ∧ (readLine l).isSome = true) ∧
    (∀ p, (Info.del, p) ∈ reading ls → hasPath (handleSibling t (running2list t s1 s2).1) p) ∧
    (∀ p, (Info.add, p) ∈ reading ls → hasPath (handleSibling t (running2list t s1 s2).2) p) ∧
    (∀ p, (Info.ctx, p) ∈ reading ls → hasPath (handleSibling t (running2list t s1 s2).1) p ∧
      hasPath (handleSibling t (running2list t s1 s2).2) p) ∧
    (∀ p, hasPath (handleSibling t (running2list t s1 s2).1) p →
      ¬ hasPath (handleSibling t (running2list t s1 s2).2) p → (Info.del, p) ∈ reading ls) ∧
    (∀ p, hasPath (handleSibling t (running2list t s1 s2).2) p →
      ¬ hasPath (handleSibling t (running2list t s1 s2).1) p → (Info.add, p) ∈ reading ls) := by
  have p1 := siblingFuel_parsed (t := t) (Item.heightList (running2list t s1 s2).1) _
    (orderlessFuel_parsed (t := t) (Item.heightList (config2list t (replaceCommands t s1))) 0 _
      (config2list t (replaceCommands t s2)) (config2list_ok t (replaceCommands t s1)))
  have p2 := siblingFuel_parsed (t := t) (Item.heightList (running2list t s1 s2).2) _
    (config2list_ok t (replaceCommands t s2))
  obtain ⟨d', hd', hf⟩ := compare_faithful (handleSibling t (running2list t s1 s2).1)
    (handleSibling t (running2list t s1 s2).2)
  obtain ⟨d, ls, hd, hp, hn, hl, _⟩ := C48_lines t s1 s2
  obtain rfl : d = d' := Option.some.inj (hd.symm.trans hd')
  have hr : ∀ m p, (m, p) ∈ reading ls ↔ Shown .ctx d m p := by
    intro m p
    have e : ls.filterMap readLine = entries .ctx 0 d := by
      have h1 : (ls.map readLine).filterMap id = entries .ctx 0 d := by
        rw [hl, List.filterMap_map]
        exact List.filterMap_some
      rw [List.filterMap_map] at h1
      exact h1
    unfold reading
    rw [e, shown_iff]
  refine ⟨ls, hp, ?_, ?_, ?_, ?_, ?_, ?_⟩
  · intro l hm
    refine ⟨hn l hm, ?_⟩
    have : readLine l ∈ ls.map readLine := List.mem_map.2 ⟨l, hm, rfl⟩
    rw [hl] at this
    obtain ⟨e, _, he⟩ := List.mem_map.1 this
    rw [← he]
    rfl
  · intro p h
    exact (hf.shown_sound p1 p2 ((hr _ _).1 h)).1 (by decide)
  · intro p h
    exact (hf.shown_sound p1 p2 ((hr _ _).1 h)).2.1 (by decide)
  · intro p h
    have := hf.shown_sound p1 p2 ((hr _ _).1 h)
    exact ⟨this.1 (by decide), this.2.1 (by decide)⟩
  · intro p h1 h2
    exact (hr _ _).2 ((hf.shown_complete p).1 h1 h2)
  · intro p h1 h2
    exact (hr _ _).2 ((hf.shown_complete p).2 h1 h2)

/-- C48 for texts without repeated lines and without sibling commands: what one reads from the printed
diff, in terms of the lines of the two texts. -/
theorem C48_texts (t : Tables) (s1 s2 : Str)
    (h1 : Distinct (config2list t (replaceCommands t s1))) (h2 : Distinct (config2list t (replaceCommands t s2)))
    (a1 : AllLines (fun k => ∀ r ∈ t.sibling, r k = false) (config2list t (replaceCommands t s1)))
    (a2 : AllLines (fun k => ∀ r ∈ t.sibling, r k = false) (config2list t (replaceCommands t s2))) :
    ∃ ls, diffStr t s1 s2 = some (unlines ls) ∧ (∀ l ∈ ls, '\n' ∉ l ∧ (readLine l).isSome = true) ∧
    (∀ p, (Info.del, p) ∈ reading ls → hasPath (config2list t (replaceCommands t s1)) p) ∧
    (∀ p, (Info.add, p) ∈ reading ls → hasPath (config2list t (replaceCommands t s2)) p) ∧
    (∀ p, (Info.ctx, p) ∈ reading ls → hasPath (config2list t (replaceCommands t s1)) p ∧
      hasPath (config2list t (replaceCommands t s2)) p) ∧
    (∀ p, hasPath (config2list t (replaceCommands t s1)) p →
      ¬ hasPath (config2list t (replaceCommands t s2)) p → (Info.del, p) ∈ reading ls) ∧
    (∀ p, hasPath (config2list t (replaceCommands t s2)) p →
      ¬ hasPath (config2list t (replaceCommands t s1)) p → (Info.add, p) ∈ reading ls) := by
  have hsh := C21_orderless_only_moves t _ _ 0 h1 h2
  have e1 : handleSibling t (running2list t s1 s2).1 = (running2list t s1 s2).1 :=
    siblingFuel_id _ (hsh.allLines a1)
  have e2 : handleSibling t (running2list t s1 s2).2 = (running2list t s1 s2).2 := siblingFuel_id _ a2
  have hp : ∀ p, hasPath (running2list t s1 s2).1 p ↔ hasPath (config2list t (replaceCommands t s1)) p :=
    fun p => (hsh.hasPath p).symm
  obtain ⟨ls, b1, b2, b3, b4, b5, b6, b7⟩ := C48_reading t s1 s2
  rw [e1] at b3 b5 b6 b7
  rw [e2] at b4 b5 b6 b7
  refine ⟨ls, b1, b2, fun p h => (hp p).1 (b3 p h), b4, fun p h => ⟨(hp p).1 (b5 p h).1, (b5 p h).2⟩, ?_, ?_⟩
  · intro p h1 h2
    exact b6 p ((hp p).2 h1) h2
  · intro p h1 h2
    exact b7 p h1 (fun h => h2 ((hp p).1 h))

/-! ## Concrete cases -/

namespace Demo

theorem aloneB {l : List Item} (n : Nat) (h : allLinesB (fun k => ciscoTables.sibling.all (fun r => !r k)) n l = true) :
    AllLines (fun k => ∀ r ∈ ciscoTables.sibling, r k = false) l :=
  allLinesB_sound (fun k hk r hr => by simpa using List.all_eq_true.1 hk r hr) n l h

example : ∃ ls, diffStr ciscoTables paste1 paste2 = some (unlines ls) ∧
    ∀ p, hasPath (config2list ciscoTables (replaceCommands ciscoTables paste1)) p →
      ¬ hasPath (config2list ciscoTables (replaceCommands ciscoTables paste2)) p → (Info.del, p) ∈ reading ls := by
  obtain ⟨ls, h1, _, _, _, _, h2, _⟩ := C48_texts ciscoTables paste1 paste2 paste_ok.distinct1 paste_ok.distinct2
    (aloneB 5 (by decide +kernel)) (aloneB 5 (by decide +kernel))
  exact ⟨ls, h1, h2⟩

/-- The printed diff of that case, and what one reads from it. -/
example : diffStr ciscoTables paste1 paste2 = some
    "- hostname r1\n+ hostname r2\n- interface Loopback0\n-   mtu 1500\n  vlan 1\n+   name a\n  router bgp 1\n    address-family ipv4\n-     maximum-paths 2\n+     maximum-paths 4\n+   timers bgp 1 3\n".toList ∧
    reading (splitLines "- interface Loopback0\n-   mtu 1500\n  router bgp 1\n    address-family ipv4\n-     maximum-paths 2\n+   timers bgp 1 3\n".toList) =
      [(.del, ["interface Loopback0".toList]), (.del, ["interface Loopback0".toList, "mtu 1500".toList]),
       (.ctx, ["router bgp 1".toList]), (.ctx, ["router bgp 1".toList, "address-family ipv4".toList]),
       (.del, ["router bgp 1".toList, "address-family ipv4".toList, "maximum-paths 2".toList]),
       (.add, ["router bgp 1".toList, "timers bgp 1 3".toList])] := by
  decide +kernel

/-- C48 does not hold for the texts themselves when an orderless line is repeated: the section of the
second of two equal lines is lost, so that a line that only the first text has is not printed. -/
theorem C48_false_with_repeated_lines :
    diffStr ciscoTables "ntp server a\n b\nntp server a\n c\n".toList "ntp server a\n b\n".toList = some [] ∧
    hasPath (config2list ciscoTables "ntp server a\n b\nntp server a\n c\n".toList) ["ntp server a".toList, "c".toList] ∧
    ¬ hasPath (config2list ciscoTables "ntp server a\n b\n".toList) ["ntp server a".toList, "c".toList] := by
  have e1 : config2list ciscoTables "ntp server a\n b\nntp server a\n c\n".toList =
      [.mk "ntp server a".toList (some [.mk ['b'] none .ctx]) .ctx,
       .mk "ntp server a".toList (some [.mk ['c'] none .ctx]) .ctx] := by decide +kernel
  have e2 : config2list ciscoTables "ntp server a\n b\n".toList =
      [.mk "ntp server a".toList (some [.mk ['b'] none .ctx]) .ctx] := by decide +kernel
  refine ⟨by decide +kernel, ?_, ?_⟩
  · rw [e1, hasPath_step]
    refine ⟨.mk "ntp server a".toList (some [.mk ['c'] none .ctx]) .ctx, by simp, rfl, Or.inr ⟨_, rfl, ?_⟩⟩
    rw [hasPath_step]
    exact ⟨.mk ['c'] none .ctx, by simp, rfl, Or.inl rfl⟩
  · rw [e2]
    intro h
    obtain ⟨i, hi, _, h⟩ := hasPath_step.1 h
    rw [List.mem_singleton] at hi
    subst hi
    rcases h with h | ⟨s, hs, h⟩
    · simp at h
    · obtain rfl := Option.some.inj hs
      obtain ⟨j, hj, hk, _⟩ := hasPath_step.1 h
      rw [List.mem_singleton] at hj
      subst hj
      exact absurd hk (by decide)

end Demo

end NcDiff.Running
