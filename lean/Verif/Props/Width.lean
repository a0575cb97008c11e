import Verif.Proof.Width
import Verif.Props.Layout
/-!
# C90: the width of the indentation does not count
-/

namespace NcDiff.Running

/-- A text is read as the config that its lines write down, whatever the indentation of each section. -/
theorem C90_read {t : Tables} {l : List Item} {s : Str} (h : WrittenAs t l (spokenLines s)) : config2list t s = l := by
  have hb : NoBlocks t s := by
    intro x hx hs
    obtain ⟨k, m, hi⟩ := h.lines x hx
    cases m with
    | zero =>
      have e : x = k := by rw [hi.eq]; rfl
      rw [e, List.any_eq_false]
      intro r hr
      rw [hi.good.indented r hr]
      simp
    | succ m =>
      refine absurd ?_ hs
      rw [hi.eq, List.replicate_succ]
      rfl
  rw [parse_spoken hb, parseLines_eq, fold_written h _ rfl]
  rfl

/-- The same for a text that has no other lines. -/
theorem C90_lines {t : Tables} {l : List Item} {ls : List Str} (h : WrittenAs t l ls) : config2list t (unlines ls) = l := parse_written h

/-- All answers of a `RunningConfigDiff` are the same for texts that write down the same configs. -/
theorem C90_answers {t : Tables} {l1 l2 : List Item} {s1 s2 s1' s2' : Str}
    (h1 : WrittenAs t l1 (spokenLines (replaceCommands t s1))) (h1' : WrittenAs t l1 (spokenLines (replaceCommands t s1')))
    (h2 : WrittenAs t l2 (spokenLines (replaceCommands t s2))) (h2' : WrittenAs t l2 (spokenLines (replaceCommands t s2'))) (k : Look) :
    answerFor t s1 s2 k = answerFor t s1' s2' k :=
  answer_of_lists ((C90_read h1).trans (C90_read h1').symm) ((C90_read h2).trans (C90_read h2').symm) k

/-- Every config has a text for every choice of one width for all sections. -/
theorem C90_every_width {t : Tables} {l : List Item} (h : GoodText t l) {w : Nat} (hw : 0 < w) : ∃ ls, WrittenAs t l ls ∧
    ∀ x ∈ ls, ∃ k m, x = List.replicate (w * m) ' ' ++ k ∧ GoodLine t k := by
  induction h with
  | nil => exact ⟨[], .nil, by simp⟩
  | @leaf k l hk _ ih =>
    obtain ⟨ls, h1, h2⟩ := ih
    refine ⟨k :: ls, .leaf hk h1, fun x hx => ?_⟩
    rcases List.mem_cons.1 hx with rfl | hx
    · exact ⟨x, 0, by simp, hk⟩
    · exact h2 x hx
  | @node k s l hk hs _ _ ih1 ih2 =>
    obtain ⟨ss, g1, g2⟩ := ih1
    obtain ⟨ls, h1, h2⟩ := ih2
    refine ⟨_, .node hk hs hw g1 h1, fun x hx => ?_⟩
    rcases List.mem_cons.1 hx with rfl | hx
    · exact ⟨x, 0, by simp, hk⟩
    · rcases List.mem_append.1 hx with hx | hx
      · obtain ⟨y, hy, rfl⟩ := List.mem_map.1 hx
        obtain ⟨k', m, rfl, hk'⟩ := g2 y hy
        refine ⟨k', m + 1, ?_, hk'⟩
        rw [← List.append_assoc, List.replicate_append_replicate, Nat.mul_succ, Nat.add_comm w]
      · exact h2 x hx

end NcDiff.Running

namespace NcDiff.Width90

open Running

def narrow : Str := "interface A\n ip vrf x\n  mtu 9000\n shutdown\n!\nrouter b\n ! remark\n area 1\n".toList
def wide : Str := "interface A\n    ip vrf x\n       mtu 9000\n    shutdown\n\nrouter b\n  area 1\n".toList

def config : List Item :=
  [.mk "interface A".toList (some [.mk "ip vrf x".toList (some [.mk "mtu 9000".toList none .ctx]) .ctx, .mk "shutdown".toList none .ctx]) .ctx,
    .mk "router b".toList (some [.mk "area 1".toList none .ctx]) .ctx]

theorem good {k : Str} {c : Char} {r : Str} (h : k = c :: r)
    (hd : (isSpace c = false ∧ c ≠ '!' ∧ c ≠ '%') ∧ rstrip k = k ∧ (∀ c ∈ k, isBreak c = false) ∧
      (¬ "Building configuration".toList <+: k ∧ ¬ "Current configuration".toList <+: k) ∧
      ciscoTables.missingIndent.all (fun r => !r k) = true) : GoodLine ciscoTables k := by
  obtain ⟨h1, h2, h3, h4, h5⟩ := hd
  refine ⟨⟨c, r, h, h1⟩, h2, h3, h4, fun r hr => ?_⟩
  have := List.all_eq_true.1 h5 r hr
  simpa using this

theorem good_interface : GoodLine ciscoTables "interface A".toList := good rfl (by decide +kernel)
theorem good_vrf : GoodLine ciscoTables "ip vrf x".toList := good rfl (by decide +kernel)
theorem good_mtu : GoodLine ciscoTables "mtu 9000".toList := good rfl (by decide +kernel)
theorem good_shutdown : GoodLine ciscoTables "shutdown".toList := good rfl (by decide +kernel)
theorem good_router : GoodLine ciscoTables "router b".toList := good rfl (by decide +kernel)
theorem good_area : GoodLine ciscoTables "area 1".toList := good rfl (by decide +kernel)

theorem written_with (a b c : Nat) (ha : 0 < a) (hb : 0 < b) (hc : 0 < c) : WrittenAs ciscoTables config
    ("interface A".toList :: (("ip vrf x".toList :: (["mtu 9000".toList].map (List.replicate b ' ' ++ ·) ++ ["shutdown".toList])).map
      (List.replicate a ' ' ++ ·) ++ "router b".toList :: (["area 1".toList].map (List.replicate c ' ' ++ ·) ++ []))) :=
  .node good_interface (by simp) ha (.node good_vrf (by simp) hb (.leaf good_mtu .nil) (.leaf good_shutdown .nil))
    (.node good_router (by simp) hc (.leaf good_area .nil) .nil)

theorem narrow_written : WrittenAs ciscoTables config (spokenLines (replaceCommands ciscoTables narrow)) := by
  have e : spokenLines (replaceCommands ciscoTables narrow) = _ :=
    (by decide +kernel : _ = ("interface A".toList :: (("ip vrf x".toList :: (["mtu 9000".toList].map (List.replicate 1 ' ' ++ ·) ++
      ["shutdown".toList])).map (List.replicate 1 ' ' ++ ·) ++ "router b".toList :: (["area 1".toList].map (List.replicate 1 ' ' ++ ·) ++ []))))
  rw [e]
  exact written_with 1 1 1 (by omega) (by omega) (by omega)

theorem wide_written : WrittenAs ciscoTables config (spokenLines (replaceCommands ciscoTables wide)) := by
  have e : spokenLines (replaceCommands ciscoTables wide) = _ :=
    (by decide +kernel : _ = ("interface A".toList :: (("ip vrf x".toList :: (["mtu 9000".toList].map (List.replicate 3 ' ' ++ ·) ++
      ["shutdown".toList])).map (List.replicate 4 ' ' ++ ·) ++ "router b".toList :: (["area 1".toList].map (List.replicate 2 ' ' ++ ·) ++ []))))
  rw [e]
  exact written_with 4 3 2 (by omega) (by omega) (by omega)

/-- Both texts are read as the same config, and so the answers are the same. -/
example (k : Look) : answerFor ciscoTables narrow wide k = answerFor ciscoTables wide narrow k :=
  C90_answers narrow_written wide_written wide_written narrow_written k

example : config2list ciscoTables (replaceCommands ciscoTables wide) = config := C90_read wide_written

/-- The lines of one section have to be indented alike: a line with fewer blanks than the first one of its section is read as a part of the line above. -/
theorem C90_ragged : config2list ciscoTables "interface A\n  shutdown\n mtu 9000\n".toList =
    [.mk "interface A".toList (some [.mk "shutdown".toList (some [.mk "mtu 9000".toList none .ctx]) .ctx]) .ctx] := by decide +kernel

end NcDiff.Width90
