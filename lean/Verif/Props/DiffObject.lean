import Verif.Proof.DiffObject
import Verif.Props.Printed
/-!
# C87: a running-config diff as an object
-/

namespace NcDiff.Running

/-- Whatever a caller does with an object, and in whatever order: each look succeeds and gives what the texts give that the object had when it
was looked at for the first time. -/
theorem C87_history (t : Tables) (s1 s2 : Str) (us : List Use) : ∃ vs, DiffObj.run t (.new s1 s2) us = some vs ∧
    vs.map some = (looks us).map (answerFor t (textsAtFirstLook s1 s2 us).1 (textsAtFirstLook s1 s2 us).2) :=
  run_new t us s1 s2

/-- If the texts are not assigned, looks do not influence each other. -/
theorem C87_looks_only (t : Tables) (s1 s2 : Str) (ls : List Look) : ∃ vs, DiffObj.run t (.new s1 s2) (ls.map .look) = some vs ∧
    vs.map some = ls.map (answerFor t s1 s2) := by
  obtain ⟨vs, h1, h2⟩ := C87_history t s1 s2 (ls.map .look)
  refine ⟨vs, h1, ?_⟩
  have e1 : looks (ls.map .look) = ls := by
    unfold looks
    rw [List.filterMap_map]
    exact List.filterMap_some
  have e2 : textsAtFirstLook s1 s2 (ls.map .look) = (s1, s2) := by cases ls <;> rfl
  rw [e1, e2] at h2
  exact h2

theorem str_new (t : Tables) (s1 s2 : Str) : (DiffObj.new s1 s2).str t = diffStr t s1 s2 := by
  obtain ⟨a, b, h⟩ := lists_exist t s1 s2
  unfold DiffObj.str DiffObj.new
  rw [getDiff_new h, diffStr, h.forward]
  cases a <;> simp [listOrNone, list2config]

theorem shape_of {t : Tables} {s1 s2 : Str} {d : List Item} (h : getDiff t s1 s2 false = some d) : DiffShape d := by
  have p1 := siblingFuel_parsed (t := t) (Item.heightList (running2list t s1 s2).1) _
    (orderlessFuel_parsed (t := t) (Item.heightList (config2list t (replaceCommands t s1))) 0 _
      (config2list t (replaceCommands t s2)) (config2list_ok t (replaceCommands t s1)))
  have p2 := siblingFuel_parsed (t := t) (Item.heightList (running2list t s1 s2).2) _
    (config2list_ok t (replaceCommands t s2))
  obtain ⟨d', hd, hf⟩ := compare_faithful (handleSibling t (running2list t s1 s2).1)
    (handleSibling t (running2list t s1 s2).2)
  have hg : getDiff t s1 s2 false = some d' := hd
  rw [Option.some.inj (h.symm.trans hg)]
  exact hf.shape p1 p2

/-- Two objects are equal iff their diffs have the same lines in the same order, with the same marks and depths. -/
theorem C87_equal_lines (t : Tables) (s1 s2 s1' s2' : Str) : ∃ d d' b, getDiff t s1 s2 false = some d ∧ getDiff t s1' s2' false = some d' ∧
    DiffObj.eq t (.new s1 s2) (.new s1' s2') = some b ∧ (b = true ↔ entries .ctx 0 d = entries .ctx 0 d') := by
  obtain ⟨d, ls, h1, h2, h3, h4, _⟩ := C48_lines t s1 s2
  obtain ⟨d', ls', h1', h2', h3', h4', _⟩ := C48_lines t s1' s2'
  refine ⟨d, d', unlines ls == unlines ls', h1, h1', ?_, ?_⟩
  · unfold DiffObj.eq
    rw [str_new, str_new, h2, h2']
    rfl
  · rw [beq_iff_eq]
    constructor
    · intro h
      rw [unlines_inj h3 h3' h, h4'] at h4
      exact (List.map_injective_iff.2 (fun _ _ h => Option.some.inj h) h4).symm
    · intro h
      have e1 : diffStr t s1 s2 = some (unlines ((entries .ctx 0 d).map entryLine)) := by
        unfold diffStr
        rw [h1, Option.map_some, list2config_entries (m := .ctx) (by decide) d (shape_of h1)]
      have e2 : diffStr t s1' s2' = some (unlines ((entries .ctx 0 d').map entryLine)) := by
        unfold diffStr
        rw [h1', Option.map_some, list2config_entries (m := .ctx) (by decide) d' (shape_of h1')]
      rw [h2] at e1
      rw [h2'] at e2
      rw [Option.some.inj e1, Option.some.inj e2, h]

/-- If no section is empty, equal objects have the same diff, and so the same commands. -/
theorem C87_equal_diffs (t : Tables) (s1 s2 s1' s2' : Str) {d d' : List Item} (h : getDiff t s1 s2 false = some d)
    (h' : getDiff t s1' s2' false = some d') (hf : NoEmptySection d) (hf' : NoEmptySection d') :
    (DiffObj.eq t (.new s1 s2) (.new s1' s2') = some true ↔ d = d') ∧
    (DiffObj.eq t (.new s1 s2) (.new s1' s2') = some true → getCli t s1 s2 false = getCli t s1' s2' false) := by
  obtain ⟨e, e', b, g1, g2, g3, g4⟩ := C87_equal_lines t s1 s2 s1' s2'
  rw [h] at g1
  rw [h'] at g2
  cases g1
  cases g2
  have key : DiffObj.eq t (.new s1 s2) (.new s1' s2') = some true ↔ d = d' := by
    rw [g3, Option.some.injEq, g4]
    constructor
    · intro he
      exact (entries_inj .ctx (by decide) 0 d d' [] [] (shape_of h) (shape_of h') hf hf' (by simp) (by simp) (by simpa using he)).1
    · intro he
      rw [he]
  refine ⟨key, fun he => ?_⟩
  unfold getCli
  rw [h, h', key.1 he]

/-- Equality is an equivalence relation. -/
theorem C87_equivalence (t : Tables) (o1 o2 o3 : Str × Str) :
    DiffObj.eq t (.new o1.1 o1.2) (.new o1.1 o1.2) = some true ∧
    DiffObj.eq t (.new o1.1 o1.2) (.new o2.1 o2.2) = DiffObj.eq t (.new o2.1 o2.2) (.new o1.1 o1.2) ∧
    (DiffObj.eq t (.new o1.1 o1.2) (.new o2.1 o2.2) = some true → DiffObj.eq t (.new o2.1 o2.2) (.new o3.1 o3.2) = some true →
      DiffObj.eq t (.new o1.1 o1.2) (.new o3.1 o3.2) = some true) := by
  have tot : ∀ o : Str × Str, ∃ s, (DiffObj.new o.1 o.2).str t = some s := by
    intro o
    obtain ⟨_, ls, _, h, _⟩ := C48_lines t o.1 o.2
    exact ⟨_, by rw [str_new]; exact h⟩
  obtain ⟨a, ha⟩ := tot o1
  obtain ⟨b, hb⟩ := tot o2
  obtain ⟨c, hc⟩ := tot o3
  have e : ∀ {o o' : DiffObj} {s s' : Str}, o.str t = some s → o'.str t = some s' → DiffObj.eq t o o' = some (s == s') := by
    intro o o' s s' h h'
    unfold DiffObj.eq
    rw [h, h']
    rfl
  rw [e ha ha, e ha hb, e hb ha, e hb hc, e ha hc]
  refine ⟨by simp, by rw [BEq.comm], fun h1 h2 => ?_⟩
  simp only [Option.some.injEq, beq_iff_eq] at h1 h2 ⊢
  exact h1.trans h2

end NcDiff.Running

namespace NcDiff.Object87

open Running

def one : Str := "interface A\n  shutdown\nhostname x".toList
def two : Str := "interface A\n  mtu 9000\nhostname x".toList

/-- A text that is assigned after the first look has no effect: the object still shows the difference although the two texts are the same.  Before the first look it
has. -/
theorem C87_assigned_too_late :
    (DiffObj.run ciscoTables (.new one two) [.look .bool, .assign2 one, .look .bool, .look .str]).map (·.map fun v => match v with
      | .truth b => (b, [])
      | .text s => (false, s)
      | .list _ => (false, [])) = some [(true, []), (true, []), (false, "  interface A\n-   shutdown\n+   mtu 9000\n".toList)] ∧
    (DiffObj.run ciscoTables (.new one two) [.assign2 one, .look .bool]).map (·.map fun v => match v with
      | .truth b => b
      | _ => true) = some [false] := by decide +kernel

/-- A history with several looks. -/
example := C87_history ciscoTables one two [.assign1 two, .look .cli, .look .str, .assign2 one, .look .cliReverse, .look .diff]

/-- The diff of the two texts. -/
def diff12 : List Item := [.mk "interface A".toList (some [.mk "shutdown".toList none .del, .mk "mtu 9000".toList none .add]) .ctx]

/-- Other texts with the same diff. -/
def one' : Str := "hostname y\ninterface A\n  shutdown".toList
def two' : Str := "hostname y\ninterface A\n  mtu 9000".toList

/-- The hypotheses of `C87_equal_diffs` are met. -/
theorem full : NoEmptySection diff12 := by
  refine .mk ?_ ?_
  · intro i hi h
    rcases List.mem_cons.1 hi with rfl | hi
    · cases h
    · cases hi
  · intro i hi s hs
    rcases List.mem_cons.1 hi with rfl | hi
    · cases hs
      refine .mk ?_ ?_
      · intro i hi h
        rcases List.mem_cons.1 hi with rfl | hi
        · cases h
        · rcases List.mem_cons.1 hi with rfl | hi
          · cases h
          · cases hi
      · intro i hi s hs
        rcases List.mem_cons.1 hi with rfl | hi
        · cases hs
        · rcases List.mem_cons.1 hi with rfl | hi
          · cases hs
          · cases hi
    · cases hi

theorem diffs : getDiff ciscoTables one two false = some diff12 ∧ getDiff ciscoTables one' two' false = some diff12 := by decide +kernel

example : DiffObj.eq ciscoTables (.new one two) (.new one' two') = some true :=
  (C87_equal_diffs ciscoTables one two one' two' diffs.1 diffs.2 full full).1.2 rfl

/-- Without the condition on sections, equal objects can have different commands: a section that consists of a header line only is printed
like a command without a section. -/
theorem C87_equal_but_other_commands :
    let s := "no x\n  Building configuration of y\nz".toList
    let s' := "no x\nz".toList
    DiffObj.eq ciscoTables (.new [] s) (.new [] s') = some true ∧
    getCli ciscoTables [] s false = some "no x\nz".toList ∧ getCli ciscoTables [] s' false = some "no x\n!\nz".toList := by decide +kernel

end NcDiff.Object87
