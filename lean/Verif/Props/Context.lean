import Verif.Proof.Context
/-!
# C37: the table of dependencies between YANG files

`fd` is any folder: any files, any imports and includes (cycles are allowed), any files that pyang
rejects or that raise.  `n` is the number of threads.  A run is any interleaving of the steps of the
threads.  In the code `n` is 1 or 2, depending on the version of pyang.
-/

namespace NcDiff.Context

/-- **C37.**  If there is one thread, or if the table is there before the threads are started, and if
there is at most one file for every module: when the threads are joined, the table has exactly the
entries of the files, each once. -/
theorem C37_complete {fd : Folder} (h1 : fd.OnePerModule) {n k : Nat} {deps : Option (List Node)}
    (hs : Safe n deps) {s : State} (hrun : Run fd k (init fd n deps) s) (hret : s.returned = true) :
    (entries s).Perm fd.all := by
  have hg := good_init fd hs
  exact tidy_returned (inv_run hrun hg.inv) (tidy_run h1 hrun hg.tidy) hret

/-- **C37.**  Then `get_dependencies` answers as the files say. -/
theorem C37_dependencies {fd : Folder} (h1 : fd.OnePerModule) {n k : Nat}
    {deps : Option (List Node)} (hs : Safe n deps) {s : State}
    (hrun : Run fd k (init fd n deps) s) (hret : s.returned = true) (m : Module) :
    (∀ i, i ∈ (getDependencies (entries s) m).1 ↔ fd.Imports m i) ∧
    (∀ d, d ∈ (getDependencies (entries s) m).2 ↔ fd.DependsOn d m) := by
  have hp := C37_complete h1 hs hrun hret
  have hmem : ∀ e, e ∈ entries s ↔ ∃ f ∈ fd.files, fd.outcome f = .stmt e := by
    intro e
    rw [hp.mem_iff, Folder.all, List.mem_filterMap]
    refine exists_congr fun f => and_congr_right fun _ => ?_
    cases fd.outcome f <;> simp [Outcome.entry?]
  constructor
  · intro i
    simp only [getDependencies, List.mem_flatten, List.mem_map, List.mem_filter, hmem,
      decide_eq_true_eq, Folder.Imports]
    constructor
    · rintro ⟨_, ⟨e, ⟨⟨f, hf, he⟩, hid⟩, rfl⟩, hi⟩
      exact ⟨f, hf, e, he, hid, hi⟩
    · rintro ⟨f, hf, e, he, hid, hi⟩
      exact ⟨_, ⟨e, ⟨⟨f, hf, he⟩, hid⟩, rfl⟩, hi⟩
  · intro d
    simp only [getDependencies, List.mem_map, List.mem_filter, hmem, decide_eq_true_eq,
      Folder.DependsOn]
    constructor
    · rintro ⟨e, ⟨⟨f, hf, he⟩, hm⟩, hid⟩
      exact ⟨f, hf, e, he, hid, hm⟩
    · rintro ⟨f, hf, e, he, hid, hm⟩
      exact ⟨e, ⟨⟨f, hf, he⟩, hm⟩, hid⟩

/-- **C37.**  With any number of threads, at any time, and whatever happens: the table has nothing
that is not in the files. -/
theorem C37_sound {fd : Folder} {n k : Nat} {deps : Option (List Node)}
    (hd : deps = none ∨ deps = some []) {s : State} (hrun : Run fd k (init fd n deps) s) :
    ∀ e ∈ entries s, ∃ f ∈ fd.files, fd.outcome f = .stmt e := by
  intro e he
  have := (inv_run hrun (inv_init fd n hd)).sound e he
  obtain ⟨f, hf, ho⟩ := List.mem_filterMap.mp this
  refine ⟨f, hf, ?_⟩
  cases h : fd.outcome f <;> simp [h, Outcome.entry?] at ho
  rw [ho]

/-- **C37.**  If no file raises, building the table ends under every schedule: there is a bound on
the number of steps, every run can be continued to one in which `join` has returned, and nothing can
ever be stuck. -/
theorem C37_terminates {fd : Folder} (h1 : fd.OnePerModule)
    (hfine : ∀ f ∈ fd.files, fd.outcome f ≠ .raises) {n : Nat} {deps : Option (List Node)}
    (hs : Safe n deps) :
    ∃ B, ∀ k s, Run fd k (init fd n deps) s →
      k ≤ B ∧ (∃ j t, Run fd j s t ∧ t.returned = true) ∧
      ((¬ ∃ t, Step fd s t) → s.returned = true ∧ ∀ w ∈ s.workers, w = .exited) := by
  refine ⟨bound (init fd n deps), fun k s hrun => ?_⟩
  obtain ⟨hg, hb⟩ := good_run h1 hfine hrun (good_init fd hs)
  refine ⟨by omega, ?_, fun hend => ?_⟩
  · obtain ⟨j, t, hr, hend⟩ := run_to_end h1 hfine _ hg (Nat.le_refl _)
    obtain ⟨hg', _⟩ := good_run h1 hfine hr hg
    exact ⟨j, t, hr, (no_deadlock hg'.inv hg'.live hend).1⟩
  · have := no_deadlock hg.inv hg.live hend
    exact ⟨this.1, this.2.2⟩

/-- **C37.**  A single file whose reading or parsing raises, for example one that is not UTF-8, makes
`load_context` wait for ever, whatever the schedule and the number of threads. -/
theorem C37_raising_file_hangs {fd : Folder} {n k : Nat} {deps : Option (List Node)}
    (hd : deps = none ∨ deps = some []) {f : File} (hf : f ∈ fd.files)
    (hr : fd.outcome f = .raises) {s : State} (hrun : Run fd k (init fd n deps) s) :
    s.returned = false := by
  cases h : s.returned with
  | false => rfl
  | true => exact absurd hr (returned_fine (inv_run hrun (inv_init fd n hd)) h f hf)

/-! ## Two modules -/

namespace Demo

def a : Entry := ⟨"a", [], []⟩

/-- `b` imports `a`, for example in order to augment it. -/
def b : Entry := ⟨"b", [], ["a"]⟩

def fd : Folder where
  files := ["a.yang", "b.yang"]
  outcome := fun f => if f = "a.yang" then .stmt a else if f = "b.yang" then .stmt b else .nothing

theorem fd_one : fd.OnePerModule := by unfold Folder.OnePerModule; decide +kernel

theorem fd_fine : ∀ f ∈ fd.files, fd.outcome f ≠ .raises := by decide +kernel

/-- The hypotheses of the theorems are met, with one thread and with two. -/
example : ∃ k s, Run fd k (init fd 1 none) s ∧ s.returned = true := by
  obtain ⟨B, h⟩ := C37_terminates fd_one fd_fine (n := 1) (.inl ⟨rfl, rfl⟩)
  obtain ⟨_, ⟨j, t, hr, ht⟩, _⟩ := h 0 _ .refl
  exact ⟨j, t, hr, ht⟩

example : ∃ k s, Run fd k (init fd 2 (some [])) s ∧ s.returned = true := by
  obtain ⟨B, h⟩ := C37_terminates fd_one fd_fine (n := 2) (.inr ⟨by decide, rfl⟩)
  obtain ⟨_, ⟨j, t, hr, ht⟩, _⟩ := h 0 _ .refl
  exact ⟨j, t, hr, ht⟩

example : fd.DependsOn "b" "a" :=
  ⟨"b.yang", by decide, b, rfl, rfl, .inl (by decide)⟩

/-- C37 does not extend to two threads that find that there is no table: both create one, and the
entries of the first are lost.  Here nothing is known to depend on `a` although `b` imports it. -/
theorem C37_race : ∃ k s, Run fd k (init fd 2 none) s ∧ s.returned = true ∧
    entries s = [a] ∧ (getDependencies (entries s) "a").2 = [] ∧ fd.DependsOn "b" "a" := by
  refine ⟨_, _, (((((((((((((((((((((((Run.refl.step .start).step .start).step
    (.worker (pre := []) (post := [.check]) (.enter (by decide)))).step
    (.worker (pre := []) (post := [.check]) (.take rfl))).step
    (.worker (pre := [.parse "a.yang"]) (post := []) (.enter (by decide)))).step
    (.worker (pre := [.parse "a.yang"]) (post := []) (.take rfl))).step
    (.worker (pre := []) (post := [.parse "b.yang"]) (.parses (e := a) rfl))).step
    (.worker (pre := []) (post := [.parse "b.yang"]) (.isNone rfl))).step
    (.worker (pre := [.create a]) (post := []) (.parses (e := b) rfl))).step
    (.worker (pre := [.create a]) (post := []) (.isNone rfl))).step
    (.worker (pre := [.create a]) (post := []) .creates)).step
    (.worker (pre := [.create a]) (post := []) .scans)).step
    (.worker (pre := [.create a]) (post := []) .appends)).step
    (.worker (pre := [.create a]) (post := []) .fills)).step
    (.worker (pre := [.create a]) (post := []) .finish)).step
    (.worker (pre := []) (post := [.check]) .creates)).step
    (.worker (pre := []) (post := [.check]) .scans)).step
    (.worker (pre := []) (post := [.check]) .appends)).step
    (.worker (pre := []) (post := [.check]) .fills)).step
    (.worker (pre := []) (post := [.check]) .finish)).step
    (.worker (pre := []) (post := [.check]) (.exit rfl))).step
    (.worker (pre := [.exited]) (post := []) (.exit rfl))).step (.join rfl)), rfl, rfl, rfl,
    ⟨"b.yang", by decide, b, rfl, rfl, .inl (by decide)⟩⟩

/-- Three revisions of the same module. -/
def three : Folder where
  files := ["a.yang", "a@1.yang", "a@2.yang"]
  outcome := fun _ => .stmt a

/-- Nor to several files for the same module: two threads find the node of the first file and both
remove it, which kills one of them.  From then on nothing can make `join` return. -/
theorem C37_same_module_hangs : ∃ k s, Run three k (init three 2 (some [])) s ∧
    ∀ j t, Run three j s t → t.returned = false := by
  have hrun := ((((((((((((((((((((((Run.refl (fd := three) (s := init three 2 (some []))).step
    .start).step .start).step
    (.worker (pre := []) (post := [.check]) (.enter (by decide)))).step
    (.worker (pre := []) (post := [.check]) (.take rfl))).step
    (.worker (pre := []) (post := [.check]) (.parses (e := a) rfl))).step
    (.worker (pre := []) (post := [.check]) (.isSome (by decide)))).step
    (.worker (pre := []) (post := [.check]) .scans)).step
    (.worker (pre := []) (post := [.check]) .appends)).step
    (.worker (pre := []) (post := [.check]) .fills)).step
    (.worker (pre := []) (post := [.check]) .finish)).step
    (.worker (pre := []) (post := [.check]) (.enter (by decide)))).step
    (.worker (pre := []) (post := [.check]) (.take rfl))).step
    (.worker (pre := []) (post := [.check]) (.parses (e := a) rfl))).step
    (.worker (pre := []) (post := [.check]) (.isSome (by decide)))).step
    (.worker (pre := []) (post := [.check]) .scans)).step
    (.worker (pre := [.removing [(0, some a)] a]) (post := []) (.enter (by decide)))).step
    (.worker (pre := [.removing [(0, some a)] a]) (post := []) (.take rfl))).step
    (.worker (pre := [.removing [(0, some a)] a]) (post := []) (.parses (e := a) rfl))).step
    (.worker (pre := [.removing [(0, some a)] a]) (post := []) (.isSome (by decide)))).step
    (.worker (pre := [.removing [(0, some a)] a]) (post := []) .scans)).step
    (.worker (pre := []) (post := [.removing [(0, some a)] a]) (.removes (by decide)))).step
    (.worker (pre := [.removing [] a]) (post := []) (.gone (n := (0, some a)) (ms := []) (by decide)))
  exact ⟨_, _, hrun, fun j t ht =>
    dead_hangs (inv_run hrun (inv_init three 2 (.inr rfl))) (by decide) ht⟩

end Demo

end NcDiff.Context
