import Verif.Proof.Download
/-!
# C29, C30: downloading under every schedule and through every crash

`srv` is any device: any set of loadable modules, any graph of includes and imports (cycles are
allowed), any modules that it refuses and any that cannot be parsed.  `n` is the number of threads.
A run is any interleaving of the steps of the threads.
-/

namespace NcDiff.Download

/-- **C29.**  When the threads are joined, every module that is loadable or that is included or
imported, directly or not, by modules that were fetched and could be parsed, has been asked for;
and the files of the modules that were fetched have their full content.  This holds also if any
request is lost for reasons outside of the model (`flaky`). -/
theorem C29_closure {srv : Server} {flaky : Bool} {n k : Nat} {yang : Module → Option String}
    {s : State} (hn : 0 < n) (hrun : Run srv flaky k (init srv n yang) s)
    (hret : s.returned = true) :
    (∀ m, Wanted srv (· ∈ s.sh.got) m → m ∈ s.sh.asked) ∧
    (∀ m ∈ s.sh.got, s.sh.yang m = some (srv.text m)) := by
  have h := inv_run hrun (inv_init srv hn yang)
  have hf := files_run hrun (files_init srv flaky n yang)
  refine ⟨fun m hm => wanted_asked h hret hm, fun m hm => ?_⟩
  rcases hf.got m (.inl hm) with h' | h'
  · exact h'
  · exact absurd h' (idle_not_mem h hret rfl)

/-- **C29.**  If no request is lost, exactly the modules of the closure have been asked for, and
the file of every one of them that the device gives out has its full content. -/
theorem C29_complete {srv : Server} {n k : Nat} {yang : Module → Option String}
    {s : State} (hn : 0 < n) (hrun : Run srv false k (init srv n yang) s)
    (hret : s.returned = true) :
    (∀ m, m ∈ s.sh.asked ↔ Wanted srv srv.serves m) ∧ Complete srv s.sh.yang := by
  have h := inv_run hrun (inv_init srv hn yang)
  have hf := files_run hrun (files_init srv false n yang)
  have hk := known_run (closed_wanted srv) hrun (known_init (closed_wanted srv) n yang)
  exact ⟨fun m => ⟨hk.asked m, wanted_serves_asked h hf hret⟩, complete_at_return h hf hret⟩

/-- **C29.**  No work is lost when threads end because they see an empty queue: at any time, as
long as a module waits in the queue there is a thread that has not ended or is still to be started,
and nothing can ever be stuck: when no step is possible any more, `join` has returned and all
threads have ended. -/
theorem C29_no_work_lost {srv : Server} {flaky : Bool} {n k : Nat}
    {yang : Module → Option String} {s : State} (hn : 0 < n)
    (hrun : Run srv flaky k (init srv n yang) s) :
    (s.sh.queue ≠ [] → 0 < s.toStart ∨ ∃ w ∈ s.workers, w ≠ .exited) ∧
    ((¬ ∃ t, Step srv flaky s t) →
      s.returned = true ∧ s.toStart = 0 ∧ ∀ w ∈ s.workers, w = .exited) :=
  have h := inv_run hrun (inv_init srv hn yang)
  ⟨h.alive, no_deadlock h⟩

/-- **C29.**  Downloading ends under every schedule: there is a bound on the number of steps, and
every run can be continued to one in which `join` has returned. -/
theorem C29_terminates {srv : Server} {U : List Module} (hU : Universe srv U) (flaky : Bool)
    {n : Nat} (hn : 0 < n) (yang : Module → Option String) :
    ∃ B, ∀ k s, Run srv flaky k (init srv n yang) s →
      k ≤ B ∧ ∃ j t, Run srv flaky j s t ∧ t.returned = true := by
  refine ⟨bound U (init srv n yang), fun k s hrun => ?_⟩
  obtain ⟨hk, hb⟩ := run_bound hU hrun (known_init (closed_universe hU) n yang)
  refine ⟨by omega, ?_⟩
  obtain ⟨j, t, hr, hend⟩ := run_to_end (flaky := flaky) hU _ hk (Nat.le_refl _)
  exact ⟨j, t, hr, (no_deadlock (inv_run hr (inv_run hrun (inv_init srv hn yang))) hend).1⟩

/-- **C30.**  Whatever happened to earlier calls of `download_all(check_before_download=True)`
(each ran to its end or died at any point, leaving files that were being written with any
content): if the next call would skip downloading because of `capabilities.txt`, the YANG files
are complete. -/
theorem C30_crash_safe {srv : Server} {caps : String} {d : Disk} (h : Folder srv caps d) :
    d.caps = some caps → Complete srv d.yang :=
  folder_sound h

/-- **C30.**  Whenever such a call returns, the folder is complete. -/
theorem C30_returns_complete {srv : Server} {caps : String} {d : Disk} (h : Folder srv caps d)
    {n : Nat} (hn : 0 < n) {p : Proc} (hrun : ProcRun srv false true n caps ⟨.begin, d⟩ p)
    (hret : p.phase = .returned) : p.disk.caps = some caps ∧ Complete srv p.disk.yang := by
  have hp := pinv_run hn hrun (folder_sound h)
  unfold PInv at hp
  rw [hret] at hp
  exact hp

/-! ## A device with three modules -/

namespace Demo

/-- `a` and `b` are loadable and import each other and `x`. -/
def srv : Server where
  loadable := ["a", "b"]
  refuses := fun _ => false
  text := fun m => "module " ++ m
  unparsable := fun _ => false
  deps := fun m => if m = "a" then ["b", "x"] else if m = "b" then ["a", "x"] else []

theorem known : Universe srv ["a", "b", "x"] where
  nodup := by decide
  loadable := by decide
  closed := by decide
  deps := by
    intro m
    unfold srv
    dsimp only
    split
    · decide
    · split <;> decide

/-- Nothing is there. -/
def noFile : Module → Option String := fun _ => none

/-- The hypotheses of `C29_terminates` and with it of the other theorems are met. -/
example : ∃ k s, Run srv false k (init srv 2 noFile) s ∧ s.returned = true := by
  obtain ⟨B, h⟩ := C29_terminates known false (n := 2) (by decide) noFile
  obtain ⟨_, j, t, hr, ht⟩ := h 0 _ .refl
  exact ⟨j, t, hr, ht⟩

/-- `x` is in the closure. -/
example : Wanted srv srv.serves "x" :=
  .dep (.loadable (by decide : "a" ∈ srv.loadable)) ⟨rfl, rfl⟩ (by decide)

/-- A module may be fetched more than once: two threads can find it missing before one of them has
recorded it. -/
theorem C29_fetched_twice : ∃ k s, Run srv false k (init srv 2 noFile) s ∧
    s.sh.queue = ["x", "x"] := by
  refine ⟨_, _, ((((((((((((((((((Run.refl.step .start).step .start).step
    (.worker (pre := []) (post := [.check]) (.enter (by decide)))).step
    (.worker (pre := []) (post := [.check]) (.take rfl))).step
    (.worker (pre := [.fetch "a"]) (post := []) (.enter (by decide)))).step
    (.worker (pre := [.fetch "a"]) (post := []) (.take rfl))).step
    (.worker (pre := []) (post := [.fetch "b"]) (.opens rfl))).step
    (.worker (pre := []) (post := [.fetch "b"]) .writes)).step
    (.worker (pre := [.parsed "a"]) (post := []) (.opens rfl))).step
    (.worker (pre := [.parsed "a"]) (post := []) .writes)).step
    (.worker (pre := []) (post := [.parsed "b"]) (.misses rfl (by decide)))).step
    (.worker (pre := [.add ["x"]]) (post := []) (.misses rfl (by decide)))).step
    (.worker (pre := []) (post := [.add ["x"]]) .adds)).step
    (.worker (pre := [.putting ["x"]]) (post := []) .adds)).step
    (.worker (pre := []) (post := [.putting ["x"]]) .puts)).step
    (.worker (pre := [.putting []]) (post := []) .puts)).step
    (.worker (pre := []) (post := [.putting []]) .stop)).step
    (.worker (pre := [.done]) (post := []) .stop)), rfl⟩

/-- The empty folder. -/
def nothing : Disk := ⟨none, noFile⟩

example : Folder srv "caps" nothing := .start (fun h => by cases h)

/-- A complete folder. -/
def full : Disk := ⟨some "caps", fun m => some (srv.text m)⟩

theorem full_complete : Complete srv full.yang := fun _ _ _ => rfl

/-- The folder after `a.yang` was removed. -/
def broken : Disk := ⟨some "caps", fun x => if x = "a" then none else full.yang x⟩

theorem broken_incomplete : ¬ Complete srv broken.yang := by
  intro h
  have := h "a" (.loadable (by decide)) rfl
  simp [broken] at this

/-- C30 does not extend to 'force' mode: a call of `download_all(check_before_download=False)` that
dies while it removes the files can leave a folder that claims to be complete and is not. -/
theorem C30_force_is_unsafe : ∃ p, ProcRun srv false false 2 "caps" ⟨.begin, full⟩ p ∧
    LeftBehind p broken ∧ broken.caps = some "caps" ∧ ¬ Complete srv broken.yang :=
  ⟨_, (ProcRun.refl.step (.clean (by simp))).step (.removeYang "a"),
    ⟨.inl rfl, fun _ => .inl rfl⟩, rfl, broken_incomplete⟩

/-- Nor to a device that changes its capabilities, so that a call starts to remove the files and
dies, and then changes them back. -/
theorem C30_changing_device_is_unsafe : ∃ p, ProcRun srv false true 2 "other caps"
      ⟨.begin, full⟩ p ∧
    LeftBehind p broken ∧ broken.caps = some "caps" ∧ ¬ Complete srv broken.yang :=
  ⟨_, (ProcRun.refl.step (.clean (by simp [full]))).step (.removeYang "a"),
    ⟨.inl rfl, fun _ => .inl rfl⟩, rfl, broken_incomplete⟩

/-- A device with one module. -/
def one : Server where
  loadable := ["a"]
  refuses := fun _ => false
  text := fun m => "module " ++ m
  unparsable := fun _ => false
  deps := fun _ => []

/-- Nor to lost requests: an exception in a thread, such as a lost session, is logged and the module
is skipped, and still `capabilities.txt` is written. -/
theorem C30_lost_request_is_unsafe : ∃ p, ProcRun one true true 1 "caps" ⟨.begin, nothing⟩ p ∧
    p.phase = .returned ∧ p.disk.caps = some "caps" ∧ ¬ Complete one p.disk.yang := by
  refine ⟨_, (((((((((((((ProcRun.refl.step (.clean (by simp [nothing]))).step
    (.download rfl (fun _ => rfl))).step
    (.thread .start)).step
    (.thread (.worker (pre := []) (post := []) (.enter (by decide))))).step
    (.thread (.worker (pre := []) (post := []) (.take rfl)))).step
    (.thread (.worker (pre := []) (post := []) (.lose rfl)))).step
    (.thread (.worker (pre := []) (post := []) .finish))).step
    (.thread (.worker (pre := []) (post := []) (.exit rfl)))).step
    (.thread (.join rfl))).step
    (.openCaps rfl)).step .writeCaps).step .finish)), rfl, rfl, ?_⟩
  intro h
  have := h "a" (.loadable (by decide)) rfl
  simp [nothing, noFile] at this

end Demo

end NcDiff.Download
