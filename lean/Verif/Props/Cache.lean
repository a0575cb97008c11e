import Verif.Proof.Cache
/-!
# C53: compiled models in the folder
-/

namespace NcDiff.Cache

variable {T : Tool}

/-- C53: whatever happened before, and wherever a process died: the model that an up-to-date device object gets is a result of
compiling the YANG files of the last download. -/
theorem C53_current {h : List Label} {s s' : State} (hr : Run T h s) {i : Nat} {m : Module} {r : Except Err Elem}
    (hs : Step T s (.compile i m r) s') (hm : m ≠ "dependencies") (ht : Trusted h) (hu : UpToDate i h) :
    FromFiles T (filesOf h) m r := by
  have hi := run_inv hr
  have h1 := hi.sound (.inl ht)
  cases hs with
  | cached _ h2 => exact h1.cache m _ hm h2
  | @compiled _ _ _ t hd _ h3 =>
    rw [h1.yang] at h3
    exact ⟨t, hi.tables (.inl ht) i t hu hd, h3⟩
  | @fails _ _ _ t hd _ h3 =>
    rw [h1.yang] at h3
    exact ⟨t, hi.tables (.inl ht) i t hu hd, h3⟩

/-- C53: the table of dependencies that an up-to-date device object has is one of these files. -/
theorem C53_table {h : List Label} {s : State} (hr : Run T h s) {i : Nat} {t : Elem} (hd : s.devices i = some t) (ht : Trusted h)
    (hu : UpToDate i h) : T.IsTable (filesOf h) t := (run_inv hr).tables (.inl ht) i t hu hd

/-- C53: as long as nothing is downloaded, a module that has been compiled gives the same model again, for every device object that
uses the folder and after every restart, even if YANG files have been edited. -/
theorem C53_same {s s1 s2 s3 : State} {i j : Nat} {m : Module} {e : Elem} {r : Except Err Elem} {h : List Label}
    (h1 : Step T s (.compile i m (.ok e)) s1) (h2 : Reaches T s1 h s2) (hq : ∀ l ∈ h, Quiet l)
    (h3 : Step T s2 (.compile j m r) s3) : r = .ok e :=
  compile_reads h3 (reaches_keeps h2 hq (compile_file h1))

/-- C53: a module with the name `dependencies` is never compiled: the table of dependencies is returned in its place. -/
theorem C53_dependencies {h : List Label} {s s' : State} (hr : Run T h s) {i : Nat} {r : Except Err Elem}
    (hs : Step T s (.compile i "dependencies" r) s') (ht : Trusted h) : ∃ t, r = .ok t ∧ T.IsTable (filesOf h) t := by
  have hi := run_inv hr
  have hd : ∃ t, s.devices i = some t := by cases hs <;> exact ⟨_, ‹_›⟩
  obtain ⟨t, hd⟩ := hd
  obtain ⟨t', ht'⟩ := hi.parsed i t hd
  exact ⟨t', compile_reads hs ht', (hi.sound (.inl ht)).table t' ht'⟩

namespace Demo

/-- A compiler: the table has the text of the module `a`, and a compiled model has the text of the module, with the table. -/
def tool : Tool where
  IsTable files t := t = .mk ⟨"", "modules"⟩ [] [] (files "a") []
  Out files t m r := r = match files m with
    | some x => .ok (.mk ⟨"", m⟩ [] [] (some x) [t])
    | none => .error .valueError

/-- The files of two devices. -/
def files1 : Files := fun m => if m = "a" then some "one" else none
def files2 : Files := fun m => if m = "a" then some "two" else none

def table1 : Elem := .mk ⟨"", "modules"⟩ [] [] (some "one") []
def table2 : Elem := .mk ⟨"", "modules"⟩ [] [] (some "two") []
def mixed : Elem := .mk ⟨"", "a"⟩ [] [] (some "two") [table1]
def model1 : Elem := .mk ⟨"", "a"⟩ [] [] (some "one") [table1]

/-- Device 1 scans the new folder. -/
def one : State := ⟨⟨some "c1", files1, fun x => if x = "dependencies" then some (some table1) else none⟩,
  fun x => if x = 1 then some table1 else none⟩

theorem run_one : Run tool [.scan 1 .check "c1" (some files1)] one :=
  .step .start (.scan 1 (.all (.inr ⟨rfl, by simp [empty]⟩) (t := table1) rfl) (.read rfl))

/-- Then device 2 scans the same folder. -/
def two : State := ⟨⟨some "c2", files2, fun x => if x = "dependencies" then some (some table2) else none⟩,
  fun x => if x = 2 then some table2 else one.devices x⟩

theorem run_two : Run tool [.scan 2 .check "c2" (some files2), .scan 1 .check "c1" (some files1)] two :=
  .step run_one (.scan 2 (.all (.inr ⟨rfl, by simp [one]⟩) (t := table2) rfl) (.read rfl))

/-- C53: two devices that use one folder (the default is the same for all): after the second one has scanned, the first one gets
a model of the second device, mixed with its own dependencies; then the second one gets that model, too. -/
theorem C53_shared_folder : ∃ h s1 s2 s3, Run tool h s1 ∧ UpToDate 2 h ∧ Step tool s1 (.compile 1 "a" (.ok mixed)) s2 ∧
    Step tool s2 (.compile 2 "a" (.ok mixed)) s3 ∧ filesOf h = files2 ∧ ¬ FromFiles tool files1 "a" (.ok mixed) ∧
    ¬ FromFiles tool files2 "a" (.ok mixed) := by
  refine ⟨_, two, _, _, run_two, rfl, .compiled (t := table1) rfl rfl rfl, .cached (t := table2) rfl rfl, rfl, ?_, ?_⟩
  · rintro ⟨t, -, ht⟩
    have ht := Except.ok.inj ht
    rw [mixed, Elem.mk.injEq] at ht
    exact absurd ht.2.2.2.1 (by decide)
  · rintro ⟨t, rfl, ht⟩
    have ht := Except.ok.inj ht
    rw [mixed, Elem.mk.injEq] at ht
    exact absurd ht.2.2.2.2 (by decide +kernel)

/-- C53: after a YANG file has been edited, `scan_models(download='ignore')` and `load_model` give the old model. -/
theorem C53_edited : ∃ h s1 s2, Run tool (.scan 1 .ignore "c1" none :: .edit files2 :: h) s1 ∧
    Step tool s1 (.compile 1 "a" (.ok model1)) s2 ∧ ¬ FromFiles tool files2 "a" (.ok model1) := by
  have h1 := run_one.step (.compiled (i := 1) (m := "a") (e := model1) (t := table1) rfl rfl rfl)
  have h2 := h1.step (.edit files2)
  have h3 := h2.step (.scan (mode := .ignore) (caps := "c1") 1 (.skip (fun h => h.elim nofun fun h => nomatch h.1))
    (.read (t := table1) rfl))
  refine ⟨_, _, _, h3, .cached (t := table1) rfl rfl, ?_⟩
  rintro ⟨t, -, ht⟩
  have ht := Except.ok.inj ht
  rw [model1, Elem.mk.injEq] at ht
  exact absurd ht.2.2.2.1 (by decide)

/-- The hypotheses of `C53_current` hold after an interrupted download that is followed by another scan: the process dies when
`capabilities.txt` has been written, so nothing is downloaded again. -/
example : ∃ s s', Run tool [.scan 1 .check "c1" none, .interrupted .check "c1" files1] s ∧
    Step tool s (.compile 1 "a" (.ok model1)) s' ∧ Trusted [.scan 1 .check "c1" none, .interrupted .check "c1" files1] ∧
    UpToDate 1 [.scan 1 .check "c1" none, .interrupted .check "c1" files1] := by
  have h1 : Run tool _ _ := Run.start.step (.interrupted (mode := .check) (caps := "c1") (files := files1)
    (.inr ⟨rfl, by simp [empty]⟩) .table)
  have h2 := h1.step (.scan (mode := .check) (caps := "c1") 1 (.skip (fun h => h.elim nofun fun h => h.2 rfl))
    (.make (t := table1) rfl rfl))
  exact ⟨_, _, h2, .compiled (t := table1) rfl rfl rfl, .inr ⟨rfl, rfl, rfl⟩, .inl rfl⟩

end Demo

end NcDiff.Cache
