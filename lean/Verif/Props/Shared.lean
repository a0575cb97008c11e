import Verif.Proof.Shared
/-!
# C75: several processes may use one folder at the same time
-/

namespace NcDiff
open Shared

/-- C75.  Any number of processes use the same folder at the same time.  Whatever they do in whatever order, and whichever of them
die at whatever point, what `compile` returns is a result for the YANG files, never a tree from a file that another process has not
finished or has left unfinished. -/
theorem C75_correct {T : Tool} (hR : Robust T) (hd : Deterministic T) {s0 s s' : State} {h : List Label} {i : Nat} {name : String}
    {r : Except Err Elem} (hf : Fresh s0) (h0 : Sound T s0.files) (hr : Run T s0 h s) (hs : Step T s (.returns i name r) s') :
    T.Out name r :=
  result_ok hR (inv_run hd (inv_start hf h0) hr) hs

/-- C75, files.  At any point, every file of the folder is what may be left of a compiled model: it gives the compiled model or cannot
be parsed. -/
theorem C75_files {T : Tool} (hR : Robust T) (hd : Deterministic T) {s0 s : State} {h : List Label} {name : String} {t : Text}
    {e : Elem} (hf : Fresh s0) (h0 : Sound T s0.files) (hr : Run T s0 h s) (ht : s.files name = some t) (he : T.parse t = some e) :
    T.Out name (.ok e) := by
  obtain ⟨e', ho, htorn⟩ := (inv_run hd (inv_start hf h0) hr).files name t ht
  rcases (hR _ _ ho).2 _ htorn with h | h <;> rw [h] at he
  · cases he
  · cases he; exact ho

/-- C75, complete files.  As long as no process has died, a file that no process is writing is complete, however many processes have
written it at the same time. -/
theorem C75_complete {T : Tool} (hd : Deterministic T) {s0 s : State} {h : List Label} {name : String} {t : Text}
    (hf : Fresh s0) (h0 : Whole T s0.files) (hr : Run T s0 h s) (hl : ∀ l ∈ h, ∀ i, l ≠ .dies i) (hu : Unwritten s name)
    (ht : s.files name = some t) : ∃ e, T.Out name (.ok e) ∧ t = T.text e :=
  (covered_run hd (inv_start hf (whole_sound h0)) (covered_start h0) hr hl).whole hu ht

/-- C75, no waiting.  At any point, a process that is at work may come to an end without any step of another process. -/
theorem C75_progress {T : Tool} (hR : Robust T) (hd : Deterministic T) (ht : ∀ name, ∃ r, T.Out name r) {s0 s : State}
    {h : List Label} {i : Nat} {name : String} (hf : Fresh s0) (h0 : Sound T s0.files) (hr : Run T s0 h s) (hu : Uses s i name) :
    ∃ r s', Finishes T s i name r s' := by
  have hi := inv_run hd (inv_start hf h0) hr
  have ho := opened_run (opened_start hf) hr
  rcases hu with ⟨got, hg⟩ | hg | ⟨e, pos, hg⟩
  · obtain ⟨t, htx⟩ := ho i name (.inl ⟨got, hg⟩)
    have hw := hi.work i
    rw [hg] at hw
    obtain ⟨e, he, _⟩ := hw
    obtain ⟨r, s2, hfin, _⟩ := finishes_reading hR hg htx ⟨e, he⟩
    exact ⟨r, s2, hfin⟩
  · obtain ⟨r, h⟩ := ht name
    obtain ⟨s2, hfin, _⟩ := finishes_missing hg h
    exact ⟨r, s2, hfin⟩
  · obtain ⟨t, htx⟩ := ho i name (.inr ⟨e, pos, hg⟩)
    obtain ⟨s2, hfin⟩ := finishes_writing hg htx
    exact ⟨_, s2, hfin⟩

/-- C75, repair.  At any point, whatever others have left or are just doing, an idle process may compile any module without any step of
another process, and then the file of the module can be parsed and gives this result. -/
theorem C75_heals {T : Tool} (hR : Robust T) (hd : Deterministic T) (ht : ∀ name, ∃ r, T.Out name r) {s0 s : State}
    {h : List Label} {i : Nat} (name : String) (hf : Fresh s0) (h0 : Sound T s0.files) (hr : Run T s0 h s) (hi : s.procs i = .idle) :
    ∃ r s', Finishes T s i name r s' ∧ ∀ e, r = .ok e → ∃ t, s'.files name = some t ∧ T.parse t = some e := by
  cases hx : s.files name with
  | none =>
    obtain ⟨r, ho⟩ := ht name
    obtain ⟨s2, hfin, h4⟩ := finishes_missing (now_procs s i _) ho
    refine ⟨r, s2, hfin.before (.step .start (.absent hi hx)) (by simp), ?_⟩
    rintro e rfl
    exact ⟨_, h4 e rfl, (hR _ _ ho).1⟩
  | some t =>
    obtain ⟨e, he, _⟩ := (inv_run hd (inv_start hf h0) hr).files name t hx
    obtain ⟨r, s2, hfin, h4⟩ := finishes_reading (t := t) hR (now_procs s i (.reading name [])) hx ⟨e, he⟩
    exact ⟨r, s2, hfin.before (.step .start (.opens hi hx)) (by simp), fun e' => h4 e' rfl⟩

namespace SharedDemo

def a : Elem := .mk ⟨"", "a"⟩ [] [] none []
def b : Elem := .mk ⟨"", "b"⟩ [] [] none []
def c : Elem := .mk ⟨"", "c"⟩ [] [] none []

/-- Texts of three trees. -/
def write (e : Elem) : Text := if e = a then [1, 2] else if e = b then [3, 4] else [3, 2]

/-- The parser for them. -/
def read (t : Text) : Option Elem := if t = [1, 2] then some a else if t = [3, 4] then some b else if t = [3, 2] then some c else none

/-- The result is always the same. -/
def one : Tool := ⟨fun _ r => r = .ok a, write, read⟩

/-- There are two results. -/
def two : Tool := ⟨fun _ r => r = .ok a ∨ r = .ok b, write, read⟩

/-- A new folder. -/
def new : State := ⟨fun _ => none, fun _ => .idle⟩

theorem torn_a {g : Text} (h : Torn [1, 2] g) : read g = none ∨ read g = some a := by
  unfold read
  split
  · exact .inr rfl
  · split
    · rename_i _ h1; subst h1; have := h.2 0 3 rfl; revert this; decide
    · split
      · rename_i _ _ h1; subst h1; have := h.2 0 3 rfl; revert this; decide
      · exact .inl rfl

theorem torn_b {g : Text} (h : Torn [3, 4] g) : read g = none ∨ read g = some b := by
  unfold read
  split
  · rename_i h1; subst h1; have := h.2 0 1 rfl; revert this; decide
  · split
    · exact .inr rfl
    · split
      · rename_i _ _ h1; subst h1; have := h.2 1 2 rfl; revert this; decide
      · exact .inl rfl

theorem text_a : write a = [1, 2] := by decide +kernel

theorem text_b : write b = [3, 4] := by decide +kernel

theorem one_robust : Robust one := by
  rintro name e ⟨⟩
  exact ⟨by decide +kernel, fun g hg => torn_a (text_a ▸ hg)⟩

theorem two_robust : Robust two := by
  rintro name e (h | h) <;> cases h
  · exact ⟨by decide +kernel, fun g hg => torn_a (text_a ▸ hg)⟩
  · exact ⟨by decide +kernel, fun g hg => torn_b (text_b ▸ hg)⟩

theorem one_deterministic : Deterministic one := by
  rintro name r r' ⟨⟩ ⟨⟩; rfl

/-- Two processes have seen that there is no file; both open it for writing, and their writes alternate. -/
theorem run_two : ∃ s, Run two new [.returns 1 "m" (.ok b), .returns 0 "m" (.ok a), .acts 0, .acts 1, .acts 0, .acts 1, .acts 0,
    .acts 1, .acts 0] s ∧ s.files "m" = some [3, 2] ∧ ∀ i, s.procs i = .idle := by
  have r := Run.start (T := two) (s := new)
  have r := r.step (.absent (i := 0) (name := "m") rfl rfl)
  have r := r.step (.absent (i := 1) (name := "m") rfl rfl)
  have r := r.step (.creates (i := 0) (name := "m") (e := a) rfl (.inl rfl))
  have r := r.step (.creates (i := 1) (name := "m") (e := b) rfl (.inr rfl))
  have r := r.step (.writes (i := 0) (name := "m") (e := a) (pos := 0) (t := []) 1 rfl (by decide +kernel))
  have r := r.step (.writes (i := 1) (name := "m") (e := b) (pos := 0) (t := [1]) 2 rfl (by decide +kernel))
  have r := r.step (.writes (i := 0) (name := "m") (e := a) (pos := 1) (t := [3, 4]) 2
    (by simp [State.now, State.put, two, text_a]) (by decide +kernel))
  have r := r.step (.closes (i := 0) (name := "m") (e := a) (pos := 2) (by simp [State.now, State.put, two, text_a])
    (by decide +kernel))
  have r := r.step (.closes (i := 1) (name := "m") (e := b) (pos := 2) (by simp [State.now, State.put, two, text_b])
    (by decide +kernel))
  refine ⟨_, r, by decide +kernel, fun i => ?_⟩
  simp only [State.now, State.put, new]
  by_cases h1 : i = 1
  · simp [h1]
  · by_cases h0 : i = 0
    · simp [h0]
    · simp [h0, h1]

end SharedDemo

/-- C75, one result.  It matters that every process gets the same result from the YANG files: if there are two possible results, two
processes that write the file of a module at the same time may leave a mixture that can be parsed, and `compile` of a third process
returns it although it is no result. -/
theorem C75_mixed : ∃ T : Tool, Robust T ∧ ∃ h s s' e, Run T ⟨fun _ => none, fun _ => .idle⟩ h s ∧ (∀ l ∈ h, ∀ i, l ≠ .dies i) ∧
    Step T s (.returns 2 "m" (.ok e)) s' ∧ ¬ T.Out "m" (.ok e) := by
  obtain ⟨s, hr, hf, hi⟩ := SharedDemo.run_two
  have r := hr.step (.opens (i := 2) (name := "m") (t := [3, 2]) (hi 2) hf)
  have r := r.step (.reads (i := 2) (name := "m") (got := []) (t := [3, 2]) 2 rfl hf)
  refine ⟨SharedDemo.two, SharedDemo.two_robust, _, _, _, SharedDemo.c, r, by simp,
    .found (i := 2) (name := "m") (got := [3, 2]) (t := [3, 2]) rfl hf (Nat.le_refl _) (by decide +kernel), ?_⟩
  rintro (h | h)
  · exact absurd h (by decide +kernel)
  · exact absurd h (by decide +kernel)

namespace SharedDemo

/-- A run with one result: the first process has written one byte of two, the second has opened the file, which cuts it to length 0,
and the first writes on.  A third process reads a zero and the second byte. -/
theorem run_one : ∃ s, Run one new [.acts 2, .acts 2, .acts 0, .acts 1, .acts 0, .acts 0, .acts 1, .acts 0] s ∧
    s.files "m" = some [0, 2] ∧ s.procs 0 = .writing "m" a 2 ∧ s.procs 1 = .writing "m" a 0 ∧ s.procs 2 = .reading "m" [0, 2] ∧
    ∀ i, 3 ≤ i → s.procs i = .idle := by
  have r := Run.start (T := one) (s := new)
  have r := r.step (.absent (i := 0) (name := "m") rfl rfl)
  have r := r.step (.absent (i := 1) (name := "m") rfl rfl)
  have r := r.step (.creates (i := 0) (name := "m") (e := a) rfl rfl)
  have r := r.step (.writes (i := 0) (name := "m") (e := a) (pos := 0) (t := []) 1 rfl (by decide +kernel))
  have r := r.step (.creates (i := 1) (name := "m") (e := a) rfl rfl)
  have r := r.step (.writes (i := 0) (name := "m") (e := a) (pos := 1) (t := []) 1
    (by simp [State.now, State.put, one, text_a]) (by decide +kernel))
  have r := r.step (.opens (i := 2) (name := "m") (t := [0, 2]) rfl (by decide +kernel))
  have r := r.step (.reads (i := 2) (name := "m") (got := []) (t := [0, 2]) 2 rfl (by decide +kernel))
  exact ⟨_, r, by decide +kernel, by simp [State.now, State.put, one, text_a], by simp [State.now, State.put, one, text_a],
    by simp [State.now], fun i hi => by
      simp [State.now, State.put, new, show i ≠ 0 by omega, show i ≠ 1 by omega, show i ≠ 2 by omega]⟩

theorem new_fresh : Fresh new := fun _ => rfl

theorem new_whole (T : Tool) : Whole T new.files := fun _ _ h => by cases h

/-- The hypotheses of `C75_correct`, `C75_files`, `C75_progress` and `C75_heals` hold for a run in which processes are in the middle of
their work. -/
example : Robust one ∧ Deterministic one ∧ (∀ name, ∃ r, one.Out name r) ∧ Fresh new ∧ Sound one new.files ∧
    ∃ h s, Run one new h s ∧ Uses s 0 "m" ∧ Uses s 1 "m" ∧ Uses s 2 "m" ∧ s.procs 3 = .idle := by
  obtain ⟨s, hr, _, h0, h1, h2, h3⟩ := run_one
  exact ⟨one_robust, one_deterministic, fun _ => ⟨_, rfl⟩, new_fresh, whole_sound (new_whole _), _, s, hr, .inr (.inr ⟨_, _, h0⟩),
    .inr (.inr ⟨_, _, h1⟩), .inl ⟨_, h2⟩, h3 3 (Nat.le_refl _)⟩

/-- A fourth process may go on after the others have died. -/
example : ∃ r s', (∃ s h, Run one new h s ∧ Label.dies 1 ∈ h ∧ Finishes one s 3 "m" r s') ∧
    ∀ e, r = .ok e → ∃ t, s'.files "m" = some t ∧ read t = some e := by
  obtain ⟨s, hr, _, _, _, _, h3⟩ := run_one
  have hr' := hr.step (.dies 1)
  obtain ⟨r, s', hf, h⟩ := C75_heals one_robust one_deterministic (fun _ => ⟨_, rfl⟩) "m" new_fresh (whole_sound (new_whole _)) hr'
    (i := 3) (h3 3 (Nat.le_refl _))
  exact ⟨r, s', ⟨_, _, hr', by simp, hf⟩, h⟩

/-- The hypotheses of `C75_complete` hold when the two processes have ended: the zero has gone. -/
example : ∃ h s t, Run one new h s ∧ (∀ l ∈ h, ∀ i, l ≠ .dies i) ∧ Unwritten s "m" ∧ s.files "m" = some t ∧
    ∃ e, one.Out "m" (.ok e) ∧ t = one.text e := by
  obtain ⟨s, hr, hf, h0, h1, h2, h3⟩ := run_one
  have r := hr.step (.writes (i := 1) (name := "m") (e := a) (pos := 0) (t := [0, 2]) 2 h1 hf)
  have r := r.step (.closes (i := 1) (name := "m") (e := a) (pos := 2) (by simp [State.now, State.put, one, text_a])
    (by decide +kernel))
  have r := r.step (.closes (i := 0) (name := "m") (e := a) (pos := 2) (by simp [State.now, State.put, h0]) (by decide +kernel))
  have key : ∃ h s', Run one new h s' ∧ (∀ l ∈ h, ∀ i, l ≠ .dies i) ∧ Unwritten s' "m" ∧ ∃ t, s'.files "m" = some t := by
    refine ⟨_, _, r, by simp, fun i e pos => ?_, _, rfl⟩
    by_cases i0 : i = 0
    · simp [State.now, i0]
    by_cases i1 : i = 1
    · simp [State.now, i1]
    by_cases i2 : i = 2
    · simp [State.now, State.put, i2, h2]
    · simp [State.now, State.put, i0, i1, h3 i (by omega)]
  obtain ⟨h, s', r, hl, hu, t, ht⟩ := key
  exact ⟨h, s', t, r, hl, hu, ht, C75_complete one_deterministic new_fresh (new_whole _) r hl hu ht⟩

end SharedDemo
end NcDiff
