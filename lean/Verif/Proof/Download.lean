import Verif.Spec.Download
import Mathlib.Data.List.Nodup
import Mathlib.Algebra.Order.BigOperators.Group.List
/-!
# The download threads: invariants, no deadlock, termination
-/

namespace NcDiff.Download

/-- The worker has taken a module and not yet called `task_done`. -/
def Worker.busy : Worker → Bool
  | .check | .get | .exited => false
  | _ => true

theorem mem_old {w w' x : Worker} {pre post : List Worker} (h : x ∈ pre ++ w :: post) :
    x = w ∨ x ∈ pre ++ w' :: post := by
  simp only [List.mem_append, List.mem_cons] at h ⊢
  tauto

theorem mem_new (w' : Worker) (pre post : List Worker) : w' ∈ pre ++ w' :: post := by simp

/-- What holds in every state that can be reached. -/
structure Inv (srv : Server) (s : State) : Prop where
  count : s.sh.unfinished = s.sh.queue.length + s.workers.countP Worker.busy
  load : ∀ m ∈ srv.loadable, m ∈ s.sh.tbd
  tbd : ∀ m ∈ s.sh.tbd, m ∈ s.sh.queue ∨ m ∈ s.sh.asked ∨ Worker.fetch m ∈ s.workers ∨
    ∃ r, Worker.putting r ∈ s.workers ∧ m ∈ r
  got : ∀ m ∈ s.sh.got, ∀ d ∈ srv.deps m, d ∈ s.sh.tbd ∨
    ∃ r, Worker.add r ∈ s.workers ∧ d ∈ r
  alive : s.sh.queue ≠ [] → 0 < s.toStart ∨ ∃ w ∈ s.workers, w ≠ .exited
  back : s.returned = true → s.sh.queue = [] ∧ s.toStart = 0 ∧ ∀ w ∈ s.workers, w.busy = false

theorem inv_init (srv : Server) {n : Nat} (hn : 0 < n) (yang) : Inv srv (init srv n yang) where
  count := by simp [init]
  load := fun m hm => hm
  tbd := fun m hm => .inl hm
  got := fun m hm => by cases hm
  alive := fun _ => .inl hn
  back := fun h => by cases h

theorem countP_mid (w : Worker) (pre post : List Worker) :
    (pre ++ w :: post).countP Worker.busy =
      (pre ++ post).countP Worker.busy + (if w.busy then 1 else 0) := by
  rw [List.countP_append, List.countP_cons, List.countP_append]; omega

theorem inv_worker {srv : Server} {flaky} {sh sh' : Shared} {w w' : Worker}
    (hs : WStep srv flaky sh w sh' w') {pre post n r}
    (h : Inv srv ⟨sh, pre ++ w :: post, n, r⟩) : Inv srv ⟨sh', pre ++ w' :: post, n, r⟩ := by
  obtain ⟨hc, hl, ht, hg, ha, hb⟩ := h
  simp only [] at hc hl ht hg ha hb
  rw [countP_mid] at hc
  have hgetalive : w ≠ .exited := by cases hs <;> simp
  -- the worker that made the step was not idle after `join` had returned
  have hret : r = true → sh.queue = [] ∧ n = 0 ∧ w.busy = false ∧
      ∀ x ∈ pre ++ post, x.busy = false := by
    intro hr
    obtain ⟨h1, h2, h3⟩ := hb hr
    refine ⟨h1, h2, h3 w (by simp), fun x hx => h3 x ?_⟩
    simp only [List.mem_append, List.mem_cons] at hx ⊢; tauto
  have hback : ∀ (q : List Module), (r = true → q = [] ∧ w'.busy = false) →
      (r = true → q = [] ∧ n = 0 ∧ ∀ x ∈ pre ++ w' :: post, x.busy = false) := by
    intro q hq hr
    obtain ⟨h1, h2⟩ := hq hr
    obtain ⟨_, h3, _, h4⟩ := hret hr
    refine ⟨h1, h3, fun x hx => ?_⟩
    simp only [List.mem_append, List.mem_cons] at hx
    rcases hx with hx | rfl | hx
    · exact h4 x (by simp [hx])
    · exact h2
    · exact h4 x (by simp [hx])
  -- witnesses that are other workers stay
  have keepT : ∀ {q : List Module} {a : List Module}, (∀ m ∈ sh.queue, m ∈ q ∨ m ∈ a ∨
        w' = .fetch m) → (∀ m ∈ sh.asked, m ∈ a) →
      (∀ m, w = .fetch m → m ∈ a) → (∀ rr, w = .putting rr → ∀ m ∈ rr, m ∈ q ∨
        ∃ r', w' = .putting r' ∧ m ∈ r') →
      ∀ m ∈ sh.tbd, m ∈ q ∨ m ∈ a ∨ Worker.fetch m ∈ pre ++ w' :: post ∨
        ∃ r', Worker.putting r' ∈ pre ++ w' :: post ∧ m ∈ r' := by
    intro q a h1 h2 h3 h4 m hm
    rcases ht m hm with h | h | h | ⟨rr, h, hmr⟩
    · rcases h1 m h with h | h | h
      · exact .inl h
      · exact .inr (.inl h)
      · exact .inr (.inr (.inl (h ▸ mem_new _ _ _)))
    · exact .inr (.inl (h2 m h))
    · rcases mem_old h with h | h
      · exact .inr (.inl (h3 m h.symm))
      · exact .inr (.inr (.inl h))
    · rcases mem_old h with h | h
      · rcases h4 rr h.symm m hmr with h | ⟨r', h, hm'⟩
        · exact .inl h
        · exact .inr (.inr (.inr ⟨r', h ▸ mem_new _ _ _, hm'⟩))
      · exact .inr (.inr (.inr ⟨rr, h, hmr⟩))
  have keepG : (∀ rr, w = .add rr → ∀ d ∈ rr, d ∈ sh'.tbd) → (∀ m ∈ sh.tbd, m ∈ sh'.tbd) →
      ∀ m ∈ sh.got, ∀ d ∈ srv.deps m, d ∈ sh'.tbd ∨
        ∃ r', Worker.add r' ∈ pre ++ w' :: post ∧ d ∈ r' := by
    intro h1 h2 m hm d hd
    rcases hg m hm d hd with h | ⟨rr, h, hdr⟩
    · exact .inl (h2 d h)
    · rcases mem_old h with h | h
      · exact .inl (h1 rr h.symm d hdr)
      · exact .inr ⟨rr, h, hdr⟩
  have other : ∀ {q : List Module}, (q ≠ [] → sh.queue ≠ [] ∨ w' ≠ .exited) →
      (w' = .exited → q = []) → q ≠ [] → 0 < n ∨ ∃ x ∈ pre ++ w' :: post, x ≠ .exited := by
    intro q _ h2 hq
    exact .inr ⟨w', mem_new _ _ _, fun e => hq (h2 e)⟩
  have same : ∀ m ∈ sh.queue, m ∈ sh.queue ∨ m ∈ sh.asked ∨ w' = .fetch m := fun m h => .inl h
  cases hs with
  | enter hq =>
    refine ⟨by rw [countP_mid]; exact hc, hl, keepT same (fun _ h => h) (by simp) (by simp),
      keepG (by simp) (fun _ h => h), other (fun h => .inl h) (by simp), ?_⟩
    exact hback _ fun hr => ⟨(hret hr).1, rfl⟩
  | exit hq =>
    refine ⟨by rw [countP_mid]; exact hc, hl, keepT same (fun _ h => h) (by simp) (by simp),
      keepG (by simp) (fun _ h => h), other (fun h => .inl h) (fun _ => hq), ?_⟩
    exact hback _ fun hr => ⟨(hret hr).1, rfl⟩
  | empty hq =>
    refine ⟨by rw [countP_mid]; exact hc, hl, keepT same (fun _ h => h) (by simp) (by simp),
      keepG (by simp) (fun _ h => h), other (fun h => .inl h) (by simp), ?_⟩
    exact hback _ fun hr => ⟨(hret hr).1, rfl⟩
  | take hq =>
    rename_i m q
    refine ⟨?_, hl, keepT ?_ (fun _ h => h) (by simp) (by simp),
      keepG (by simp) (fun _ h => h), other (fun _ => .inr (by simp)) (by simp), ?_⟩
    · rw [countP_mid]
      rw [hq] at hc
      simp only [Worker.busy, List.length_cons] at hc ⊢
      simp only [Bool.false_eq_true, if_false, if_true] at hc ⊢
      omega
    · intro x hx
      rw [hq] at hx
      rcases List.mem_cons.mp hx with rfl | hx
      · exact .inr (.inr rfl)
      · exact .inl hx
    · exact hback _ fun hr => by rw [(hret hr).1] at hq; cases hq
  | refuse hr' =>
    rename_i m
    refine ⟨by rw [countP_mid]; exact hc, hl,
      keepT (fun x h => .inl h) (fun _ h => List.mem_cons_of_mem _ h) ?_ (by simp),
      keepG (by simp) (fun _ h => h), other (fun h => .inl h) (by simp), ?_⟩
    · intro x hx; cases hx; exact List.mem_cons_self
    · exact hback _ fun hr => by have := (hret hr).2.2.1; simp [Worker.busy] at this
  | lose hr' =>
    rename_i m
    refine ⟨by rw [countP_mid]; exact hc, hl,
      keepT (fun x h => .inl h) (fun _ h => List.mem_cons_of_mem _ h) ?_ (by simp),
      keepG (by simp) (fun _ h => h), other (fun h => .inl h) (by simp), ?_⟩
    · intro x hx; cases hx; exact List.mem_cons_self
    · exact hback _ fun hr => by have := (hret hr).2.2.1; simp [Worker.busy] at this
  | opens hr' =>
    rename_i m
    refine ⟨by rw [countP_mid]; exact hc, hl,
      keepT (fun x h => .inl h) (fun _ h => List.mem_cons_of_mem _ h) ?_ (by simp),
      keepG (by simp) (fun _ h => h), other (fun h => .inl h) (by simp), ?_⟩
    · intro x hx; cases hx; exact List.mem_cons_self
    · exact hback _ fun hr => by have := (hret hr).2.2.1; simp [Worker.busy] at this
  | writes =>
    rename_i m
    refine ⟨by rw [countP_mid]; exact hc, hl,
      keepT (fun x h => .inl h) (fun _ h => h) (by simp) (by simp),
      keepG (by simp) (fun _ h => h), other (fun h => .inl h) (by simp), ?_⟩
    exact hback _ fun hr => by have := (hret hr).2.2.1; simp [Worker.busy] at this
  | fails hf =>
    refine ⟨by rw [countP_mid]; exact hc, hl,
      keepT (fun x h => .inl h) (fun _ h => h) (by simp) (by simp),
      keepG (by simp) (fun _ h => h), other (fun h => .inl h) (by simp), ?_⟩
    exact hback _ fun hr => by have := (hret hr).2.2.1; simp [Worker.busy] at this
  | nothing hu hm =>
    rename_i m
    refine ⟨by rw [countP_mid]; exact hc, hl,
      keepT (fun x h => .inl h) (fun _ h => h) (by simp) (by simp),
      ?_, other (fun h => .inl h) (by simp), ?_⟩
    · intro x hx d hd
      rcases List.mem_cons.mp hx with rfl | hx
      · left
        unfold missing at hm
        rw [List.filter_eq_nil_iff] at hm
        simpa using hm d hd
      · exact keepG (by simp) (fun _ h => h) x hx d hd
    · exact hback _ fun hr => by have := (hret hr).2.2.1; simp [Worker.busy] at this
  | misses hu hm =>
    rename_i m
    refine ⟨by rw [countP_mid]; exact hc, hl,
      keepT (fun x h => .inl h) (fun _ h => h) (by simp) (by simp),
      ?_, other (fun h => .inl h) (by simp), ?_⟩
    · intro x hx d hd
      rcases List.mem_cons.mp hx with rfl | hx
      · by_cases hdt : d ∈ sh.tbd
        · exact .inl hdt
        · exact .inr ⟨_, mem_new _ _ _, List.mem_filter.mpr ⟨hd, by simpa using hdt⟩⟩
      · exact keepG (by simp) (fun _ h => h) x hx d hd
    · exact hback _ fun hr => by have := (hret hr).2.2.1; simp [Worker.busy] at this
  | adds =>
    rename_i s
    refine ⟨by rw [countP_mid]; exact hc, fun m hm => List.mem_append_right _ (hl m hm), ?_,
      keepG ?_ (fun _ h => List.mem_append_right _ h), other (fun h => .inl h) (by simp), ?_⟩
    · intro m hm
      rcases List.mem_append.mp hm with hm | hm
      · exact .inr (.inr (.inr ⟨s, mem_new _ _ _, hm⟩))
      · exact keepT (fun x h => .inl h) (fun _ h => h) (by simp) (by simp) m hm
    · intro rr hrr d hd
      cases hrr
      exact List.mem_append_left _ hd
    · exact hback _ fun hr => by have := (hret hr).2.2.1; simp [Worker.busy] at this
  | puts =>
    rename_i x rest
    refine ⟨?_, hl, keepT (fun x h => .inl (List.mem_append_left _ h)) (fun _ h => h) (by simp) ?_,
      keepG (by simp) (fun _ h => h), other (fun _ => .inr (by simp)) (by simp), ?_⟩
    · rw [countP_mid]
      simp only [Worker.busy, List.length_append, List.length_cons, List.length_nil, if_true]
        at hc ⊢
      omega
    · intro rr hrr m hm
      cases hrr
      rcases List.mem_cons.mp hm with rfl | hm
      · exact .inl (by simp)
      · exact .inr ⟨rest, rfl, hm⟩
    · exact hback _ fun hr => by have := (hret hr).2.2.1; simp [Worker.busy] at this
  | stop =>
    refine ⟨by rw [countP_mid]; exact hc, hl,
      keepT (fun x h => .inl h) (fun _ h => h) (by simp) ?_,
      keepG (by simp) (fun _ h => h), other (fun h => .inl h) (by simp), ?_⟩
    · intro rr hrr m hm
      cases hrr
      cases hm
    · exact hback _ fun hr => by have := (hret hr).2.2.1; simp [Worker.busy] at this
  | finish =>
    refine ⟨?_, hl, keepT (fun x h => .inl h) (fun _ h => h) (by simp) (by simp),
      keepG (by simp) (fun _ h => h), other (fun h => .inl h) (by simp), ?_⟩
    · rw [countP_mid]
      simp only [Worker.busy, if_true, Bool.false_eq_true, if_false] at hc ⊢
      omega
    · exact hback _ fun hr => by have := (hret hr).2.2.1; simp [Worker.busy] at this

theorem inv_step {srv : Server} {flaky} {s t : State} (hs : Step srv flaky s t)
    (h : Inv srv s) : Inv srv t := by
  cases hs with
  | worker hw => exact inv_worker hw h
  | start =>
    rename_i sh ws n r
    obtain ⟨hc, hl, ht, hg, ha, hb⟩ := h
    simp only [] at hc hl ht hg ha hb
    refine ⟨?_, hl, fun m hm => ?_, fun m hm d hd => ?_, fun _ => ?_, fun hr => ?_⟩
    · simpa [List.countP_append, Worker.busy] using hc
    · rcases ht m hm with h | h | h | ⟨rr, h, hmr⟩
      · exact .inl h
      · exact .inr (.inl h)
      · exact .inr (.inr (.inl (List.mem_append_left _ h)))
      · exact .inr (.inr (.inr ⟨rr, List.mem_append_left _ h, hmr⟩))
    · rcases hg m hm d hd with h | ⟨rr, h, hdr⟩
      · exact .inl h
      · exact .inr ⟨rr, List.mem_append_left _ h, hdr⟩
    · exact .inr ⟨.check, by simp, by simp⟩
    · have := (hb hr).2.1; omega
  | join hu =>
    rename_i sh ws
    obtain ⟨hc, hl, ht, hg, ha, hb⟩ := h
    simp only [] at hc hl ht hg ha hb
    have h1 : sh.queue.length = 0 ∧ ws.countP Worker.busy = 0 := by omega
    refine ⟨hc, hl, ht, hg, ha, fun _ => ⟨List.eq_nil_of_length_eq_zero h1.1, rfl, fun w hw => ?_⟩⟩
    simpa using List.countP_eq_zero.mp h1.2 w hw

theorem inv_run {srv : Server} {flaky k} {s t : State} (hr : Run srv flaky k s t)
    (h : Inv srv s) : Inv srv t := by
  induction hr with
  | refl => exact h
  | step _ hs ih => exact inv_step hs (ih h)

/-- When `join` has returned, everything that has to be fetched has been asked for. -/
theorem wanted_asked {srv : Server} {s : State} (h : Inv srv s) (hr : s.returned = true)
    {m : Module} (hm : Wanted srv (· ∈ s.sh.got) m) : m ∈ s.sh.asked := by
  obtain ⟨hq, _, hidle⟩ := h.back hr
  have htbd : ∀ m ∈ s.sh.tbd, m ∈ s.sh.asked := by
    intro m hm
    rcases h.tbd m hm with h | h | h | ⟨rr, h, _⟩
    · rw [hq] at h; cases h
    · exact h
    · have := hidle _ h; simp [Worker.busy] at this
    · have := hidle _ h; simp [Worker.busy] at this
  apply htbd
  induction hm with
  | loadable hl => exact h.load _ hl
  | dep _ hgot hd _ =>
    rcases h.got _ hgot _ hd with h | ⟨rr, h, _⟩
    · exact h
    · have := hidle _ h; simp [Worker.busy] at this

/-! ## No deadlock -/

theorem busy_steps {srv : Server} {flaky} (sh : Shared) {w : Worker} (hw : w.busy = true) :
    ∃ sh' w', WStep srv flaky sh w sh' w' := by
  cases w with
  | check => cases hw
  | get => cases hw
  | exited => cases hw
  | fetch m =>
    cases h : srv.refuses m with
    | true => exact ⟨_, _, .refuse h⟩
    | false => exact ⟨_, _, .opens h⟩
  | opened m => exact ⟨_, _, .writes⟩
  | parsed m =>
    cases h : srv.unparsable m with
    | true => exact ⟨_, _, .fails (.inl h)⟩
    | false =>
      by_cases hm : missing srv sh m = []
      · exact ⟨_, _, .nothing h hm⟩
      · exact ⟨_, _, .misses h hm⟩
  | add s => exact ⟨_, _, .adds⟩
  | putting r =>
    cases r with
    | nil => exact ⟨_, _, .stop⟩
    | cons x r => exact ⟨_, _, .puts⟩
  | done => exact ⟨_, _, .finish⟩

theorem alive_steps {srv : Server} {flaky} (sh : Shared) {w : Worker} (hw : w ≠ .exited) :
    ∃ sh' w', WStep srv flaky sh w sh' w' := by
  by_cases hb : w.busy = true
  · exact busy_steps sh hb
  · cases w with
    | check =>
      by_cases hq : sh.queue = []
      · exact ⟨_, _, .exit hq⟩
      · exact ⟨_, _, .enter hq⟩
    | get =>
      cases hq : sh.queue with
      | nil => exact ⟨_, _, .empty hq⟩
      | cons m q => exact ⟨_, _, .take hq⟩
    | exited => exact absurd rfl hw
    | _ => exact absurd rfl hb

theorem step_of_alive {srv : Server} {flaky} {s : State} {w : Worker} (hm : w ∈ s.workers)
    (hw : w ≠ .exited) : ∃ t, Step srv flaky s t := by
  obtain ⟨pre, post, hws⟩ := List.append_of_mem hm
  obtain ⟨sh', w', hstep⟩ := alive_steps (srv := srv) (flaky := flaky) s.sh hw
  rcases s with ⟨sh, ws, n, r⟩
  simp only [] at hws hstep
  subst hws
  exact ⟨_, .worker hstep⟩

/-- A state in which nothing can happen any more is one where `join` has returned and all threads
have ended. -/
theorem no_deadlock {srv : Server} {flaky} {s : State} (h : Inv srv s)
    (hend : ¬ ∃ t, Step srv flaky s t) :
    s.returned = true ∧ s.toStart = 0 ∧ ∀ w ∈ s.workers, w = .exited := by
  have hex : ∀ w ∈ s.workers, w = .exited := by
    intro w hw
    by_contra hne
    exact hend (step_of_alive hw hne)
  have hst : s.toStart = 0 := by
    rcases s with ⟨sh, ws, n, r⟩
    cases n with
    | zero => rfl
    | succ n => exact absurd ⟨_, .start⟩ hend
  refine ⟨?_, hst, hex⟩
  have hq : s.sh.queue = [] := by
    by_contra hq
    rcases h.alive hq with h0 | ⟨w, hw, hne⟩
    · omega
    · exact hne (hex w hw)
  have hidle : s.workers.countP Worker.busy = 0 := by
    rw [List.countP_eq_zero]
    intro w hw
    rw [hex w hw]; simp [Worker.busy]
  have hu : s.sh.unfinished = 0 := by
    have := h.count
    rw [hq, hidle] at this
    simpa using this
  cases hr : s.returned with
  | true => rfl
  | false =>
    exfalso
    rcases s with ⟨sh, ws, n, r⟩
    simp only [] at hst hr hu
    subst hst hr
    exact hend ⟨_, .join hu⟩

/-! ## Termination -/

/-- The modules a worker holds that it has found missing and not yet added. -/
def Worker.held : Worker → List Module
  | .add s => s
  | _ => []

/-- Modules that can still be found missing by a worker that holds `held`. -/
def room (U tbd held : List Module) : Nat := (U.filter (fun m => m ∉ tbd ∧ m ∉ held)).length

/-- Weight of the position of a worker. -/
def Worker.cost : Worker → Nat
  | .check | .get | .exited => 0
  | .fetch _ => 6
  | .opened _ => 5
  | .parsed _ => 4
  | .add s => 9 * s.length + 3
  | .putting r => 8 * r.length + 2
  | .done => 1

/-- Weight of a worker. -/
def weight (U tbd : List Module) (w : Worker) : Nat := 10 * room U tbd w.held + w.cost

/-- Weight of a state, apart from the spinning of idle workers. -/
def total (U : List Module) (s : State) : Nat :=
  (s.workers.map (weight U s.sh.tbd)).sum + s.toStart * (10 * room U s.sh.tbd [] + 1) +
    7 * s.sh.queue.length + (if s.returned then 0 else 1)

/-- How far an idle worker is from doing something else than spinning. -/
def spin (q : List Module) : Worker → Nat
  | .get => if q = [] then 2 else 0
  | .check => 1
  | _ => 0

/-- See `spin`. -/
def spins (s : State) : Nat := (s.workers.map (spin s.sh.queue)).sum

theorem spin_le (q w) : spin q w ≤ 2 := by
  cases w <;> simp [spin]
  split <;> omega

theorem spins_le (s : State) : spins s ≤ 2 * s.workers.length := by
  unfold spins
  induction s.workers with
  | nil => simp
  | cons w ws ih =>
    rw [List.map_cons, List.sum_cons, List.length_cons]
    have := spin_le s.sh.queue w
    omega

/-- Everything that is around has the property `P`. -/
structure Known (srv : Server) (P : Module → Prop) (s : State) : Prop where
  queue : ∀ m ∈ s.sh.queue, P m
  asked : ∀ m ∈ s.sh.asked, P m
  fetch : ∀ m, Worker.fetch m ∈ s.workers → P m
  reply : ∀ m, (Worker.opened m ∈ s.workers ∨ Worker.parsed m ∈ s.workers) →
    P m ∧ srv.refuses m = false
  lists : ∀ r, (Worker.add r ∈ s.workers ∨ Worker.putting r ∈ s.workers) → ∀ m ∈ r, P m

/-- The loadable modules have the property, and it is handed down to dependencies. -/
structure Closed (srv : Server) (P : Module → Prop) : Prop where
  loadable : ∀ m ∈ srv.loadable, P m
  deps : ∀ m, P m → srv.serves m → ∀ d ∈ srv.deps m, P d

theorem closed_universe {srv : Server} {U} (hU : Universe srv U) : Closed srv (· ∈ U) :=
  ⟨hU.loadable, fun m hm _ d hd => hU.closed m hm d hd⟩

theorem closed_wanted (srv : Server) : Closed srv (Wanted srv srv.serves) :=
  ⟨fun _ hm => .loadable hm, fun _ hm hs _ hd => .dep hm hs hd⟩

theorem known_init {srv : Server} {P} (hP : Closed srv P) (n yang) :
    Known srv P (init srv n yang) where
  queue := hP.loadable
  asked := by simp [init]
  fetch := by simp [init]
  reply := by simp [init]
  lists := by simp [init]

theorem known_step {srv : Server} {flaky} {P : Module → Prop} (hP : Closed srv P) {s t : State}
    (hs : Step srv flaky s t) (h : Known srv P s) : Known srv P t := by
  cases hs with
  | join hu => exact ⟨h.queue, h.asked, h.fetch, h.reply, h.lists⟩
  | start =>
    refine ⟨h.queue, h.asked, fun m hm => h.fetch m ?_, fun m hm => h.reply m ?_,
      fun r hr => h.lists r ?_⟩
    · simpa using hm
    · simpa using hm
    · simpa using hr
  | worker hw =>
    rename_i sh sh' w w' pre post n r
    obtain ⟨h1, h0, h2, h4, h3⟩ := h
    simp only [] at h1 h0 h2 h3 h4
    have old2 : ∀ x, x ∈ pre ++ w' :: post → x = w' ∨ x ∈ pre ++ w :: post := fun x hx => mem_old hx
    -- it is enough to look at the worker that made the step
    have fin : (∀ m ∈ sh'.queue, P m) → (∀ m ∈ sh'.asked, P m) →
        (∀ m, w' = .fetch m → P m) →
        (∀ m, (w' = .opened m ∨ w' = .parsed m) → P m ∧ srv.refuses m = false) →
        (∀ r, (w' = .add r ∨ w' = .putting r) → ∀ m ∈ r, P m) →
        Known srv P ⟨sh', pre ++ w' :: post, n, r⟩ := by
      intro a a' b b' c
      refine ⟨a, a', fun m hm => ?_, fun m hm => ?_, fun r hr m hm => ?_⟩
      · rcases old2 _ hm with e | hm
        · exact b m e.symm
        · exact h2 m hm
      · rcases hm with hm | hm
        · rcases old2 _ hm with e | hm
          · exact b' m (.inl e.symm)
          · exact h4 m (.inl hm)
        · rcases old2 _ hm with e | hm
          · exact b' m (.inr e.symm)
          · exact h4 m (.inr hm)
      · rcases hr with hr | hr
        · rcases old2 _ hr with e | hr
          · exact c r (.inl e.symm) m hm
          · exact h3 r (.inl hr) m hm
        · rcases old2 _ hr with e | hr
          · exact c r (.inr e.symm) m hm
          · exact h3 r (.inr hr) m hm
    have me : w ∈ pre ++ w :: post := mem_new _ _ _
    have ask : ∀ m, w = .fetch m → ∀ x ∈ m :: sh.asked, P x := by
      intro m hm x hx
      rcases List.mem_cons.mp hx with rfl | hx
      · exact h2 _ (hm ▸ me)
      · exact h0 x hx
    cases hw with
    | enter _ => exact fin h1 h0 (by simp) (by simp) (by simp)
    | exit _ => exact fin h1 h0 (by simp) (by simp) (by simp)
    | empty _ => exact fin h1 h0 (by simp) (by simp) (by simp)
    | take hq =>
      rename_i m q
      rw [hq] at h1
      refine fin (fun x hx => h1 x (List.mem_cons_of_mem _ hx)) h0 ?_ (by simp) (by simp)
      intro x hx
      cases hx
      exact h1 _ List.mem_cons_self
    | refuse _ => exact fin h1 (ask _ rfl) (by simp) (by simp) (by simp)
    | lose _ => exact fin h1 (ask _ rfl) (by simp) (by simp) (by simp)
    | opens hr =>
      refine fin h1 (ask _ rfl) (by simp) ?_ (by simp)
      intro x hx
      rcases hx with hx | hx <;> cases hx
      exact ⟨h2 _ me, hr⟩
    | writes =>
      refine fin h1 h0 (by simp) ?_ (by simp)
      intro x hx
      rcases hx with hx | hx <;> cases hx
      exact h4 _ (.inl me)
    | fails _ => exact fin h1 h0 (by simp) (by simp) (by simp)
    | nothing _ _ => exact fin h1 h0 (by simp) (by simp) (by simp)
    | misses hu _ =>
      refine fin h1 h0 (by simp) (by simp) ?_
      intro r hr m hm
      rcases hr with hr | hr <;> cases hr
      obtain ⟨hp, hr⟩ := h4 _ (.inr me)
      exact hP.deps _ hp ⟨hr, hu⟩ m (List.mem_of_mem_filter hm)
    | adds =>
      refine fin h1 h0 (by simp) (by simp) ?_
      intro r hr m hm
      rcases hr with hr | hr <;> cases hr
      exact h3 _ (.inl me) m hm
    | puts =>
      refine fin ?_ h0 (by simp) (by simp) ?_
      · intro x hx
        rcases List.mem_append.mp hx with hx | hx
        · exact h1 x hx
        · rw [List.mem_singleton] at hx
          subst hx
          exact h3 _ (.inr me) _ List.mem_cons_self
      · intro r hr m hm
        rcases hr with hr | hr <;> cases hr
        exact h3 _ (.inr me) m (List.mem_cons_of_mem _ hm)
    | stop => exact fin h1 h0 (by simp) (by simp) (by simp)
    | finish => exact fin h1 h0 (by simp) (by simp) (by simp)

theorem known_run {srv : Server} {flaky k} {P : Module → Prop} (hP : Closed srv P) {s t : State}
    (hr : Run srv flaky k s t) (h : Known srv P s) : Known srv P t := by
  induction hr with
  | refl => exact h
  | step _ hs ih => exact known_step hP hs (ih h)

theorem room_mono {U tbd tbd' held : List Module} (h : ∀ m ∈ tbd, m ∈ tbd') :
    room U tbd' held ≤ room U tbd held := by
  unfold room
  apply List.Sublist.length_le
  apply List.monotone_filter_right
  intro m hm
  simp only [decide_eq_true_eq] at hm ⊢
  exact ⟨fun hh => hm.1 (h m hh), hm.2⟩

/-- Taking a set of missing modules uses up as much room. -/
theorem room_held {U tbd s : List Module} (hU : U.Nodup) (hs : s.Nodup)
    (hin : ∀ m ∈ s, m ∈ U ∧ m ∉ tbd) : room U tbd s + s.length = room U tbd [] := by
  unfold room
  have h1 : (U.filter (fun m => m ∉ tbd ∧ m ∉ ([] : List Module))) =
      U.filter (fun m => m ∉ tbd) := by
    apply List.filter_congr
    intro m _
    simp
  rw [h1]
  have h2 : (U.filter (fun m => m ∉ tbd ∧ m ∉ s)) =
      (U.filter (fun m => m ∉ tbd)).filter (fun m => m ∉ s) := by
    rw [List.filter_filter]
    apply List.filter_congr
    intro m _
    by_cases h1 : m ∈ tbd <;> by_cases h2 : m ∈ s <;> simp [h1, h2]
  rw [h2]
  have h3 : ((U.filter (fun m => m ∉ tbd)).filter (fun m => m ∈ s)).length = s.length := by
    apply List.Perm.length_eq
    rw [List.perm_ext_iff_of_nodup ((hU.filter _).filter _) hs]
    intro m
    simp only [List.mem_filter, decide_eq_true_eq]
    exact ⟨fun h => h.2, fun h => ⟨hin m h, h⟩⟩
  have h4 := List.length_eq_length_filter_add (l := U.filter (fun m => m ∉ tbd))
    (fun m => decide (m ∈ s))
  have h5 : (U.filter (fun m => m ∉ tbd)).filter (fun m => !decide (m ∈ s)) =
      (U.filter (fun m => m ∉ tbd)).filter (fun m => m ∉ s) := by
    apply List.filter_congr
    intro m _
    simp
  rw [h5] at h4
  omega

theorem room_add {U tbd s : List Module} : room U (s ++ tbd) [] = room U tbd s := by
  unfold room
  congr 1
  apply List.filter_congr
  intro m _
  simp only [List.mem_append, List.not_mem_nil, not_false_eq_true, and_true]
  by_cases h1 : m ∈ tbd <;> by_cases h2 : m ∈ s <;> simp [h1, h2]

theorem sum_mono {α : Type} {f g : α → Nat} (l : List α) (h : ∀ a ∈ l, f a ≤ g a) :
    (l.map f).sum ≤ (l.map g).sum := by
  induction l with
  | nil => simp
  | cons a l ih =>
    rw [List.map_cons, List.map_cons, List.sum_cons, List.sum_cons]
    have := h a List.mem_cons_self
    have := ih (fun b hb => h b (List.mem_cons_of_mem _ hb))
    omega

theorem sum_mid {f : Worker → Nat} (w : Worker) (pre post : List Worker) :
    ((pre ++ w :: post).map f).sum = ((pre ++ post).map f).sum + f w := by
  rw [List.map_append, List.map_cons, List.sum_append, List.sum_cons, List.map_append,
    List.sum_append]
  omega

theorem step_workers {srv : Server} {flaky} {s t : State} (hs : Step srv flaky s t) :
    t.workers.length + t.toStart = s.workers.length + s.toStart := by
  cases hs with
  | worker _ => simp
  | start => simp; omega
  | join _ => rfl

/-- Every step lowers the weight, or keeps it and brings an idle worker forward. -/
theorem step_decreases {srv : Server} {flaky U} (hU : Universe srv U) {s t : State}
    (hk : Known srv (· ∈ U) s) (hs : Step srv flaky s t) :
    total U t < total U s ∨ (total U t = total U s ∧ spins t < spins s) := by
  cases hs with
  | start =>
    rename_i sh ws n r
    left
    simp only [total, List.map_append, List.map_cons, List.map_nil, List.sum_append,
      List.sum_cons, List.sum_nil, weight, Worker.held, Worker.cost, Nat.add_mul]
    omega
  | join hu =>
    left
    simp only [total, if_true, Bool.false_eq_true, if_false]
    omega
  | worker hw =>
    rename_i sh sh' w w' pre post n r
    -- lowering the weight of the worker and of the queue, `to_be_downloaded` unchanged
    have low : sh'.tbd = sh.tbd →
        weight U sh.tbd w' + 7 * sh'.queue.length < weight U sh.tbd w + 7 * sh.queue.length →
        total U ⟨sh', pre ++ w' :: post, n, r⟩ < total U ⟨sh, pre ++ w :: post, n, r⟩ := by
      intro h1 h2
      simp only [total, sum_mid, h1]
      omega
    cases hw with
    | enter hq =>
      right
      refine ⟨by simp only [total, sum_mid]; rfl, ?_⟩
      simp only [spins, sum_mid, spin, hq, if_false]
      omega
    | exit hq =>
      right
      refine ⟨by simp only [total, sum_mid]; rfl, ?_⟩
      simp only [spins, sum_mid, spin]
      omega
    | empty hq =>
      right
      refine ⟨by simp only [total, sum_mid]; rfl, ?_⟩
      simp only [spins, sum_mid, spin, hq, if_true]
      omega
    | take hq =>
      left
      apply low rfl
      simp only [weight, Worker.held, Worker.cost, hq, List.length_cons]
      omega
    | refuse _ => left; apply low rfl; simp only [weight, Worker.held, Worker.cost]; omega
    | lose _ => left; apply low rfl; simp only [weight, Worker.held, Worker.cost]; omega
    | opens _ => left; apply low rfl; simp only [weight, Worker.held, Worker.cost]; omega
    | writes => left; apply low rfl; simp only [weight, Worker.held, Worker.cost]; omega
    | fails _ => left; apply low rfl; simp only [weight, Worker.held, Worker.cost]; omega
    | nothing _ _ => left; apply low rfl; simp only [weight, Worker.held, Worker.cost]; omega
    | misses _ _ =>
      rename_i m _ _
      left
      apply low rfl
      have hmU : m ∈ U := (hk.reply m (.inr (mem_new _ _ _))).1
      have hr := room_held (U := U) (tbd := sh.tbd) (s := missing srv sh m) hU.nodup
        ((hU.deps m).filter _) (by
          intro d hd
          obtain ⟨h1, h2⟩ := List.mem_filter.mp hd
          exact ⟨hU.closed m hmU d h1, by simpa using h2⟩)
      simp only [weight, Worker.held, Worker.cost]
      omega
    | adds =>
      rename_i s
      left
      have hmono : ∀ held, room U (s ++ sh.tbd) held ≤ room U sh.tbd held := fun held =>
        room_mono (fun m hm => List.mem_append_right _ hm)
      have hsum : ((pre ++ post).map (weight U (s ++ sh.tbd))).sum ≤
          ((pre ++ post).map (weight U sh.tbd)).sum :=
        sum_mono _ fun x _ => by
          have := hmono x.held
          simp only [weight]
          omega
      have hst : n * (10 * room U (s ++ sh.tbd) [] + 1) ≤ n * (10 * room U sh.tbd [] + 1) :=
        Nat.mul_le_mul_left _ (by have := hmono []; omega)
      have hown : weight U (s ++ sh.tbd) (.putting s) < weight U sh.tbd (.add s) := by
        simp only [weight, Worker.held, Worker.cost]
        rw [room_add]
        omega
      simp only [total, sum_mid]
      omega
    | puts =>
      left
      apply low rfl
      simp only [weight, Worker.held, Worker.cost, List.length_append, List.length_cons,
        List.length_nil]
      omega
    | stop => left; apply low rfl; simp only [weight, Worker.held, Worker.cost, List.length_nil]; omega
    | finish => left; apply low rfl; simp only [weight, Worker.held, Worker.cost]; omega

/-- A bound on the number of steps from a state on. -/
def bound (U : List Module) (s : State) : Nat :=
  total U s * (2 * (s.workers.length + s.toStart) + 1) + spins s

theorem bound_step {srv : Server} {flaky U} (hU : Universe srv U) {s t : State}
    (hk : Known srv (· ∈ U) s) (hs : Step srv flaky s t) : bound U t + 1 ≤ bound U s := by
  have hw := step_workers hs
  unfold bound
  rw [hw]
  have hsp : spins t ≤ 2 * (s.workers.length + s.toStart) := by
    have := spins_le t
    omega
  rcases step_decreases hU hk hs with h | ⟨h1, h2⟩
  · have : (total U t + 1) * (2 * (s.workers.length + s.toStart) + 1) ≤
        total U s * (2 * (s.workers.length + s.toStart) + 1) :=
      Nat.mul_le_mul_right _ h
    rw [Nat.add_mul] at this
    omega
  · rw [h1]; omega

theorem run_bound {srv : Server} {flaky U} (hU : Universe srv U) {k} {s t : State}
    (hr : Run srv flaky k s t) (hk : Known srv (· ∈ U) s) : Known srv (· ∈ U) t ∧ bound U t + k ≤ bound U s := by
  induction hr with
  | refl => exact ⟨hk, Nat.le_refl _⟩
  | step _ hs ih =>
    obtain ⟨h1, h2⟩ := ih hk
    refine ⟨known_step (closed_universe hU) hs h1, ?_⟩
    have := bound_step hU h1 hs
    omega

/-- From every state on, a run to the end exists. -/
theorem run_to_end {srv : Server} {flaky U} (hU : Universe srv U) :
    ∀ (b : Nat) {s : State}, Known srv (· ∈ U) s → bound U s ≤ b →
      ∃ k t, Run srv flaky k s t ∧ ¬ ∃ u, Step srv flaky t u
  | 0, s, hk, hb => by
    refine ⟨0, s, .refl, fun ⟨u, hu⟩ => ?_⟩
    have := bound_step hU hk hu
    omega
  | b + 1, s, hk, hb => by
    by_cases h : ∃ u, Step srv flaky s u
    · obtain ⟨u, hu⟩ := h
      have h1 := bound_step hU hk hu
      obtain ⟨k, t, hr, hend⟩ := run_to_end (flaky := flaky) hU b (known_step (closed_universe hU) hu hk) (by omega)
      exact ⟨_, t, run_cons hu hr, hend⟩
    · exact ⟨0, s, .refl, h⟩
where
  run_cons {s u t : State} {k : Nat} (hu : Step srv flaky s u) (hr : Run srv flaky k u t) :
      Run srv flaky (k + 1) s t := by
    induction hr with
    | refl => exact .step .refl hu
    | step _ hs ih => exact .step (ih hu) hs

/-! ## Files -/

/-- The files that belong to the modules that were fetched. -/
structure Files (srv : Server) (flaky : Bool) (s : State) : Prop where
  got : ∀ m, (m ∈ s.sh.got ∨ Worker.parsed m ∈ s.workers) →
    s.sh.yang m = some (srv.text m) ∨ Worker.opened m ∈ s.workers
  asked : flaky = false → ∀ m ∈ s.sh.asked, srv.refuses m = false →
    s.sh.yang m = some (srv.text m) ∨ Worker.opened m ∈ s.workers
  seen : flaky = false → ∀ m ∈ s.sh.asked, srv.refuses m = false → srv.unparsable m = false →
    m ∈ s.sh.got ∨ Worker.opened m ∈ s.workers ∨ Worker.parsed m ∈ s.workers

theorem files_init (srv : Server) (flaky n yang) : Files srv flaky (init srv n yang) where
  got := by simp [init]
  asked := by simp [init]
  seen := by simp [init]

theorem files_worker {srv : Server} {flaky} {sh sh' : Shared} {w w' : Worker}
    (hs : WStep srv flaky sh w sh' w') {pre post n r}
    (h : Files srv flaky ⟨sh, pre ++ w :: post, n, r⟩) :
    Files srv flaky ⟨sh', pre ++ w' :: post, n, r⟩ := by
  obtain ⟨h1, h2, h3⟩ := h
  simp only [] at h1 h2 h3
  -- steps that do not concern files
  have plain : ∀ (sh' : Shared) (w' : Worker), sh'.yang = sh.yang → sh'.asked = sh.asked →
      sh'.got = sh.got → (∀ m, w ≠ .opened m) → (∀ m, w ≠ .parsed m) → (∀ m, w' ≠ .parsed m) →
      Files srv flaky ⟨sh', pre ++ w' :: post, n, r⟩ := by
    intro sh' w' e1 e2 e3 n1 n2 n3
    have op : ∀ m, Worker.opened m ∈ pre ++ w :: post → Worker.opened m ∈ pre ++ w' :: post :=
      fun m hm => (mem_old hm).resolve_left fun e => n1 m e.symm
    have pa : ∀ m, Worker.parsed m ∈ pre ++ w :: post → Worker.parsed m ∈ pre ++ w' :: post :=
      fun m hm => (mem_old hm).resolve_left fun e => n2 m e.symm
    refine ⟨fun m hm => ?_, fun hf m hm hr => ?_, fun hf m hm hr hu => ?_⟩
    · simp only [e1]
      rw [e3] at hm
      refine (h1 m (hm.imp_right fun hm => ?_)).imp_right (op m)
      exact (mem_old hm).resolve_left fun e => n3 m e.symm
    · simp only [e1]
      rw [e2] at hm
      exact (h2 hf m hm hr).imp_right (op m)
    · simp only [e3]
      rw [e2] at hm
      exact (h3 hf m hm hr hu).imp_right (Or.imp (op m) (pa m))
  cases hs with
  | enter _ => exact plain _ _ rfl rfl rfl (by simp) (by simp) (by simp)
  | exit _ => exact plain _ _ rfl rfl rfl (by simp) (by simp) (by simp)
  | empty _ => exact plain _ _ rfl rfl rfl (by simp) (by simp) (by simp)
  | take _ => exact plain _ _ rfl rfl rfl (by simp) (by simp) (by simp)
  | adds => exact plain _ _ rfl rfl rfl (by simp) (by simp) (by simp)
  | puts => exact plain _ _ rfl rfl rfl (by simp) (by simp) (by simp)
  | stop => exact plain _ _ rfl rfl rfl (by simp) (by simp) (by simp)
  | finish => exact plain _ _ rfl rfl rfl (by simp) (by simp) (by simp)
  | refuse hr' =>
    rename_i m
    obtain ⟨g1, g2, g3⟩ := plain sh .done rfl rfl rfl (by simp) (by simp) (by simp)
    simp only [] at g1 g2 g3
    refine ⟨g1, fun hf x hx hr => ?_, fun hf x hx hr hu => ?_⟩
    · rcases List.mem_cons.mp hx with rfl | hx
      · rw [hr'] at hr; cases hr
      · exact g2 hf x hx hr
    · rcases List.mem_cons.mp hx with rfl | hx
      · rw [hr'] at hr; cases hr
      · exact g3 hf x hx hr hu
  | lose hf' =>
    obtain ⟨g1, g2, g3⟩ := plain sh .done rfl rfl rfl (by simp) (by simp) (by simp)
    simp only [] at g1 g2 g3
    refine ⟨g1, fun hf => ?_, fun hf => ?_⟩ <;> (rw [hf'] at hf; cases hf)
  | opens hr' =>
    rename_i m
    obtain ⟨g1, g2, g3⟩ := plain sh (.opened m) rfl rfl rfl (by simp) (by simp)
      (by simp)
    simp only [] at g1 g2 g3
    have hin : Worker.opened m ∈ pre ++ Worker.opened m :: post := mem_new _ _ _
    refine ⟨fun x hx => ?_, fun hf x hx hr => ?_, fun hf x hx hr hu => ?_⟩
    · by_cases hxm : x = m
      · subst hxm; exact .inr hin
      · simp only [setFile, if_neg hxm]; exact g1 x hx
    · by_cases hxm : x = m
      · subst hxm; exact .inr hin
      · simp only [setFile, if_neg hxm]
        exact g2 hf x ((List.mem_cons.mp hx).resolve_left hxm) hr
    · by_cases hxm : x = m
      · subst hxm; exact .inr (.inl hin)
      · exact g3 hf x ((List.mem_cons.mp hx).resolve_left hxm) hr hu
  | writes =>
    rename_i m
    have op : ∀ x, x ≠ m → Worker.opened x ∈ pre ++ Worker.opened m :: post →
        Worker.opened x ∈ pre ++ Worker.parsed m :: post :=
      fun x hx hm => (mem_old hm).resolve_left fun e => hx (by cases e; rfl)
    refine ⟨fun x hx => ?_, fun hf x hx hr => ?_, fun hf x hx hr hu => ?_⟩
    · by_cases hxm : x = m
      · subst hxm; left; simp [setFile]
      · simp only [setFile, if_neg hxm]
        refine (h1 x (hx.imp_right fun hp => ?_)).imp_right (op x hxm)
        exact (mem_old hp).resolve_left fun e => hxm (by cases e; rfl)
    · by_cases hxm : x = m
      · subst hxm; left; simp [setFile]
      · simp only [setFile, if_neg hxm]
        exact (h2 hf x hx hr).imp_right (op x hxm)
    · by_cases hxm : x = m
      · subst hxm; exact .inr (.inr (mem_new _ _ _))
      · refine (h3 hf x hx hr hu).imp_right (Or.imp (op x hxm) fun hp => ?_)
        exact (mem_old hp).resolve_left fun e => by cases e
  | fails hf' =>
    rename_i m
    have op : ∀ x, Worker.opened x ∈ pre ++ Worker.parsed m :: post →
        Worker.opened x ∈ pre ++ Worker.done :: post :=
      fun x hm => (mem_old hm).resolve_left fun e => by cases e
    refine ⟨fun x hx => ?_, fun hf x hx hr => (h2 hf x hx hr).imp_right (op x),
      fun hf x hx hr hu => ?_⟩
    · refine (h1 x (hx.imp_right fun hp => ?_)).imp_right (op x)
      exact (mem_old hp).resolve_left fun e => by cases e
    · rcases h3 hf x hx hr hu with h | h | h
      · exact .inl h
      · exact .inr (.inl (op x h))
      · rcases mem_old h with e | h
        · cases e
          rw [hu, hf] at hf'
          simp at hf'
        · exact .inr (.inr h)
  | nothing hu' hm' =>
    rename_i m
    have op : ∀ x, Worker.opened x ∈ pre ++ Worker.parsed m :: post →
        Worker.opened x ∈ pre ++ Worker.done :: post :=
      fun x hm => (mem_old hm).resolve_left fun e => by cases e
    refine ⟨fun x hx => ?_, fun hf x hx hr => (h2 hf x hx hr).imp_right (op x),
      fun hf x hx hr hu => ?_⟩
    · refine (h1 x ?_).imp_right (op x)
      rcases hx with hx | hx
      · rcases List.mem_cons.mp hx with rfl | hx
        · exact .inr (mem_new _ _ _)
        · exact .inl hx
      · exact .inr ((mem_old hx).resolve_left fun e => by cases e)
    · rcases h3 hf x hx hr hu with h | h | h
      · exact .inl (List.mem_cons_of_mem _ h)
      · exact .inr (.inl (op x h))
      · rcases mem_old h with e | h
        · cases e; exact .inl List.mem_cons_self
        · exact .inr (.inr h)
  | misses hu' hm' =>
    rename_i m
    have op : ∀ x, Worker.opened x ∈ pre ++ Worker.parsed m :: post →
        Worker.opened x ∈ pre ++ Worker.add (missing srv sh m) :: post :=
      fun x hm => (mem_old hm).resolve_left fun e => by cases e
    refine ⟨fun x hx => ?_, fun hf x hx hr => (h2 hf x hx hr).imp_right (op x),
      fun hf x hx hr hu => ?_⟩
    · refine (h1 x ?_).imp_right (op x)
      rcases hx with hx | hx
      · rcases List.mem_cons.mp hx with rfl | hx
        · exact .inr (mem_new _ _ _)
        · exact .inl hx
      · exact .inr ((mem_old hx).resolve_left fun e => by cases e)
    · rcases h3 hf x hx hr hu with h | h | h
      · exact .inl (List.mem_cons_of_mem _ h)
      · exact .inr (.inl (op x h))
      · rcases mem_old h with e | h
        · cases e; exact .inl List.mem_cons_self
        · exact .inr (.inr h)

theorem files_step {srv : Server} {flaky} {s t : State} (hs : Step srv flaky s t)
    (h : Files srv flaky s) : Files srv flaky t := by
  cases hs with
  | worker hw => exact files_worker hw h
  | join _ => exact ⟨h.got, h.asked, h.seen⟩
  | start =>
    obtain ⟨h1, h2, h3⟩ := h
    refine ⟨fun m hm => ?_, fun hf m hm hr => ?_, fun hf m hm hr hu => ?_⟩
    · simpa using h1 m (by simpa using hm)
    · simpa using h2 hf m hm hr
    · simpa using h3 hf m hm hr hu

theorem files_run {srv : Server} {flaky k} {s t : State} (hr : Run srv flaky k s t)
    (h : Files srv flaky s) : Files srv flaky t := by
  induction hr with
  | refl => exact h
  | step _ hs ih => exact files_step hs (ih h)

theorem idle_not_mem {srv : Server} {s : State} (h : Inv srv s) (hr : s.returned = true)
    {w : Worker} (hw : w.busy = true) : w ∉ s.workers := by
  intro hm
  rw [(h.back hr).2.2 w hm] at hw
  cases hw

theorem wanted_serves_asked {srv : Server} {s : State} (h : Inv srv s) (hf : Files srv false s)
    (hr : s.returned = true) {m : Module} (hm : Wanted srv srv.serves m) : m ∈ s.sh.asked := by
  apply wanted_asked h hr
  induction hm with
  | loadable hl => exact .loadable hl
  | dep _ hs hd ih =>
    refine .dep ih ?_ hd
    rcases hf.seen rfl _ (wanted_asked h hr ih) hs.1 hs.2 with h' | h' | h'
    · exact h'
    · exact absurd h' (idle_not_mem h hr rfl)
    · exact absurd h' (idle_not_mem h hr rfl)

theorem complete_at_return {srv : Server} {s : State} (h : Inv srv s) (hf : Files srv false s)
    (hr : s.returned = true) : Complete srv s.sh.yang := by
  intro m hm href
  rcases hf.asked rfl m (wanted_serves_asked h hf hr hm) href with h' | h'
  · exact h'
  · exact absurd h' (idle_not_mem h hr rfl)

/-! ## The whole of `download_all` in 'check' mode -/

/-- What holds at any point of `download_all(check_before_download=True)`. -/
def PInv (srv : Server) (caps : String) (p : Proc) : Prop :=
  match p.phase with
  | .begin => p.disk.caps = some caps → Complete srv p.disk.yang
  | .cleaning => p.disk.caps ≠ some caps
  | .downloading st => p.disk.caps = none ∧ st.sh.yang = p.disk.yang ∧ Inv srv st ∧
      Files srv false st
  | .capsOpened => Complete srv p.disk.yang
  | .capsWritten => p.disk.caps = some caps ∧ Complete srv p.disk.yang
  | .returned => p.disk.caps = some caps ∧ Complete srv p.disk.yang

theorem pinv_step {srv : Server} {n : Nat} (hn : 0 < n) {caps : String} {p q : Proc}
    (hs : PStep srv false true n caps p q) (h : PInv srv caps p) : PInv srv caps q := by
  cases hs with
  | skip _ hc => exact ⟨hc, h hc⟩
  | clean hc => exact fun e => hc ⟨rfl, e⟩
  | removeCaps => intro e; cases e
  | removeYang m => exact h
  | download hc hy => exact ⟨hc, rfl, inv_init srv hn _, files_init srv false n _⟩
  | thread hst =>
    obtain ⟨h1, h2, h3, h4⟩ := h
    exact ⟨h1, rfl, inv_step hst h3, files_step hst h4⟩
  | openCaps hr =>
    obtain ⟨h1, h2, h3, h4⟩ := h
    have := complete_at_return h3 h4 hr
    rw [h2] at this
    exact this
  | writeCaps => exact ⟨rfl, h⟩
  | finish => exact h

theorem pinv_run {srv : Server} {n : Nat} (hn : 0 < n) {caps : String} {p q : Proc}
    (hr : ProcRun srv false true n caps p q) (h : PInv srv caps p) : PInv srv caps q := by
  induction hr with
  | refl => exact h
  | step _ hs ih => exact pinv_step hn hs ih

theorem pinv_left {srv : Server} {caps : String} {p : Proc} {d : Disk} (h : PInv srv caps p)
    (hl : LeftBehind p d) (hc : d.caps = some caps) : Complete srv d.yang := by
  obtain ⟨h1, h2⟩ := hl
  rcases p with ⟨ph, disk⟩
  have same : (∀ st, ph ≠ .downloading st) → d.yang = disk.yang := by
    intro hne
    funext m
    rcases h2 m with h | ⟨st, h, _⟩
    · exact h
    · exact absurd h (hne st)
  cases ph with
  | begin =>
    rw [same (by simp)]
    exact h (by rw [← h1.resolve_right (by simp)]; exact hc)
  | cleaning =>
    exact absurd (by rw [← h1.resolve_right (by simp)]; exact hc) h
  | downloading st =>
    have := h1.resolve_right (by simp)
    rw [hc] at this
    have h0 := h.1
    simp only [] at this h0
    rw [h0] at this
    cases this
  | capsOpened => rw [same (by simp)]; exact h
  | capsWritten => rw [same (by simp)]; exact h.2
  | returned => rw [same (by simp)]; exact h.2

theorem folder_sound {srv : Server} {caps : String} {d : Disk} (h : Folder srv caps d) :
    d.caps = some caps → Complete srv d.yang := by
  induction h with
  | start h => exact h
  | run n hn _ hr hl ih => exact pinv_left (pinv_run hn hr ih) hl

end NcDiff.Download
