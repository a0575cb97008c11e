import Verif.Spec.Context
import Mathlib.Data.List.Nodup
import Mathlib.Algebra.Order.BigOperators.Group.List
/-!
# The threads that build the table of dependencies: invariants, no deadlock, termination
-/

namespace NcDiff.Context

/-- The worker has taken a file and not called `task_done`. -/
def Worker.busy : Worker → Bool
  | .check | .get | .exited => false
  | _ => true

/-- The entry that the worker is going to add. -/
def Worker.held (fd : Folder) : Worker → List Entry
  | .parse f => (fd.outcome f).entry?.toList
  | .test e | .create e | .scan e | .removing _ e | .fill _ e => [e]
  | _ => []

/-- The node that the worker is going to fill. -/
def Worker.filling : Worker → List Nat
  | .fill i _ => [i]
  | _ => []

theorem countP_mid (w : Worker) (pre post : List Worker) :
    (pre ++ w :: post).countP Worker.busy =
      (pre ++ post).countP Worker.busy + (if w.busy then 1 else 0) := by
  rw [List.countP_append, List.countP_cons, List.countP_append]; omega

/-! ## What holds for any folder and any number of threads -/

/-- What holds in every state that can be reached. -/
structure Inv (fd : Folder) (s : State) : Prop where
  count : s.sh.unfinished = s.sh.queue.length + s.workers.countP Worker.busy
  files : ∀ f ∈ fd.files, fd.outcome f = .raises →
    f ∈ s.sh.queue ∨ Worker.parse f ∈ s.workers ∨ Worker.dead ∈ s.workers
  back : s.returned = true → s.sh.queue = [] ∧ s.toStart = 0 ∧ ∀ w ∈ s.workers, w.busy = false
  sound : ∀ e ∈ entries s, e ∈ fd.all
  queue : ∀ f ∈ s.sh.queue, f ∈ fd.files
  held : ∀ w ∈ s.workers, ∀ e ∈ w.held fd, e ∈ fd.all

theorem inv_init (fd : Folder) (n : Nat) {deps : Option (List Node)}
    (hd : deps = none ∨ deps = some []) : Inv fd (init fd n deps) where
  count := by simp [init]
  files := fun f hf _ => .inl hf
  back := fun h => by cases h
  sound := by rcases hd with rfl | rfl <;> simp [entries, nodes, init]
  queue := fun f hf => hf
  held := by simp [init]

theorem mem_all {fd : Folder} {f : File} {e : Entry} (hf : f ∈ fd.files)
    (he : fd.outcome f = .stmt e) : e ∈ fd.all :=
  List.mem_filterMap.mpr ⟨f, hf, by rw [he]; rfl⟩

theorem mem_held_parse {fd : Folder} {f : File} {e : Entry} :
    e ∈ (Worker.parse f).held fd ↔ fd.outcome f = .stmt e := by
  simp only [Worker.held, Option.mem_toList]
  cases fd.outcome f <;> simp [Outcome.entry?]

theorem inv_worker {fd : Folder} {sh sh' : Shared} {w w' : Worker} (hs : WStep fd sh w sh' w')
    {pre post n r} (h : Inv fd ⟨sh, pre ++ w :: post, n, r⟩) :
    Inv fd ⟨sh', pre ++ w' :: post, n, r⟩ := by
  obtain ⟨hc, hf, hb, hso, hq, hh⟩ := h
  simp only [] at hc hf hb hso hq hh
  rw [countP_mid] at hc
  have hret : r = true → sh.queue = [] ∧ n = 0 ∧ w.busy = false ∧
      ∀ x ∈ pre ++ post, x.busy = false := by
    intro hr
    obtain ⟨h1, h2, h3⟩ := hb hr
    refine ⟨h1, h2, h3 w (by simp), fun x hx => h3 x ?_⟩
    simp only [List.mem_append, List.mem_cons] at hx ⊢; tauto
  have hback : ∀ (q : List File), (r = true → q = [] ∧ w'.busy = false) →
      r = true → q = [] ∧ n = 0 ∧ ∀ x ∈ pre ++ w' :: post, x.busy = false := by
    intro q hq hr
    obtain ⟨h1, h2, h3, h4⟩ := hret hr
    refine ⟨(hq hr).1, h2, fun x hx => ?_⟩
    simp only [List.mem_append, List.mem_cons] at hx
    rcases hx with hx | rfl | hx
    · exact h4 x (List.mem_append_left _ hx)
    · exact (hq hr).2
    · exact h4 x (List.mem_append_right _ hx)
  have hstuck : w.busy = true → r = true → False := fun hw hr => by
    rw [(hret hr).2.2.1] at hw; cases hw
  -- a file that is in the queue or that another worker has stays where it is
  have keepF : (∀ f, fd.outcome f = .raises → f ∈ sh.queue → f ∈ sh'.queue ∨ w' = .parse f) →
      (∀ f, fd.outcome f = .raises → w = .parse f → w' = .dead) → (w ≠ .dead) →
      ∀ f ∈ fd.files, fd.outcome f = .raises →
        f ∈ sh'.queue ∨ Worker.parse f ∈ pre ++ w' :: post ∨ Worker.dead ∈ pre ++ w' :: post := by
    intro h1 h2 h3 f hff hr
    rcases hf f hff hr with hm | hm | hm
    · rcases h1 f hr hm with h | rfl
      · exact .inl h
      · exact .inr (.inl (by simp))
    · simp only [List.mem_append, List.mem_cons] at hm ⊢
      rcases hm with hm | hm | hm
      · tauto
      · have := h2 f hr hm.symm; subst this; tauto
      · tauto
    · simp only [List.mem_append, List.mem_cons] at hm ⊢
      rcases hm with hm | hm | hm
      · tauto
      · exact absurd hm.symm h3
      · tauto
  have keepH : (∀ e ∈ w'.held fd, e ∈ fd.all) →
      ∀ x ∈ pre ++ w' :: post, ∀ e ∈ x.held fd, e ∈ fd.all := by
    intro h1 x hx e he
    simp only [List.mem_append, List.mem_cons] at hx
    rcases hx with hx | rfl | hx
    · exact hh x (by simp [hx]) e he
    · exact h1 e he
    · exact hh x (by simp [hx]) e he
  have hw := hh w (by simp)
  cases hs with
  | enter hne =>
    exact ⟨by rw [countP_mid]; simpa [Worker.busy] using hc, keepF (fun f _ h => .inl h) (by simp)
      (by simp), fun hr => absurd (hret hr).1 hne, hso, hq, keepH (by simp [Worker.held])⟩
  | exit he =>
    exact ⟨by rw [countP_mid]; simpa [Worker.busy] using hc, keepF (fun f _ h => .inl h) (by simp)
      (by simp), hback _ (fun _ => ⟨he, rfl⟩), hso, hq, keepH (by simp [Worker.held])⟩
  | empty he =>
    exact ⟨by rw [countP_mid]; simpa [Worker.busy] using hc, keepF (fun f _ h => .inl h) (by simp)
      (by simp), hback _ (fun _ => ⟨he, rfl⟩), hso, hq, keepH (by simp [Worker.held])⟩
  | take he =>
    rename_i f q
    refine ⟨?_, keepF (fun g _ h => ?_) (by simp) (by simp), fun hr => ?_, hso,
      fun g hg => hq g (by rw [he]; exact List.mem_cons_of_mem _ hg), keepH fun e hm => ?_⟩
    · rw [countP_mid]
      rw [he] at hc
      simp only [Worker.busy, List.length_cons, if_true, Bool.false_eq_true, if_false] at hc ⊢
      omega
    · rw [he] at h
      rcases List.mem_cons.mp h with rfl | h
      · exact .inr rfl
      · exact .inl h
    · have := (hret hr).1; rw [he] at this; cases this
    · exact mem_all (hq f (by rw [he]; simp)) (mem_held_parse.mp hm)
  | raises ho =>
    exact ⟨by rw [countP_mid]; simpa [Worker.busy] using hc, keepF (fun f _ h => .inl h)
      (fun _ _ _ => rfl) (by simp), fun hr => (hstuck rfl hr).elim, hso, hq,
      keepH (by simp [Worker.held])⟩
  | skips ho =>
    refine ⟨by rw [countP_mid]; simpa [Worker.busy] using hc, keepF (fun f _ h => .inl h)
      (fun f hr h => ?_) (by simp), fun hr => (hstuck rfl hr).elim, hso, hq,
      keepH (by simp [Worker.held])⟩
    cases h; rw [ho] at hr; cases hr
  | parses ho =>
    refine ⟨by rw [countP_mid]; simpa [Worker.busy] using hc, keepF (fun f _ h => .inl h)
      (fun f hr h => ?_) (by simp), fun hr => (hstuck rfl hr).elim, hso, hq,
      keepH fun e hm => hw e ?_⟩
    · cases h; rw [ho] at hr; cases hr
    · simp only [Worker.held, List.mem_singleton] at hm
      subst hm; exact mem_held_parse.mpr ho
  | isNone hd =>
    exact ⟨by rw [countP_mid]; simpa [Worker.busy] using hc, keepF (fun f _ h => .inl h) (by simp)
      (by simp), fun hr => (hstuck rfl hr).elim, hso, hq, keepH hw⟩
  | isSome hd =>
    exact ⟨by rw [countP_mid]; simpa [Worker.busy] using hc, keepF (fun f _ h => .inl h) (by simp)
      (by simp), fun hr => (hstuck rfl hr).elim, hso, hq, keepH hw⟩
  | creates =>
    exact ⟨by rw [countP_mid]; simpa [Worker.busy] using hc, keepF (fun f _ h => .inl h) (by simp)
      (by simp), fun hr => (hstuck rfl hr).elim, by simp [entries, nodes], hq, keepH hw⟩
  | scans =>
    exact ⟨by rw [countP_mid]; simpa [Worker.busy] using hc, keepF (fun f _ h => .inl h) (by simp)
      (by simp), fun hr => (hstuck rfl hr).elim, hso, hq, keepH hw⟩
  | removes hm =>
    refine ⟨by rw [countP_mid]; simpa [Worker.busy] using hc, keepF (fun f _ h => .inl h) (by simp)
      (by simp), fun hr => (hstuck rfl hr).elim, fun e he => hso e ?_, hq, keepH hw⟩
    simp only [entries, nodes, Option.getD_some, List.mem_filterMap, List.mem_filter] at he ⊢
    obtain ⟨x, ⟨hx, _⟩, hxe⟩ := he
    exact ⟨x, hx, hxe⟩
  | gone hm =>
    exact ⟨by rw [countP_mid]; simpa [Worker.busy] using hc, keepF (fun f _ h => .inl h) (by simp)
      (by simp), fun hr => (hstuck rfl hr).elim, hso, hq, keepH (by simp [Worker.held])⟩
  | appends =>
    refine ⟨by rw [countP_mid]; simpa [Worker.busy] using hc, keepF (fun f _ h => .inl h) (by simp)
      (by simp), fun hr => (hstuck rfl hr).elim, fun e he => hso e ?_, hq, keepH hw⟩
    simpa [entries, nodes] using he
  | fills =>
    rename_i i e
    refine ⟨by rw [countP_mid]; simpa [Worker.busy] using hc, keepF (fun f _ h => .inl h) (by simp)
      (by simp), fun hr => (hstuck rfl hr).elim, fun e' he => ?_, hq, keepH (by simp [Worker.held])⟩
    cases hd : sh.deps with
    | none => simp [entries, nodes, hd] at he
    | some ns =>
      simp only [entries, nodes, hd, Option.map_some, Option.getD_some, List.mem_filterMap,
        List.mem_map] at he
      obtain ⟨x, ⟨y, hy, rfl⟩, hx⟩ := he
      split at hx
      · simp only [Option.some.injEq] at hx
        subst hx
        exact hw _ (by simp [Worker.held])
      · exact hso _ (by simp only [entries, nodes, hd, Option.getD_some]
                        exact List.mem_filterMap.mpr ⟨y, hy, hx⟩)
  | finish =>
    refine ⟨?_, keepF (fun f _ h => .inl h) (by simp) (by simp),
      fun hr => (hstuck rfl hr).elim, hso, hq, keepH (by simp [Worker.held])⟩
    rw [countP_mid]
    simp only [Worker.busy, if_true, Bool.false_eq_true, if_false] at hc ⊢
    omega

theorem inv_step {fd : Folder} {s t : State} (hs : Step fd s t) (h : Inv fd s) : Inv fd t := by
  cases hs with
  | worker hw => exact inv_worker hw h
  | start =>
    rename_i sh ws n r
    obtain ⟨hc, hf, hb, hso, hq, hh⟩ := h
    simp only [] at hc hf hb hso hq hh
    refine ⟨?_, fun f hff hr => ?_, fun hr => ?_, hso, hq, fun w hw => ?_⟩
    · simpa [List.countP_append, Worker.busy] using hc
    · rcases hf f hff hr with h | h | h
      · exact .inl h
      · exact .inr (.inl (List.mem_append_left _ h))
      · exact .inr (.inr (List.mem_append_left _ h))
    · have := (hb hr).2.1; omega
    · rcases List.mem_append.mp hw with h | h
      · exact hh w h
      · rw [List.mem_singleton.mp h]; simp [Worker.held]
  | join hu =>
    rename_i sh ws
    obtain ⟨hc, hf, hb, hso, hq, hh⟩ := h
    simp only [] at hc hf hb hso hq hh
    have h1 : sh.queue.length = 0 ∧ ws.countP Worker.busy = 0 := by omega
    refine ⟨hc, hf, fun _ => ⟨List.eq_nil_of_length_eq_zero h1.1, rfl, fun w hw => ?_⟩, hso, hq, hh⟩
    simpa using List.countP_eq_zero.mp h1.2 w hw

theorem inv_run {fd : Folder} {k} {s t : State} (hr : Run fd k s t) (h : Inv fd s) : Inv fd t := by
  induction hr with
  | refl => exact h
  | step _ hs ih => exact inv_step hs (ih h)

/-- If `join` has returned, no file made a thread die. -/
theorem returned_fine {fd : Folder} {s : State} (h : Inv fd s) (hr : s.returned = true) :
    ∀ f ∈ fd.files, fd.outcome f ≠ .raises := by
  intro f hf ho
  obtain ⟨hq, _, hi⟩ := h.back hr
  rcases h.files f hf ho with hm | hm | hm
  · rw [hq] at hm; cases hm
  · have := hi _ hm; simp [Worker.busy] at this
  · have := hi _ hm; simp [Worker.busy] at this

/-- A dead thread stays dead. -/
theorem dead_run {fd : Folder} {k} {s t : State} (hr : Run fd k s t) (h : Worker.dead ∈ s.workers) :
    Worker.dead ∈ t.workers := by
  induction hr with
  | refl => exact h
  | step _ hs ih =>
    have := ih h
    cases hs with
    | start => exact List.mem_append_left _ this
    | join _ => exact this
    | worker hw =>
      simp only [List.mem_append, List.mem_cons] at this ⊢
      rcases this with h | h | h
      · exact .inl h
      · cases h; cases hw
      · exact .inr (.inr h)

/-- With a dead thread `join` does not return. -/
theorem dead_hangs {fd : Folder} {k} {s t : State} (hi : Inv fd s) (h : Worker.dead ∈ s.workers)
    (hr : Run fd k s t) : t.returned = false := by
  cases hret : t.returned with
  | false => rfl
  | true =>
    have := ((inv_run hr hi).back hret).2.2 _ (dead_run hr h)
    cases this

/-! ## Threads that are not in the way of each other -/

/-- The entries of files in the queue. -/
def waiting (fd : Folder) (q : List File) : List Entry :=
  q.filterMap (fun f => (fd.outcome f).entry?)

/-- What holds if there is one thread, or the table is there from the start, and if there is at most
one file for every module. -/
structure Tidy (fd : Folder) (s : State) : Prop where
  /-- every entry is in the table, or held by a thread, or in the queue -/
  perm : (entries s ++ (waiting fd s.sh.queue ++ s.workers.flatMap (Worker.held fd))).Perm fd.all
  clean : ∀ ms e, Worker.removing ms e ∈ s.workers → ms = []
  ids : ((nodes s.sh).map Prod.fst).Nodup
  bound : ∀ n ∈ nodes s.sh, n.1 < s.sh.fresh
  blank : ∀ i e, Worker.fill i e ∈ s.workers → (i, none) ∈ nodes s.sh
  apart : (s.workers.flatMap Worker.filling).Nodup
  once : ∀ e, Worker.create e ∈ s.workers → s.sh.deps = none
  alone : s.workers.length + s.toStart ≤ 1 ∨ s.sh.deps ≠ none

theorem tidy_init (fd : Folder) {n : Nat} {deps} (h : Safe n deps) : Tidy fd (init fd n deps) := by
  refine ⟨?_, by simp [init], ?_, ?_, by simp [init], by simp [init], by simp [init], ?_⟩
  · rcases h with ⟨_, rfl⟩ | ⟨_, rfl⟩ <;>
      simp [entries, nodes, init, waiting, Folder.all]
  · rcases h with ⟨_, rfl⟩ | ⟨_, rfl⟩ <;> simp [nodes, init]
  · rcases h with ⟨_, rfl⟩ | ⟨_, rfl⟩ <;> simp [nodes, init]
  · rcases h with ⟨rfl, rfl⟩ | ⟨_, rfl⟩ <;> simp [init]

/-- Filling the only node with that identity. -/
theorem fill_perm {ns : List Node} {i : Nat} (e : Entry) (hn : (ns.map Prod.fst).Nodup)
    (hm : (i, none) ∈ ns) :
    ((ns.map (fun n => if n.1 = i then (i, some e) else n)).filterMap Prod.snd).Perm
      (e :: ns.filterMap Prod.snd) := by
  induction ns with
  | nil => cases hm
  | cons x r ih =>
    simp only [List.map_cons, List.nodup_cons] at hn
    by_cases hx : x.1 = i
    · have hxe : x = (i, none) := by
        rcases List.mem_cons.mp hm with h | h
        · exact h.symm
        · exact absurd (List.mem_map.mpr ⟨_, h, rfl⟩) (by rw [hx] at hn; exact hn.1)
      subst hxe
      have hr : r.map (fun n => if n.1 = i then (i, some e) else n) = r := by
        conv_rhs => rw [← List.map_id r]
        apply List.map_congr_left
        intro y hy
        rw [if_neg]; · rfl
        rintro rfl
        exact hn.1 (List.mem_map.mpr ⟨y, hy, rfl⟩)
      simp [hr]
    · have hm' : (i, none) ∈ r := by
        rcases List.mem_cons.mp hm with h | h
        · exact absurd (by rw [← h]) hx
        · exact h
      rw [List.map_cons, if_neg hx]
      have := ih hn.2 hm'
      cases hy : x.2 with
      | none => rw [List.filterMap_cons_none hy, List.filterMap_cons_none hy]; exact this
      | some y =>
        rw [List.filterMap_cons_some hy, List.filterMap_cons_some hy]
        exact (this.cons y).trans (List.Perm.swap e y _)

theorem flatMap_mid {β : Type} (g : Worker → List β) (w : Worker) (pre post : List Worker) :
    ((pre ++ w :: post).flatMap g).Perm (g w ++ (pre ++ post).flatMap g) := by
  simp only [List.flatMap_append, List.flatMap_cons]
  rw [← List.append_assoc, ← List.append_assoc]
  exact List.Perm.append_right _ List.perm_append_comm

theorem tidy_worker {fd : Folder} (h1 : fd.OnePerModule) {sh sh' : Shared} {w w' : Worker}
    (hs : WStep fd sh w sh' w') {pre post n r} (h : Tidy fd ⟨sh, pre ++ w :: post, n, r⟩) :
    Tidy fd ⟨sh', pre ++ w' :: post, n, r⟩ := by
  obtain ⟨hp, hcl, hid, hbd, hbl, hap, hon, hal⟩ := h
  simp only [] at hp hcl hid hbd hbl hap hon hal
  have old : ∀ x, x ∈ pre ++ w' :: post → x = w' ∨ x ∈ pre ++ w :: post := by
    intro x hx; simp only [List.mem_append, List.mem_cons] at hx ⊢; tauto
  have hlen : (pre ++ w' :: post).length + n ≤ 1 ∨ sh.deps ≠ none := by
    simpa using hal
  -- only what the worker holds has changed
  have perm' : ∀ {q' : List File} {es : List Entry},
      (es ++ (waiting fd q' ++ w'.held fd)).Perm
        ((nodes sh).filterMap Prod.snd ++ (waiting fd sh.queue ++ w.held fd)) →
      (es ++ (waiting fd q' ++ (pre ++ w' :: post).flatMap (Worker.held fd))).Perm fd.all := by
    intro q' es hpp
    have e1 := (((flatMap_mid (Worker.held fd) w' pre post).append_left (waiting fd q'))).append_left es
    have e2 := (((flatMap_mid (Worker.held fd) w pre post).append_left
      (waiting fd sh.queue))).append_left (entries ⟨sh, pre ++ w :: post, n, r⟩)
    refine e1.trans (.trans ?_ (e2.symm.trans hp))
    have := hpp.append_right ((pre ++ post).flatMap (Worker.held fd))
    simpa only [List.append_assoc, entries] using this
  have ap' : w'.filling = w.filling → ((pre ++ w' :: post).flatMap Worker.filling).Nodup := by
    intro he
    have e1 := flatMap_mid Worker.filling w' pre post
    have e2 := flatMap_mid Worker.filling w pre post
    rw [he] at e1
    exact (e1.trans e2.symm).nodup_iff.mpr hap
  have same : sh' = sh → w'.held fd = w.held fd → w'.filling = w.filling →
      (∀ ms e, w' = .removing ms e → ms = []) →
      (∀ i e, w' = .fill i e → (i, none) ∈ nodes sh) →
      (∀ e, w' = .create e → sh.deps = none) →
      Tidy fd ⟨sh', pre ++ w' :: post, n, r⟩ := by
    rintro rfl hh hfl hc hb ho
    refine ⟨perm' (by rw [hh]; exact List.Perm.refl _), fun ms e hm => ?_, hid, hbd, fun i e hm => ?_, ap' hfl,
      fun e hm => ?_, hlen⟩
    · rcases old _ hm with h | h
      · exact hc ms e h.symm
      · exact hcl ms e h
    · rcases old _ hm with h | h
      · exact hb i e h.symm
      · exact hbl i e h
    · rcases old _ hm with h | h
      · exact ho e h.symm
      · exact hon e h
  cases hs with
  | enter hne => exact same rfl rfl rfl (by simp) (by simp) (by simp)
  | exit he => exact same rfl rfl rfl (by simp) (by simp) (by simp)
  | empty he => exact same rfl rfl rfl (by simp) (by simp) (by simp)
  | take he =>
    rename_i f q
    refine ⟨perm' (q' := q) ?_, fun ms e hm => hcl ms e ((old _ hm).resolve_left (by simp)), hid, hbd,
      fun i e hm => hbl i e ((old _ hm).resolve_left (by simp)), ap' rfl,
      fun e hm => hon e ((old _ hm).resolve_left (by simp)), hlen⟩
    rw [he]
    refine List.Perm.append_left _ ?_
    show (waiting fd q ++ (Worker.parse f).held fd).Perm (waiting fd (f :: q) ++ [])
    rw [List.append_nil]
    cases ho : (fd.outcome f).entry? with
    | none => simp [waiting, Worker.held, ho]
    | some e =>
      simp only [waiting, Worker.held, ho, Option.toList_some, List.filterMap_cons]
      exact List.perm_append_comm
  | raises ho => exact same rfl (by simp [Worker.held, ho, Outcome.entry?]) rfl (by simp) (by simp) (by simp)
  | skips ho => exact same rfl (by simp [Worker.held, ho, Outcome.entry?]) rfl (by simp) (by simp) (by simp)
  | parses ho => exact same rfl (by simp [Worker.held, ho, Outcome.entry?]) rfl (by simp) (by simp) (by simp)
  | isNone hd => exact same rfl rfl rfl (by simp) (by simp) (fun _ _ => hd)
  | isSome hd => exact same rfl rfl rfl (by simp) (by simp) (by simp)
  | creates =>
    rename_i e
    have hd : sh.deps = none := hon e (by simp)
    have hn : nodes sh = [] := by simp [nodes, hd]
    have hsolo : pre = [] ∧ post = [] := by
      rcases hal with h | h
      · simp only [List.length_append, List.length_cons] at h
        exact ⟨List.eq_nil_of_length_eq_zero (by omega), List.eq_nil_of_length_eq_zero (by omega)⟩
      · exact absurd hd h
    obtain ⟨rfl, rfl⟩ := hsolo
    refine ⟨?_, by simp, by simp [nodes], by simp [nodes], by simp, by simp [Worker.filling],
      by simp, .inr (by simp)⟩
    have := hp
    simpa [entries, hd, nodes, Worker.held] using this
  | scans =>
    rename_i e
    refine same rfl rfl rfl (fun ms e' hm => ?_) (by simp) (by simp)
    obtain ⟨rfl, rfl⟩ := Worker.removing.inj hm
    -- an entry with this id in the table would be another one
    rw [sameId, List.filter_eq_nil_iff]
    intro x hx hxe
    simp only [decide_eq_true_eq, Option.map_eq_some_iff] at hxe
    obtain ⟨e', hx', hide⟩ := hxe
    have hp' := (hp.map Entry.id).nodup_iff.mpr h1
    rw [List.map_append, List.nodup_append] at hp'
    refine hp'.2.2 e'.id ?_ e.id ?_ hide
    · exact List.mem_map.mpr ⟨e', List.mem_filterMap.mpr ⟨x, hx, hx'⟩, rfl⟩
    · exact List.mem_map.mpr ⟨e, by simp [Worker.held], rfl⟩
  | removes hm => exact absurd (hcl _ _ (List.mem_append_right _ List.mem_cons_self)) (List.cons_ne_nil _ _)
  | gone hm => exact absurd (hcl _ _ (List.mem_append_right _ List.mem_cons_self)) (List.cons_ne_nil _ _)
  | appends =>
    rename_i e
    have hfresh : ∀ x ∈ nodes sh, x.1 ≠ sh.fresh := fun x hx => Nat.ne_of_lt (hbd x hx)
    refine ⟨perm' (by simp [entries, nodes, Worker.held]),
      fun ms e hm => hcl ms e ((old _ hm).resolve_left (by simp)), ?_, ?_, fun i e' hm => ?_, ?_,
      fun e hm => ?_, .inr (by simp)⟩
    · simp only [nodes, Option.getD_some, List.map_append, List.map_cons, List.map_nil]
      rw [List.nodup_append]
      refine ⟨hid, by simp, fun a ha b hb => ?_⟩
      obtain ⟨x, hx, rfl⟩ := List.mem_map.mp ha
      rw [List.mem_singleton.mp hb]
      exact hfresh x hx
    · intro x hx
      simp only [nodes, Option.getD_some, List.mem_append, List.mem_singleton] at hx ⊢
      rcases hx with hx | rfl
      · exact Nat.lt_succ_of_lt (hbd x hx)
      · exact Nat.lt_succ_self _
    · simp only [nodes, Option.getD_some, List.mem_append, List.mem_singleton]
      rcases old _ hm with h | h
      · cases h; exact .inr rfl
      · exact .inl (hbl i e' h)
    · have e1 := flatMap_mid Worker.filling (.fill sh.fresh e) pre post
      have e2 := flatMap_mid Worker.filling (.removing [] e) pre post
      refine e1.nodup_iff.mpr ?_
      have hrest := e2.nodup_iff.mp hap
      simp only [Worker.filling, List.nil_append] at hrest ⊢
      refine List.nodup_cons.mpr ⟨fun hm => ?_, hrest⟩
      obtain ⟨x, hx, hi⟩ := List.mem_flatMap.mp hm
      have hxw : x ∈ pre ++ Worker.removing [] e :: post := by
        simp only [List.mem_append, List.mem_cons] at hx ⊢; tauto
      cases x with
      | fill i e' =>
        rw [List.mem_singleton.mp hi] at hfresh
        exact hfresh _ (hbl i e' hxw) rfl
      | _ => cases hi
    · have := hon e ((old _ hm).resolve_left (by simp))
      rcases hal with h | h
      · exfalso
        simp only [List.length_append, List.length_cons] at h
        have hpre : pre = [] := List.eq_nil_of_length_eq_zero (by omega)
        have hpost : post = [] := List.eq_nil_of_length_eq_zero (by omega)
        subst hpre hpost
        simp at hm
      · exact absurd this h
  | fills =>
    rename_i i e
    have hmem := hbl i e (by simp)
    cases hd : sh.deps with
    | none => simp [nodes, hd] at hmem
    | some ns =>
      have hns : nodes sh = ns := by simp [nodes, hd]
      rw [hns] at hmem hid hbd
      have hfst : (ns.map (fun n => if n.1 = i then (i, some e) else n)).map Prod.fst =
          ns.map Prod.fst := by
        rw [List.map_map]
        apply List.map_congr_left
        intro x _
        simp only [Function.comp]
        split
        · rename_i h; exact h.symm
        · rfl
      have hnotin : i ∉ (pre ++ post).flatMap Worker.filling := by
        have e2 := (flatMap_mid Worker.filling (.fill i e) pre post).nodup_iff.mp hap
        simp only [Worker.filling, List.cons_append, List.nil_append] at e2
        exact (List.nodup_cons.mp e2).1
      refine ⟨perm' ?_, fun ms e hm => hcl ms e ((old _ hm).resolve_left (by simp)), ?_, ?_,
        fun j e' hm => ?_, ?_, fun e' hm => ?_, .inr (by simp [hd])⟩
      · rw [hns]
        simp only [nodes, hd, Option.map_some, Option.getD_some, Worker.held, List.append_nil]
        refine ((fill_perm e hid hmem).append_right _).trans ?_
        rw [List.cons_append]
        refine (List.perm_append_singleton e _).symm.trans ?_
        rw [List.append_assoc]
      · simpa [nodes, hd, hfst] using hid
      · intro x hx
        simp only [nodes, hd, Option.map_some, Option.getD_some, List.mem_map] at hx
        obtain ⟨y, hy, rfl⟩ := hx
        split
        · rename_i h; rw [← h]; exact hbd y hy
        · exact hbd y hy
      · have hm' := (old _ hm).resolve_left (by simp)
        have hj := hbl j e' hm'
        have hne : j ≠ i := by
          rintro rfl
          apply hnotin
          refine List.mem_flatMap.mpr ⟨.fill j e', ?_, List.mem_singleton.mpr rfl⟩
          simp only [List.mem_append, List.mem_cons] at hm ⊢
          rcases hm with h | h | h
          · exact .inl h
          · cases h
          · exact .inr h
        simp only [nodes, hd, Option.map_some, Option.getD_some, List.mem_map]
        rw [hns] at hj
        exact ⟨_, hj, if_neg hne⟩
      · have e1 := flatMap_mid Worker.filling .done pre post
        have e2 := (flatMap_mid Worker.filling (.fill i e) pre post).nodup_iff.mp hap
        refine e1.nodup_iff.mpr ?_
        simp only [Worker.filling, List.cons_append, List.nil_append] at e2 ⊢
        exact (List.nodup_cons.mp e2).2
      · have := hon e' ((old _ hm).resolve_left (by simp))
        rw [hd] at this; cases this
  | finish =>
    exact ⟨perm' (List.Perm.refl _), fun ms e hm => hcl ms e ((old _ hm).resolve_left (by simp)),
      hid, hbd, fun i e hm => hbl i e ((old _ hm).resolve_left (by simp)), ap' rfl,
      fun e hm => hon e ((old _ hm).resolve_left (by simp)), hlen⟩

theorem tidy_step {fd : Folder} (h1 : fd.OnePerModule) {s t : State} (hs : Step fd s t)
    (h : Tidy fd s) : Tidy fd t := by
  cases hs with
  | worker hw => exact tidy_worker h1 hw h
  | start =>
    obtain ⟨hp, hcl, hid, hbd, hbl, hap, hon, hal⟩ := h
    simp only [] at hp hcl hid hbd hbl hap hon hal
    refine ⟨?_, fun ms e hm => hcl ms e ?_, hid, hbd, fun i e hm => hbl i e ?_, ?_,
      fun e hm => hon e ?_, ?_⟩
    · simpa [Worker.held, entries] using hp
    · simpa using hm
    · simpa using hm
    · simpa [Worker.filling] using hap
    · simpa using hm
    · simp only [List.length_append, List.length_cons, List.length_nil]
      rcases hal with h | h
      · exact .inl (by omega)
      · exact .inr h
  | join hu =>
    obtain ⟨hp, hcl, hid, hbd, hbl, hap, hon, hal⟩ := h
    exact ⟨hp, hcl, hid, hbd, hbl, hap, hon, hal⟩

theorem tidy_run {fd : Folder} (h1 : fd.OnePerModule) {k} {s t : State} (hr : Run fd k s t)
    (h : Tidy fd s) : Tidy fd t := by
  induction hr with
  | refl => exact h
  | step _ hs ih => exact tidy_step h1 hs (ih h)

theorem tidy_returned {fd : Folder} {s : State} (hi : Inv fd s) (h : Tidy fd s)
    (hr : s.returned = true) : (entries s).Perm fd.all := by
  obtain ⟨hq, _, hidle⟩ := hi.back hr
  have hw : s.workers.flatMap (Worker.held fd) = [] := by
    rw [List.flatMap_eq_nil_iff]
    intro w hw
    have := hidle w hw
    cases w <;> simp [Worker.busy, Worker.held] at this ⊢
  have := h.perm
  rw [hq, hw] at this
  simpa [waiting] using this

/-! ## No deadlock -/

/-- No thread has died, and as long as there is work there is a thread to do it. -/
structure Live (s : State) : Prop where
  nodead : Worker.dead ∉ s.workers
  alive : s.sh.queue ≠ [] → 0 < s.toStart ∨ ∃ w ∈ s.workers, w ≠ .exited

theorem live_init (fd : Folder) {n : Nat} (hn : 0 < n) (deps) : Live (init fd n deps) :=
  ⟨by simp [init], fun _ => .inl hn⟩

theorem live_step {fd : Folder} (hfine : ∀ f ∈ fd.files, fd.outcome f ≠ .raises) {s t : State}
    (hs : Step fd s t) (ht : Tidy fd s) (hp : ∀ f, Worker.parse f ∈ s.workers → f ∈ fd.files)
    (h : Live s) : Live t := by
  obtain ⟨hd, ha⟩ := h
  cases hs with
  | start =>
    simp only [] at hd ha
    exact ⟨by simp [hd], fun _ => .inr ⟨.check, by simp, by simp⟩⟩
  | join hu => exact ⟨hd, ha⟩
  | worker hw =>
    rename_i sh sh' w w' pre post n r
    simp only [] at hd ha hp
    have hd' : w' ≠ .dead → Worker.dead ∉ pre ++ w' :: post := by
      intro hne hm
      simp only [List.mem_append, List.mem_cons] at hm hd
      rcases hm with h | h | h
      · exact hd (.inl h)
      · exact hne h.symm
      · exact hd (.inr (.inr h))
    have ha' : sh'.queue ≠ [] → w' ≠ .exited →
        0 < n ∨ ∃ x ∈ pre ++ w' :: post, x ≠ .exited := fun _ h => .inr ⟨w', by simp, h⟩
    cases hw with
    | raises ho => exact absurd ho (hfine _ (hp _ (by simp)))
    | gone hm =>
      exact absurd (ht.clean _ _ (List.mem_append_right _ List.mem_cons_self)) (List.cons_ne_nil _ _)
    | exit he => exact ⟨hd' (by simp), fun h => absurd he h⟩
    | _ => exact ⟨hd' (by simp), fun h => ha' h (by simp)⟩

theorem parse_step {fd : Folder} {s t : State} (hs : Step fd s t) (hi : Inv fd s)
    (h : ∀ f, Worker.parse f ∈ s.workers → f ∈ fd.files) :
    ∀ f, Worker.parse f ∈ t.workers → f ∈ fd.files := by
  intro g hg
  cases hs with
  | start => exact h g (by simpa using hg)
  | join hu => exact h g hg
  | worker hw =>
    rename_i sh sh' w w' pre post n r
    simp only [List.mem_append, List.mem_cons] at hg h
    rcases hg with hg | hg | hg
    · exact h g (.inl hg)
    · cases hw with
      | take he =>
        cases hg
        exact hi.queue _ (by simp only [he]; exact List.mem_cons_self)
      | _ => cases hg
    · exact h g (.inr (.inr hg))

theorem busy_steps {fd : Folder} (sh : Shared) {w : Worker} (hw : w ≠ .exited) (hd : w ≠ .dead) :
    ∃ sh' w', WStep fd sh w sh' w' := by
  cases w with
  | check =>
    by_cases hq : sh.queue = []
    · exact ⟨_, _, .exit hq⟩
    · exact ⟨_, _, .enter hq⟩
  | get =>
    cases hq : sh.queue with
    | nil => exact ⟨_, _, .empty hq⟩
    | cons m q => exact ⟨_, _, .take hq⟩
  | parse f =>
    cases ho : fd.outcome f with
    | raises => exact ⟨_, _, .raises ho⟩
    | nothing => exact ⟨_, _, .skips ho⟩
    | stmt e => exact ⟨_, _, .parses ho⟩
  | test e =>
    by_cases h : sh.deps = none
    · exact ⟨_, _, .isNone h⟩
    · exact ⟨_, _, .isSome h⟩
  | create e => exact ⟨_, _, .creates⟩
  | scan e => exact ⟨_, _, .scans⟩
  | removing ms e =>
    cases ms with
    | nil => exact ⟨_, _, .appends⟩
    | cons m ms =>
      by_cases h : m.1 ∈ (nodes sh).map Prod.fst
      · exact ⟨_, _, .removes h⟩
      · exact ⟨_, _, .gone h⟩
  | fill i e => exact ⟨_, _, .fills⟩
  | done => exact ⟨_, _, .finish⟩
  | exited => exact absurd rfl hw
  | dead => exact absurd rfl hd

/-- A state in which nothing can happen any more is one where `join` has returned and all threads
have ended. -/
theorem no_deadlock {fd : Folder} {s : State} (h : Inv fd s) (hl : Live s)
    (hend : ¬ ∃ t, Step fd s t) :
    s.returned = true ∧ s.toStart = 0 ∧ ∀ w ∈ s.workers, w = .exited := by
  have hex : ∀ w ∈ s.workers, w = .exited := by
    intro w hw
    by_contra hne
    have hnd : w ≠ .dead := fun h => hl.nodead (h ▸ hw)
    obtain ⟨pre, post, hws⟩ := List.append_of_mem hw
    obtain ⟨sh', w', hstep⟩ := busy_steps (fd := fd) s.sh hne hnd
    rcases s with ⟨sh, ws, n, r⟩
    simp only [] at hws hstep
    subst hws
    exact hend ⟨_, .worker hstep⟩
  have hst : s.toStart = 0 := by
    rcases s with ⟨sh, ws, n, r⟩
    cases n with
    | zero => rfl
    | succ n => exact absurd ⟨_, .start⟩ hend
  refine ⟨?_, hst, hex⟩
  have hq : s.sh.queue = [] := by
    by_contra hq
    rcases hl.alive hq with h0 | ⟨w, hw, hne⟩
    · omega
    · exact hne (hex w hw)
  have hidle : s.workers.countP Worker.busy = 0 := by
    rw [List.countP_eq_zero]
    intro w hw
    rw [hex w hw]; simp [Worker.busy]
  have hu : s.sh.unfinished = 0 := by
    have := h.count
    rw [hq, hidle] at this
    simpa using this
  cases hr : s.returned with
  | true => rfl
  | false =>
    exfalso
    rcases s with ⟨sh, ws, n, r⟩
    simp only [] at hst hr hu
    subst hst hr
    exact hend ⟨_, .join hu⟩

/-! ## Termination -/

/-- Weight of the position of a worker. -/
def Worker.cost : Worker → Nat
  | .check | .get | .exited | .dead => 0
  | .parse _ => 8
  | .test _ => 7
  | .create _ => 6
  | .scan _ => 5
  | .removing _ _ => 4
  | .fill _ _ => 3
  | .done => 2

/-- Weight of a state, apart from the spinning of idle workers. -/
def total (s : State) : Nat :=
  (s.workers.map Worker.cost).sum + 10 * s.sh.queue.length + s.toStart +
    (if s.returned then 0 else 1)

/-- How far an idle worker is from doing something else than spinning. -/
def spin (q : List File) : Worker → Nat
  | .get => if q = [] then 2 else 0
  | .check => 1
  | _ => 0

/-- See `spin`. -/
def spins (s : State) : Nat := (s.workers.map (spin s.sh.queue)).sum

theorem spin_le (q w) : spin q w ≤ 2 := by
  cases w <;> simp [spin]
  split <;> omega

theorem spins_le (s : State) : spins s ≤ 2 * s.workers.length := by
  unfold spins
  induction s.workers with
  | nil => simp
  | cons w r ih => have := spin_le s.sh.queue w; simp; omega

theorem sum_mid {f : Worker → Nat} (w : Worker) (pre post : List Worker) :
    ((pre ++ w :: post).map f).sum = f w + ((pre ++ post).map f).sum := by
  simp; omega

/-- Every step makes the weight smaller, or leaves it and makes the spinning smaller. -/
theorem step_decreases {fd : Folder} {s t : State} (hs : Step fd s t) (ht : Tidy fd s) :
    total t < total s ∨ (total t = total s ∧ spins t < spins s) := by
  cases hs with
  | start => left; simp [total, Worker.cost]
  | join hu => left; simp [total]
  | worker hw =>
    rename_i sh sh' w w' pre post n r
    cases hw with
    | enter hne => right; simp [total, spins, sum_mid, Worker.cost, spin, hne]
    | exit he => right; simp [total, spins, sum_mid, Worker.cost, spin, he]
    | empty he => right; simp [total, spins, sum_mid, Worker.cost, spin, he]
    | take he => left; simp [total, Worker.cost, he]; omega
    | removes hm =>
      exact absurd (ht.clean _ _ (List.mem_append_right _ List.mem_cons_self)) (List.cons_ne_nil _ _)
    | gone hm =>
      exact absurd (ht.clean _ _ (List.mem_append_right _ List.mem_cons_self)) (List.cons_ne_nil _ _)
    | _ => left; simp [total, Worker.cost]

/-- A bound on the number of steps from a state on. -/
def bound (s : State) : Nat :=
  total s * (2 * (s.workers.length + s.toStart) + 1) + spins s

theorem step_threads {fd : Folder} {s t : State} (hs : Step fd s t) :
    t.workers.length + t.toStart = s.workers.length + s.toStart := by
  cases hs <;> simp
  omega

theorem bound_step {fd : Folder} {s t : State} (hs : Step fd s t) (ht : Tidy fd s) :
    bound t < bound s := by
  have hN := step_threads hs
  have hsp := spins_le t
  unfold bound
  rw [hN]
  rcases step_decreases hs ht with h | ⟨h1, h2⟩
  · have := Nat.mul_le_mul_right (2 * (s.workers.length + s.toStart) + 1) (Nat.succ_le_of_lt h)
    rw [Nat.succ_mul] at this
    omega
  · rw [h1]; omega

/-- All that holds in a run without faults. -/
structure Good (fd : Folder) (s : State) : Prop where
  inv : Inv fd s
  tidy : Tidy fd s
  live : Live s
  parse : ∀ f, Worker.parse f ∈ s.workers → f ∈ fd.files

theorem good_step {fd : Folder} (h1 : fd.OnePerModule)
    (hfine : ∀ f ∈ fd.files, fd.outcome f ≠ .raises) {s t : State} (hs : Step fd s t)
    (h : Good fd s) : Good fd t :=
  ⟨inv_step hs h.inv, tidy_step h1 hs h.tidy, live_step hfine hs h.tidy h.parse h.live,
    parse_step hs h.inv h.parse⟩

theorem good_run {fd : Folder} (h1 : fd.OnePerModule)
    (hfine : ∀ f ∈ fd.files, fd.outcome f ≠ .raises) {k} {s t : State} (hr : Run fd k s t)
    (h : Good fd s) : Good fd t ∧ k + bound t ≤ bound s := by
  induction hr with
  | refl => exact ⟨h, by omega⟩
  | step _ hs ih =>
    obtain ⟨hg, hb⟩ := ih h
    have := bound_step hs hg.tidy
    exact ⟨good_step h1 hfine hs hg, by omega⟩

theorem good_init (fd : Folder) {n : Nat} {deps} (h : Safe n deps) : Good fd (init fd n deps) := by
  have hn : 0 < n := by rcases h with ⟨rfl, _⟩ | ⟨h, _⟩ <;> omega
  have hd : deps = none ∨ deps = some [] := by rcases h with ⟨_, h⟩ | ⟨_, h⟩ <;> simp [h]
  exact ⟨inv_init fd n hd, tidy_init fd h, live_init fd hn deps, by simp [init]⟩

theorem run_trans {fd : Folder} {j k} {s t u : State} (h1 : Run fd j s t) (h2 : Run fd k t u) :
    Run fd (j + k) s u := by
  induction h2 with
  | refl => exact h1
  | step _ hs ih => exact (ih h1).step hs

/-- Every run can be continued to its end. -/
theorem run_to_end {fd : Folder} (h1 : fd.OnePerModule)
    (hfine : ∀ f ∈ fd.files, fd.outcome f ≠ .raises) : ∀ (b : Nat) {s : State}, Good fd s →
      bound s ≤ b → ∃ j t, Run fd j s t ∧ ¬ ∃ u, Step fd t u := by
  intro b
  induction b with
  | zero =>
    intro s hg hb
    refine ⟨0, s, .refl, fun ⟨u, hu⟩ => ?_⟩
    have := bound_step hu hg.tidy; omega
  | succ b ih =>
    intro s hg hb
    by_cases h : ∃ u, Step fd s u
    · obtain ⟨u, hu⟩ := h
      have := bound_step hu hg.tidy
      obtain ⟨j, t, hr, he⟩ := ih (good_step h1 hfine hu hg) (by omega)
      exact ⟨_, t, run_trans (Run.refl.step hu) hr, he⟩
    · exact ⟨0, s, .refl, h⟩

end NcDiff.Context
