import Verif.Spec.Identity
import Mathlib.Data.List.Induction
/-!
# The table of identities
-/

namespace NcDiff.Identity

/-- The same as `seen` with the keys of the code. -/
def events (h : History) : List (Id × Option Key) :=
  h.flatMap (fun x => x.2.flatMap (fun m =>
    m.identities.map (fun i => ((m.name, i.name), i.base.map (baseKey x.1 m)))))

/-- What the code does with one identity. -/
def addEvent (d : Deps) (e : Id × Option Key) : Deps :=
  match e.2 with
  | none => setDefault d (some e.1.1, e.1.2)
  | some k =>
    match d k with
    | none => setDefault d k
    | some l => put d k (l ++ [e.1])

theorem addModule_deps (t : String) (c : Compiler) (m : Stmt) :
    (addModule t c m).deps =
      (m.identities.map (fun i => ((m.name, i.name), i.base.map (baseKey t m)))).foldl
        addEvent c.deps := by
  unfold addModule
  simp only [List.foldl_map]
  congr 1
  funext d i
  unfold addIdent addEvent
  cases i.base <;> rfl

theorem compile_deps (t : String) (ms : List Stmt) : ∀ c : Compiler,
    (compile c t ms).deps =
      (ms.flatMap (fun m => m.identities.map
        (fun i => ((m.name, i.name), i.base.map (baseKey t m))))).foldl addEvent c.deps := by
  induction ms with
  | nil => intro c; rfl
  | cons m r ih =>
    intro c
    rw [List.flatMap_cons, List.foldl_append, ← addModule_deps]
    exact ih _

theorem after_deps (h : History) :
    (after h).deps = (events h).foldl addEvent (fun _ => none) := by
  suffices H : ∀ c : Compiler, (h.foldl (fun c x => compile c x.1 x.2) c).deps =
      (events h).foldl addEvent c.deps from H new
  induction h with
  | nil => intro c; rfl
  | cons x r ih =>
    intro c
    have : events (x :: r) = (x.2.flatMap (fun m =>
      m.identities.map (fun i => ((m.name, i.name), i.base.map (baseKey x.1 m))))) ++ events r := by
      simp [events]
    rw [this, List.foldl_append, ← compile_deps]
    exact ih _

/-- With local bases the keys of the code are what YANG says. -/
theorem events_seen {h : History} (ho : OwnBases h) : ∀ x : Id,
    (events h).map (fun e => (e.1, e.2.map (fun k => decide (k = (some x.1, x.2))))) =
      (seen h).map (fun e => (e.1, e.2.map (fun y => decide (y = some x)))) := by
  intro x
  unfold events seen
  rw [List.map_flatMap, List.map_flatMap]
  apply List.flatMap_congr
  rintro ⟨t, ms⟩ hx
  rw [List.map_flatMap, List.map_flatMap]
  apply List.flatMap_congr
  intro m hm
  rw [List.map_map, List.map_map]
  apply List.map_congr_left
  intro i hi
  simp only [Function.comp]
  congr 1
  cases hb : i.base with
  | none => rfl
  | some b =>
    rcases b with ⟨p, n⟩
    simp only [Option.map_some]
    congr 1
    cases p with
    | none =>
      have := ho t ms hx m hm i hi n hb
      simp only [baseKey, meaning, ← this]
      obtain ⟨x1, x2⟩ := x
      simp
    | some p =>
      rw [decide_eq_decide]
      simp only [baseKey, meaning]
      cases m.prefixes.lookup p with
      | none => simp
      | some mod => obtain ⟨x1, x2⟩ := x; simp

/-- The state of one key. -/
inductive Holds (x : Id) (l : List (Id × Option (Option Id))) : Option (List Id) → Prop where
  | untouched : derived x l = [] → ¬ RootFirst x l → Holds x l none
  | full {v} : RootFirst x l → derived x l = v → Holds x l (some v)
  | short {y v} : ¬ RootFirst x l → derived x l = y :: v → Holds x l (some v)

theorem derived_snoc (x : Id) (l : List (Id × Option (Option Id))) (e) :
    derived x (l ++ [e]) = derived x l ++ (if e.2 = some (some x) then [e.1] else []) := by
  unfold derived
  rw [List.filter_append, List.map_append]
  by_cases h : e.2 = some (some x) <;> simp [h]

theorem rootFirst_snoc (x : Id) (l : List (Id × Option (Option Id))) (e) :
    RootFirst x (l ++ [e]) ↔ RootFirst x l ∨ (e = (x, none) ∧ derived x l = []) := by
  constructor
  · rintro ⟨l1, l2, hl, hd⟩
    rcases List.eq_nil_or_concat l2 with rfl | ⟨l3, z, rfl⟩
    · obtain ⟨rfl, he⟩ := List.append_inj' hl rfl
      exact .inr ⟨(List.cons.inj he).1, hd⟩
    · have hl' : l ++ [e] = (l1 ++ (x, none) :: l3) ++ [z] := by simpa using hl
      obtain ⟨rfl, _⟩ := List.append_inj' hl' rfl
      exact .inl ⟨l1, l3, rfl, hd⟩
  · rintro (⟨l1, l2, rfl, hd⟩ | ⟨rfl, hd⟩)
    · exact ⟨l1, l2 ++ [e], by simp, hd⟩
    · exact ⟨l, [], rfl, hd⟩

theorem setDefault_at (d : Deps) (k k' : Key) :
    setDefault d k k' = if k' = k ∧ d k' = none then some [] else d k' := by
  unfold setDefault
  cases h : d k with
  | none =>
    by_cases hk : k' = k
    · subst hk; simp [put, h]
    · simp [put, hk]
  | some l =>
    by_cases hk : k' = k
    · subst hk; simp [h]
    · simp [hk]

theorem holds_events (x : Id) : ∀ (es : List (Id × Option Key)) (l : List (Id × Option (Option Id))),
    es.map (fun e => (e.1, e.2.map (fun k => decide (k = (some x.1, x.2))))) =
      l.map (fun e => (e.1, e.2.map (fun y => decide (y = some x)))) →
    Holds x l (es.foldl addEvent (fun _ => none) (some x.1, x.2)) := by
  intro es
  induction es using List.reverseRecOn with
  | nil =>
    intro l hl
    have : l = [] := by simpa using hl.symm
    subst this
    exact .untouched rfl (by rintro ⟨l1, l2, h, _⟩; simp at h)
  | append_singleton es e ih =>
    intro l hl
    rcases List.eq_nil_or_concat l with rfl | ⟨l, e', rfl⟩
    · simp at hl
    rw [List.map_append, List.concat_eq_append, List.map_append] at hl
    obtain ⟨hl, he⟩ := List.append_inj' hl rfl
    have he := (List.cons.inj he).1
    have H := ih l hl
    rw [List.foldl_append, List.concat_eq_append]
    generalize es.foldl addEvent (fun _ => none) = d at H
    obtain ⟨y, b⟩ := e
    obtain ⟨y', b'⟩ := e'
    obtain ⟨rfl, hb⟩ := Prod.mk.inj he
    simp only at hb
    show Holds x _ (addEvent d (y, b) (some x.1, x.2))
    cases b with
    | none =>
      cases b' with
      | some _ => simp at hb
      | none =>
        simp only [addEvent, setDefault_at]
        by_cases hy : y = x
        · subst hy
          generalize d (some y.1, y.2) = v at H ⊢
          cases H with
          | untouched h1 h2 =>
            simp only [and_self, if_true]
            exact .full ((rootFirst_snoc ..).mpr (.inr ⟨rfl, h1⟩)) (by rw [derived_snoc]; simp [h1])
          | full h1 h2 =>
            simp only [reduceCtorEq, and_false, if_false]
            exact .full ((rootFirst_snoc ..).mpr (.inl h1)) (by rw [derived_snoc]; simp [h2])
          | short h1 h2 =>
            simp only [reduceCtorEq, and_false, if_false]
            exact .short (fun h => ((rootFirst_snoc ..).mp h).elim h1 (by simp [h2]))
              (by rw [derived_snoc]; simpa using h2)
        · have hk : ((some x.1, x.2) : Key) ≠ (some y.1, y.2) := by
            intro h
            simp only [Prod.mk.injEq, Option.some.injEq] at h
            exact hy (Prod.ext h.1.symm h.2.symm)
          rw [if_neg (fun h => hk h.1)]
          have hn : ¬ RootFirst x l → ¬ RootFirst x (l ++ [(y, none)]) := fun h1 h =>
            ((rootFirst_snoc ..).mp h).elim h1 (fun h => hy (by simpa using h.1))
          have hd : derived x (l ++ [(y, none)]) = derived x l := by rw [derived_snoc]; simp
          generalize d (some x.1, x.2) = v at H ⊢
          cases H with
          | untouched h1 h2 => exact .untouched (hd.trans h1) (hn h2)
          | full h1 h2 => exact .full ((rootFirst_snoc ..).mpr (.inl h1)) (hd.trans h2)
          | short h1 h2 => exact .short (hn h1) (hd.trans h2)
    | some k =>
      cases b' with
      | none => simp at hb
      | some z =>
        simp only [Option.map_some, Option.some.injEq, decide_eq_decide] at hb
        have hn : ¬ RootFirst x l → ¬ RootFirst x (l ++ [(y, some z)]) := fun h1 h =>
          ((rootFirst_snoc ..).mp h).elim h1 (fun h => by simp at h)
        have hp : RootFirst x l → RootFirst x (l ++ [(y, some z)]) := fun h1 =>
          (rootFirst_snoc ..).mpr (.inl h1)
        by_cases hk : k = (some x.1, x.2)
        · have hz := hb.mp hk
          subst hk hz
          have hd : derived x (l ++ [(y, some (some x))]) = derived x l ++ [y] := by
            rw [derived_snoc]; simp
          simp only [addEvent]
          generalize hv : d (some x.1, x.2) = v at H ⊢
          cases H with
          | untouched h1 h2 =>
            simp only [setDefault_at, hv, and_self, if_true]
            exact .short (hn h2) (by rw [hd, h1]; rfl)
          | full h1 h2 =>
            simp only [put, if_true]
            exact .full (hp h1) (by rw [hd, h2])
          | short h1 h2 =>
            simp only [put, if_true]
            exact .short (hn h1) (by rw [hd, h2]; rfl)
        · have hz : z ≠ some x := fun h => hk (hb.mpr h)
          have hd : derived x (l ++ [(y, some z)]) = derived x l := by
            rw [derived_snoc]; simp [hz]
          have hsame : addEvent d (y, some k) (some x.1, x.2) = d (some x.1, x.2) := by
            simp only [addEvent]
            cases d k with
            | none => simp only [setDefault_at]; rw [if_neg (fun h => hk h.1.symm)]
            | some v => simp only [put]; rw [if_neg (fun h => hk h.symm)]
          rw [hsame]
          generalize d (some x.1, x.2) = v at H ⊢
          cases H with
          | untouched h1 h2 => exact .untouched (hd.trans h1) (hn h2)
          | full h1 h2 => exact .full (hp h1) (hd.trans h2)
          | short h1 h2 => exact .short (hn h1) (hd.trans h2)

/-- What the table has for an identity. -/
theorem listed_holds {h : History} (ho : OwnBases h) (x : Id) :
    Holds x (seen h) ((after h).deps (some x.1, x.2)) := by
  rw [after_deps]
  exact holds_events x _ _ (events_seen ho x)

/-- The table is asked for what the base means. -/
theorem listed_eq (c : Compiler) (m : Stmt) (b : Base) {x : Id} (hx : meaning m b = some x) :
    listed c m b = (c.deps (some x.1, x.2)).getD [] := by
  obtain ⟨p, n⟩ := b
  cases p with
  | none => cases hx; rfl
  | some p =>
    simp only [meaning, Option.map_eq_some_iff] at hx
    obtain ⟨mod, hm, rfl⟩ := hx
    simp only [listed, hm]

/-! ## Prefixes -/

/-- The prefix of every module that has been seen is known. -/
def Knows (h : History) (c : Compiler) : Prop :=
  (∀ t ms, (t, ms) ∈ h → ∀ m ∈ ms, (c.prefixes m.name).isSome) ∧
  ∀ n p, c.prefixes n = some p → ∃ t ms, (t, ms) ∈ h ∧ ∃ m ∈ ms, m.name = n ∧ m.pfx = p

theorem compile_prefixes (t : String) (ms : List Stmt) : ∀ c : Compiler,
    (∀ n, (c.prefixes n).isSome → ((compile c t ms).prefixes n).isSome) ∧
    (∀ m ∈ ms, ((compile c t ms).prefixes m.name).isSome) ∧
    ∀ n p, (compile c t ms).prefixes n = some p →
      c.prefixes n = some p ∨ ∃ m ∈ ms, m.name = n ∧ m.pfx = p := by
  induction ms with
  | nil => intro c; exact ⟨fun _ h => h, by simp, fun _ _ h => .inl h⟩
  | cons m r ih =>
    intro c
    obtain ⟨h1, h2, h3⟩ := ih (addModule t c m)
    have hc : compile c t (m :: r) = compile (addModule t c m) t r := rfl
    rw [hc]
    refine ⟨fun n hn => h1 n ?_, fun m' hm' => ?_, fun n p hp => ?_⟩
    · simp only [addModule]; split <;> simp_all
    · rcases List.mem_cons.mp hm' with rfl | hm'
      · exact h1 _ (by simp [addModule])
      · exact h2 m' hm'
    · rcases h3 n p hp with h | ⟨m', hm', h⟩
      · simp only [addModule] at h
        split at h
        · rename_i hn
          exact .inr ⟨m, List.mem_cons_self, hn.symm, by simpa using h⟩
        · exact .inl h
      · exact .inr ⟨m', List.mem_cons_of_mem _ hm', h⟩

theorem after_snoc (h : History) (t ms) : after (h ++ [(t, ms)]) = compile (after h) t ms := by
  simp [after]

theorem knows_after (h : History) : Knows h (after h) := by
  induction h using List.reverseRecOn with
  | nil => exact ⟨by simp, fun n p hp => by simp [after, new] at hp⟩
  | append_singleton h x ih =>
    obtain ⟨t, ms⟩ := x
    rw [after_snoc]
    obtain ⟨h1, h2, h3⟩ := compile_prefixes t ms (after h)
    refine ⟨fun t' ms' hm m hmm => ?_, fun n p hp => ?_⟩
    · rcases List.mem_append.mp hm with hm | hm
      · exact h1 _ (ih.1 t' ms' hm m hmm)
      · obtain ⟨rfl, rfl⟩ := Prod.mk.inj (List.mem_singleton.mp hm)
        exact h2 m hmm
    · rcases h3 n p hp with h | ⟨m, hm, h⟩
      · obtain ⟨t', ms', hh, r⟩ := ih.2 n p h
        exact ⟨t', ms', List.mem_append_left _ hh, r⟩
      · exact ⟨t, ms, by simp, m, hm, h⟩

/-- Every identity that is seen is one of a module that has been seen. -/
theorem mem_seen {h : History} {x : Id} {b} (hx : (x, b) ∈ seen h) :
    ∃ t ms, (t, ms) ∈ h ∧ ∃ m ∈ ms, m.name = x.1 := by
  simp only [seen, List.mem_flatMap, List.mem_map] at hx
  obtain ⟨⟨t, ms⟩, hh, m, hm, i, _, he⟩ := hx
  obtain ⟨rfl, _⟩ := Prod.mk.inj he
  exact ⟨t, ms, hh, m, hm, rfl⟩

theorem mem_derived {x y : Id} {l} : y ∈ derived x l ↔ (y, some (some x)) ∈ l := by
  unfold derived
  simp only [List.mem_map, List.mem_filter, decide_eq_true_eq]
  constructor
  · rintro ⟨⟨z, b⟩, ⟨hm, hb⟩, rfl⟩; simp only at hb; subst hb; exact hm
  · intro hm; exact ⟨_, ⟨hm, rfl⟩, rfl⟩

/-- Writing identities with the prefixes of their modules. -/
theorem written_all {h : History} : ∀ (l : List Id),
    (∀ y ∈ l, ∃ t ms, (t, ms) ∈ h ∧ ∃ m ∈ ms, m.name = y.1) →
    ∃ vs, l.mapM (fun v => ((after h).prefixes v.1).map (fun p => p ++ ":" ++ v.2)) = some vs ∧
      List.Forall₂ (Written h) vs l := by
  intro l
  induction l with
  | nil => intro _; exact ⟨[], rfl, .nil⟩
  | cons y r ih =>
    intro hy
    obtain ⟨vs, hv, hf⟩ := ih (fun z hz => hy z (List.mem_cons_of_mem _ hz))
    obtain ⟨t, ms, hh, m, hm, hn⟩ := hy y List.mem_cons_self
    obtain ⟨p, hp⟩ := Option.isSome_iff_exists.mp ((knows_after h).1 t ms hh m hm)
    rw [hn] at hp
    obtain ⟨t', ms', hh', m', hm', hn', hp'⟩ := (knows_after h).2 _ _ hp
    refine ⟨(p ++ ":" ++ y.2) :: vs, ?_, .cons ⟨t', ms', hh', m', hm', hn', by rw [hp']⟩ hf⟩
    rw [List.mapM_cons, hp, hv]
    rfl

end NcDiff.Identity
