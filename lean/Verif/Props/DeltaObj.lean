import Verif.Spec.DeltaObj
import Verif.Props.Tree
/-!
# Property C59: arguments and attributes of a delta
-/

namespace NcDiff.DeltaObj

/-! ## Values -/

theorem createOf_ok {v : Py} : (∃ c, createOf v = .ok c) ↔ v ∈ [Py.str "merge", .str "create", .str "replace"] := by
  simp only [List.mem_cons, List.not_mem_nil, or_false]
  constructor
  · rintro ⟨c, h⟩
    unfold createOf at h
    split at h <;> simp_all
  · rintro (rfl | rfl | rfl) <;> exact ⟨_, rfl⟩

theorem replaceOf_ok {v : Py} : (∃ c, replaceOf v = .ok c) ↔ v ∈ [Py.str "merge", .str "replace"] := by
  simp only [List.mem_cons, List.not_mem_nil, or_false]
  constructor
  · rintro ⟨c, h⟩
    unfold replaceOf at h
    split at h <;> simp_all
  · rintro (rfl | rfl) <;> exact ⟨_, rfl⟩

theorem deleteOf_ok {v : Py} : (∃ c, deleteOf v = .ok c) ↔ v ∈ [Py.str "delete", .str "remove"] := by
  simp only [List.mem_cons, List.not_mem_nil, or_false]
  constructor
  · rintro ⟨c, h⟩
    unfold deleteOf at h
    split at h <;> simp_all
  · rintro (rfl | rfl) <;> exact ⟨_, rfl⟩

theorem depthOk_iff {v : Py} : depthOk v = true ↔ v = .none ∨ ∃ n : Nat, v = .int n := by
  cases v with
  | none => simp [depthOk]
  | int i =>
    simp only [depthOk, decide_eq_true_eq, reduceCtorEq, Py.int.injEq, false_or]
    constructor
    · intro h; exact ⟨i.toNat, by omega⟩
    · rintro ⟨n, rfl⟩; omega
  | str s => simp [depthOk]
  | other => simp [depthOk]

theorem target_iff {d : Device} {s : Elem} {x c : Arg} {t : Elem} : target d s x c = .ok t ↔ AsksFor d s x c t := by
  constructor
  · intro h
    cases x with
    | other => cases h
    | config _ => cases h
    | xml x =>
      cases c with
      | none => exact .delta (.inl rfl) h
      | config e => exact .delta (.inr ⟨e, rfl⟩) h
      | xml _ => cases h
      | other => cases h
    | none =>
      cases c with
      | none =>
        obtain ⟨_, h1, h2⟩ := bind_ok.1 h
        obtain rfl := Except.ok.inj h2
        exact .nothing h1
      | config e =>
        obtain ⟨_, h1, h2⟩ := bind_ok.1 h
        obtain rfl := Except.ok.inj h2
        exact .config h1
      | xml _ => cases h
      | other => cases h
  · rintro (⟨rfl | ⟨e, rfl⟩, h⟩ | h | h)
    · exact h
    · exact h
    · show (compatible d [s, t] >>= fun _ => _) = _
      rw [h]; rfl
    · show (compatible d [s, s] >>= fun _ => _) = _
      rw [h]; rfl

/-! ## C59 -/

/-- C59, construction: a delta can be made exactly if the source is a config, the preferences and the depth are among the
documented values, and there is a target.  The attributes are the arguments. -/
theorem C59_construct (d : Device) (a : Args) (r : Attrs) :
    construct d a = .ok r ↔ a.Documented ∧ ∃ s t, a.src = .config s ∧ AsksFor d s a.delta a.dst t ∧
      r = { src := s, dst := t, create := a.create, replace := a.replace, delete := a.delete, diffType := a.diffType,
            replaceDepth := a.replaceDepth, depth := a.depth, seed := a.seed } := by
  unfold construct
  constructor
  · intro h
    split at h
    · cases h
    next hd =>
      have hd := depthOk_iff.1 (by simpa using hd)
      split at h
      next s hs =>
        obtain ⟨c, h1, h⟩ := bind_ok.1 h
        obtain ⟨c2, h2, h⟩ := bind_ok.1 h
        obtain ⟨c3, h3, h⟩ := bind_ok.1 h
        obtain ⟨t, h4, h⟩ := bind_ok.1 h
        exact ⟨⟨createOf_ok.1 ⟨c, h1⟩, replaceOf_ok.1 ⟨c2, h2⟩, deleteOf_ok.1 ⟨c3, h3⟩, hd⟩, s, t, hs, target_iff.1 h4,
          (Except.ok.inj h).symm⟩
      · cases h
  · rintro ⟨⟨h1, h2, h3, h4⟩, s, t, hs, ht, rfl⟩
    obtain ⟨c, h1⟩ := createOf_ok.2 h1
    obtain ⟨c2, h2⟩ := replaceOf_ok.2 h2
    obtain ⟨c3, h3⟩ := deleteOf_ok.2 h3
    rw [if_neg (by rw [depthOk_iff.2 h4]; decide)]
    simp only [hs, h1, h2, h3, target_iff.2 ht, bind, Except.bind, pure, Except.pure]

/-- Which exception: values that are not documented raise `ValueError`, and a source that is no config raises `TypeError`. -/
theorem C59_errors (d : Device) (a : Args) :
    ((∃ s, a.src = .config s) → ¬ a.Documented → construct d a = .error .valueError) ∧
    ((∀ s, a.src ≠ .config s) → construct d a = .error .valueError ∨ construct d a = .error .typeError) := by
  constructor
  · rintro ⟨s, hs⟩ hn
    unfold construct
    split
    · rfl
    next hd =>
      have hd := depthOk_iff.1 (by simpa using hd)
      have e1 : ∀ v, (¬ ∃ c, createOf v = .ok c) → createOf v = .error .valueError := by
        intro v h; unfold createOf at h ⊢; split <;> simp_all
      have e2 : ∀ v, (¬ ∃ c, replaceOf v = .ok c) → replaceOf v = .error .valueError := by
        intro v h; unfold replaceOf at h ⊢; split <;> simp_all
      have e3 : ∀ v, (¬ ∃ c, deleteOf v = .ok c) → deleteOf v = .error .valueError := by
        intro v h; unfold deleteOf at h ⊢; split <;> simp_all
      simp only [hs]
      by_cases h1 : ∃ c, createOf a.create = .ok c
      · by_cases h2 : ∃ c, replaceOf a.replace = .ok c
        · by_cases h3 : ∃ c, deleteOf a.delete = .ok c
          · exact absurd ⟨createOf_ok.1 h1, replaceOf_ok.1 h2, deleteOf_ok.1 h3, hd⟩ hn
          · obtain ⟨c, h1⟩ := h1
            obtain ⟨c2, h2⟩ := h2
            simp only [h1, h2, e3 _ h3, bind, Except.bind]
        · obtain ⟨c, h1⟩ := h1
          simp only [h1, e2 _ h2, bind, Except.bind]
      · simp only [e1 _ h1, bind, Except.bind]
  · intro hs
    unfold construct
    split
    · exact .inl rfl
    · split
      next s h => exact absurd h (hs s)
      · exact .inr rfl

section
variable {γ : Type} {d : Device} {gen : Gen γ}

/-- The order that the freshly seeded generator gives. -/
def fresh (gen : Gen γ) (s : Py) : Nat → List Nat := fun k => (gen.sample (gen.seed s) k).1

theorem reorderChildren_eq (s : Py) (sc : Scope) (e : Elem) (g : γ) :
    (reorderChildren d gen s sc e g).1 = NcDiff.reorderChildren d (fresh gen s) sc e := by
  unfold reorderChildren NcDiff.reorderChildren
  cases leadingKeys d sc e.kids with
  | error x => rfl
  | ok n =>
    simp only [bind, Except.bind]
    split
    · rfl
    · split <;> rfl

mutual
theorem reorder_eq (s : Py) (sc : Scope) : ∀ (n : Nat) (e : Elem) (g : γ),
    (reorder d gen s sc n e g).1 = NcDiff.reorder d (fresh gen s) sc n e
  | 0, e, g => by
    unfold reorder NcDiff.reorder
    exact reorderChildren_eq s sc e g
  | n + 1, .mk t m a x ks, g => by
    unfold reorder NcDiff.reorder
    have := reorderKids_eq s sc n ks g
    rcases hk : reorderKids d gen s sc n ks g with ⟨r, g'⟩
    rw [hk] at this
    simp only [← this]
    cases r <;> rfl
theorem reorderKids_eq (s : Py) (sc : Scope) (n : Nat) : ∀ (ks : List Elem) (g : γ),
    (reorderKids d gen s sc n ks g).1 = NcDiff.reorderKids d (fresh gen s) sc n ks
  | [], g => by unfold reorderKids NcDiff.reorderKids; rfl
  | k :: r, g => by
    unfold reorderKids NcDiff.reorderKids
    cases d.lookup sc k.tag with
    | error y => rfl
    | ok f =>
      have h1 := reorder_eq s (.node f.node) n k g
      simp only [bind, Except.bind]
      rcases hk : reorder d gen s (.node f.node) n k g with ⟨r1, g'⟩
      rw [hk] at h1
      cases r1 with
      | error y => simp only [← h1]
      | ok k' =>
        have h2 := reorderKids_eq s sc n r g'
        rcases hr : reorderKids d gen s sc n r g' with ⟨r2, g''⟩
        rw [hr] at h2
        simp only [← h1, ← h2, hr]
        cases r2 <;> rfl
end

/-- The generator afterwards does not depend on the one before, if it was used at all. -/
def Forgets (gen : Gen γ) (s : Py) (f : γ → γ) : Prop :=
  (∀ g, f g = g) ∨ ∃ n, 2 < n ∧ ∀ g, f g = (gen.sample (gen.seed s) n).2

theorem reorderChildren_gen (s : Py) (sc : Scope) (e : Elem) :
    Forgets gen s fun g => (reorderChildren d gen s sc e g).2 := by
  unfold reorderChildren
  cases leadingKeys d sc e.kids with
  | error x => exact .inl fun _ => rfl
  | ok n =>
    simp only
    by_cases h1 : (e.kids.drop n).length = 2
    · simp only [h1, if_true]; exact .inl fun _ => rfl
    · simp only [h1, if_false]
      by_cases h2 : 2 < (e.kids.drop n).length
      · simp only [h2, if_true]; exact .inr ⟨_, h2, fun _ => rfl⟩
      · simp only [h2, if_false]; exact .inl fun _ => rfl

theorem Forgets.comp {s : Py} {f f' : γ → γ} (h : Forgets gen s f) (h' : Forgets gen s f') : Forgets gen s fun g => f' (f g) := by
  rcases h' with h' | ⟨n, hn, h'⟩
  · simp only [h']; exact h
  · exact .inr ⟨n, hn, fun g => h' _⟩

mutual
theorem reorder_gen (s : Py) (sc : Scope) : ∀ (n : Nat) (e : Elem), Forgets gen s fun g => (reorder d gen s sc n e g).2
  | 0, e => by
    unfold reorder
    exact reorderChildren_gen s sc e
  | n + 1, .mk t m a x ks => by
    have : ∀ g, (reorder d gen s sc (n + 1) (.mk t m a x ks) g).2 = (reorderKids d gen s sc n ks g).2 := by
      intro g
      simp only [reorder]
      split <;> simp_all
    simp only [this]
    exact reorderKids_gen s sc n ks
theorem reorderKids_gen (s : Py) (sc : Scope) (n : Nat) : ∀ (ks : List Elem),
    Forgets gen s fun g => (reorderKids d gen s sc n ks g).2
  | [] => by unfold reorderKids; exact .inl fun _ => rfl
  | k :: r => by
    cases hl : d.lookup sc k.tag with
    | error y => simp only [reorderKids, hl]; exact .inl fun _ => rfl
    | ok f =>
      have h1 := reorder_gen s (.node f.node) n k
      have h2 := reorderKids_gen s sc n r
      have he := reorder_eq (d := d) (gen := gen) s (.node f.node) n k
      cases hr : NcDiff.reorder d (fresh gen s) (.node f.node) n k with
      | error y =>
        rw [hr] at he
        have : ∀ g, (reorderKids d gen s sc n (k :: r) g).2 = (reorder d gen s (.node f.node) n k g).2 := by
          intro g
          have he := he g
          simp only [reorderKids, hl]
          rcases hk : reorder d gen s (.node f.node) n k g with ⟨x, g'⟩
          rw [hk] at he
          simp only at he
          subst he
          rfl
        simp only [this]
        exact h1
      | ok k' =>
        rw [hr] at he
        have : ∀ g, (reorderKids d gen s sc n (k :: r) g).2 =
            (reorderKids d gen s sc n r (reorder d gen s (.node f.node) n k g).2).2 := by
          intro g
          have he := he g
          simp only [reorderKids, hl]
          rcases hk : reorder d gen s (.node f.node) n k g with ⟨x, g'⟩
          rw [hk] at he
          simp only at he
          subst he
          simp only
          rcases reorderKids d gen s sc n r g' with ⟨y | y, g''⟩ <;> rfl
        simp only [this]
        exact h1.comp h2
end

/-- C59, reading: the edit-config depends on the attributes only, not on the state of the generator; it is that of the delta with
these preferences that all other theorems speak about. -/
theorem C59_nc (a : Attrs) (g : γ) : (nc d gen a g).1 = a.delta gen >>= Delta.nc d := by
  unfold nc Attrs.delta
  cases a.opts with
  | error e => rfl
  | ok o =>
    simp only [bind, Except.bind, pure, Except.pure, Delta.nc]
    cases hx : calcSub d o a.dst a.src with
    | error e => rfl
    | ok x =>
      simp only
      by_cases hs : a.seed = .none
      · rw [if_pos (Or.inr hs), hs]
      · rcases hd : a.depth with _ | (n | n) | t | _
        · rw [if_pos (Or.inl rfl)]
          split <;> rename_i heq <;> split at heq <;> simp_all
        · rw [if_neg (by simp [hs])]
          simp only [reorder_eq]
          rfl
        all_goals
          rw [if_neg (by simp [hs])]
          simp only

/-- C59, shared generator: reading `nc` leaves the generator of module `random` alone, or, if some node has three or more children
to be put in order, in a state that depends on the seed and their number only. -/
theorem C59_generator (a : Attrs) : Forgets gen a.seed fun g => (nc d gen a g).2 := by
  unfold nc
  cases a.opts with
  | error e => exact .inl fun _ => rfl
  | ok o =>
    cases hx : calcSub d o a.dst a.src with
    | error e => simp only [hx]; exact .inl fun _ => rfl
    | ok x =>
      simp only [hx]
      split
      · exact .inl fun _ => rfl
      · split
        · exact reorder_gen _ _ _ _
        · exact .inl fun _ => rfl

/-- C59, histories: after any history every attribute has the value that was assigned last; reading `nc`, assigning other
attributes, and using the generator do not change it. -/
theorem C59_history : ∀ (l : List (Op γ)) (a : Attrs) (g : γ),
    (runAll d gen a g l).1.src = lastSet (fun | .src e => some e | _ => none) a.src l ∧
    (runAll d gen a g l).1.dst = lastSet (fun | .dst e => some e | _ => none) a.dst l ∧
    (runAll d gen a g l).1.create = lastSet (fun | .create v => some v | _ => none) a.create l ∧
    (runAll d gen a g l).1.replace = lastSet (fun | .replace v => some v | _ => none) a.replace l ∧
    (runAll d gen a g l).1.delete = lastSet (fun | .delete v => some v | _ => none) a.delete l ∧
    (runAll d gen a g l).1.diffType = lastSet (fun | .diffType v => some v | _ => none) a.diffType l ∧
    (runAll d gen a g l).1.replaceDepth = lastSet (fun | .replaceDepth v => some v | _ => none) a.replaceDepth l ∧
    (runAll d gen a g l).1.depth = lastSet (fun | .depth v => some v | _ => none) a.depth l
  | [], a, g => by simp [runAll, lastSet]
  | o :: l, a, g => by
    have ih := C59_history l (o.run d gen a g).1 (o.run d gen a g).2
    have key : ∀ {α : Type} (f : Op γ → Option α) (v : α), lastSet f v (o :: l) = lastSet f ((f o).getD v) l := by
      intro α f v
      unfold lastSet
      cases h : f o with
      | none => rw [List.filterMap_cons_none h]; rfl
      | some w =>
        rw [List.filterMap_cons_some h, List.getLast?_cons]; rfl
    simp only [key]
    unfold runAll
    rw [ih.1, ih.2.1, ih.2.2.1, ih.2.2.2.1, ih.2.2.2.2.1, ih.2.2.2.2.2.1, ih.2.2.2.2.2.2.1, ih.2.2.2.2.2.2.2]
    have hs : ∀ v, let a' := ((Op.seed v).run d gen a g).1
        a'.src = a.src ∧ a'.dst = a.dst ∧ a'.create = a.create ∧ a'.replace = a.replace ∧ a'.delete = a.delete ∧
        a'.diffType = a.diffType ∧ a'.replaceDepth = a.replaceDepth ∧ a'.depth = a.depth := by
      intro v
      cases v with
      | none =>
        clear ih key
        by_cases hd : a.depth = .none <;> simp [Op.run, setSeed, hd]
      | int i => simp [Op.run, setSeed]
      | str s => simp [Op.run, setSeed]
      | other => simp [Op.run, setSeed]
    cases o with
    | seed v =>
      have := hs v
      simp only at this
      simp [this]
    | _ => simp [Op.run]

/-- C59, no hidden state: an object whose attributes have documented values gives the same edit-config as one that is made anew
with these values. -/
theorem C59_anew (a r : Attrs) (h : construct d a.args = .ok r) (g g' : γ) : (nc d gen a g).1 = (nc d gen r g').1 := by
  obtain ⟨_, s, t, hs, ht, rfl⟩ := (C59_construct d _ _).1 h
  cases hs
  cases ht
  rw [C59_nc, C59_nc]
  rfl

/-- C59, preferences: reading `nc` raises `ValueError` if a preference that was assigned is not documented. -/
theorem C59_assigned (a : Attrs) (g : γ) (h : ¬ (a.create ∈ [Py.str "merge", .str "create", .str "replace"] ∧
    a.replace ∈ [Py.str "merge", .str "replace"] ∧ a.delete ∈ [Py.str "delete", .str "remove"])) :
    nc d gen a g = (.error .valueError, g) := by
  have : a.opts = .error .valueError := by
    have e1 : ∀ v, (¬ ∃ c, createOf v = .ok c) → createOf v = .error .valueError := by
      intro v h; unfold createOf at h ⊢; split <;> simp_all
    have e2 : ∀ v, (¬ ∃ c, replaceOf v = .ok c) → replaceOf v = .error .valueError := by
      intro v h; unfold replaceOf at h ⊢; split <;> simp_all
    have e3 : ∀ v, (¬ ∃ c, deleteOf v = .ok c) → deleteOf v = .error .valueError := by
      intro v h; unfold deleteOf at h ⊢; split <;> simp_all
    rw [← createOf_ok, ← replaceOf_ok, ← deleteOf_ok] at h
    unfold Attrs.opts
    by_cases h1 : ∃ c, createOf a.create = .ok c
    · by_cases h2 : ∃ c, replaceOf a.replace = .ok c
      · by_cases h3 : ∃ c, deleteOf a.delete = .ok c
        · exact absurd ⟨h1, h2, h3⟩ h
        · obtain ⟨c, h1⟩ := h1
          obtain ⟨c2, h2⟩ := h2
          simp only [h1, h2, e3 _ h3, bind, Except.bind]
      · obtain ⟨c, h1⟩ := h1
        simp only [h1, e2 _ h2, bind, Except.bind]
    · simp only [e1 _ h1, bind, Except.bind]
  unfold nc
  rw [this]

/-- C59, preferences: the options with which the edit-config is computed are the ones that the attributes spell out. -/
theorem C59_preferences (a : Attrs) (o : Opts) : a.opts = .ok o ↔ a.Spells o := by
  have e1 : ∀ v c, createOf v = .ok c ↔ v = .str (match c with | .merge => "merge" | .create => "create" | .replace => "replace") := by
    intro v c
    constructor
    · intro h; unfold createOf at h; split at h <;> first | (cases h; rfl) | cases h
    · rintro rfl; cases c <;> rfl
  have e2 : ∀ v c, replaceOf v = .ok c ↔ v = .str (match c with | .merge => "merge" | .replace => "replace") := by
    intro v c
    constructor
    · intro h; unfold replaceOf at h; split at h <;> first | (cases h; rfl) | cases h
    · rintro rfl; cases c <;> rfl
  have e3 : ∀ v c, deleteOf v = .ok c ↔ v = .str (match c with | .delete => "delete" | .remove => "remove") := by
    intro v c
    constructor
    · intro h; unfold deleteOf at h; split at h <;> first | (cases h; rfl) | cases h
    · rintro rfl; cases c <;> rfl
  have e4 : ∀ v, (diffTypeOf v = .replace ↔ v = .str "replace") ∧ (diffTypeOf v = .minimumReplace ↔ v = .str "minimum-replace") := by
    intro v; unfold diffTypeOf; split <;> simp_all
  constructor
  · intro h
    unfold Attrs.opts at h
    obtain ⟨c, h1, h⟩ := bind_ok.1 h
    obtain ⟨r, h2, h⟩ := bind_ok.1 h
    obtain ⟨x, h3, h⟩ := bind_ok.1 h
    cases h
    exact ⟨(e1 _ _).1 h1, (e2 _ _).1 h2, (e3 _ _).1 h3, (e4 _).1, (e4 _).2, rfl⟩
  · intro h
    unfold Attrs.opts
    rw [(e1 _ _).2 h.create, (e2 _ _).2 h.replace, (e3 _ _).2 h.delete]
    obtain ⟨c, r, x, t, n⟩ := o
    have ht : diffTypeOf a.diffType = t := by
      have h1 := h.typeReplace
      have h2 := h.typeMinimumReplace
      rw [← (e4 _).1] at h1
      rw [← (e4 _).2] at h2
      revert h1 h2
      simp only
      generalize diffTypeOf a.diffType = t'
      intro h1 h2
      cases t <;> cases t' <;> simp_all
    have hn := h.depth
    simp only at hn
    simp only [ht, hn, bind, Except.bind, pure, Except.pure]

/-- C59, seed: after an assignment to `random_seed` that does not raise, what the documentation says holds, until `random_depth` is
assigned.  An integer is taken as it is, and a generated seed is between 1000 and 9999. -/
theorem C59_seed (hb : gen.Bounded) (a : Attrs) (v : Py) (g : γ) (a' : Attrs) (g' : γ) (h : setSeed gen a v g = (.ok a', g'))
    (l : List (Op γ)) (hl : ∀ o ∈ l, ∀ w, o ≠ .depth w) :
    (v = .none ∨ ∃ i, v = .int i) ∧ SeedDocumented a' ∧ SeedDocumented (runAll d gen a' g' l).1 ∧
      (a.depth ≠ .none → (∀ i, v = .int i → a'.seed = .int i) ∧
        (v = .none → ∃ i, a'.seed = .int i ∧ 1000 ≤ i ∧ i ≤ 9999)) := by
  have hset : ∀ (a : Attrs) (v : Py) (g : γ) (a' : Attrs) (g' : γ), setSeed gen a v g = (.ok a', g') → SeedDocumented a' := by
    intro a v g a' g' h
    unfold SeedDocumented
    cases v with
    | none =>
      simp only [setSeed] at h
      split at h <;> cases h <;> simp_all
    | int i => simp only [setSeed] at h; cases h; simp
    | str s => simp [setSeed] at h
    | other => simp [setSeed] at h
  have hrun : ∀ (l : List (Op γ)), (∀ o ∈ l, ∀ w, o ≠ .depth w) → ∀ (a : Attrs) (g : γ), SeedDocumented a →
      SeedDocumented (runAll d gen a g l).1 := by
    intro l
    induction l with
    | nil => exact fun _ a g h => h
    | cons o l ih =>
      intro hl a g h
      refine ih (fun o ho => hl o (List.mem_cons_of_mem _ ho)) _ _ ?_
      cases o with
      | depth w => exact absurd rfl (hl _ List.mem_cons_self w)
      | seed v =>
        simp only [Op.run]
        rcases hs : setSeed gen a v g with ⟨x | x, g2⟩
        · exact h
        · exact hset _ _ _ _ _ hs
      | _ => exact h
  refine ⟨?_, hset _ _ _ _ _ h, hrun l hl _ _ (hset _ _ _ _ _ h), ?_⟩
  · cases v with
    | none => exact .inl rfl
    | int i => exact .inr ⟨i, rfl⟩
    | str s => simp [setSeed] at h
    | other => simp [setSeed] at h
  · intro hd
    constructor
    · rintro i rfl
      simp only [setSeed] at h
      cases h
      simp [hd]
    · rintro rfl
      simp only [setSeed, if_neg hd] at h
      cases h
      exact ⟨_, rfl, hb g 1000 9999 (by decide)⟩

end

/-! ## The hypotheses can be met; where the documentation is wrong -/

namespace Demo

/-- The hypotheses of `C59_preferences` can be met. -/
example :
    Attrs.Spells ⟨NcDiff.Demo.cfg [], NcDiff.Demo.cfg [], .str "create", .str "replace", .str "remove",
      .str "minimum-replace", 2, .none, .none⟩ ⟨.create, .replace, .remove, .minimumReplace, 2⟩ :=
  ⟨rfl, rfl, rfl, by decide, by decide, rfl⟩
open NcDiff.Demo

/-- A generator: the state is a number. -/
def toy : Gen Int where
  seed | .int i => i | _ => 0
  sample g n := ((List.range n).rotate g.toNat, g + 1)
  randint g a b := (a + g % (b - a + 1), g + 1)

theorem toy_bounded : toy.Bounded := by
  intro g a b h
  have := Int.emod_nonneg g (b := b - a + 1) (by omega)
  have := Int.emod_lt_of_pos g (b := b - a + 1) (by omega)
  simp only [toy]
  omega

def made : Args := { src := .config rt1, dst := .config rt2, create := .str "create", diffType := .str "replace",
                     replaceDepth := 1, depth := .int 1, seed := .int 5 }

example : made.Documented ∧ AsksFor dev rt1 made.delta made.dst rt2 :=
  ⟨⟨by decide, by decide, by decide, .inr ⟨1, rfl⟩⟩, .config (compatible_ok (by
    intro c hc
    simp only [List.mem_cons, List.not_mem_nil, or_false] at hc
    rcases hc with rfl | rfl
    · exact rt_transition.src.valid.valid.known
    · exact rt_transition.dst.valid.valid.known))⟩

def obj : Attrs := { src := rt1, dst := rt2, create := .str "merge", replace := .str "merge", delete := .str "delete",
                     diffType := .str "minimum", replaceDepth := 0, depth := .int 1, seed := .int 5 }

example : construct dev obj.args = .ok obj := by decide +kernel

/-- Reading with different generators gives the same. -/
example : (nc dev toy obj 0).1 = (nc dev toy obj 77).1 ∧ ∃ x, (nc dev toy obj 0).1 = .ok x ∧
    (nc dev toy { obj with seed := .none } 0).1 ≠ .ok x := by
  refine ⟨by rw [C59_nc, C59_nc], ?_⟩
  have hn : isOk (nc dev toy obj 0).1 = true := by decide +kernel
  cases h : (nc dev toy obj 0).1 with
  | error e => rw [h] at hn; cases hn
  | ok x => exact ⟨x, rfl, by rw [← h]; decide +kernel⟩

/-- A generated seed after reading `nc` is the same in all programs, whatever the state of their generator. -/
theorem C59_seed_repeats : ∃ n, ∀ g, (setSeed toy obj .none (nc dev toy obj g).2).1 = .ok { obj with seed := .int n } := by
  rcases C59_generator (d := dev) (gen := toy) obj with h | ⟨n, _, h⟩
  · exact absurd (h 77) (by decide +kernel)
  · refine ⟨1006, fun g => ?_⟩
    simp only [h]
    rfl

/-- The documentation says that a seed is generated if there is a depth but no seed, and that there is no seed without a depth.
That is false for a new object. -/
theorem C59_seed_undocumented : ∃ a b ra rb, construct dev a = .ok ra ∧ ra.depth ≠ .none ∧ ra.seed = .none ∧
    construct dev b = .ok rb ∧ rb.depth = .none ∧ rb.seed ≠ .none :=
  ⟨{ made with seed := .none }, { made with depth := .none },
    { obj with create := .str "create", diffType := .str "replace", replaceDepth := 1, seed := .none },
    { obj with create := .str "create", diffType := .str "replace", replaceDepth := 1, depth := .none },
    by decide +kernel, by decide, rfl, by decide +kernel, rfl, by decide⟩

/-- A diff type that is not documented is not noticed: it is `minimum`. -/
theorem C59_diff_type_unchecked (d : Device) (γ : Type) (gen : Gen γ) (a : Attrs) (v : Py)
    (h : v ∉ [Py.str "replace", .str "minimum-replace"]) (g : γ) :
    (nc d gen { a with diffType := v } g) = (nc d gen { a with diffType := .str "minimum" } g) := by
  have : diffTypeOf v = diffTypeOf (.str "minimum") := by
    unfold diffTypeOf
    split <;> simp_all
  unfold nc Attrs.opts
  simp only [this]

example : setSeed toy obj .none 3 = (.ok { obj with seed := .int 1003 }, 4) ∧
    ∀ o ∈ [Op.read, .create (.str "create"), .seed (.int 8), .seed (.str "x"), .random (fun g : Int => g + 5), .read],
      ∀ w, o ≠ .depth w := by
  refine ⟨by decide, ?_⟩
  intro o ho w
  simp only [List.mem_cons, List.not_mem_nil, or_false] at ho
  rcases ho with rfl | rfl | rfl | rfl | rfl | rfl <;> nofun

/-- The history of an object. -/
example : (runAll dev toy obj 0 [.read, .create (.str "create"), .seed .none, .read, .create (.str "nonsense"), .seed (.str "x")]).1 =
    { obj with create := .str "nonsense", seed := .int 1006 } := by decide +kernel

end Demo

end NcDiff.DeltaObj
