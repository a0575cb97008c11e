import Verif.Spec.Config
import Mathlib.Data.List.Nodup
/-!
# An executable check of validity

Only used to show that concrete configs meet the hypotheses of the theorems.
-/

namespace NcDiff

/-- Executable `SameInstance`. -/
def sameB (d : Device) (sc : Scope) (x y : Elem) : Bool :=
  x.tag = y.tag &&
    match d.lookup sc x.tag with
    | .error _ => true
    | .ok f =>
      match f.node.ntype with
      | .leafList => parseText d x f.node = parseText d y f.node
      | .list => f.node.keys.all (fun k => keyTexts x k = keyTexts y k)
      | _ => true

theorem sameB_iff (d : Device) (sc : Scope) (x y : Elem) :
    sameB d sc x y = true ↔ SameInstance d sc x y := by
  unfold sameB SameInstance
  cases h : d.lookup sc x.tag with
  | error e => simp
  | ok f =>
    simp only [Bool.and_eq_true, decide_eq_true_eq, Except.ok.injEq, forall_eq']
    cases f.node.ntype <;> simp

def isOk : Except Err α → Bool
  | .ok _ => true
  | .error _ => false

theorem isOk_iff {r : Except Err α} : isOk r = true ↔ ∃ t, r = .ok t := by
  cases r <;> simp [isOk]

/-- Executable `KidOk`. -/
def kidOkB (d : Device) (sn : SNode) (k : Elem) : Bool :=
  match sn.ntype with
  | .leaf => k.kids = [] && isOk (parseText d k sn)
  | .leafList => k.kids = [] && isOk (parseText d k sn)
  | .container => decide sn.info.datatype.plain
  | .list => k.text = none && decide sn.info.datatype.plain &&
      sn.keys.all (fun q => (k.childrenWith q).length = 1) &&
      (!sn.userOrdered || sn.keys.all (fun q =>
        match d.lookup (.node sn) q with
        | .ok f => f.node.ntype = .leaf && decide f.node.info.datatype.plain
        | .error _ => false))
  | _ => false

theorem kidOkB_sound {d : Device} {sn : SNode} {k : Elem} (h : kidOkB d sn k = true) :
    KidOk d sn k := by
  unfold kidOkB at h
  unfold KidOk
  cases hn : sn.ntype <;> simp only [hn] at h ⊢
  · simpa [isOk_iff] using h
  · simpa [isOk_iff] using h
  · simpa using h
  · simp only [Bool.and_eq_true, decide_eq_true_eq, List.all_eq_true, Bool.or_eq_true,
      Bool.not_eq_true'] at h
    obtain ⟨⟨⟨h1, h2⟩, h3⟩, h4⟩ := h
    refine ⟨h1, h2, ?_, ?_⟩
    · intro q hq; exact List.length_eq_one_iff.1 (h3 q hq)
    · intro hu q hq
      rcases h4 with h4 | h4
      · rw [hu] at h4; cases h4
      · have := h4 q hq
        cases hl : d.lookup (.node sn) q with
        | error e => simp [hl] at this
        | ok f => simp [hl] at this; exact ⟨f, rfl, this⟩
  · cases h
  · cases h
  · cases h

/-- Executable "no two are the same instance". -/
def uniqueB (d : Device) (sc : Scope) : List Elem → Bool
  | [] => true
  | k :: r => r.all (fun y => !sameB d sc k y) && uniqueB d sc r

theorem uniqueB_iff (d : Device) (sc : Scope) (ks : List Elem) :
    uniqueB d sc ks = true ↔ ks.Pairwise (fun x y => ¬ SameInstance d sc x y) := by
  induction ks with
  | nil => simp [uniqueB]
  | cons k r ih =>
    simp only [uniqueB, Bool.and_eq_true, List.all_eq_true, Bool.not_eq_true', List.pairwise_cons, ih]
    refine and_congr (forall_congr' fun y => forall_congr' fun _ => ?_) Iff.rfl
    rw [← sameB_iff]; simp

mutual
/-- Executable `Valid`. -/
def validB (d : Device) (sc : Scope) : Elem → Bool
  | .mk _ _ a _ ks => decide (a.map Prod.fst).Nodup && uniqueB d sc ks && validKidsB d sc ks
def validKidsB (d : Device) (sc : Scope) : List Elem → Bool
  | [] => true
  | k :: r =>
    (match d.lookup sc k.tag with
    | .ok f => kidOkB d f.node k && validB d (.node f.node) k
    | .error _ => false) && validKidsB d sc r
end

theorem validKidsB_mem {d : Device} {sc : Scope} : ∀ {ks : List Elem}, validKidsB d sc ks = true →
    ∀ k ∈ ks, ∃ f, d.lookup sc k.tag = .ok f ∧ kidOkB d f.node k = true ∧
      validB d (.node f.node) k = true
  | [], _, k, hk => by simp at hk
  | x :: r, h, k, hk => by
    rw [validKidsB, Bool.and_eq_true] at h
    cases hk with
    | head =>
      cases hl : d.lookup sc x.tag with
      | error e => simp [hl] at h
      | ok f => simp [hl] at h; exact ⟨f, rfl, h.1⟩
    | tail _ hk => exact validKidsB_mem h.2 k hk

theorem validB_sound {d : Device} : ∀ (e : Elem) (sc : Scope), validB d sc e = true → Valid d sc e := by
  intro e
  induction e using Elem.ind with
  | h t n a x ks ih =>
    intro sc h
    rw [validB, Bool.and_eq_true, Bool.and_eq_true, decide_eq_true_eq] at h
    refine Valid.mk h.1.1 ?_ ((uniqueB_iff d sc ks).1 h.1.2) ?_
    · intro k hk
      obtain ⟨f, hf, h1, _⟩ := validKidsB_mem h.2 k hk
      exact ⟨f, hf, kidOkB_sound h1⟩
    · intro k hk f hf
      obtain ⟨g, hg, _, h2⟩ := validKidsB_mem h.2 k hk
      rw [hf] at hg; cases hg
      exact ih k hk _ h2

/-- Executable `ValidConfig`. -/
def validConfigB (d : Device) (e : Elem) : Bool := validB d .root e && e.text = none

theorem validConfigB_sound {d : Device} {e : Elem} (h : validConfigB d e = true) :
    ValidConfig d e := by
  simp only [validConfigB, Bool.and_eq_true, decide_eq_true_eq] at h
  exact ⟨validB_sound e _ h.1, h.2⟩

/-- Executable key condition of `PlainKeys` for one child. -/
def plainKeyB (d : Device) (sn : SNode) : Bool :=
  !(sn.ntype = .list) || sn.keys.all (fun q =>
    match d.lookup (.node sn) q with
    | .ok g => g.node.ntype = .leaf && decide g.node.info.datatype.plain
    | .error _ => false)

mutual
/-- Executable `PlainKeys`. -/
def plainKeysB (d : Device) (sc : Scope) : Elem → Bool
  | .mk _ _ _ _ ks => plainKeysKidsB d sc ks
def plainKeysKidsB (d : Device) (sc : Scope) : List Elem → Bool
  | [] => true
  | k :: r =>
    (match d.lookup sc k.tag with
    | .ok f => plainKeyB d f.node && plainKeysB d (.node f.node) k
    | .error _ => true) && plainKeysKidsB d sc r
end

theorem plainKeysKidsB_mem {d : Device} {sc : Scope} : ∀ {ks : List Elem},
    plainKeysKidsB d sc ks = true → ∀ k ∈ ks, ∀ f, d.lookup sc k.tag = .ok f →
      plainKeyB d f.node = true ∧ plainKeysB d (.node f.node) k = true
  | [], _, k, hk => by simp at hk
  | x :: r, h, k, hk => by
    rw [plainKeysKidsB, Bool.and_eq_true] at h
    cases hk with
    | head => intro f hf; simp [hf] at h; exact h.1
    | tail _ hk => exact plainKeysKidsB_mem h.2 k hk

theorem plainKeysB_sound {d : Device} : ∀ (e : Elem) (sc : Scope), plainKeysB d sc e = true →
    PlainKeys d sc e := by
  intro e
  induction e using Elem.ind with
  | h t n a x ks ih =>
    intro sc h
    rw [plainKeysB] at h
    refine PlainKeys.mk ?_ ?_
    · intro k hk f hf hl q hq
      have := (plainKeysKidsB_mem h k hk f hf).1
      simp only [plainKeyB, hl, decide_true, Bool.not_true, Bool.false_or, List.all_eq_true] at this
      have := this q hq
      cases hg : d.lookup (.node f.node) q with
      | error e => simp [hg] at this
      | ok g => simp [hg] at this; exact ⟨g, rfl, this⟩
    · intro k hk f hf
      exact ih k hk _ (plainKeysKidsB_mem h k hk f hf).2

end NcDiff
