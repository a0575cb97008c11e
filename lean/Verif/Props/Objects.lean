import Verif.Proof.Objects
import Verif.Props.Validate
/-!
# Properties C54 and C55: objects that do not change behind each other's back, operands of other kinds
-/

namespace NcDiff.Objects

variable {d : Device}

/-! ## C54 -/

/-- One call, whether it raises or not: objects keep their attributes, and a tree that existed before stays as it is, unless the
program changes it or gives its `Config` object to the class `Config` again. -/
theorem C54_call (junk : Nat → Elem) (w : World) (o : Op) (hv : o.Valid w) :
    Grows w (o.run d junk w).2 ∧
      ∀ r < w.trees.length, ¬ Touches w o r → (o.run d junk w).2.trees[r]? = w.trees[r]? :=
  run_frame o hv

/-- What a call gives depends on the present values of its operands only, and is what the functions of `Model/Config.lean` say:
results of earlier calls and copies that other calls have left do not matter. -/
theorem C54_value (junk : Nat → Elem) (w : World) (hw : w.Wf) (o : Op) (hv : o.Valid w) : Shows (o.run d junk w) (o.value d w) :=
  run_shows hw o hv

theorem runAll_wf : ∀ (l : List (Op × (Nat → Elem))) (w : World), w.Wf → Proper d w l → (runAll d w l).Wf
  | [], _, hw, _ => hw
  | (o, junk) :: l, w, hw, h => runAll_wf l _ (run_wf hw o h.1) h.2

/-- Any history: a tree that is spared stays as it is. -/
theorem C54_history : ∀ (l : List (Op × (Nat → Elem))) (w : World) (r : Nat), r < w.trees.length → Spared d r w l →
    Grows w (runAll d w l) ∧ (runAll d w l).trees[r]? = w.trees[r]?
  | [], w, _, _, _ => ⟨(Keep.refl w).grows, rfl⟩
  | (o, junk) :: l, w, r, hr, ⟨hv, ht, h⟩ => by
    obtain ⟨g, hs⟩ := run_frame (d := d) (junk := junk) o hv
    obtain ⟨g', hs'⟩ := C54_history l _ r (Nat.lt_of_lt_of_le hr g.1) h
    exact ⟨g.trans g', hs'.trans (hs r hr ht)⟩

theorem careful_step {w : World} (hw : w.Wf) {o : Op} (hv : o.Valid w) (h1 : ∀ c v rd, o ≠ .fromConfig c v rd)
    (h2 : ∀ r e, o = .change r e → r ∉ w.configs) (junk : Nat → Elem) :
    Grows w (o.run d junk w).2 ∧ ∀ r ∈ w.configs, (o.run d junk w).2.trees[r]? = w.trees[r]? := by
  obtain ⟨g, hs⟩ := run_frame (d := d) (junk := junk) o hv
  refine ⟨g, fun r hr => hs r (hw.configs r hr) fun ht => ?_⟩
  cases o with
  | fromConfig c v rd => exact h1 c v rd rfl
  | change q e => exact h2 q e rfl (by rw [show q = r from ht]; exact hr)
  | _ => exact ht.elim

theorem careful_keeps : ∀ (l : List (Op × (Nat → Elem))) (w : World), w.Wf → Careful d w l →
    Grows w (runAll d w l) ∧ ∀ r ∈ w.configs, (runAll d w l).trees[r]? = w.trees[r]?
  | [], w, _, _ => ⟨(Keep.refl w).grows, fun _ _ => rfl⟩
  | (o, junk) :: l, w, hw, ⟨hv, h1, h2, h⟩ => by
    obtain ⟨g, hs⟩ := careful_step (d := d) hw hv h1 h2 junk
    obtain ⟨g', hs'⟩ := careful_keeps l _ (run_wf hw o hv) h
    exact ⟨g.trans g', fun r hr => (hs' r (g.2.1.subset hr)).trans (hs r hr)⟩

/-- A program that uses the operators, and changes no tree of a `Config` object, never sees a `Config` or a `ConfigDelta` change:
not its content, and not what `nc` computes. -/
theorem C54_stable (w : World) (hw : w.Wf) (l : List (Op × (Nat → Elem))) (h : Careful d w l) :
    (∀ c < w.configs.length, (runAll d w l).config c = w.config c) ∧
    ∀ k < w.deltas.length,
      (runAll d w l).delta ((runAll d w l).deltaObj k) = w.delta (w.deltaObj k) ∧
      ((runAll d w l).delta ((runAll d w l).deltaObj k)).nc d = (w.delta (w.deltaObj k)).nc d := by
  obtain ⟨g, hs⟩ := careful_keeps l w hw h
  have hc : ∀ c < w.configs.length, (runAll d w l).config c = w.config c := by
    intro c hc
    unfold World.config
    rw [ele_eq g.2.1 hc]
    unfold World.tree
    rw [hs]
    unfold World.ele
    rw [List.getElem?_eq_getElem hc]
    exact List.getElem_mem hc
  have hd : ∀ k < w.deltas.length, (runAll d w l).delta ((runAll d w l).deltaObj k) = w.delta (w.deltaObj k) := by
    intro k hk
    have := hw.deltas _ (deltaObj_mem hk)
    unfold World.delta
    rw [deltaObj_eq g.2.2 hk, hc _ this.1, hc _ this.2]
  exact ⟨hc, fun k hk => ⟨hd k hk, by rw [hd k hk]⟩⟩

/-- What a call gives is new: no object that existed before shares its tree, and no `Config` object has an element that was given
to the program. -/
theorem C54_new (junk : Nat → Elem) (w : World) (hw : w.Wf) (o : Op) (h1 : ∀ c v rd, o ≠ .fromConfig c v rd) :
    (∀ c, w.configs.length ≤ c → c < (o.run d junk w).2.configs.length → w.trees.length ≤ (o.run d junk w).2.ele c) ∧
    (w.configs.Nodup → (o.run d junk w).2.configs.Nodup) ∧
    ∀ r < w.trees.length, r ∉ w.configs → r ∉ (o.run d junk w).2.configs := by
  rcases run_adds (d := d) (junk := junk) w o h1 with h | ⟨r, hr, _, h⟩
  · rw [h]
    exact ⟨fun c hc hc' => by omega, id, fun _ _ h => h⟩
  · refine ⟨fun c hc hc' => ?_, fun hn => ?_, fun q hq hn => ?_⟩
    · rw [h] at hc'
      simp only [List.length_append, List.length_singleton] at hc'
      have : c = w.configs.length := by omega
      subst this
      simp only [World.ele, h]
      simpa using hr
    · rw [h]
      refine List.nodup_append.2 ⟨hn, List.nodup_singleton r, fun a ha b hb => ?_⟩
      rw [List.mem_singleton.1 hb]
      have := hw.configs a ha
      omega
    · rw [h]
      intro hm
      rcases List.mem_append.1 hm with hm | hm
      · exact hn hm
      · rw [List.mem_singleton.1 hm] at hq
        omega

/-- What `nc` gives belongs to no `Config` object: the program may change it. -/
theorem C54_nc (junk : Nat → Elem) (w : World) (hw : w.Wf) (k r : Nat)
    (h : ((Op.readNc k).run d junk w).1 = .ok (.tree r)) : w.trees.length ≤ r ∧ r ∉ ((Op.readNc k).run d junk w).2.configs := by
  have h' : (readNc d junk w k).1.map Result.tree = .ok (.tree r) := h
  have hc : ((Op.readNc k).run d junk w).2.configs = w.configs := (calculate_configs _ _ _ _).1
  unfold readNc at h'
  cases hn : (w.delta (w.deltaObj k)).nc d with
  | error e => rw [hn] at h'; cases h'
  | ok t =>
    rw [hn, (calculate_ok _ _ _ _).1] at h'
    cases h'
    refine ⟨Nat.le_refl _, fun hm => ?_⟩
    rw [hc] at hm
    exact Nat.lt_irrefl _ (hw.configs _ hm)

/-- As long as no `Config` object is given to the class `Config` again, no two `Config` objects have the same tree. -/
theorem C54_own : ∀ (l : List (Op × (Nat → Elem))) (w : World), w.Wf → Proper d w l → NoAlias l → w.configs.Nodup →
    (runAll d w l).configs.Nodup
  | [], _, _, _, _, h => h
  | (o, junk) :: l, w, hw, hp, ha, h =>
    C54_own l _ (run_wf hw o hp.1) hp.2 (fun x hx => ha x (List.mem_cons_of_mem _ hx))
      ((C54_new junk w hw o (ha _ List.mem_cons_self)).2.1 h)

/-- `Config(device, config)` changes nothing if `config` is what these checks make of it; the two objects share the tree. -/
theorem C54_again (junk : Nat → Elem) (w : World) (hw : w.Wf) (c : Nat) (hc : c < w.configs.length) (v rd : Bool)
    (ht : trimDefaults d .root (w.config c) = .ok (w.config c))
    (hv : v = true → validateConfig d rd (w.config c) = .ok (w.config c)) :
    let x := (Op.fromConfig c v rd).run d junk w
    x.1 = .ok (.config w.configs.length) ∧ (∀ r < w.trees.length, x.2.tree r = w.tree r) ∧
      x.2.ele w.configs.length = w.ele c := by
  have hb : built d (w.tree (w.ele c)) v rd = .ok (w.config c) := by
    unfold built
    rw [show w.tree (w.ele c) = w.config c from rfl, ht]
    cases v with
    | false => rfl
    | true => exact hv rfl
  show (construct d junk w (w.ele c) v rd).1 = _ ∧ (∀ r < w.trees.length, (construct d junk w (w.ele c) v rd).2.tree r = _) ∧
    (construct d junk w (w.ele c) v rd).2.ele _ = _
  rw [construct_eq, hb]
  refine ⟨rfl, fun r hr => ?_, by simp [World.ele]⟩
  by_cases h : w.ele c = r
  · subst h
    exact tree_write (ele_lt hw hc) _
  · unfold World.tree
    rw [← write_same w h (w.config c)]

/-! ## C55 -/

/-- The operators change nothing that existed, whatever the operands are. -/
theorem C55_keeps (junk : Nat → Elem) (w : World) (f : Elem → Elem → Except Err Bool) (a b : Operand) :
    ∀ w' ∈ [(plus d junk w a b).2, (minus d junk w a b).2, (comparison f w a b).2],
      Grows w w' ∧ ∀ r < w.trees.length, w'.trees[r]? = w.trees[r]? := by
  have key : ∀ w', Keep w w' → Grows w w' ∧ ∀ r < w.trees.length, w'.trees[r]? = w.trees[r]? := fun w' h => ⟨h.grows, h.same⟩
  intro w' hw'
  apply key
  simp only [List.mem_cons, List.not_mem_nil, or_false] at hw'
  rcases hw' with rfl | rfl | rfl
  · cases a <;> cases b <;> first
      | exact .refl w
      | exact addConfig_keep _ _ _
      | exact addDelta_keep _ _ _
      | exact addTree_keep _ _ _
      | exact deltaAdd_keep _ _ _
  · cases a <;> cases b <;> first
      | exact .refl w
      | exact newDelta_keep _ _ _ _ _
      | exact subDelta_keep _ _ _
  · cases a <;> cases b <;> exact .refl w

/-- The operator is defined for the operands. -/
inductive Summable : Operand → Operand → Prop where
  | configs (c c' : Nat) : Summable (.config c) (.config c')
  | delta (c k : Nat) : Summable (.config c) (.delta k)
  | element (c r : Nat) : Summable (.config c) (.element r)
  | left (k c : Nat) : Summable (.delta k) (.config c)

/-- The operator is defined for the operands. -/
inductive Subtractable : Operand → Operand → Prop where
  | configs (c c' : Nat) : Subtractable (.config c) (.config c')
  | delta (c k : Nat) : Subtractable (.config c) (.delta k)

theorem orNone_some {x : Except Err Result × World} {r : Option Result} (h : (orNone x).1 = .ok r) : r ≠ none := by
  unfold orNone at h
  cases hx : x.1 with
  | error e => simp [hx, Except.map] at h
  | ok y => simp [hx, Except.map] at h; rw [← h]; nofun

/-- Operands that do not fit raise `TypeError`, with one exception: a `ConfigDelta` on the left of `+` gives `None`. -/
theorem C55_kinds (junk : Nat → Elem) (w : World) (f : Elem → Elem → Except Err Bool) (a b : Operand) :
    ((plus d junk w a b).1 = .ok none ↔ (∃ k, a = .delta k) ∧ ∀ c, b ≠ .config c) ∧
    (¬ Summable a b → (∀ k, a ≠ .delta k) → (plus d junk w a b).1 = .error .typeError) ∧
    (¬ Subtractable a b → (minus d junk w a b).1 = .error .typeError) ∧
    (minus d junk w a b).1 ≠ .ok none ∧
    ((∀ c c', a = .config c → b ≠ .config c') → (comparison f w a b).1 = .error .typeError) := by
  refine ⟨?_, ?_, ?_, ?_, ?_⟩
  · constructor
    · intro h
      cases a with
      | config c =>
        cases b with
        | config c' => exact absurd rfl (orNone_some h)
        | delta k => exact absurd rfl (orNone_some h)
        | element r => exact absurd rfl (orNone_some h)
        | other => cases h
      | delta k =>
        cases b with
        | config c => exact absurd rfl (orNone_some h)
        | _ => exact ⟨⟨k, rfl⟩, fun c hc => Operand.noConfusion hc⟩
      | element r => cases b <;> cases h
      | other => cases b <;> cases h
    · rintro ⟨⟨k, rfl⟩, hb⟩
      cases b with
      | config c => exact absurd rfl (hb c)
      | _ => rfl
  · intro hs hd
    cases a with
    | config c =>
      cases b with
      | config c' => exact absurd (.configs c c') hs
      | delta k => exact absurd (.delta c k) hs
      | element r => exact absurd (.element c r) hs
      | other => rfl
    | delta k => exact absurd rfl (hd k)
    | element r => cases b <;> rfl
    | other => cases b <;> rfl
  · intro hs
    cases a with
    | config c =>
      cases b with
      | config c' => exact absurd (.configs c c') hs
      | delta k => exact absurd (.delta c k) hs
      | _ => rfl
    | _ => cases b <;> rfl
  · intro h
    cases a with
    | config c =>
      cases b with
      | config c' => exact orNone_some h rfl
      | delta k => exact orNone_some h rfl
      | _ => cases h
    | _ => cases b <;> cases h
  · intro h
    cases a with
    | config c =>
      cases b with
      | config c' => exact absurd rfl (h c c' rfl)
      | _ => rfl
    | _ => cases b <;> rfl

/-- `delta + config` is `config + delta` whenever the latter is defined. -/
theorem C55_commutes (junk junk' : Nat → Elem) (w : World) (hw : w.Wf) (c k : Nat) (hc : c < w.configs.length) (e : Elem)
    (h : configAddDelta d (w.config c) (w.delta (w.deltaObj k)) = .ok e) :
    (∃ c1, (plus d junk w (.config c) (.delta k)).1 = .ok (some (.config c1)) ∧
      (plus d junk w (.config c) (.delta k)).2.config c1 = e) ∧
    ∃ c2, (plus d junk' w (.delta k) (.config c)).1 = .ok (some (.config c2)) ∧
      (plus d junk' w (.delta k) (.config c)).2.config c2 = e := by
  constructor
  · have := addDelta_shows (d := d) (junk := junk) (k := k) hw hc
    rw [h] at this
    obtain ⟨c1, h1, _, h3⟩ := this
    exact ⟨c1, by show Except.map some (addDelta d junk w c k).1 = _; rw [h1]; rfl, h3⟩
  · have := deltaAdd_shows (d := d) (junk := junk') (k := k) hw hc
    unfold configAddDelta at h
    obtain ⟨_, _, h⟩ := bind_ok.1 h
    rw [h] at this
    obtain ⟨c1, h1, _, h3⟩ := this
    exact ⟨c1, by show Except.map some (deltaAdd d junk' w k c).1 = _; rw [h1]; rfl, h3⟩

/-- An operator gives this value. -/
def Gives (x : Except Err (Option Result) × World) (v : Except Err Value) : Prop := ∃ y, x = orNone y ∧ Shows y v

/-- The operators give what the functions of `Model/Config.lean` say: `a - b` leads from `b` to `a`. -/
theorem C55_values (junk : Nat → Elem) (w : World) (hw : w.Wf) (f : Elem → Elem → Except Err Bool) (c c' k r : Nat)
    (hc : c < w.configs.length) (hk : k < w.deltas.length) :
    Gives (plus d junk w (.config c) (.config c')) ((configAdd d (w.config c) (w.config c')).map .config) ∧
    Gives (plus d junk w (.config c) (.delta k)) ((configAddDelta d (w.config c) (w.delta (w.deltaObj k))).map .config) ∧
    Gives (plus d junk w (.config c) (.element r)) ((configAddElem d (w.config c) (w.tree r)).map .config) ∧
    Gives (minus d junk w (.config c) (.config c')) ((configSub d (w.config c) (w.config c')).map .delta) ∧
    Gives (minus d junk w (.config c) (.delta k)) ((configSubDelta d (w.config c) (w.delta (w.deltaObj k))).map .config) ∧
    Shows (comparison f w (.config c) (.config c')) ((f (w.config c) (w.config c')).map .bool) := by
  refine ⟨⟨_, rfl, addConfig_shows _ _ _⟩, ⟨_, rfl, addDelta_shows hw hc⟩, ⟨_, rfl, addTree_shows _ _ _⟩,
    ⟨_, rfl, newDelta_shows _ _ _ _ _⟩, ⟨_, rfl, subDelta_shows hw hc hk⟩, ?_⟩
  show Shows ((f (w.config c) (w.config c')).map Result.bool, w) _
  cases f (w.config c) (w.config c') <;> rfl

/-! ## The hypotheses can be met; a `Config` object that is given to the class `Config` -/

namespace Demo
open NcDiff.Demo

/-- What the copies are left with. -/
def rest : Nat → Elem := fun _ => el "left" [lf "over" "1"]

/-- A reply arrives, two configs are made, and a delta from the second to the first. -/
def begin_ : List (Op × (Nat → Elem)) :=
  [(.load oldReply, rest), (.fromElement 0 true false, rest), (.fromNothing true, rest), (.newDelta 1 0 {} none, rest)]

/-- The program goes on: it reads the delta and changes what it gets, applies it in three ways, compares, filters. -/
def go : List (Op × (Nat → Elem)) :=
  [(.readNc 0, rest), (.change 3 (el "x" []), rest), (.addDelta 1 0, rest), (.deltaAdd 0 1, rest), (.subDelta 0 0, rest),
   (.addConfig 0 1, rest), (.compare (cfgEq oldDev) 0 2, rest), (.negate 0, rest), (.deltaOf 1 0 {} none, rest),
   (.filter 0 fun e => .ok e, rest), (.change 0 (el "x" []), rest)]

def none_ : World := ⟨[], [], []⟩

def there : World := runAll oldDev none_ begin_

instance (w : World) (o : Op) : Decidable (o.Valid w) := by cases o <;> unfold Op.Valid <;> infer_instance

theorem none_wf : none_.Wf := ⟨fun _ h => (by cases h), fun _ h => (by cases h)⟩

theorem begin_proper : Proper oldDev none_ begin_ :=
  ⟨by decide +kernel, by decide +kernel, by decide +kernel, by decide +kernel, trivial⟩

theorem there_wf : there.Wf := runAll_wf _ _ none_wf begin_proper

/-- Executable `Careful`. -/
def carefulB (d : Device) : World → List (Op × (Nat → Elem)) → Bool
  | _, [] => true
  | w, (o, junk) :: l => decide (o.Valid w) && (match o with
      | .fromConfig _ _ _ => false
      | .change r _ => decide (r ∉ w.configs)
      | _ => true) && carefulB d (o.run d junk w).2 l

theorem carefulB_sound {d : Device} : ∀ (l : List (Op × (Nat → Elem))) (w : World), carefulB d w l = true → Careful d w l
  | [], _, _ => trivial
  | (o, junk) :: l, w, h => by
    unfold carefulB at h
    rw [Bool.and_eq_true, Bool.and_eq_true] at h
    refine ⟨of_decide_eq_true h.1.1, ?_, ?_, carefulB_sound l _ h.2⟩
    · rintro c v rd rfl; exact absurd h.1.2 (by simp)
    · rintro r e rfl; exact of_decide_eq_true h.1.2

example : Careful oldDev there go ∧ (runAll oldDev there go).configs.length = 8 ∧ (runAll oldDev there go).deltas.length = 4 ∧
    (runAll oldDev there go).config 0 = noConfig.setKids [el "sys" [lf "host" "h", el "dep" [lf "w" "3"]]] ∧
    (runAll oldDev there go).config 2 = noConfig.setKids [el "sys" [lf "host" "h", el "dep" [lf "w" "3"]]] ∧
    (runAll oldDev there go).tree 0 = el "x" [] :=
  ⟨carefulB_sound _ _ (by decide +kernel), by decide +kernel, by decide +kernel, by decide +kernel, by decide +kernel,
    by decide +kernel⟩

example : Spared oldDev 1 there [(.readNc 0, rest), (.fromConfig 1 true false, rest), (.change 0 (el "x" []), rest)] :=
  ⟨by decide +kernel, id, by decide +kernel, by unfold Touches; decide +kernel, by decide +kernel,
    by unfold Touches; decide +kernel, trivial⟩

/-- C55_values: the delta that `config0 - config1` gives leads from the empty config to the other. -/
example : 0 < there.configs.length ∧ 0 < there.deltas.length ∧ there.config 0 ≠ there.config 1 ∧
    ∃ δ, configSub oldDev (there.config 0) (there.config 1) = .ok δ ∧ δ.src = there.config 1 :=
  ⟨by decide +kernel, by decide +kernel, by decide +kernel, ⟨_, _, {}, none⟩, by rfl, by rfl⟩

example : NoAlias (begin_ ++ go) := by
  intro x hx c v rd h
  have : ∀ x ∈ begin_ ++ go, (match x.1 with | .fromConfig _ _ _ => False | _ => True) := by simp [begin_, go]
  have := this x hx
  rw [h] at this
  exact this

/-- A config that has been validated can be given to the class `Config` again with the same arguments. -/
example : trimDefaults oldDev .root (there.config 0) = .ok (there.config 0) ∧
    validateConfig oldDev false (there.config 0) = .ok (there.config 0) := by decide +kernel

example : ∃ e, configAddDelta oldDev (there.config 1) (there.delta (there.deltaObj 0)) = .ok e ∧ e = there.config 0 :=
  ⟨_, by decide +kernel, rfl⟩

/-- `Config(device, config, remove_deprecated=True)` removes nodes from `config` too, and a delta that was made before says
something else afterwards. -/
theorem C54_changes_argument : ∃ w, w.Wf ∧ ∃ c k, c < w.configs.length ∧ k < w.deltas.length ∧ ∀ junk,
    let w' := ((Op.fromConfig c true true).run oldDev junk w).2
    ((Op.fromConfig c true true).run oldDev junk w).1 = .ok (.config w.configs.length) ∧
    w'.config c ≠ w.config c ∧
    (w'.delta (w'.deltaObj k)).nc oldDev ≠ (w.delta (w.deltaObj k)).nc oldDev := by
  refine ⟨there, there_wf, 0, 0, by decide +kernel, by decide +kernel, fun junk => ?_⟩
  have hb : built oldDev (there.tree (there.ele 0)) true true = .ok (noConfig.setKids [el "sys" [lf "host" "h"]]) := by
    decide +kernel
  have hrun : (Op.fromConfig 0 true true).run oldDev junk there =
      (.ok (.config there.configs.length),
        { there.write (there.ele 0) (noConfig.setKids [el "sys" [lf "host" "h"]]) with configs := there.configs ++ [there.ele 0] }) := by
    show construct oldDev junk there (there.ele 0) true true = _
    rw [construct_eq, hb]
  rw [hrun]
  exact ⟨rfl, by decide +kernel, by decide +kernel⟩

end Demo

end NcDiff.Objects
