import Verif.Model.Objects
/-!
# Specification: objects that do not change behind each other's back
-/

namespace NcDiff.Objects

/-- Every attribute of an object refers to something that exists. -/
structure World.Wf (w : World) : Prop where
  configs : ∀ r ∈ w.configs, r < w.trees.length
  deltas : ∀ δ ∈ w.deltas, δ.src < w.configs.length ∧ δ.dst < w.configs.length

/-- The arguments of a call exist. -/
def Op.Valid (w : World) : Op → Prop
  | .load _ => True
  | .fromNothing _ => True
  | .fromElement r _ _ => r < w.trees.length
  | .fromConfig c _ _ => c < w.configs.length
  | .addTree c r => c < w.configs.length ∧ r < w.trees.length
  | .addConfig c c' => c < w.configs.length ∧ c' < w.configs.length
  | .newDelta s t _ _ => s < w.configs.length ∧ t < w.configs.length
  | .deltaOf s r _ _ => s < w.configs.length ∧ r < w.trees.length
  | .readNc k => k < w.deltas.length
  | .addDelta c k => c < w.configs.length ∧ k < w.deltas.length
  | .deltaAdd k c => c < w.configs.length ∧ k < w.deltas.length
  | .negate k => k < w.deltas.length
  | .subDelta c k => c < w.configs.length ∧ k < w.deltas.length
  | .compare _ c c' => c < w.configs.length ∧ c' < w.configs.length
  | .filter c _ => c < w.configs.length
  | .change r _ => r < w.trees.length

/-- The call may change a tree that existed before: the program changes it itself, or gives the `Config` object to the class
`Config` again. -/
def Touches (w : World) : Op → Nat → Prop
  | .change r _, r' => r = r'
  | .fromConfig c _ _, r' => w.configs[c]? = some r'
  | _, _ => False

/-- No object goes away or gets other attributes. -/
def Grows (w w' : World) : Prop :=
  w.trees.length ≤ w'.trees.length ∧ w.configs <+: w'.configs ∧ w.deltas <+: w'.deltas

/-- None of these calls may change the tree, and their arguments exist. -/
def Spared (d : Device) (r : Nat) : World → List (Op × (Nat → Elem)) → Prop
  | _, [] => True
  | w, (o, junk) :: l => o.Valid w ∧ ¬ Touches w o r ∧ Spared d r (o.run d junk w).2 l

/-- The arguments of all these calls exist. -/
def Proper (d : Device) : World → List (Op × (Nat → Elem)) → Prop
  | _, [] => True
  | w, (o, junk) :: l => o.Valid w ∧ Proper d (o.run d junk w).2 l

/-- The program does not give a `Config` object to the class `Config` again. -/
def NoAlias (l : List (Op × (Nat → Elem))) : Prop := ∀ x ∈ l, ∀ c v rd, x.1 ≠ .fromConfig c v rd

/-- The program does not give `Config` objects to the class `Config` again, and of the trees that it changes itself none belongs to
a `Config` object. -/
def Careful (d : Device) : World → List (Op × (Nat → Elem)) → Prop
  | _, [] => True
  | w, (o, junk) :: l =>
    o.Valid w ∧ (∀ c v rd, o ≠ .fromConfig c v rd) ∧ (∀ r e, o = .change r e → r ∉ w.configs) ∧ Careful d (o.run d junk w).2 l

/-- What a call is expected to give, without memory. -/
inductive Value where
  | config (e : Elem)
  | delta (δ : Delta)
  | bool (b : Bool)
  | tree (e : Elem)

/-- What the functions of `Model/Config.lean` say about a call. -/
def Op.value (d : Device) (w : World) : Op → Except Err Value
  | .load e => .ok (.tree e)
  | .fromNothing v => (do
      let t ← trimDefaults d .root emptyConfig
      if v then validateConfig d false t else pure t).map .config
  | .fromElement r v rd => (newConfig d (w.tree r) v rd).map .config
  | .fromConfig c v rd => (do
      let t ← trimDefaults d .root (w.config c)
      if v then validateConfig d rd t else pure t).map .config
  | .addTree c r => (configAddElem d (w.config c) (w.tree r)).map .config
  | .addConfig c c' => (configAdd d (w.config c) (w.config c')).map .config
  | .newDelta s t o sh => (NcDiff.newDelta d (w.config s) (w.config t) o sh).map .delta
  | .deltaOf s r o sh => (newDeltaOf d (w.config s) (w.tree r) o).map fun δ => .delta { δ with shuffle := sh }
  | .readNc k => ((w.delta (w.deltaObj k)).nc d).map .tree
  | .addDelta c k => (configAddDelta d (w.config c) (w.delta (w.deltaObj k))).map .config
  | .deltaAdd k c => (do
      let x ← (w.delta (w.deltaObj k)).nc d
      configAddElem d (w.config c) x).map .config
  | .negate k => ((w.delta (w.deltaObj k)).neg d).map .delta
  | .subDelta c k => (configSubDelta d (w.config c) (w.delta (w.deltaObj k))).map .config
  | .compare f c c' => (f (w.config c) (w.config c')).map .bool
  | .filter c f => (do
      let t ← newConfig d (w.config c)
      f t).map .config
  | .change _ e => .ok (.tree e)

/-- The result of a call in the world after it is the expected value. -/
def Shows (x : Except Err Result × World) : Except Err Value → Prop
  | .error e => x.1 = .error e
  | .ok (.config t) => ∃ c, x.1 = .ok (.config c) ∧ c < x.2.configs.length ∧ x.2.config c = t
  | .ok (.delta δ) => ∃ k, x.1 = .ok (.delta k) ∧ k < x.2.deltas.length ∧ x.2.delta (x.2.deltaObj k) = δ
  | .ok (.bool b) => x.1 = .ok (.bool b)
  | .ok (.tree t) => ∃ r, x.1 = .ok (.tree r) ∧ r < x.2.trees.length ∧ x.2.tree r = t

end NcDiff.Objects
