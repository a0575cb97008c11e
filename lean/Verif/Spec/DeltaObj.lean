import Verif.Model.DeltaObj
/-!
# Specification: what the arguments and attributes of a delta mean
-/

namespace NcDiff.DeltaObj

/-- The preferences are among the documented values. -/
structure Args.Documented (a : Args) : Prop where
  create : a.create ∈ [Py.str "merge", .str "create", .str "replace"]
  replace : a.replace ∈ [Py.str "merge", .str "replace"]
  delete : a.delete ∈ [Py.str "delete", .str "remove"]
  depth : a.depth = .none ∨ ∃ n : Nat, a.depth = .int n

/-- `t` is the target that the arguments ask for: the delta has precedence over the config, and without both the target is the
source. -/
inductive AsksFor (d : Device) (s : Elem) : Arg → Arg → Elem → Prop
  | delta {x t : Elem} {c : Arg} (hc : c = .none ∨ ∃ e, c = .config e) (h : configAddElem d s (retrieveConfig x) = .ok t) :
      AsksFor d s (.xml x) c t
  | config {t : Elem} (h : compatible d [s, t] = .ok ()) : AsksFor d s .none (.config t) t
  | nothing (h : compatible d [s, s] = .ok ()) : AsksFor d s .none .none s

/-- What the documentation says about `random_seed`: none without `random_depth`, and always one with it. -/
def SeedDocumented (a : Attrs) : Prop := a.depth = .none ↔ a.seed = .none

/-- The options `o` are the ones that the attributes of an object spell out. -/
structure Attrs.Spells (a : Attrs) (o : Opts) : Prop where
  create : a.create = .str (match o.create with | .merge => "merge" | .create => "create" | .replace => "replace")
  replace : a.replace = .str (match o.replace with | .merge => "merge" | .replace => "replace")
  delete : a.delete = .str (match o.delete with | .delete => "delete" | .remove => "remove")
  /-- Everything else is the same as `'minimum'`. -/
  typeReplace : o.diffType = .replace ↔ a.diffType = .str "replace"
  typeMinimumReplace : o.diffType = .minimumReplace ↔ a.diffType = .str "minimum-replace"
  depth : o.replaceDepth = a.replaceDepth

/-- The delta, as the other theorems have it, whose edit-config is to be read: with the current attributes, and children put into
the order that the freshly seeded generator gives. -/
def Attrs.delta {γ : Type} (gen : Gen γ) (a : Attrs) : Except Err Delta := do
  let o ← a.opts
  pure { src := a.src, dst := a.dst, opts := o,
         shuffle := match a.depth, a.seed with
           | _, .none => none
           | .int (.ofNat n), s => some (n, fun k => (gen.sample (gen.seed s) k).1)
           | _, _ => none }

/-- The arguments that are the attributes of an object. -/
def Attrs.args (a : Attrs) : Args :=
  { src := .config a.src, dst := .config a.dst, create := a.create, replace := a.replace, delete := a.delete,
    diffType := a.diffType, replaceDepth := a.replaceDepth, depth := a.depth, seed := a.seed }

/-- The value of an attribute after a history: the one assigned last. -/
def lastSet {γ α : Type} (get : Op γ → Option α) (v : α) (l : List (Op γ)) : α := (l.filterMap get).getLast?.getD v

/-- `random.randint` keeps its bounds. -/
def Gen.Bounded {γ : Type} (gen : Gen γ) : Prop := ∀ g a b, a ≤ b → a ≤ (gen.randint g a b).1 ∧ (gen.randint g a b).1 ≤ b

end NcDiff.DeltaObj
