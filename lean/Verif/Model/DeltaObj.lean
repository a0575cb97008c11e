import Verif.Model.Config
/-!
# `ConfigDelta` objects: arguments, attributes, and the random generator

Model of `src/ncdiff/config.py` lines 650-772 and 812-851.  In contrast to `Delta` in `Model/Config.lean`, the arguments and
attributes have Python values of any kind, attributes can be assigned, and the generator of module `random` has a state that the
whole program shares.

Not modelled: the text of messages, the warning of lines 709-711, `replace_xpath` (see `Model/ReplaceXpath.lean`), values of
`replace_depth` that are no natural numbers, parsing of XML strings, and seeds that `random.seed` does not take.
-/

namespace NcDiff.DeltaObj

/-- A Python value.  `int` includes `True` and `False`, which are 1 and 0 for `isinstance` and `==`. -/
inductive Py where
  | none
  | int (i : Int)
  | str (s : String)
  | other
  deriving DecidableEq, Repr

/-- The functions of module `random` that are used; `γ` is the state of the generator. -/
structure Gen (γ : Type) where
  seed : Py → γ
  /-- `random.sample(range(n), n)` -/
  sample : γ → Nat → List Nat × γ
  /-- `random.randint(a, b)` -/
  randint : γ → Int → Int → Int × γ

/-- Values of `preferred_create`, lines 675-679, and `src/ncdiff/netconf.py` lines 179-183. -/
def createOf : Py → Except Err PrefCreate
  | .str "merge" => .ok .merge
  | .str "create" => .ok .create
  | .str "replace" => .ok .replace
  | _ => .error .valueError

/-- Values of `preferred_replace`, lines 680-684, and `src/ncdiff/netconf.py` lines 184-188. -/
def replaceOf : Py → Except Err PrefReplace
  | .str "merge" => .ok .merge
  | .str "replace" => .ok .replace
  | _ => .error .valueError

/-- Values of `preferred_delete`, lines 685-689, and `src/ncdiff/netconf.py` lines 189-193. -/
def deleteOf : Py → Except Err PrefDelete
  | .str "delete" => .ok .delete
  | .str "remove" => .ok .remove
  | _ => .error .valueError

/-- `diff_type` is only compared with `'replace'` and `'minimum-replace'` (`src/ncdiff/netconf.py` lines 206, 211, 215, 1081,
1195, 1221). -/
def diffTypeOf : Py → DiffType
  | .str "replace" => .replace
  | .str "minimum-replace" => .minimumReplace
  | _ => .minimum

/-- An argument that is to be a `Config` or a delta: `xml` is an element, or a string that has been parsed. -/
inductive Arg where
  | none
  | config (e : Elem)
  | xml (e : Elem)
  | other

/-- The arguments of `ConfigDelta.__init__`, lines 650-659. -/
structure Args where
  src : Arg
  dst : Arg := .none
  delta : Arg := .none
  create : Py := .str "merge"
  replace : Py := .str "merge"
  delete : Py := .str "delete"
  diffType : Py := .str "minimum"
  replaceDepth : Nat := 0
  depth : Py := .none
  seed : Py := .none

/-- The attributes of a `ConfigDelta`. -/
structure Attrs where
  src : Elem
  dst : Elem
  create : Py
  replace : Py
  delete : Py
  diffType : Py
  replaceDepth : Nat
  depth : Py
  seed : Py
  deriving DecidableEq

/-- Lines 667-669. -/
def depthOk : Py → Bool
  | .none => true
  | .int i => 0 ≤ i
  | _ => false

/-- `self.config_dst` at the end of `__init__`, lines 692-715. -/
def target (d : Device) (s : Elem) : Arg → Arg → Except Err Elem
  | .other, _ => .error .typeError
  | .config _, _ => .error .typeError
  | .xml x, .config _ => configAddElem d s (retrieveConfig x)
  | .xml x, .none => configAddElem d s (retrieveConfig x)
  | .none, .config t => do
    compatible d [s, t]
    pure t
  | .none, .none => do
    compatible d [s, s]
    pure s
  | _, _ => .error .typeError

/-- `ConfigDelta.__init__`, lines 650-715.  The seed is stored as it is given (line 674). -/
def construct (d : Device) (a : Args) : Except Err Attrs :=
  if depthOk a.depth = false then .error .valueError
  else match a.src with
    | .config s => do
      let _ ← createOf a.create
      let _ ← replaceOf a.replace
      let _ ← deleteOf a.delete
      let t ← target d s a.delta a.dst
      pure { src := s, dst := t, create := a.create, replace := a.replace, delete := a.delete, diffType := a.diffType,
             replaceDepth := a.replaceDepth, depth := a.depth, seed := a.seed }
    | _ => .error .typeError

section
variable {γ : Type} (d : Device) (gen : Gen γ)

/-- `reorder_children`, lines 812-837: `random.seed` is called only if at least three children can move. -/
def reorderChildren (seed : Py) (sc : Scope) (e : Elem) (g : γ) : Except Err Elem × γ :=
  match leadingKeys d sc e.kids with
  | .error x => (.error x, g)
  | .ok n =>
    let rest := e.kids.drop n
    if rest.length = 2 then (.ok (e.setKids (e.kids.take n ++ rest.drop 1 ++ rest.take 1)), g)
    else if 2 < rest.length then
      let p := gen.sample (gen.seed seed) rest.length
      (.ok (e.setKids (e.kids.take n ++ p.1.filterMap (fun i => rest[i]?))), p.2)
    else (.ok e, g)

mutual
/-- `reorder`, lines 840-851, as `NcDiff.reorder` but with the state of the generator. -/
def reorder (seed : Py) (sc : Scope) : Nat → Elem → γ → Except Err Elem × γ
  | 0, e, g => reorderChildren d gen seed sc e g
  | depth + 1, .mk t n a x ks, g =>
    match reorderKids seed sc depth ks g with
    | (.ok ks', g') => (.ok (.mk t n a x ks'), g')
    | (.error y, g') => (.error y, g')
/-- The loop of lines 850-851. -/
def reorderKids (seed : Py) (sc : Scope) (depth : Nat) : List Elem → γ → Except Err (List Elem) × γ
  | [], g => (.ok [], g)
  | k :: r, g =>
    match d.lookup sc k.tag with
    | .error y => (.error y, g)
    | .ok f =>
      match reorder seed (.node f.node) depth k g with
      | (.error y, g') => (.error y, g')
      | (.ok k', g') =>
        match reorderKids seed sc depth r g' with
        | (.error y, g'') => (.error y, g'')
        | (.ok r', g'') => (.ok (k' :: r'), g'')
end

/-- The options that the calculator gets, `src/ncdiff/netconf.py` lines 165-193, which checks the preferences again. -/
def Attrs.opts (a : Attrs) : Except Err Opts := do
  let c ← createOf a.create
  let r ← replaceOf a.replace
  let x ← deleteOf a.delete
  pure { create := c, replace := r, delete := x, diffType := diffTypeOf a.diffType, replaceDepth := a.replaceDepth }

/-- Property `nc`, lines 721-735.  A depth that is no natural number is never reached. -/
def nc (a : Attrs) (g : γ) : Except Err Elem × γ :=
  match a.opts with
  | .error e => (.error e, g)
  | .ok o =>
    match calcSub d o a.dst a.src with
    | .error e => (.error e, g)
    | .ok x =>
      if a.depth = .none ∨ a.seed = .none then (.ok x, g)
      else match a.depth with
        | .int (.ofNat n) => reorder d gen a.seed .root n x g
        | _ => (.ok x, g)

/-- `random_seed = value`, lines 758-769. -/
def setSeed (a : Attrs) (v : Py) (g : γ) : Except Err Attrs × γ :=
  match v with
  | .none =>
    if a.depth = .none then (.ok { a with seed := .none }, g)
    else (.ok { a with seed := .int (gen.randint g 1000 9999).1 }, (gen.randint g 1000 9999).2)
  | .int i => (.ok { a with seed := if a.depth = .none then .none else .int i }, g)
  | _ => (.error .valueError, g)

/-- What a program does with the object: it assigns attributes, reads `nc`, or uses the generator itself. -/
inductive Op (γ : Type) where
  | src (e : Elem)
  | dst (e : Elem)
  | create (v : Py)
  | replace (v : Py)
  | delete (v : Py)
  | diffType (v : Py)
  | replaceDepth (n : Nat)
  | depth (v : Py)
  | seed (v : Py)
  | read
  | random (f : γ → γ)

/-- One step: the object and the generator afterwards.  A step that raises leaves the object as it is. -/
def Op.run (a : Attrs) (g : γ) : Op γ → Attrs × γ
  | .src e => ({ a with src := e }, g)
  | .dst e => ({ a with dst := e }, g)
  | .create v => ({ a with create := v }, g)
  | .replace v => ({ a with replace := v }, g)
  | .delete v => ({ a with delete := v }, g)
  | .diffType v => ({ a with diffType := v }, g)
  | .replaceDepth n => ({ a with replaceDepth := n }, g)
  | .depth v => ({ a with depth := v }, g)
  | .seed v =>
    match setSeed gen a v g with
    | (.ok a', g') => (a', g')
    | (.error _, g') => (a, g')
  | .read => (a, (nc d gen a g).2)
  | .random f => (a, f g)

/-- A history of steps. -/
def runAll : Attrs → γ → List (Op γ) → Attrs × γ
  | a, g, [] => (a, g)
  | a, g, o :: l => runAll (o.run d gen a g).1 (o.run d gen a g).2 l

end

end NcDiff.DeltaObj
