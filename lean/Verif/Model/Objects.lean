import Verif.Model.Config
/-!
# Config and ConfigDelta as objects that share trees

Model of `Config.__init__`, the operators of `Config` and `ConfigDelta`, `filter`, `nc` and `extract_config`
(`src/ncdiff/config.py` lines 62-172, 331-351, 650-809; `src/ncdiff/netconf.py` lines 67-115 and 195-221; `src/ncdiff/calculator.py`) with
respect to which trees they read, copy and change.  What is computed is in `Model/Config.lean`.

A tree is known by its number; an lxml element belongs to one tree, so parts of trees are not shared.  A computation changes the
copies that it works on in ways that are left open (`junk`), except for its result; if it raises, it may have changed them too.
All objects belong to one device.
-/

namespace NcDiff.Objects

/-- A `ConfigDelta`: the objects `config_src` and `config_dst`, and the other attributes. -/
structure DeltaObj where
  src : Nat
  dst : Nat
  opts : Opts
  shuffle : Option (Nat × (Nat → List Nat))

/-- The trees in memory, the attribute `ele` of every `Config` object, and the `ConfigDelta` objects. -/
structure World where
  trees : List Elem
  configs : List Nat
  deltas : List DeltaObj

/-- The tree of a number. -/
def World.tree (w : World) (r : Nat) : Elem := (w.trees[r]?).getD emptyConfig

/-- `config.ele`. -/
def World.ele (w : World) (c : Nat) : Nat := (w.configs[c]?).getD 0

/-- The tree of a `Config` object. -/
def World.config (w : World) (c : Nat) : Elem := w.tree (w.ele c)

/-- A new tree: its number. -/
def World.alloc (w : World) (e : Elem) : Nat × World := (w.trees.length, { w with trees := w.trees ++ [e] })

/-- A tree is changed. -/
def World.write (w : World) (r : Nat) (e : Elem) : World := { w with trees := w.trees.set r e }

/-- `deepcopy`. -/
def World.deepcopy (w : World) (r : Nat) : Nat × World := w.alloc (w.tree r)

/-- What a call gives. -/
inductive Result where
  | config (c : Nat)
  | delta (k : Nat)
  | bool (b : Bool)
  | tree (r : Nat)
  deriving DecidableEq

variable (d : Device) (junk : Nat → Elem)

/-- The end of `Config.__init__`, lines 86-88, after `self.ele` has been set to the tree `r`: trimming and validation change the
tree. -/
def construct (w : World) (r : Nat) (validate rd : Bool) : Except Err Result × World :=
  match trimDefaults d .root (w.tree r) with
  | .error e => (.error e, w.write r (junk r))
  | .ok t =>
    match (if validate then validateConfig d rd t else .ok t) with
    | .error e => (.error e, w.write r (junk r))
    | .ok t' => (.ok (.config w.configs.length), { w.write r t' with configs := w.configs ++ [r] })

/-- `Config(device, element, validate, remove_deprecated)`, lines 73-79: `NetconfParser` makes a copy. -/
def fromElement (w : World) (r : Nat) (validate rd : Bool) : Except Err Result × World :=
  let a := w.alloc (retrieveConfig (w.tree r))
  construct d junk a.2 a.1 validate rd

/-- `Config(device, config, validate, remove_deprecated)`, lines 80-81: the new object has the tree of the given one. -/
def fromConfig (w : World) (c : Nat) (validate rd : Bool) : Except Err Result × World :=
  construct d junk w (w.ele c) validate rd

/-- `Config(device)`, lines 71-72. -/
def fromNothing (w : World) (validate : Bool) : Except Err Result × World :=
  let a := w.alloc emptyConfig
  construct d junk a.2 a.1 validate false

/-- `NetconfCalculator(device, r1, r2, ...)`: `add` and `sub` of netconf.py lines 195-221 with the given result. -/
def calculate (w : World) (r1 r2 : Nat) (result : Except Err Elem) : Except Err Nat × World :=
  let a := w.deepcopy r1
  let b := a.2.deepcopy r2
  match result with
  | .error e => (.error e, (b.2.write a.1 (junk a.1)).write b.1 (junk b.1))
  | .ok t => (.ok a.1, (b.2.write a.1 t).write b.1 (junk b.1))

/-- `config + element`, lines 123-128. -/
def addTree (w : World) (c r : Nat) : Except Err Result × World :=
  let x := calculate junk w (w.ele c) r (calcAdd d (w.config c) (w.tree r))
  match x.1 with
  | .error e => (.error e, x.2)
  | .ok a => fromElement d junk x.2 a false false

/-- `config + config`, lines 110-117. -/
def addConfig (w : World) (c c' : Nat) : Except Err Result × World :=
  match compatible d [w.config c, w.config c'] with
  | .error e => (.error e, w)
  | .ok _ => addTree d junk w c (w.ele c')

/-- `ConfigDelta(config_src, config_dst, ...)`, lines 650-715: nothing is computed. -/
def newDelta (w : World) (src dst : Nat) (opts : Opts) (shuffle : Option (Nat × (Nat → List Nat))) : Except Err Result × World :=
  match compatible d [w.config src, w.config dst] with
  | .error e => (.error e, w)
  | .ok _ => (.ok (.delta w.deltas.length), { w with deltas := w.deltas ++ [⟨src, dst, opts, shuffle⟩] })

/-- What a `ConfigDelta` object is at the moment. -/
def World.delta (w : World) (δ : DeltaObj) : Delta := ⟨w.config δ.src, w.config δ.dst, δ.opts, δ.shuffle⟩

/-- A `ConfigDelta` object. -/
def World.deltaObj (w : World) (k : Nat) : DeltaObj := (w.deltas[k]?).getD ⟨0, 0, {}, none⟩

/-- `delta.nc`, lines 722-735: `reorder` works on the copy. -/
def readNc (w : World) (k : Nat) : Except Err Nat × World :=
  calculate junk w (w.ele (w.deltaObj k).dst) (w.ele (w.deltaObj k).src) ((w.delta (w.deltaObj k)).nc d)

/-- `config + delta`, lines 118-122. -/
def addDelta (w : World) (c k : Nat) : Except Err Result × World :=
  match compatible d [w.config c, w.config (w.deltaObj k).src, w.config (w.deltaObj k).dst] with
  | .error e => (.error e, w)
  | .ok _ =>
    let x := readNc d junk w k
    match x.1 with
    | .error e => (.error e, x.2)
    | .ok a => addTree d junk x.2 c a

/-- `delta + config`, lines 787-789: without the check. -/
def deltaAdd (w : World) (k c : Nat) : Except Err Result × World :=
  let x := readNc d junk w k
  match x.1 with
  | .error e => (.error e, x.2)
  | .ok a => addTree d junk x.2 c a

/-- `-delta`, lines 774-776. -/
def negate (w : World) (k : Nat) : Except Err Result × World :=
  newDelta d w (w.deltaObj k).dst (w.deltaObj k).src {} none

/-- `config - delta`, lines 135-136. -/
def subDelta (w : World) (c k : Nat) : Except Err Result × World :=
  let x := negate d w k
  match x.1 with
  | .ok (.delta k') => addDelta d junk x.2 c k'
  | .ok r => (.ok r, x.2)
  | .error e => (.error e, x.2)

/-- `ConfigDelta(config_src, delta=element, ...)`, lines 693-712: a copy of the element is added to the source. -/
def deltaOf (w : World) (src r : Nat) (opts : Opts) (shuffle : Option (Nat × (Nat → List Nat))) : Except Err Result × World :=
  let a := w.alloc (retrieveConfig (w.tree r))
  let x := addTree d junk a.2 src a.1
  match x.1 with
  | .ok (.config c) =>
    (.ok (.delta x.2.deltas.length), { x.2 with deltas := x.2.deltas ++ [⟨src, c, opts, shuffle⟩] })
  | .ok r => (.ok r, x.2)
  | .error e => (.error e, x.2)

/-- `config == config` and so on, lines 140-172: the calculator reads both trees. -/
def compare (w : World) (f : Elem → Elem → Except Err Bool) (c c' : Nat) : Except Err Result × World :=
  ((f (w.config c) (w.config c')).map .bool, w)

/-- `config.filter(...)`, lines 331-349: a copy is turned into a config, and of that one everything else is removed. -/
def filter (w : World) (c : Nat) (result : Elem → Except Err Elem) : Except Err Result × World :=
  let a := w.deepcopy (w.ele c)
  let x := fromElement d junk a.2 a.1 true false
  match x.1 with
  | .ok (.config c') =>
    match result (x.2.config c') with
    | .error e => (.error e, x.2.write (x.2.ele c') (junk 0))
    | .ok t => (.ok (.config c'), x.2.write (x.2.ele c') t)
  | .ok r => (.ok r, x.2)
  | .error e => (.error e, x.2)

/-! ## Operands of other kinds -/

/-- An operand: `other` is an object whose class has no operators that know `Config` or `ConfigDelta`, as numbers, strings and
`None`; lxml elements have no arithmetic. -/
inductive Operand where
  | config (c : Nat)
  | delta (k : Nat)
  | element (r : Nat)
  | other
  deriving DecidableEq

/-- A result, where Python may give `None`. -/
def orNone (x : Except Err Result × World) : Except Err (Option Result) × World := (x.1.map some, x.2)

/-- `a + b`: `Config.__add__`, lines 110-130, and `ConfigDelta.__add__`, lines 787-789, which returns `None` unless the other
operand is a `Config`.  `NotImplemented` becomes `TypeError` as no class has `__radd__`. -/
def plus (w : World) : Operand → Operand → Except Err (Option Result) × World
  | .config c, .config c' => orNone (addConfig d junk w c c')
  | .config c, .delta k => orNone (addDelta d junk w c k)
  | .config c, .element r => orNone (addTree d junk w c r)
  | .delta k, .config c => orNone (deltaAdd d junk w k c)
  | .delta _, _ => (.ok none, w)
  | _, _ => (.error .typeError, w)

/-- `a - b`: `Config.__sub__`, lines 132-138, and `ConfigDelta.__sub__`, lines 791-792. -/
def minus (w : World) : Operand → Operand → Except Err (Option Result) × World
  | .config c, .config c' => orNone (newDelta d w c' c {} none)
  | .config c, .delta k => orNone (subDelta d junk w c k)
  | _, _ => (.error .typeError, w)

/-- `a == b`, `a < b` and so on when one of the operands is a `Config` or a `ConfigDelta`, lines 140-174 and 794-810: Python asks
the class of the right operand when the left one does not know. -/
def comparison (f : Elem → Elem → Except Err Bool) (w : World) : Operand → Operand → Except Err Result × World
  | .config c, .config c' => compare w f c c'
  | _, _ => (.error .typeError, w)

/-- What the program does: `Op.load` is the arrival of a reply or of any other element. -/
inductive Op where
  | load (e : Elem)
  | fromNothing (validate : Bool)
  | fromElement (r : Nat) (validate rd : Bool)
  | fromConfig (c : Nat) (validate rd : Bool)
  | addTree (c r : Nat)
  | addConfig (c c' : Nat)
  | newDelta (src dst : Nat) (opts : Opts) (shuffle : Option (Nat × (Nat → List Nat)))
  | deltaOf (src r : Nat) (opts : Opts) (shuffle : Option (Nat × (Nat → List Nat)))
  | readNc (k : Nat)
  | addDelta (c k : Nat)
  | deltaAdd (k c : Nat)
  | negate (k : Nat)
  | subDelta (c k : Nat)
  | compare (f : Elem → Elem → Except Err Bool) (c c' : Nat)
  | filter (c : Nat) (result : Elem → Except Err Elem)
  /-- the program changes a tree itself -/
  | change (r : Nat) (e : Elem)

/-- One call. -/
def Op.run (w : World) : Op → Except Err Result × World
  | .load e => (.ok (.tree (w.alloc e).1), (w.alloc e).2)
  | .fromNothing v => Objects.fromNothing d junk w v
  | .fromElement r v rd => Objects.fromElement d junk w r v rd
  | .fromConfig c v rd => Objects.fromConfig d junk w c v rd
  | .addTree c r => Objects.addTree d junk w c r
  | .addConfig c c' => Objects.addConfig d junk w c c'
  | .newDelta s t o sh => Objects.newDelta d w s t o sh
  | .deltaOf s r o sh => Objects.deltaOf d junk w s r o sh
  | .readNc k => ((Objects.readNc d junk w k).1.map .tree, (Objects.readNc d junk w k).2)
  | .addDelta c k => Objects.addDelta d junk w c k
  | .deltaAdd k c => Objects.deltaAdd d junk w k c
  | .negate k => Objects.negate d w k
  | .subDelta c k => Objects.subDelta d junk w c k
  | .compare f c c' => Objects.compare w f c c'
  | .filter c f => Objects.filter d junk w c f
  | .change r e => (.ok (.tree r), w.write r e)

/-- Calls one after the other; what is left open may differ from call to call. -/
def runAll (d : Device) (w : World) : List (Op × (Nat → Elem)) → World
  | [] => w
  | (o, junk) :: r => runAll d (o.run d junk w).2 r

end NcDiff.Objects
