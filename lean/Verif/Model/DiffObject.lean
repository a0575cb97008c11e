import Verif.Model.RunningConfig
/-!
# A running-config diff as an object

Model of class `RunningConfigDiff` as an object with attributes that a caller can assign, and with the two lists that are kept after
the first use (`src/ncdiff/runningconfig.py` lines 351-411).  The lists that are returned are values here: a caller who changes a list in place is not
modelled.
-/

namespace NcDiff.Running

/-- The attributes, lines 351-359.  `_diff_list` and `_diff_list_reverse` are always set together. -/
structure DiffObj where
  running1 : Str
  running2 : Str
  cache : Option (List Item × List Item)

/-- `__init__`, lines 351-359. -/
def DiffObj.new (s1 s2 : Str) : DiffObj := ⟨s1, s2, none⟩

/-- What a caller can look at: `diff`, `diff_reverse`, `cli`, `cli_reverse`, `str()`, `bool()`. -/
inductive Look where
  | diff | diffReverse | cli | cliReverse | str | bool
  deriving DecidableEq, Repr

/-- What a caller can do with an object. -/
inductive Use where
  | look (l : Look)
  | assign1 (s : Str)
  | assign2 (s : Str)

/-- What a caller gets. -/
inductive Answer where
  | list (l : Option (List Item))
  | text (s : Str)
  | truth (b : Bool)

/-- `diff_list if diff_list else None`, line 397. -/
def listOrNone (l : List Item) : Option (List Item) := if l.isEmpty then none else some l

/-- `get_diff`, lines 389-397; `none` if the comparison does not end in a list (which does not happen). -/
def DiffObj.getDiff (t : Tables) (o : DiffObj) (reverse : Bool) : Option (DiffObj × Option (List Item)) :=
  match o.cache with
  | some (a, b) => some (o, listOrNone (if reverse then b else a))
  | none => do
    let l := running2list t o.running1 o.running2
    let l1 := handleSibling t l.1
    let l2 := handleSibling t l.2
    let a ← compare l1 l2
    let b ← compare l2 l1
    some ({ o with cache := some (a, b) }, listOrNone (if reverse then b else a))

/-- `get_cli` after `get_diff`, lines 400-411. -/
def commandText (t : Tables) : Option (List Item) → Str
  | none => []
  | some l =>
    let r := list2cli t l
    if r.1 ≠ [] then if r.2 ≠ [] then r.2 ++ "\n!\n".toList ++ r.1 else r.1 else r.2

/-- The properties, `__str__` and `__bool__`, lines 361-387. -/
def DiffObj.look (t : Tables) (o : DiffObj) : Look → Option (DiffObj × Answer)
  | .diff => (o.getDiff t false).map fun r => (r.1, .list r.2)
  | .diffReverse => (o.getDiff t true).map fun r => (r.1, .list r.2)
  | .cli => (o.getDiff t false).map fun r => (r.1, .text (commandText t r.2))
  | .cliReverse => (o.getDiff t true).map fun r => (r.1, .text (commandText t r.2))
  | .str => (o.getDiff t false).map fun r => (r.1, .text (r.2.elim [] (list2config (some .ctx))))
  | .bool => (o.getDiff t false).map fun r => (r.1, .truth r.2.isSome)

/-- A sequence of uses of an object: the answers. -/
def DiffObj.run (t : Tables) : DiffObj → List Use → Option (List Answer)
  | _, [] => some []
  | o, .assign1 s :: r => DiffObj.run t { o with running1 := s } r
  | o, .assign2 s :: r => DiffObj.run t { o with running2 := s } r
  | o, .look l :: r =>
    match o.look t l with
    | none => none
    | some (o', a) => (DiffObj.run t o' r).map (a :: ·)

/-- `str(o)` as a text. -/
def DiffObj.str (t : Tables) (o : DiffObj) : Option Str := (o.getDiff t false).map fun r => r.2.elim [] (list2config (some .ctx))

/-- `__eq__`, lines 367-371. -/
def DiffObj.eq (t : Tables) (o o' : DiffObj) : Option Bool := do
  let s ← o.str t
  let s' ← o'.str t
  some (s == s')

end NcDiff.Running
