import Verif.Model.Cache
/-!
# Specification: what histories say about a folder

The last event is the first of a list.
-/

namespace NcDiff.Cache

/-- The YANG files that the folder should have. -/
def filesOf : List Label → Files
  | [] => fun _ => none
  | .scan _ _ _ (some files) :: _ => files
  | .interrupted _ _ files :: _ => files
  | .edit files :: _ => files
  | _ :: h => filesOf h

/-- The device object has scanned, and the files have not changed since. -/
def UpToDate (i : Nat) : List Label → Prop
  | .scan j _ _ (some _) :: _ => i = j
  | .scan j _ _ none :: h => i = j ∨ UpToDate i h
  | .compile _ _ _ :: h => UpToDate i h
  | _ => False

/-- The last download died, in mode `check` and with these capabilities. -/
def Doubtful (caps : String) : List Label → Prop
  | .interrupted mode c _ :: _ => mode = .check ∧ c = caps
  | .scan _ _ _ none :: h => Doubtful caps h
  | .halted _ _ :: h => Doubtful caps h
  | .compile i _ _ :: h => Doubtful caps h ∧ UpToDate i h
  | .restart :: h => Doubtful caps h
  | _ => False

/-- Files have not been edited since the last download, only device objects that had scanned have compiled, and if a download died,
`scan_models` in mode `check` has been called again for a device with the same capabilities. -/
def Trusted : List Label → Prop
  | [] => True
  | .scan _ _ _ (some _) :: _ => True
  | .scan _ mode caps none :: h => Trusted h ∨ mode = .check ∧ Doubtful caps h
  | .halted mode caps :: h => Trusted h ∨ mode = .check ∧ Doubtful caps h
  | .compile i _ _ :: h => Trusted h ∧ UpToDate i h
  | .restart :: h => Trusted h
  | .interrupted _ _ _ :: _ => False
  | .edit _ :: _ => False

/-- The tree is a result of compiling the files. -/
def FromFiles (T : Tool) (files : Files) (m : Module) (r : Except Err Elem) : Prop :=
  ∃ t, T.IsTable files t ∧ T.Out files t m r

/-- Not a download. -/
def Quiet : Label → Prop
  | .scan _ _ _ d => d = none
  | .halted _ _ => True
  | .interrupted _ _ _ => False
  | .compile _ _ _ => True
  | .restart => True
  | .edit _ => True

/-- The run from one state to another; the last label is the first of the list. -/
inductive Reaches (T : Tool) (s : State) : List Label → State → Prop where
  | refl : Reaches T s [] s
  | step {h s1 l s2} : Reaches T s h s1 → Step T s1 l s2 → Reaches T s (l :: h) s2

end NcDiff.Cache
