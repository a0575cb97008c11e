import Verif.Model.Compat
/-!
# Compiled models in the folder

Model of `scan_models` (`src/ncdiff/manager.py` lines 271-274), of the files that `download_all` leaves (`src/ncdiff/model.py`
lines 813-844), of `build_dependencies` (lines 976-982), of `compile` as far as it reads and writes files (lines 954-960,
1034-1068 and 1127-1129), and of `write_xml` and `read_xml` (lines 33-52), as a transition system.  Any number of device objects
use the same folder; a process may die at any point.

What pyang and the rest of `compile` make of the YANG files is given by two relations, since the result depends on the order in
which Python goes through sets.  Simplifications: a tree that was written and is read again is the same; a file that is being
written when the process dies cannot be parsed; one process does one thing at a time, and if it dies all device objects are
gone; what a complete download leaves is given (C29).
-/

namespace NcDiff.Cache

abbrev Module := String

/-- The YANG files by module. -/
abbrev Files := Module → Option String

/-- A folder: `capabilities.txt`, the files `<module>.yang`, and the files `<name>.xml`, where `some none` is a file that cannot be
parsed. -/
structure Folder where
  caps : Option String
  yang : Files
  xml : String → Option (Option Elem)

/-- A new folder. -/
def empty : Folder := ⟨none, fun _ => none, fun _ => none⟩

/-- What the compiler does with YANG files. -/
structure Tool where
  /-- a possible result of `load_context` (lines 701-714), and of the updates during a download (line 890) -/
  IsTable : Files → Elem → Prop
  /-- a possible result of `compile` for the YANG files, the dependencies and the module, lines 1039-1125 -/
  Out : Files → Elem → Module → Except Err Elem → Prop

/-- `write_xml`. -/
def setXml (f : Folder) (name : String) (c : Option Elem) : Folder :=
  { f with xml := fun x => if x = name then some c else f.xml x }

/-- `read_xml`. -/
def readXml (f : Folder) (name : String) : Option Elem := (f.xml name).join

/-- Argument `download` of `scan_models`. -/
inductive Mode where
  | check
  | force
  | ignore
  deriving DecidableEq

/-- `need_download` and lines 813-817. -/
def needed (mode : Mode) (caps : String) (f : Folder) : Prop :=
  mode = .force ∨ mode = .check ∧ f.caps ≠ some caps

/-- A complete `download_all` of a device with the capabilities `caps` that serves `files`, lines 795-844, or none. -/
inductive Fetch (T : Tool) (mode : Mode) (caps : String) : Folder → Option Files → Folder → Prop where
  /-- `scan_models` does not download (manager.py line 271), or lines 813-817 -/
  | skip {f} : ¬ needed mode caps f → Fetch T mode caps f none f
  /-- lines 820-844: everything is removed first -/
  | all {f files t} : needed mode caps f → T.IsTable files t →
      Fetch T mode caps f (some files) ⟨some caps, files, fun x => if x = "dependencies" then some (some t) else none⟩

/-- What is left if the process dies during `download_all`. -/
inductive Left (T : Tool) (caps : String) (files : Files) : Folder → Folder → Prop where
  /-- lines 820-822: some files have been removed -/
  | cleaning {f f'} : (f'.caps = f.caps ∨ f'.caps = none) → (∀ m, f'.yang m = f.yang m ∨ f'.yang m = none) →
      (∀ x, f'.xml x = f.xml x ∨ f'.xml x = none) → Left T caps files f f'
  /-- lines 825-836: some files have been downloaded -/
  | downloading {f y} : Left T caps files f ⟨none, y, fun _ => none⟩
  /-- lines 840-841: `capabilities.txt` is open -/
  | caps {f c} : Left T caps files f ⟨some c, files, fun _ => none⟩
  /-- line 844: `dependencies.xml` is open -/
  | table {f} : Left T caps files f ⟨some caps, files, fun x => if x = "dependencies" then some none else none⟩

/-- `ModelCompiler.__init__` with `build_dependencies`, lines 976-982: the table in memory. -/
inductive Build (T : Tool) : Folder → Folder → Elem → Prop where
  /-- line 980 -/
  | read {f t} : readXml f "dependencies" = some t → Build T f f t
  /-- line 982, and lines 686-691 -/
  | make {f t} : readXml f "dependencies" = none → T.IsTable f.yang t → Build T f (setXml f "dependencies" (some t)) t

/-- What happens. -/
inductive Label where
  /-- `scan_models` of a device object returns; the files are those that were downloaded -/
  | scan (device : Nat) (mode : Mode) (caps : String) (downloaded : Option Files)
  /-- the process dies in `scan_models` although nothing had to be downloaded -/
  | halted (mode : Mode) (caps : String)
  /-- the process dies in `download_all` -/
  | interrupted (mode : Mode) (caps : String) (files : Files)
  /-- `compile` returns or raises -/
  | compile (device : Nat) (m : Module) (r : Except Err Elem)
  /-- the process ends; it may die in `compile` -/
  | restart
  /-- somebody changes YANG files -/
  | edit (files : Files)

/-- The folder, and the table of dependencies of the compiler of each device object. -/
structure State where
  folder : Folder
  devices : Nat → Option Elem

/-- A step. -/
inductive Step (T : Tool) : State → Label → State → Prop where
  /-- `scan_models` -/
  | scan {s mode caps d f1 f2 t} (i : Nat) : Fetch T mode caps s.folder d f1 → Build T f1 f2 t →
      Step T s (.scan i mode caps d) ⟨f2, fun x => if x = i then some t else s.devices x⟩
  /-- the process dies when `build_dependencies` writes -/
  | halted {s mode caps} : ¬ needed mode caps s.folder → readXml s.folder "dependencies" = none →
      Step T s (.halted mode caps) ⟨setXml s.folder "dependencies" none, fun _ => none⟩
  | interrupted {s mode caps files f1} : needed mode caps s.folder → Left T caps files s.folder f1 →
      Step T s (.interrupted mode caps files) ⟨f1, fun _ => none⟩
  /-- lines 1034-1037 -/
  | cached {s i m e t} : s.devices i = some t → readXml s.folder m = some e → Step T s (.compile i m (.ok e)) s
  /-- lines 1039-1129 -/
  | compiled {s i m e t} : s.devices i = some t → readXml s.folder m = none → T.Out s.folder.yang t m (.ok e) →
      Step T s (.compile i m (.ok e)) { s with folder := setXml s.folder m (some e) }
  | fails {s i m e t} : s.devices i = some t → readXml s.folder m = none → T.Out s.folder.yang t m (.error e) →
      Step T s (.compile i m (.error e)) s
  /-- the process dies in line 1127 -/
  | dies {s i t} (m : Module) : s.devices i = some t → readXml s.folder m = none →
      Step T s .restart ⟨setXml s.folder m none, fun _ => none⟩
  | restart {s} : Step T s .restart ⟨s.folder, fun _ => none⟩
  | edit {s} (files : Files) : Step T s (.edit files) { s with folder := { s.folder with yang := files } }

/-- Runs; the last label is the first of the list. -/
inductive Run (T : Tool) : List Label → State → Prop where
  | start : Run T [] ⟨empty, fun _ => none⟩
  | step {h s l s'} : Run T h s → Step T s l s' → Run T (l :: h) s'

end NcDiff.Cache
