import Verif.Model.Context
/-!
# Specification: the table has what is in the files
-/

namespace NcDiff.Context

/-- A run of `k` steps. -/
inductive Run (fd : Folder) : Nat → State → State → Prop where
  | refl {s} : Run fd 0 s s
  | step {k s t u} : Run fd k s t → Step fd t u → Run fd (k + 1) s u

/-- The entry that a file gives, if any. -/
def Outcome.entry? : Outcome → Option Entry
  | .stmt e => some e
  | _ => none

/-- The entries of all files of the folder. -/
def Folder.all (fd : Folder) : List Entry := fd.files.filterMap (fun f => (fd.outcome f).entry?)

/-- There is at most one file for every module. -/
def Folder.OnePerModule (fd : Folder) : Prop := (fd.all.map Entry.id).Nodup

/-- `m` imports `i`, according to the files. -/
def Folder.Imports (fd : Folder) (m i : Module) : Prop :=
  ∃ f ∈ fd.files, ∃ e, fd.outcome f = .stmt e ∧ e.id = m ∧ i ∈ e.imports

/-- `d` imports or includes `m`, according to the files. -/
def Folder.DependsOn (fd : Folder) (d m : Module) : Prop :=
  ∃ f ∈ fd.files, ∃ e, fd.outcome f = .stmt e ∧ e.id = d ∧ (m ∈ e.imports ∨ m ∈ e.includes)

/-- Threads cannot be in the way of each other when the table is created: there is one thread only,
or the table has been created before they are started. -/
def Safe (n : Nat) (deps : Option (List Node)) : Prop :=
  (n = 1 ∧ deps = none) ∨ (0 < n ∧ deps = some [])

end NcDiff.Context
