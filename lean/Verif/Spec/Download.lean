import Verif.Model.Download
/-!
# Specification: complete downloads
-/

namespace NcDiff.Download

/-- A run of `k` steps. -/
inductive Run (srv : Server) (flaky : Bool) : Nat → State → State → Prop where
  | refl {s} : Run srv flaky 0 s s
  | step {k s t u} : Run srv flaky k s t → Step srv flaky t u → Run srv flaky (k + 1) s u

/-- The modules that have to be fetched: the loadable ones, and what is included or imported by a
module in `good` that has to be fetched. -/
inductive Wanted (srv : Server) (good : Module → Prop) : Module → Prop where
  | loadable {m} : m ∈ srv.loadable → Wanted srv good m
  | dep {m d} : Wanted srv good m → good m → d ∈ srv.deps m → Wanted srv good d

/-- The modules the device knows: a finite set that contains the loadable modules and with a module
its dependencies; sets have no repetitions. -/
structure Universe (srv : Server) (U : List Module) : Prop where
  nodup : U.Nodup
  loadable : ∀ m ∈ srv.loadable, m ∈ U
  closed : ∀ m ∈ U, ∀ d ∈ srv.deps m, d ∈ U
  deps : ∀ m, (srv.deps m).Nodup

/-- The device answers for the module and the answer can be parsed. -/
def Server.serves (srv : Server) (m : Module) : Prop :=
  srv.refuses m = false ∧ srv.unparsable m = false

/-- The YANG files of all modules that have to be fetched are there with their full content,
except those that the device refuses. -/
def Complete (srv : Server) (yang : Module → Option String) : Prop :=
  ∀ m, Wanted srv srv.serves m → srv.refuses m = false → yang m = some (srv.text m)

/-- A run of `download_all`. -/
inductive ProcRun (srv : Server) (flaky check : Bool) (n : Nat) (caps : String) :
    Proc → Proc → Prop where
  | refl {p} : ProcRun srv flaky check n caps p p
  | step {p q r} : ProcRun srv flaky check n caps p q → PStep srv flaky check n caps q r →
      ProcRun srv flaky check n caps p r

/-- The folder after any number of `download_all(check_before_download=True)`, each of which ran
to its end or died at any point, with any positive number of threads.  At the start the folder is not one that claims to be complete and
is not (it may be empty). -/
inductive Folder (srv : Server) (caps : String) : Disk → Prop where
  | start {d} : (d.caps = some caps → Complete srv d.yang) → Folder srv caps d
  | run {d p d'} (n : Nat) : 0 < n → Folder srv caps d →
      ProcRun srv false true n caps ⟨.begin, d⟩ p → LeftBehind p d' → Folder srv caps d'

end NcDiff.Download
