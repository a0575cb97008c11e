/-!
# The table of dependencies between the YANG files of a folder

Model of `ContextWorker.run`, `CompilerContext.update_dependencies`, `load_context` and
`ModelCompiler.get_dependencies` (`src/ncdiff/model.py` lines 515-545, 616-684, 700-712 and
984-1019) as a transition system: any number of worker threads share a queue of files and the
attribute `dependencies`, and any interleaving of their steps is possible.

Every line that reads or writes something shared is one step.  Operations of `queue.Queue` and of
lxml are atomic.

Simplifications: what pyang makes of a file depends on the file only (`Context.add_module`), and an
exception while the file is read or parsed is the only one besides those of `remove`; of an entry
only what `get_dependencies` reads is kept (not prefixes, namespaces, revisions, augments,
deviations and `roots`).
-/

namespace NcDiff.Context

abbrev Module := String
abbrev File := String

/-- A `<module>` element of the table, lines 624-650. -/
structure Entry where
  id : Module
  includes : List Module
  imports : List Module
  deriving DecidableEq, Repr

/-- What lines 529-541 make of a file. -/
inductive Outcome where
  /-- reading the file or `add_module` raises -/
  | raises
  /-- `add_module` returns `None`, line 542 -/
  | nothing
  /-- `add_module` returns a module -/
  | stmt (e : Entry)
  deriving DecidableEq, Repr

/-- The folder: the files whose names end in `.yang` as `os.listdir` returns them (line 702), and
what they contain. -/
structure Folder where
  files : List File
  outcome : File → Outcome

/-- A node of the table: its identity, and its content once it has been filled. -/
abbrev Node := Nat × Option Entry

/-- Where a worker thread is. -/
inductive Worker where
  /-- about to evaluate `modulefile_queue.empty()`, line 523 -/
  | check
  /-- the queue was not empty; about to call `get`, line 525 -/
  | get
  /-- has got a file; about to read and parse it, lines 529-541 -/
  | parse (f : File)
  /-- about to evaluate `self.dependencies is None`, line 617 -/
  | test (e : Entry)
  /-- it was `None`; about to assign a new table, line 618 -/
  | create (e : Entry)
  /-- about to look for nodes with the same id, lines 619-622 -/
  | scan (e : Entry)
  /-- removing these nodes, line 623 -/
  | removing (ms : List Node) (e : Entry)
  /-- has added a node; about to fill it, lines 625-668 -/
  | fill (i : Nat) (e : Entry)
  /-- about to call `task_done`, line 544 -/
  | done
  /-- the thread has ended, line 545 -/
  | exited
  /-- the thread has ended because of an exception -/
  | dead
  deriving DecidableEq, Repr

/-- What the threads share. -/
structure Shared where
  queue : List File
  /-- `unfinished_tasks` of the queue -/
  unfinished : Nat
  /-- `self.dependencies` -/
  deps : Option (List Node)
  /-- the next identity of a node -/
  fresh : Nat

/-- The whole system.  `toStart` threads are still to be started by `load_context`; `returned` says
that `modulefile_queue.join()` has returned. -/
structure State where
  sh : Shared
  workers : List Worker
  toStart : Nat
  returned : Bool

/-- The children of `self.dependencies`; iterating over `None` does not happen, see `WStep.scans`. -/
def nodes (sh : Shared) : List Node := sh.deps.getD []

/-- The nodes that lines 619-622 find. -/
def sameId (ns : List Node) (e : Entry) : List Node :=
  ns.filter (fun n => n.2.map Entry.id = some e.id)

/-- A step of one worker. -/
inductive WStep (fd : Folder) : Shared → Worker → Shared → Worker → Prop where
  /-- line 523: the queue is not empty -/
  | enter {sh} : sh.queue ≠ [] → WStep fd sh .check sh .get
  /-- line 523: the queue is empty, the thread ends -/
  | exit {sh} : sh.queue = [] → WStep fd sh .check sh .exited
  /-- lines 526-527: another worker was faster and the timeout expires -/
  | empty {sh} : sh.queue = [] → WStep fd sh .get sh .check
  /-- line 525 -/
  | take {sh f q} : sh.queue = f :: q → WStep fd sh .get { sh with queue := q } (.parse f)
  /-- lines 529-541 raise: the thread ends without `task_done` -/
  | raises {sh f} : fd.outcome f = .raises → WStep fd sh (.parse f) sh .dead
  /-- line 542 -/
  | skips {sh f} : fd.outcome f = .nothing → WStep fd sh (.parse f) sh .done
  /-- line 543 -/
  | parses {sh f e} : fd.outcome f = .stmt e → WStep fd sh (.parse f) sh (.test e)
  /-- line 617 -/
  | isNone {sh e} : sh.deps = none → WStep fd sh (.test e) sh (.create e)
  /-- line 617 -/
  | isSome {sh e} : sh.deps ≠ none → WStep fd sh (.test e) sh (.scan e)
  /-- line 618 -/
  | creates {sh e} : WStep fd sh (.create e) { sh with deps := some [] } (.scan e)
  /-- lines 619-622 -/
  | scans {sh e} : WStep fd sh (.scan e) sh (.removing (sameId (nodes sh) e) e)
  /-- line 623 -/
  | removes {sh n ms e} : n.1 ∈ (nodes sh).map Prod.fst →
      WStep fd sh (.removing (n :: ms) e)
        { sh with deps := some ((nodes sh).filter (fun x => x.1 ≠ n.1)) } (.removing ms e)
  /-- line 623 raises: the node is not a child of the table any more -/
  | gone {sh n ms e} : n.1 ∉ (nodes sh).map Prod.fst →
      WStep fd sh (.removing (n :: ms) e) sh .dead
  /-- line 624 -/
  | appends {sh e} : WStep fd sh (.removing [] e)
      { sh with deps := some (nodes sh ++ [(sh.fresh, none)]), fresh := sh.fresh + 1 }
      (.fill sh.fresh e)
  /-- lines 625-668; if the node is not in the table any more this has no effect on the table -/
  | fills {sh i e} : WStep fd sh (.fill i e)
      { sh with deps := sh.deps.map (·.map (fun n => if n.1 = i then (i, some e) else n)) } .done
  /-- line 544 -/
  | finish {sh} : WStep fd sh .done { sh with unfinished := sh.unfinished - 1 } .check

/-- A step of the system. -/
inductive Step (fd : Folder) : State → State → Prop where
  /-- a worker makes a step -/
  | worker {sh sh' w w' pre post n r} : WStep fd sh w sh' w' →
      Step fd ⟨sh, pre ++ w :: post, n, r⟩ ⟨sh', pre ++ w' :: post, n, r⟩
  /-- lines 706-710: the next thread is started -/
  | start {sh ws n r} : Step fd ⟨sh, ws, n + 1, r⟩ ⟨sh, ws ++ [.check], n, r⟩
  /-- line 711: `join` returns -/
  | join {sh ws} : sh.unfinished = 0 → Step fd ⟨sh, ws, 0, false⟩ ⟨sh, ws, 0, true⟩

/-- The state after lines 701-705: the queue has the files, `n` threads are to be started (the code
has one or two, lines 553-557); `deps` is `self.dependencies` at that time: `None` in
`build_dependencies` (lines 979-982), an empty element if it has been set up before as
`download_all` does (line 826). -/
def init (fd : Folder) (n : Nat) (deps : Option (List Node)) : State where
  sh := { queue := fd.files, unfinished := fd.files.length, deps,
          fresh := (deps.getD []).length }
  workers := []
  toStart := n
  returned := false

/-- The content of the table. -/
def entries (s : State) : List Entry := (nodes s.sh).filterMap Prod.snd

/-- `get_dependencies(module)`, lines 1003-1019: the set of imports and the set of modules that
depend on the module, as lists that may have repetitions. -/
def getDependencies (table : List Entry) (m : Module) : List Module × List Module :=
  (((table.filter (fun e => e.id = m)).map Entry.imports).flatten,
   (table.filter (fun e => m ∈ e.imports ∨ m ∈ e.includes)).map Entry.id)

end NcDiff.Context
