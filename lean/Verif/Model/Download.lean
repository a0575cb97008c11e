/-!
# Downloading models

Model of `ModelDownloader.download_all`, `need_download`, `download` and `DownloadWorker.run`
(`src/ncdiff/model.py` lines 494-512 and 787-901) as a transition system: any number of worker
threads share a queue and a set, and any interleaving of their steps is possible.

Every line that reads or writes something shared is one step.  Operations of `queue.Queue`, of
Python sets and the opening and the writing of a file are atomic (a crash may leave a file that is
being written with any content).

Not modelled: I/O errors of the file system, what pyang does with a module beyond the set of
modules that it includes or imports, and the tree of dependencies that is written to
`dependencies.xml` (it is rebuilt from the YANG files if it cannot be read, lines 978-982).
-/

namespace NcDiff.Download

abbrev Module := String

/-- The device. -/
structure Server where
  /-- `models_loadable`, a set in sorted order -/
  loadable : List Module
  /-- `<get-schema>` is answered with an error for this module -/
  refuses : Module → Bool
  /-- `reply.data` otherwise -/
  text : Module → String
  /-- pyang cannot parse the text, `update_dependencies(None)` raises -/
  unparsable : Module → Bool
  /-- names of the modules that the module includes or imports
  (`update_dependencies`, lines 616-684), a set -/
  deps : Module → List Module

/-- Where a worker thread is. -/
inductive Worker where
  /-- about to evaluate `download_queue.empty()`, line 501 -/
  | check
  /-- the queue was not empty; about to call `get`, line 503 -/
  | get
  /-- has got a module; about to send `<get-schema>`, lines 508 and 862-872 -/
  | fetch (m : Module)
  /-- has opened (and so truncated) the file, line 876 -/
  | opened (m : Module)
  /-- has written the file; about to compute `dependencies - to_be_downloaded`, lines 889-891 -/
  | parsed (m : Module)
  /-- has computed the missing modules; about to add them to `to_be_downloaded`, line 895 -/
  | add (s : List Module)
  /-- putting the missing modules into the queue, lines 896-897 -/
  | putting (rest : List Module)
  /-- about to call `task_done`, line 511 -/
  | done
  /-- the thread has ended, line 512 -/
  | exited
  deriving DecidableEq, Repr

/-- What the threads share.  `asked` and `got` record what happened, the code does not have them:
modules for which `<get-schema>` was sent, and modules whose dependencies were evaluated. -/
structure Shared where
  queue : List Module
  /-- `to_be_downloaded` -/
  tbd : List Module
  /-- `unfinished_tasks` of the queue -/
  unfinished : Nat
  /-- content of the files `<module>.yang` -/
  yang : Module → Option String
  asked : List Module
  got : List Module

/-- The whole system.  `toStart` threads are still to be started by `download_all`; `returned`
says that `download_queue.join()` has returned. -/
structure State where
  sh : Shared
  workers : List Worker
  toStart : Nat
  returned : Bool

/-- `open(fname, 'wb')` and `f.write(text)`. -/
def setFile (files : Module → Option String) (m : Module) (text : String) :
    Module → Option String :=
  fun x => if x = m then some text else files x

/-- The set difference of line 891. -/
def missing (srv : Server) (sh : Shared) (m : Module) : List Module :=
  (srv.deps m).filter (fun d => d ∉ sh.tbd)

/-- A step of one worker.  If `flaky`, asking the device or evaluating the reply may also fail
for no reason that the model knows: the exception is logged and the module skipped
(lines 509-510). -/
inductive WStep (srv : Server) (flaky : Bool) : Shared → Worker → Shared → Worker → Prop where
  /-- line 501: the queue is not empty -/
  | enter {sh} : sh.queue ≠ [] → WStep srv flaky sh .check sh .get
  /-- line 501: the queue is empty, the thread ends -/
  | exit {sh} : sh.queue = [] → WStep srv flaky sh .check sh .exited
  /-- lines 504-505: another worker was faster and the timeout expires -/
  | empty {sh} : sh.queue = [] → WStep srv flaky sh .get sh .check
  /-- line 503 -/
  | take {sh m q} : sh.queue = m :: q →
      WStep srv flaky sh .get { sh with queue := q } (.fetch m)
  /-- lines 868-871 and 899-901: the device refuses -/
  | refuse {sh m} : srv.refuses m = true →
      WStep srv flaky sh (.fetch m) { sh with asked := m :: sh.asked } .done
  /-- lines 509-510 -/
  | lose {sh m} : flaky = true →
      WStep srv flaky sh (.fetch m) { sh with asked := m :: sh.asked } .done
  /-- lines 873-876 -/
  | opens {sh m} : srv.refuses m = false →
      WStep srv flaky sh (.fetch m)
        { sh with asked := m :: sh.asked, yang := setFile sh.yang m "" } (.opened m)
  /-- line 877 -/
  | writes {sh m} :
      WStep srv flaky sh (.opened m) { sh with yang := setFile sh.yang m (srv.text m) } (.parsed m)
  /-- lines 889-890 raise -/
  | fails {sh m} : (srv.unparsable m = true ∨ flaky = true) →
      WStep srv flaky sh (.parsed m) sh .done
  /-- lines 891-892: nothing is missing -/
  | nothing {sh m} : srv.unparsable m = false → missing srv sh m = [] →
      WStep srv flaky sh (.parsed m) { sh with got := m :: sh.got } .done
  /-- lines 891-892 -/
  | misses {sh m} : srv.unparsable m = false → missing srv sh m ≠ [] →
      WStep srv flaky sh (.parsed m) { sh with got := m :: sh.got } (.add (missing srv sh m))
  /-- line 895 -/
  | adds {sh s} :
      WStep srv flaky sh (.add s) { sh with tbd := s ++ sh.tbd } (.putting s)
  /-- line 897 -/
  | puts {sh x r} :
      WStep srv flaky sh (.putting (x :: r))
        { sh with queue := sh.queue ++ [x], unfinished := sh.unfinished + 1 } (.putting r)
  /-- end of the loop of line 896 -/
  | stop {sh} : WStep srv flaky sh (.putting []) sh .done
  /-- line 511 -/
  | finish {sh} :
      WStep srv flaky sh .done { sh with unfinished := sh.unfinished - 1 } .check

/-- A step of the system. -/
inductive Step (srv : Server) (flaky : Bool) : State → State → Prop where
  /-- a worker makes a step -/
  | worker {sh sh' w w' pre post n r} : WStep srv flaky sh w sh' w' →
      Step srv flaky ⟨sh, pre ++ w :: post, n, r⟩ ⟨sh', pre ++ w' :: post, n, r⟩
  /-- lines 831-835: the next thread is started -/
  | start {sh ws n r} : Step srv flaky ⟨sh, ws, n + 1, r⟩ ⟨sh, ws ++ [.check], n, r⟩
  /-- line 836: `join` returns -/
  | join {sh ws} : sh.unfinished = 0 → Step srv flaky ⟨sh, ws, 0, false⟩ ⟨sh, ws, 0, true⟩

/-- The state after lines 825-830: the queue has the loadable modules, `n` threads are to be
started (the code has `n = 2`, line 785). -/
def init (srv : Server) (n : Nat) (yang : Module → Option String) : State where
  sh := { queue := srv.loadable, tbd := srv.loadable, unfinished := srv.loadable.length,
          yang, asked := [], got := [] }
  workers := []
  toStart := n
  returned := false

/-! ## The whole of `download_all` and the files -/

/-- The folder: `capabilities.txt` and the YANG files. -/
structure Disk where
  caps : Option String
  yang : Module → Option String

/-- Where `download_all` is. -/
inductive Phase where
  /-- at the beginning -/
  | begin
  /-- removing files, lines 820-822 -/
  | cleaning
  /-- threads are running, lines 825-836 -/
  | downloading (st : State)
  /-- has opened (and so truncated) `capabilities.txt`, line 840 -/
  | capsOpened
  /-- has written it, line 841 -/
  | capsWritten
  /-- has returned -/
  | returned

/-- A running `download_all`: where it is, and the folder. -/
structure Proc where
  phase : Phase
  disk : Disk

/-- A step of `download_all(check_before_download=check)`, lines 795-844, with `n` threads; `caps`
is the text `'\n'.join(sorted(server_capabilities))`. -/
inductive PStep (srv : Server) (flaky check : Bool) (n : Nat) (caps : String) :
    Proc → Proc → Prop where
  /-- lines 787-793 and 813-817: nothing to do -/
  | skip {d} : check = true → d.caps = some caps →
      PStep srv flaky check n caps ⟨.begin, d⟩ ⟨.returned, d⟩
  /-- line 813: go on -/
  | clean {d} : ¬ (check = true ∧ d.caps = some caps) →
      PStep srv flaky check n caps ⟨.begin, d⟩ ⟨.cleaning, d⟩
  /-- line 822, `capabilities.txt` -/
  | removeCaps {d} : PStep srv flaky check n caps ⟨.cleaning, d⟩ ⟨.cleaning, { d with caps := none }⟩
  /-- line 822, a YANG file -/
  | removeYang {d} (m : Module) : PStep srv flaky check n caps ⟨.cleaning, d⟩
      ⟨.cleaning, { d with yang := fun x => if x = m then none else d.yang x }⟩
  /-- the folder is empty; lines 825-830 -/
  | download {d} : d.caps = none → (∀ m, d.yang m = none) →
      PStep srv flaky check n caps ⟨.cleaning, d⟩ ⟨.downloading (init srv n d.yang), d⟩
  /-- the threads work -/
  | thread {d st st'} : Step srv flaky st st' →
      PStep srv flaky check n caps ⟨.downloading st, d⟩
        ⟨.downloading st', { d with yang := st'.sh.yang }⟩
  /-- `join` has returned; line 840 -/
  | openCaps {d st} : st.returned = true →
      PStep srv flaky check n caps ⟨.downloading st, d⟩ ⟨.capsOpened, { d with caps := some "" }⟩
  /-- line 841 -/
  | writeCaps {d} : PStep srv flaky check n caps ⟨.capsOpened, d⟩
      ⟨.capsWritten, { d with caps := some caps }⟩
  /-- line 844 -/
  | finish {d} : PStep srv flaky check n caps ⟨.capsWritten, d⟩ ⟨.returned, d⟩

/-- The folder that is left if the process dies in the given state: a file that is open for
writing may have any content. -/
def LeftBehind (p : Proc) (d : Disk) : Prop :=
  (d.caps = p.disk.caps ∨ p.phase = .capsOpened) ∧
  ∀ m, d.yang m = p.disk.yang m ∨ ∃ st, p.phase = .downloading st ∧ Worker.opened m ∈ st.workers

end NcDiff.Download
