import Verif.Model.Compat
/-!
# Several processes and one folder

Model of `read_xml` and `write_xml` (`src/ncdiff/model.py` lines 32-51), and of `compile` (lines 955-961, 1034-1037 and 1127-1129)
and `build_dependencies` (lines 976-982, 686-698) as far as they use these functions, for any number of processes that use the same
folder at the same time, as a transition system.  A step is one operation on a file: a process opens a file, reads some bytes, cuts
the file to length 0 when it opens it for writing, writes some bytes, or closes the file.  A process may die between any two steps.

The YANG files do not change here (C53 is about downloads, with one process at a time).  What pyang and the rest of `compile` make
of them is given by a relation, since the result may depend on the order in which Python goes through sets; the table of
dependencies is the result for the name `dependencies`.  Serialisation and parsing are arbitrary functions.  Simplification: a
process does one thing at a time.
-/

namespace NcDiff.Shared

/-- Bytes of a file. -/
abbrev Text := List UInt8

/-- The compiler for the YANG files of the folder, and lxml. -/
structure Tool where
  /-- a possible result of `compile` for a name (lines 1039-1125), or of `load_context` (lines 700-712) -/
  Out : String → Except Err Elem → Prop
  /-- the bytes that `ElementTree.write` writes, lines 33-40 -/
  text : Elem → Text
  /-- `etree.parse`, line 46; `none` is an exception -/
  parse : Text → Option Elem

/-- What a process is doing. -/
inductive Work where
  | idle
  /-- the file is open, and these bytes have been read -/
  | reading (name : String) (got : Text)
  /-- `read_xml` has returned `None` -/
  | missing (name : String)
  /-- the file is open, and the first bytes of the tree have been written -/
  | writing (name : String) (tree : Elem) (pos : Nat)

/-- The files `<name>.xml`, and the processes. -/
structure State where
  files : String → Option Text
  procs : Nat → Work

/-- A process goes on to something else. -/
def State.now (s : State) (i : Nat) (w : Work) : State := { s with procs := fun j => if j = i then w else s.procs j }

/-- A file gets another content. -/
def State.put (s : State) (name : String) (t : Text) : State :=
  { s with files := fun x => if x = name then some t else s.files x }

/-- Writing bytes at a position of a file.  Beyond the end of the file the gap is filled with zeros. -/
def overwrite (f : Text) (pos : Nat) (bs : Text) : Text :=
  if bs = [] then f else f.take pos ++ List.replicate (pos - f.length) 0 ++ bs ++ f.drop (pos + bs.length)

/-- What happens. -/
inductive Label where
  /-- process `i` does something -/
  | acts (i : Nat)
  /-- `compile` or `build_dependencies` of process `i` has this result -/
  | returns (i : Nat) (name : String) (r : Except Err Elem)
  /-- process `i` dies -/
  | dies (i : Nat)

/-- The process. -/
def Label.proc : Label → Nat
  | acts i => i
  | returns i _ _ => i
  | dies i => i

/-- A step. -/
inductive Step (T : Tool) : State → Label → State → Prop where
  /-- line 44: there is no file -/
  | absent {s i name} : s.procs i = .idle → s.files name = none → Step T s (.acts i) (s.now i (.missing name))
  /-- line 46: the file is opened -/
  | opens {s i name t} : s.procs i = .idle → s.files name = some t → Step T s (.acts i) (s.now i (.reading name []))
  /-- line 46: some bytes are read -/
  | reads {s i name got t} (k : Nat) : s.procs i = .reading name got → s.files name = some t →
      Step T s (.acts i) (s.now i (.reading name (got ++ (t.drop got.length).take k)))
  /-- line 47: the end of the file has been reached, and the text can be parsed -/
  | found {s i name got t e} : s.procs i = .reading name got → s.files name = some t → t.length ≤ got.length →
      T.parse got = some e → Step T s (.returns i name (.ok e)) (s.now i .idle)
  /-- lines 48-49: the text cannot be parsed, whatever follows, or the end has been reached -/
  | gives_up {s i name got} : s.procs i = .reading name got → (∀ more, T.parse (got ++ more) = none) →
      Step T s (.acts i) (s.now i (.missing name))
  | bad {s i name got t} : s.procs i = .reading name got → s.files name = some t → t.length ≤ got.length →
      T.parse got = none → Step T s (.acts i) (s.now i (.missing name))
  /-- lines 1039-1125 raise -/
  | fails {s i name x} : s.procs i = .missing name → T.Out name (.error x) →
      Step T s (.returns i name (.error x)) (s.now i .idle)
  /-- lines 1039-1125, and line 34 opens the file -/
  | creates {s i name e} : s.procs i = .missing name → T.Out name (.ok e) →
      Step T s (.acts i) ((s.put name []).now i (.writing name e 0))
  /-- lines 34-40: some bytes are written -/
  | writes {s i name e pos t} (k : Nat) : s.procs i = .writing name e pos → s.files name = some t →
      Step T s (.acts i) ((s.put name (overwrite t pos (((T.text e).drop pos).take k))).now i
        (.writing name e (pos + (((T.text e).drop pos).take k).length)))
  /-- line 1129, or line 712: everything has been written -/
  | closes {s i name e pos} : s.procs i = .writing name e pos → (T.text e).length ≤ pos →
      Step T s (.returns i name (.ok e)) (s.now i .idle)
  | dies {s} (i : Nat) : Step T s (.dies i) (s.now i .idle)

/-- Runs; the last label is the first of the list. -/
inductive Run (T : Tool) (s : State) : List Label → State → Prop where
  | start : Run T s [] s
  | step {h s1 l s2} : Run T s h s1 → Step T s1 l s2 → Run T s (l :: h) s2

end NcDiff.Shared
