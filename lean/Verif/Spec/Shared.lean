import Verif.Model.Shared
/-!
# Specification: several processes and one folder
-/

namespace NcDiff.Shared

/-- `g` is what may be left of the text `t`: some bytes at the end may be missing, others may be zero. -/
def Torn (t g : Text) : Prop := g.length ≤ t.length ∧ ∀ (p : Nat) (c : UInt8), g[p]? = some c → c = 0 ∨ t[p]? = some c

/-- lxml reads what it wrote, and what is left of a text gives the same tree or cannot be parsed. -/
def Robust (T : Tool) : Prop := ∀ name e, T.Out name (.ok e) →
  T.parse (T.text e) = some e ∧ ∀ g, Torn (T.text e) g → T.parse g = none ∨ T.parse g = some e

/-- Every process gets the same result from the same YANG files. -/
def Deterministic (T : Tool) : Prop := ∀ name r r', T.Out name r → T.Out name r' → r = r'

/-- Every file of the folder is what is left of a compiled model. -/
def Sound (T : Tool) (files : String → Option Text) : Prop :=
  ∀ name t, files name = some t → ∃ e, T.Out name (.ok e) ∧ Torn (T.text e) t

/-- Every file of the folder is a compiled model. -/
def Whole (T : Tool) (files : String → Option Text) : Prop :=
  ∀ name t, files name = some t → ∃ e, T.Out name (.ok e) ∧ t = T.text e

/-- Processes that have just started. -/
def Fresh (s : State) : Prop := ∀ i, s.procs i = .idle

/-- No process is writing the file. -/
def Unwritten (s : State) (name : String) : Prop := ∀ i e pos, s.procs i ≠ .writing name e pos

/-- Process `i` is using the file. -/
def Uses (s : State) (i : Nat) (name : String) : Prop :=
  (∃ got, s.procs i = .reading name got) ∨ s.procs i = .missing name ∨ ∃ e pos, s.procs i = .writing name e pos

/-- Process `i` may come to an end without any step of another process, with the result `r`. -/
def Finishes (T : Tool) (s : State) (i : Nat) (name : String) (r : Except Err Elem) (s2 : State) : Prop :=
  ∃ h s1, Run T s h s1 ∧ (∀ l ∈ h, l = .acts i) ∧ Step T s1 (.returns i name r) s2

end NcDiff.Shared
