import Verif.Model.RunningConfig
/-!
# Specification for running-config diffs

`Item` values here are plain data: a line, its optional sub-section and a mark.
-/

namespace NcDiff.Running

/-- The same lines with another mark. -/
inductive Marked (m : Info) : List Item → List Item → Prop
  | nil : Marked m [] []
  | cons {k s i l l'} : Marked m l l' → Marked m (.mk k s i :: l) (.mk k s m :: l')

/-- The sub-section of a context line: the same, without marks at its top level. -/
inductive Plain : Option (List Item) → Option (List Item) → Prop
  | none : Plain none none
  | some {s s'} : Marked .ctx s s' → Plain (some s) (some s')

/-- What is shown of a script: everything but the unchanged lines (mark `same`) that are not needed
as a position reference.  An unchanged line is needed when some line occurs both before and after it. -/
def Report (script d : List Item) : Prop :=
  ∃ shown : Nat → Bool,
    (∀ n, shown n = true ↔ ∀ x, script[n]? = some x → x.info = .same →
      ∃ i j a b, i < n ∧ n < j ∧ script[i]? = some a ∧ script[j]? = some b ∧ a.key = b.key) ∧
    d = ((script.zipIdx.filter (fun p => shown p.2)).map Prod.fst).map
      (fun x => if x.info = .same then x.withInfo .ctx else x)

mutual
/-- `Script l1 l2 s`: `s` is a complete account of how to get from `l1` to `l2` when both are read
from top to bottom: a line of `l1` is removed, a line of `l2` is added, or a line of both is kept.  A
kept line has the mark `same` when the sub-sections are equal and is otherwise shown with an account
of its sub-sections. -/
inductive Script : List Item → List Item → List Item → Prop
  | nil : Script [] [] []
  | del {k s i l1 l2 d} : Script l1 l2 d → Script (.mk k s i :: l1) l2 (.mk k s .del :: d)
  | add {k s i l1 l2 d} : Script l1 l2 d → Script l1 (.mk k s i :: l2) (.mk k s .add :: d)
  | same {k s s' i j l1 l2 d} : Plain s s' → Script l1 l2 d →
      Script (.mk k s i :: l1) (.mk k s j :: l2) (.mk k s' .same :: d)
  | changed {k s s' x i j l1 l2 d} : ScriptSub s s' x → Script l1 l2 d →
      Script (.mk k s i :: l1) (.mk k s' j :: l2) (.mk k (some x) .ctx :: d)
/-- Account of two different sub-sections. -/
inductive ScriptSub : Option (List Item) → Option (List Item) → List Item → Prop
  | both {s s' x y} : s ≠ s' → Script s s' x → Report x y → ScriptSub (some s) (some s') y
  | gone {s x} : Marked .del s x → ScriptSub (some s) none x
  | new {s x} : Marked .add s x → ScriptSub none (some s) x
end

/-- A faithful diff: the report of a complete account. -/
def Faithful (l1 l2 d : List Item) : Prop := ∃ s, Script l1 l2 s ∧ Report s d

/-- The lines of a section, and of all sections below, are not repeated. -/
inductive Distinct : List Item → Prop
  | mk {l} : (l.map Item.key).Nodup → (∀ i ∈ l, ∀ s, i.sub = some s → Distinct s) → Distinct l

mutual
/-- Every mark is blank (a parsed config, as opposed to a diff). -/
def unmarked : List Item → Bool
  | [] => true
  | a :: r => unmarkedItem a && unmarked r
def unmarkedItem : Item → Bool
  | .mk _ s i => decide (i = .ctx) && unmarkedSub s
def unmarkedSub : Option (List Item) → Bool
  | none => true
  | some l => unmarked l
end

/-- `OnlyReordered t depth l1 l2`: the two sections have the same lines, up to the order of adjacent
orderless lines, at every level: they are linked by swaps of adjacent orderless lines, and lines that
correspond have sub-sections linked in the same way. -/
inductive OnlyReordered (t : Tables) : Nat → List Item → List Item → Prop
  | nil {n} : OnlyReordered t n [] []
  | leaf {n k i l l'} : OnlyReordered t n l l' →
      OnlyReordered t n (.mk k none i :: l) (.mk k none i :: l')
  | node {n k i s s' l l'} : OnlyReordered t (n + 1) s s' → OnlyReordered t n l l' →
      OnlyReordered t n (.mk k (some s) i :: l) (.mk k (some s') i :: l')
  | swap {n a b l} : t.orderless a.key n = true → t.orderless b.key n = true →
      OnlyReordered t n (a :: b :: l) (b :: a :: l)
  | trans {n l1 l2 l3} : OnlyReordered t n l1 l2 → OnlyReordered t n l2 l3 → OnlyReordered t n l1 l3

/-- `c'` is a strictly shorter prefix of `c`. -/
def ShorterPrefix (c' c : Str) : Prop := c' <+: c ∧ c' ≠ c

mutual
/-- `Shuffled t n l r`: `r` has the lines of the section `l`, which is at depth `n`; only lines that
are orderless at their depth may have moved. -/
inductive Shuffled (t : Tables) : Nat → List Item → List Item → Prop
  | mk {n l mid r} : mid.Perm l →
      mid.filter (fun i => !t.orderless i.key n) = l.filter (fun i => !t.orderless i.key n) →
      SubShuffled t n mid r → Shuffled t n l r
/-- The same lines, with shuffled sub-sections. -/
inductive SubShuffled (t : Tables) : Nat → List Item → List Item → Prop
  | nil {n} : SubShuffled t n [] []
  | same {n a l l'} : SubShuffled t n l l' → SubShuffled t n (a :: l) (a :: l')
  | sub {n k s s' i l l'} : Shuffled t (n + 1) s s' → SubShuffled t n l l' →
      SubShuffled t n (.mk k (some s) i :: l) (.mk k (some s') i :: l')
end

end NcDiff.Running
