import Verif.Model.DiffObject
import Verif.Spec.Printed
/-!
# Specification of a running-config diff as an object
-/

namespace NcDiff.Running

/-- What the two texts alone give. -/
def answerFor (t : Tables) (s1 s2 : Str) : Look → Option Answer
  | .diff => (getDiff t s1 s2 false).map fun d => .list (if d = [] then none else some d)
  | .diffReverse => (getDiff t s1 s2 true).map fun d => .list (if d = [] then none else some d)
  | .cli => (getCli t s1 s2 false).map .text
  | .cliReverse => (getCli t s1 s2 true).map .text
  | .str => (diffStr t s1 s2).map .text
  | .bool => (diffBool t s1 s2).map .truth

/-- The texts that an object has when it is looked at for the first time. -/
def textsAtFirstLook : Str → Str → List Use → Str × Str
  | s1, s2, [] => (s1, s2)
  | s1, s2, .look _ :: _ => (s1, s2)
  | _, s2, .assign1 s :: r => textsAtFirstLook s s2 r
  | s1, _, .assign2 s :: r => textsAtFirstLook s1 s r

/-- The looks among the uses. -/
def looks (us : List Use) : List Look := us.filterMap fun u => match u with | .look l => some l | _ => none

/-- No section without lines. -/
inductive NoEmptySection : List Item → Prop
  | mk {l} : (∀ i ∈ l, i.sub ≠ some []) → (∀ i ∈ l, ∀ s, i.sub = some s → NoEmptySection s) → NoEmptySection l

end NcDiff.Running
