import Verif.Spec.Render
/-!
# Specification: running-configs with any indentation
-/

namespace NcDiff.Running

/-- The lines write down the config: each section is indented by a number of blanks of its own. -/
inductive WrittenAs (t : Tables) : List Item → List Str → Prop
  | nil : WrittenAs t [] []
  | leaf {k : Str} {l : List Item} {ls : List Str} : GoodLine t k → WrittenAs t l ls → WrittenAs t (.mk k none .ctx :: l) (k :: ls)
  | node {k : Str} {s l : List Item} {ss ls : List Str} {w : Nat} : GoodLine t k → s ≠ [] → 0 < w → WrittenAs t s ss → WrittenAs t l ls →
      WrittenAs t (.mk k (some s) .ctx :: l) (k :: (ss.map (List.replicate w ' ' ++ ·) ++ ls))

end NcDiff.Running
