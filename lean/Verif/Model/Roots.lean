import Verif.Model.Config
import Verif.Model.Offer
import Verif.Model.Tags
/-!
# Roots and models of configs and deltas

Model of the properties `roots` and `models` of `Config` (`src/ncdiff/config.py` lines 186-212), of `ConfigDelta` (lines
741-752) and of `ConfigCompatibility.models` (line 894).
-/

namespace NcDiff

/-- `Config.roots`, lines 190-212: a dictionary. -/
def rootDict (d : Device) (c : Elem) : Except Err (List (QName × String)) := do
  let rs ← configRoots d c
  pure (dictOf rs)

/-- `list(set(l))`.  The order of a set is not specified; only sorted lists are made of it. -/
def uniqueTexts : List String → List String
  | [] => []
  | a :: r => if a ∈ r then uniqueTexts r else a :: uniqueTexts r

/-- `Config.models`, lines 186-188. -/
def configModels (d : Device) (c : Elem) : Except Err (List String) := do
  let rs ← rootDict d c
  pure (Offer.sortTexts (uniqueTexts (rs.map Prod.snd)))

/-- `ConfigDelta.models`, lines 741-744; also `ConfigCompatibility.models`, lines 892-894. -/
def Delta.models (d : Device) (δ : Delta) : Except Err (List String) := do
  let a ← configModels d δ.src
  let b ← configModels d δ.dst
  pure (Offer.sortTexts (uniqueTexts (a ++ b)))

/-- `roots.update(other)`. -/
def dictUpdate (a b : List (QName × String)) : List (QName × String) := b.foldl (fun acc p => dictSet p.1 p.2 acc) a

/-- `ConfigDelta.roots`, lines 746-751. -/
def Delta.roots (d : Device) (δ : Delta) : Except Err (List (QName × String)) := do
  let a ← rootDict d δ.src
  let b ← rootDict d δ.dst
  pure (dictUpdate (dictUpdate [] a) b)

end NcDiff
