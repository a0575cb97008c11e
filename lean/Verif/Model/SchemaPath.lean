import Verif.Model.Statement
/-!
# Paths of schema nodes, and the notation of YTool

Model of `Composer.get_xpath` (`src/ncdiff/composer.py` lines 169-226) for schema nodes in every notation and for config
nodes in the notation `Tag.YTOOL`, and of `Composer.model_ns` (lines 124-126).  `Model/XPath.lean` has config nodes in the
other notations.

Simplifications: a schema node is given by its path of tags below the root of its tree; `urls` has, for the name of each
loaded model, `Model.url` (`src/ncdiff/model.py` line 100).
-/

namespace NcDiff.Statement

/-- `Composer.model_ns`, `src/ncdiff/composer.py` lines 124-126, of a node with the given path. -/
def modelNs (d : Device) (urls : List (String × String)) (path : List QName) : Except Err String := do
  let m ← modelName d path
  match urls.lookup m with
  | some u => .ok u
  | none => .error .keyError

/-- `get_xpath(node, type=ty)`, lines 221-226, of a node without predicates: a schema node, or any node in the notation
`Tag.YTOOL`. -/
def plainPath (d : Device) (urls : List (String × String)) (ty : TagNotation) (path : List QName) :
    Except Err (List Char) :=
  if ty = .ytool then do
    let m ← modelName d path
    let u ← modelNs d urls path
    let x ← schemaXpath d ty u path
    pure (m.toList ++ x)
  else schemaXpath d ty "" path

/-- `get_xpath(node, type=Tag.YTOOL)` of the config node at a position.  The config root is in no model: line 105 does not
find its tag among the roots. -/
def configYtool (d : Device) (urls : List (String × String)) (cfg : Elem) (pos : List Nat) : Except Err (List Char) :=
  if pos = [] then .error .modelMissing else plainPath d urls .ytool (tagsTo cfg pos)

end NcDiff.Statement
