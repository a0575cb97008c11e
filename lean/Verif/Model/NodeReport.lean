import Verif.Model.Show
/-!
# Comparing one node of two models

Model of `ModelDiff.compare` (`src/ncdiff/model.py` lines 1411-1458).

The XPath engine of lxml is a parameter: a function that has the tree, the dictionary of prefixes and the expression, and returns the
nodes.  Simplification: the attributes of a schema node are strings without a namespace.
-/

namespace NcDiff.Report

open Show

/-- An XPath engine: `tree.xpath(xpath, namespaces=prefixes)`. -/
abbrev Engine := Elem → List (String × Option String) → List Char → Except Err (List Elem)

/-- The name of an attribute. -/
def attrName : AName → String
  | .operation => "operation"
  | .insert => "insert"
  | .value => "value"
  | .key => "key"
  | .other s => s

/-- The value of an attribute. -/
def attrText : AVal → String
  | .str s => s
  | .pred _ => ""

/-- `print_value`, lines 1441-1445. -/
def printValue : Option String → List Char
  | none => "None".toList
  | some v => '\'' :: (v.toList ++ ['\''])

/-- `print_node`, lines 1430-1439: the lines that are joined. -/
def nodeLines : List Elem → List (List Char)
  | [] => ["None".toList]
  | n :: _ =>
    ["tag: '".toList ++ n.tag.clark ++ ['\''], "text: ".toList ++ printValue n.text, "attributes:".toList] ++
      n.attrs.map fun p => "  ".toList ++ (attrName p.1).toList ++ " = ".toList ++ printValue (some (attrText p.2))

/-- `print_node`, line 1439. -/
def printNode (l : List Elem) : List Char := joined (nodeLines l)

/-- `'-'*n`. -/
def dashes (n : Nat) : List Char := List.replicate n '-'

/-- The text that is returned, lines 1451-1458. -/
def report (xpath : List Char) (l1 l2 : List Elem) : List Char :=
  joined [dashes 21 ++ " XPATH ".toList ++ dashes 21, '\'' :: (xpath ++ ['\'']), dashes 20 ++ " MODEL 1 ".toList ++ dashes 20, printNode l1,
    dashes 20 ++ " MODEL 2 ".toList ++ dashes 20, printNode l2, dashes 49, []]

/-- `prefixes = deepcopy(self.model1.prefixes); prefixes.update(self.model2.prefixes)`, lines 1447-1448. -/
def mergedPrefixes (m1 m2 : Show.Model) : List (String × Option String) :=
  m2.prefixes.foldl (fun d e => Show.dictSet d e.1 e.2) m1.prefixes

/-- `ModelDiff.compare`, lines 1411-1458. -/
def compare (xp : Engine) (m1 m2 : Show.Model) (xpath : List Char) : Except Err (List Char) := do
  let prefixes := mergedPrefixes m1 m2
  let l1 ← xp m1.tree prefixes xpath
  let l2 ← xp m2.tree prefixes xpath
  pure (report xpath l1 l2)

end NcDiff.Report
