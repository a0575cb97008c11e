import Verif.Model.Xml
/-!
# Differences between two schema trees

Model of class `ModelDiff`, `src/ncdiff/model.py` lines 1328-1823.  A schema tree is an XML tree whose
nodes carry the attributes `type`, `access`, `mandatory`, ... that `ModelCompiler.compile` sets.

The properties `added`, `deleted` and `modified` are the trees that are printed here; printing itself is in
`Model/Show.lean`.  `compare` (lines 1411-1458) is in `Model/NodeReport.lean`.
-/

namespace NcDiff.ModelDiff

/-- `node.get('type')`. -/
def typeOf (e : Elem) : Option AVal := e.get (.other "type")

/-- `node.get('diff')`. -/
def diffOf (e : Elem) : Option AVal := e.get (.other "diff")

/-- `type in ['leaf-list', 'leaf']`, `src/ncdiff/model.py` line 1586. -/
def isLeafType (v : AVal) : Bool := v = .str "leaf-list" || v = .str "leaf"

/-- `type == 'container' or type == 'list' or type == 'choice' or type == 'case'`, `src/ncdiff/model.py` lines
1815-1820. -/
def isInnerType (v : Option AVal) : Bool :=
  v = some (.str "container") || v = some (.str "list") || v = some (.str "choice") || v = some (.str "case")

/-- `ModelDiff.get_peer`, `src/ncdiff/model.py` lines 1689-1717. -/
def getPeer (tag : QName) (node : Elem) : Except Err (Option Elem) :=
  match node.childrenWith tag with
  | [] => .ok none
  | [p] => .ok (some p)
  | _ => .error .modelError

/-- Lines 1772-1775 of `src/ncdiff/model.py`: every attribute of the first node is in the second with the same
value. -/
def attrsLess (a b : Attrs) : Bool := a.all fun p => b.lookup p.1 = some p.2

mutual
/-- `ModelDiff.node_less`, `src/ncdiff/model.py` lines 1747-1785. -/
def nodeLess : Elem → Elem → Except Err Bool
  | .mk t _ a x ks, e2 =>
    if t ≠ e2.tag ∨ x ≠ e2.text then .ok false
    else if attrsLess a e2.attrs then nodeLessKids ks e2
    else .ok false
/-- The loop over the children, lines 1776-1785. -/
def nodeLessKids : List Elem → Elem → Except Err Bool
  | [], _ => .ok true
  | k :: ks, e2 =>
    match e2.childrenWith k.tag with
    | [] => .ok false
    | [p] => do
      if ← nodeLess k p then nodeLessKids ks e2 else .ok false
    | _ => .error .modelError
end

/-- `ModelDiff.node_equal`, `src/ncdiff/model.py` lines 1719-1745. -/
def nodeEqual (a b : Elem) : Except Err Bool := do
  if ← nodeLess a b then nodeLess b a else .ok false

/-- `known_attrib`, `src/ncdiff/model.py` lines 1677-1679. -/
def knownAttrib : List AName :=
  [.other "type", .other "access", .other "mandatory", .other "presence", .other "values", .key,
   .other "is_key", .other "prefix", .other "datatype", .other "if-feature", .other "ordered-by",
   .other "default"]

/-- What `process_attrib` does to the attributes of one node, lines 1680-1685: unknown attributes are deleted,
then `diff` is set unless the message is empty. -/
def processAttrs (msg : String) (a : Attrs) : Attrs :=
  let kept := a.filter fun p => knownAttrib.contains p.1
  if msg = "" then kept else Elem.setA (.other "diff") (.str msg) kept

mutual
/-- `ModelDiff.process_attrib`, `src/ncdiff/model.py` lines 1655-1686, on the element and all its descendants
(`element.iter()`). -/
def processAttrib (msg : String) : Elem → Elem
  | .mk t n a x ks => .mk t n (processAttrs msg a) x (processAttribList msg ks)
/-- See `processAttrib`. -/
def processAttribList (msg : String) : List Elem → List Elem
  | [] => []
  | k :: ks => processAttrib msg k :: processAttribList msg ks
end

/-- `ModelDiff.copy_node`, `src/ncdiff/model.py` lines 1626-1653: tag and attributes only; the text is not
copied.  `kids` are the children that the caller adds to it. -/
def copyNode (e : Elem) (msg : String) (kids : List Elem) : Elem :=
  .mk e.tag e.nsmap (processAttrs msg e.attrs) none kids

/-- The second loop of `compare_nodes`, lines 1591-1594. -/
def deletedKids (node2 : Elem) : List Elem → Except Err (List Elem)
  | [] => .ok []
  | c :: cs => do
    let peer ← getPeer c.tag node2
    let rest ← deletedKids node2 cs
    .ok (match peer with
      | none => processAttrib "deleted" c :: rest
      | some _ => rest)

mutual
/-- `ModelDiff.compare_nodes`, `src/ncdiff/model.py` lines 1554-1594.  The result are the children that it appends
to `ret`. -/
def compareNodes (node1 : Elem) : Elem → Except Err (List Elem)
  | .mk t n a x ks => do
    let changed ← compareKids node1 ks
    let gone ← deletedKids (.mk t n a x ks) node1.kids
    .ok (changed ++ gone)
/-- The first loop of `compare_nodes`, lines 1578-1590. -/
def compareKids (node1 : Elem) : List Elem → Except Err (List Elem)
  | [] => .ok []
  | c :: cs => do
    match ← getPeer c.tag node1 with
    | none =>
      let rest ← compareKids node1 cs
      .ok (processAttrib "added" c :: rest)
    | some p =>
      if ← nodeEqual p c then compareKids node1 cs
      else
        match typeOf c with
        | none => .error .keyError
        | some ty =>
          if isLeafType ty then
            let rest ← compareKids node1 cs
            .ok (copyNode c "modified" [] :: rest)
          else
            let sub ← compareNodes p c
            let rest ← compareKids node1 cs
            .ok (copyNode c "" sub :: rest)
end

/-- `ModelDiff.__init__`, `src/ncdiff/model.py` lines 1364-1379, for two `Model` objects that are not the same
object; the result is the attribute `tree`. -/
def modelDiff (m1 m2 : Elem) : Except Err Elem :=
  if m1.tag = m2.tag then do
    let kids ← compareNodes m1 m2
    .ok (.mk m1.tag [] [] none kids)
  else .error .valueError

/-- `ModelDiff.__init__` for one object given twice, line 1374. -/
def modelDiffSame (m : Elem) : Elem := .mk m.tag [] [] none []

/-- `ModelDiff.__bool__`, lines 1381-1385. -/
def truthy (tree : Elem) : Bool := !tree.kids.isEmpty

mutual
/-- `ModelDiff.trim`, `src/ncdiff/model.py` lines 1788-1823; the result is the parent after trimming. -/
def trim (msg : String) : Elem → Elem
  | .mk t n a x ks => .mk t n a x (trimKids msg ks)
/-- The loop over the children, lines 1810-1823. -/
def trimKids (msg : String) : List Elem → List Elem
  | [] => []
  | c :: cs =>
    if diffOf c ≠ none ∧ diffOf c ≠ some (.str "") ∧ diffOf c ≠ some (.str msg) then trimKids msg cs
    else if isInnerType (typeOf c) then
      let c' := trim msg c
      if c'.kids.isEmpty then trimKids msg cs else c' :: trimKids msg cs
    else c :: trimKids msg cs
end

/-- The properties `added`, `deleted` and `modified`, lines 1387-1409: the tree that is printed, or `None`. -/
def view (msg : String) (tree : Elem) : Option Elem :=
  if (trim msg tree).kids.isEmpty then none else some (trim msg tree)

end NcDiff.ModelDiff
