import Verif.Model.NodeAdd
/-!
# Computing an edit-config: `node_sub`

Model of `NetconfCalculator.node_sub`, `get_config_replace`, `set_create_operation`,
`set_delete_operation`, `_url_to_prefix`, `_same_leaf_list`, `add_attribute_at_depth` and `sub`
(`src/ncdiff/netconf.py` lines 202-252, 316-449, 1027-1433).

`node_sub` turns both of its arguments into edit-configs, but only `node_self` is returned
(`sub`, lines 202-217) and nothing that is written to `node_other` is read again for
`node_self`.  The model therefore returns `node_self` only; the steps on `node_other` that can
raise an exception are kept for their exceptions (`let _ ←`).  They run on the unmodified children
of `node_other`.
-/

namespace NcDiff

inductive PrefCreate where | merge | create | replace deriving DecidableEq, Repr
inductive PrefReplace where | merge | replace deriving DecidableEq, Repr
inductive PrefDelete where | delete | remove deriving DecidableEq, Repr
inductive DiffType where | minimum | minimumReplace | replace deriving DecidableEq, Repr

/-- Options of `NetconfCalculator.__init__`, lines 165-193 (`replace_xpath` is in `Model/ReplaceXpath.lean`). -/
structure Opts where
  create : PrefCreate := .merge
  replace : PrefReplace := .merge
  delete : PrefDelete := .delete
  diffType : DiffType := .minimum
  replaceDepth : Nat := 0
  deriving DecidableEq, Repr

/-- The string of `preferred_delete`. -/
def PrefDelete.str : PrefDelete → String | .delete => "delete" | .remove => "remove"

/-- `child.set(operation_tag, op)`. -/
def setOp (e : Elem) (op : String) : Elem := e.set .operation (.str op)

mutual
/-- `set_create_operation`, lines 1264-1301.  `f` is the schema node of `node`; schema nodes are
compared by xpath in the code, by position here. -/
def setCreate (d : Device) (f : Found) : Elem → Except Err Elem
  | .mk t n a x ks =>
    if f.node.isNP then do
      let ks ← setCreateKids d f.node (f.node.defaultInUse []) ks
      pure (.mk t n a x ks)
    else .ok (setOp (.mk t n a x ks) "create")
/-- The loop over the children, lines 1295-1299. -/
def setCreateKids (d : Device) (sn : SNode) (dflts : List (List Nat)) : List Elem →
    Except Err (List Elem)
  | [] => .ok []
  | k :: ks => do
    let f ← d.lookup (.node sn) k.tag
    let k ← if f.path ∈ dflts then pure k else setCreate d f k
    let ks ← setCreateKids d sn dflts ks
    pure (k :: ks)
end

/-- Copies of the key leaves of a list entry: tag, nsmap and text, lines 1105-1109.  A missing
key is an `AttributeError` (`None.nsmap`). -/
def keyCopies (keys : List QName) (o : Elem) : Except Err (List Elem) :=
  keys.mapM (fun k =>
    match o.find k with
    | some e => Except.ok ((Elem.new k e.nsmap).setText e.text)
    | none => Except.error Err.attributeError)

mutual
/-- `set_delete_operation(node, reference_node)`, lines 1303-1351: the children that `node`
gets. -/
def deleteKids (d : Device) (sn : SNode) : List Elem → Except Err (List Elem)
  | [] => .ok []
  | r :: rs => do
    let k ← deleteKid d sn r
    let ks ← deleteKids d sn rs
    pure (k :: ks)
/-- The body of the loop, lines 1332-1351. -/
def deleteKid (d : Device) (sn : SNode) : Elem → Except Err Elem
  | .mk t n a x rks => do
    let f ← d.lookup (.node sn) t
    match f.node.ntype with
    | .leafList => mergeText d f.node (.mk t n a x rks) (setOp (Elem.new t n) "delete")
    | .list => do
      let ks ← keyCopies f.node.keys (.mk t n a x rks)
      pure ((setOp (Elem.new t n) "delete").setKids ks)
    | _ =>
      if f.node.isNP then do
        let ks ← deleteKids d f.node rks
        pure ((Elem.new t n).setKids ks)
      else pure (setOp (Elem.new t n) "delete")
end

/-- The marker for a child `o` that has to go, lines 1146-1169 (and 1093-1117, 364-382). -/
def deleteMarker (d : Device) (opts : Opts) (f : Found) (o : Elem) : Except Err Elem :=
  let e := Elem.new o.tag o.nsmap
  match f.node.ntype with
  | .leafList => mergeText d f.node o (setOp e opts.delete.str)
  | .list => do
    let ks ← keyCopies f.node.keys o
    pure ((setOp e opts.delete.str).setKids ks)
  | _ =>
    if f.node.isNP ∧ opts.delete = .delete then do
      let ks ← deleteKids d f.node o.kids
      pure (e.setKids ks)
    else pure (setOp e opts.delete.str)

/-- `_url_to_prefix`, lines 1353-1386. -/
def urlToPrefix (m : NsMap) (id : QName) : KeyId :=
  if id.ns = "" then .bare id.name
  else
    match m.prefixOf id.ns with
    | some none => .bare id.name
    | some (some p) => .prefixed p id.name
    | none => .brace id

/-- The value of the `key` attribute that names `precursor`, lines 1252-1262; a key without text
is written `'None'`. -/
def keyPreds (keys : List QName) (precursor : Elem) : Except Err (List (KeyId × String)) :=
  keys.mapM (fun k =>
    match precursor.find k with
    | some e => Except.ok (urlToPrefix e.nsmap k, e.text.getD "None")
    | none => Except.error Err.attributeError)

/-- What `ordered_by_user[tag]` holds: `'leaf-list'` or the list of keys. -/
abbrev OrderInfo := Option (List QName)

/-- The attributes of one item, lines 1244-1262; `pre` is its precursor in the sequence. -/
def orderItem (info : OrderInfo) (pre : Option Elem) (e : Elem) : Except Err Elem :=
  match pre with
  | none => .ok (e.set .insert (.str "first"))
  | some p =>
    match info with
    | none =>
      match p.text with
      | some t => .ok ((e.set .insert (.str "after")).set .value (.str t))
      | none => .error .typeError
    | some keys => do
      let ps ← keyPreds keys p
      pure ((e.set .insert (.str "after")).set .key (.pred ps))

/-- Lines 1238-1262: attributes of the original children with the given tag that are still
attached, in document order.  Children without a handle (delete markers) are not in scope. -/
def orderTag (tag : QName) (info : OrderInfo) : Option Elem → List Cell → Except Err (List Cell)
  | _, [] => .ok []
  | pre, c :: r =>
    if c.1.isSome ∧ c.2.tag = tag then do
      let e ← orderItem info pre c.2
      let r ← orderTag tag info (some e) r
      pure ((c.1, e) :: r)
    else do
      let r ← orderTag tag info pre r
      pure (c :: r)

/-- `for tag in ordered_by_user`, line 1231. -/
def orderAll (obu : List (QName × OrderInfo)) (st : List Cell) : Except Err (List Cell) :=
  obu.foldlM (fun st p => orderTag p.1 p.2 none st) st

/-- `if s_node.get('ordered-by') == 'user' and s_node.tag not in ordered_by_user:
ordered_by_user[...] = ...`, e.g. lines 1094-1096. -/
def noteOrder (sn : SNode) (obu : List (QName × OrderInfo)) : List (QName × OrderInfo) :=
  if sn.userOrdered ∧ (obu.lookup sn.tag).isNone then
    match sn.ntype with
    | .leafList => obu ++ [(sn.tag, none)]
    | .list => obu ++ [(sn.tag, some sn.keys)]
    | _ => obu
  else obu

/-- `choice_nodes`: last case seen per choice (lines 1118-1121), as positions. -/
abbrev ChoiceMap := List (List Nat × List Nat)

def noteChoice (f : Found) (m : ChoiceMap) : ChoiceMap :=
  if f.underCase then (f.path.dropLast.dropLast, f.path.dropLast) :: m else m

/-- Lines 1139-1145: may the marker be appended? -/
def choiceAllows (m : ChoiceMap) (f : Found) : Bool :=
  if f.underCase then
    match m.lookup f.path.dropLast.dropLast with
    | none => true
    | some c => c = f.path.dropLast
  else true

/-- State of the loops. -/
structure SubState where
  st : List Cell
  obu : List (QName × OrderInfo) := []
  choices : ChoiceMap := []

/-- One iteration of the first loop, lines 1078-1121. -/
def subOnlySelf (d : Device) (sc : Scope) (opts : Opts) (s : SubState) (p : Elem × Nat) :
    Except Err SubState := do
  let f ← d.lookup sc p.1.tag
  let e ←
    if opts.diffType = .replace then pure (setOp p.1 "replace")
    else match opts.create with
      | .replace => pure (setOp p.1 "replace")
      | .create => setCreate d f p.1
      | .merge => pure p.1
  let _ ← deleteMarker d opts f p.1
  pure { st := setCell p.2 e s.st, obu := noteOrder f.node s.obu, choices := noteChoice f s.choices }

/-- One iteration of the second loop, lines 1122-1169. -/
def subOnlyOther (d : Device) (sc : Scope) (opts : Opts) (s : SubState) (o : Elem) :
    Except Err SubState := do
  let f ← d.lookup sc o.tag
  let _ ← match opts.create with
    | .create => setCreate d f o
    | _ => pure o
  let m ← deleteMarker d opts f o
  let st :=
    match insertAfterLast (hasTag o.tag) (none, m) s.st with
    | some st => st
    | none => if choiceAllows s.choices f then s.st ++ [(none, m)] else s.st
  pure { s with st := st, obu := noteOrder f.node s.obu }

/-- Removing the non-key children, lines 1208-1215. -/
def stripNonKeys (d : Device) (sn : SNode) : List Elem → Except Err (List Elem)
  | [] => .ok []
  | k :: ks => do
    let f ← d.lookup (.node sn) k.tag
    let ks ← stripNonKeys d sn ks
    pure (if f.node.info.isKey then k :: ks else ks)

/-- `_node_le(a, b) and _node_le(b, a)`, lines 1189-1190. -/
def sameNode (d : Device) (sn : SNode) (a b : Elem) : Except Err Bool :=
  andE (nodeLe d (.node sn) a b) (nodeLe d (.node sn) b a)

/-- One iteration of the third loop of `get_config_replace`, lines 384-421. -/
def replaceBoth (d : Device) (sc : Scope) (s : SubState) (q : (Elem × Nat) × Elem) :
    Except Err SubState := do
  let e := q.1.1
  let h := q.1.2
  let o := q.2
  let f ← d.lookup sc e.tag
  let e' := setOp e "replace"
  let o' := setOp o "replace"
  match f.node.ntype with
  | .leaf =>
    if ← sameText d (.node f.node) e o then
      if f.node.info.isKey then pure s
      else pure { s with st := removeCell h s.st }
    else pure { s with st := setCell h e' s.st }
  | .leafList =>
    if f.node.userOrdered then
      pure { s with st := setCell h e' s.st, obu := noteOrder f.node s.obu }
    else pure { s with st := removeCell h s.st }
  | .container =>
    if ← sameNode d f.node e' o' then pure { s with st := removeCell h s.st }
    else pure { s with st := setCell h e' s.st }
  | .list =>
    let obu := noteOrder f.node s.obu
    if ← sameNode d f.node e' o' then
      if f.node.userOrdered then pure { s with st := setCell h e' s.st, obu := obu }
      else pure { s with st := removeCell h s.st, obu := obu }
    else pure { s with st := setCell h e' s.st, obu := obu }
  | _ => .error .modelError

/-- One iteration of the second loop of `get_config_replace`, lines 355-382. -/
def replaceOnlyOther (d : Device) (sc : Scope) (opts : Opts) (s : SubState) (o : Elem) :
    Except Err SubState := do
  let f ← d.lookup sc o.tag
  let m ← deleteMarker d opts f o
  pure { s with st := putLast o.tag (none, m) s.st }

/-- One iteration of the first loop of `get_config_replace`, lines 338-353. -/
def replaceOnlySelf (d : Device) (sc : Scope) (s : SubState) (p : Elem × Nat) :
    Except Err SubState := do
  let f ← d.lookup sc p.1.tag
  pure { s with st := setCell p.2 (setOp p.1 "replace") s.st, obu := noteOrder f.node s.obu }

/-- `get_config_replace`, lines 316-449. -/
def configReplace (d : Device) (sc : Scope) (opts : Opts) (self other : Elem) :
    Except Err Elem := do
  let g ← groupKids d sc Prod.fst id self.kids.zipIdx other.kids
  let s : SubState := { st := self.kids.zipIdx.map (fun p => (some p.2, p.1)) }
  let s ← g.onlyOne.foldlM (replaceOnlySelf d sc) s
  let s ← g.onlyTwo.foldlM (replaceOnlyOther d sc opts) s
  let s ← g.both.foldlM (replaceBoth d sc) s
  let st ← orderAll s.obu s.st
  pure (self.setKids (st.map Prod.snd))

/-- `node_sub` for one child: schema position, depth, other node. -/
abbrev SubFn := Scope → Nat → Elem → Except Err Elem

/-- Lines 1194-1200 and 1220-1226. -/
def subInner (d : Device) (opts : Opts) (sn : SNode) (depth : Nat) (p : Elem × SubFn)
    (o : Elem) : Except Err Elem :=
  if opts.diffType = .replace ∧ opts.replaceDepth = depth + 1 then
    configReplace d (.node sn) opts p.1 o
  else p.2 (.node sn) (depth + 1) o

/-- One iteration of the third loop, lines 1170-1230. -/
def subBoth (d : Device) (sc : Scope) (opts : Opts) (depth : Nat) (s : SubState)
    (q : ((Elem × SubFn) × Nat) × Elem) : Except Err SubState := do
  let e := q.1.1.1
  let h := q.1.2
  let o := q.2
  let f ← d.lookup sc e.tag
  match f.node.ntype with
  | .leaf =>
    if ← sameText d (.node f.node) e o then
      if f.node.info.isKey then pure s
      else pure { s with st := removeCell h s.st }
    else
      match opts.replace with
      | .merge => pure s
      | .replace => pure { s with st := setCell h (setOp e "replace") s.st }
  | .leafList =>
    if f.node.userOrdered then pure { s with obu := noteOrder f.node s.obu }
    else pure { s with st := removeCell h s.st }
  | .container =>
    if ← sameNode d f.node e o then pure { s with st := removeCell h s.st }
    else do
      let e' ← subInner d opts f.node depth q.1.1 o
      pure { s with st := setCell h e' s.st }
  | .list =>
    let obu := noteOrder f.node s.obu
    if ← sameNode d f.node e o then
      if f.node.userOrdered then do
        let ks ← stripNonKeys d f.node e.kids
        let _ ← stripNonKeys d f.node o.kids
        pure { s with st := setCell h (e.setKids ks) s.st, obu := obu }
      else pure { s with st := removeCell h s.st, obu := obu }
    else do
      let e' ← subInner d opts f.node depth q.1.1 o
      pure { s with st := setCell h e' s.st, obu := obu }
  | _ => .error .modelError

/-- `_same_leaf_list`, lines 1388-1433. -/
def sameLeafList (d : Device) (sn : SNode) (tag : QName) (a b : List Elem) :
    Except Err Bool := do
  let x ← (a.filter (fun c => c.tag = tag)).mapM (fun c => parseText d c sn)
  let y ← (b.filter (fun c => c.tag = tag)).mapM (fun c => parseText d c sn)
  if sn.userOrdered then pure (x = y)
  else pure (x.all (· ∈ y) && y.all (· ∈ x))

/-- Lines 1056-1072: is there a leaf-list on both sides with different values? -/
def leafListsDiffer (d : Device) (sc : Scope) (a b : List Elem) : List Elem → Except Err Bool
  | [] => .ok false
  | c :: r => do
    let f ← d.lookup sc c.tag
    if f.node.ntype = .leafList ∧ b.any (fun k => k.tag = c.tag) then do
      let same ← sameLeafList d f.node c.tag a b
      if same then leafListsDiffer d sc a b r else pure true
    else leafListsDiffer d sc a b r

/-- Every child has a schema node (lines 1057-1064). -/
def lookupAll (d : Device) (sc : Scope) : List Elem → Except Err Unit
  | [] => .ok ()
  | c :: r => do
    let _ ← d.lookup sc c.tag
    lookupAll d sc r

/-- `node_sub`, lines 1027-1262, given the functions for the children of `node_self`. -/
def nodeSubBody (d : Device) (opts : Opts) (sc : Scope) (depth : Nat) (self : Elem)
    (kids : List (Elem × SubFn)) (other : Elem) : Except Err Elem := do
  let differ ← match opts.replace with
    | .merge => pure false
    | .replace => do
      lookupAll d sc self.kids
      lookupAll d sc other.kids
      leafListsDiffer d sc self.kids other.kids self.kids
  if differ then pure (setOp self "replace")
  else do
    let g ← groupKids d sc (fun p => p.1.1) id kids.zipIdx other.kids
    let s : SubState := { st := self.kids.zipIdx.map (fun p => (some p.2, p.1)) }
    let s ← g.onlyOne.foldlM (fun s p => subOnlySelf d sc opts s (p.1.1, p.2)) s
    let s ← g.onlyTwo.foldlM (subOnlyOther d sc opts) s
    let s ← g.both.foldlM (subBoth d sc opts depth) s
    let st ← orderAll s.obu s.st
    let _ ← orderAll s.obu (other.kids.zipIdx.map (fun p => (some p.2, p.1)))
    pure (self.setKids (st.map Prod.snd))

mutual
/-- `node_sub(node_self, node_other, depth)`; the result is `node_self` afterwards. -/
def nodeSub (d : Device) (opts : Opts) : Elem → Scope → Nat → Elem → Except Err Elem
  | .mk t n a x ks, sc, depth, o =>
    nodeSubBody d opts sc depth (.mk t n a x ks) (nodeSubTable d opts ks) o
/-- The children of `node_self`, each with its `node_sub`. -/
def nodeSubTable (d : Device) (opts : Opts) : List Elem → List (Elem × SubFn)
  | [] => []
  | k :: ks => (k, fun sc depth o => nodeSub d opts k sc depth o) :: nodeSubTable d opts ks
end

theorem nodeSubTable_eq (d : Device) (opts : Opts) : ∀ ks,
    nodeSubTable d opts ks = ks.map (fun k => (k, fun sc depth o => nodeSub d opts k sc depth o))
  | [] => rfl
  | k :: ks => by rw [nodeSubTable, nodeSubTable_eq d opts ks]; rfl

theorem nodeSub_eq (d : Device) (opts : Opts) (sc : Scope) (depth : Nat) (self o : Elem) :
    nodeSub d opts self sc depth o =
      nodeSubBody d opts sc depth self
        (self.kids.map (fun k => (k, fun sc depth o => nodeSub d opts k sc depth o))) o := by
  cases self; rw [nodeSub, nodeSubTable_eq]; rfl

mutual
/-- `add_attribute_at_depth(root, depth, 'operation', 'replace')`, lines 219-252.  The attribute
name has no namespace (line 216), so it is not `operation_tag`. -/
def addAttrAtDepth : Nat → Elem → Elem
  | 0, .mk t n a x ks => (Elem.mk t n a x ks).set (.other "operation") (.str "replace")
  | k + 1, .mk t n a x ks => .mk t n a x (addAttrAtDepthList k ks)
/-- See `addAttrAtDepth`. -/
def addAttrAtDepthList : Nat → List Elem → List Elem
  | _, [] => []
  | k, e :: es => addAttrAtDepth k e :: addAttrAtDepthList k es
end

/-- `NetconfCalculator.sub`, lines 202-217 (without `replace_xpath`). -/
def calcSub (d : Device) (opts : Opts) (a b : Elem) : Except Err Elem := do
  let r ←
    if opts.diffType = .replace ∧ opts.replaceDepth = 0 then configReplace d .root opts a b
    else nodeSub d opts a .root 0 b
  if opts.diffType = .minimumReplace then pure (addAttrAtDepth (opts.replaceDepth + 1) r)
  else pure r

end NcDiff
