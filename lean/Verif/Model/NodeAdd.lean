import Verif.Model.Calculator
/-!
# Applying an edit-config: `node_add`

Model of `NetconfCalculator.node_add` and its eight helpers, `src/ncdiff/netconf.py` lines
451-1025.

The children of `node_sum` are mutated in place while the loops run.  A child is a `Cell`: an
original child carries its position as handle (its object identity), a child created by the loops
has no handle, because no later step refers to it by identity.
-/

namespace NcDiff

/-- A child of `node_sum` during `node_add`. -/
abbrev Cell := Option Nat × Elem

/-- `child_other.get(operation_tag, default='merge')`; a value that is not a plain string is an
unknown operation. -/
def opOf (e : Elem) : String :=
  match e.get .operation with
  | none => "merge"
  | some (.str s) => s
  | some (.pred _) => "?"

/-- `child_other.get(insert_tag)`. -/
def insertOf (e : Elem) : Option String :=
  match e.get .insert with
  | none => none
  | some (.str s) => some s
  | some (.pred _) => some "?"

/-- `node_sum.append(c)`. -/
def append (st : List Cell) (c : Cell) : List Cell := st ++ [c]

/-- `x.addprevious(c)` for the first `x` that satisfies `p`; `none` if there is none. -/
def insertBefore (p : Cell → Bool) (c : Cell) : List Cell → Option (List Cell)
  | [] => none
  | x :: r => if p x then some (c :: x :: r) else (insertBefore p c r).map (x :: ·)

/-- `x.addnext(c)` for the first `x` that satisfies `p`. -/
def insertAfter (p : Cell → Bool) (c : Cell) : List Cell → Option (List Cell)
  | [] => none
  | x :: r => if p x then some (x :: c :: r) else (insertAfter p c r).map (x :: ·)

/-- `x.addnext(c)` for the last `x` that satisfies `p`. -/
def insertAfterLast (p : Cell → Bool) (c : Cell) : List Cell → Option (List Cell)
  | [] => none
  | x :: r =>
    match insertAfterLast p c r with
    | some r' => some (x :: r')
    | none => if p x then some (x :: c :: r) else none

/-- Same tag: members of `_get_sequence(node_sum.getchildren(), tag, node_sum)`
(`src/ncdiff/calculator.py` lines 77-113). -/
def hasTag (tag : QName) (c : Cell) : Bool := c.2.tag = tag

/-- `if siblings: siblings[0].addprevious(e) else: node_sum.append(e)`, lines 600-603. -/
def putFirst (tag : QName) (c : Cell) (st : List Cell) : List Cell :=
  (insertBefore (hasTag tag) c st).getD (st ++ [c])

/-- `if siblings: siblings[-1].addnext(e) else: node_sum.append(e)`, lines 605-608 and
634-637. -/
def putLast (tag : QName) (c : Cell) (st : List Cell) : List Cell :=
  (insertAfterLast (hasTag tag) c st).getD (st ++ [c])

/-- `[s for s in node_sum.findall(tag) if s.text == child_other.get(value_tag)]`, lines 613-615:
the test for one child. -/
def valueIs (tag : QName) (v : AVal) (c : Cell) : Bool :=
  c.2.tag = tag && (match v with | .str s => c.2.text = some s | .pred _ => false)

/-- Resolving an identifier of a predicate with `namespaces=child_other.nsmap` (lxml's
ElementPath): an unprefixed name is in the default namespace, an unknown prefix is a
`SyntaxError`. -/
def resolveKeyId (m : NsMap) : KeyId → Except Err QName
  | .brace q => .ok q
  | .bare n => .ok ⟨(m.url none).getD "", n⟩
  | .prefixed p n =>
    match m.url (some p) with
    | some u => .ok ⟨u, n⟩
    | none => .error .syntaxError

/-- Parsing the `key` attribute for `node_sum.find(child_other.tag + child_other.get(key_tag),
namespaces=child_other.nsmap)` (lines 729-731).  A text with an apostrophe breaks the quoting and
is taken as a `SyntaxError`. -/
def parsePreds (m : NsMap) : List (KeyId × String) → Except Err (List (QName × String))
  | [] => .ok []
  | (k, t) :: r =>
    if '\'' ∈ t.toList then .error .syntaxError
    else do
      let q ← resolveKeyId m k
      let r ← parsePreds m r
      pure ((q, t) :: r)

/-- ElementPath `[tag='text']` for every predicate, and the tag test. -/
def keyIs (tag : QName) (ps : List (QName × String)) (c : Cell) : Bool :=
  c.2.tag = tag && ps.all (fun p => (c.2.childrenWith p.1).any (fun k => k.itertext = p.2))

/-- The anchor of `insert=before/after` of a leaf-list: `value` attribute, lines 610-619 and
621-631. -/
def valueAnchor (o : Elem) : Except Err (Cell → Bool) :=
  match o.get .value with
  | none => .error (.configDelta .insertMissing)
  | some v => .ok (valueIs o.tag v)

/-- The anchor of `insert=before/after` of a list: `key` attribute, lines 726-735 and
738-747. -/
def keyAnchor (o : Elem) : Except Err (Cell → Bool) :=
  match o.get .key with
  | none => .error (.configDelta .insertMissing)
  | some (.str _) => .error .syntaxError
  | some (.pred ps) => do
    let qs ← parsePreds o.nsmap ps
    pure (keyIs o.tag qs)

/-- `_inserterror` when the anchor is not found, lines 616-619. -/
def orWrong (r : Option α) : Except Err α :=
  match r with
  | some x => .ok x
  | none => .error (.configDelta .insertWrong)

/-- Placement of a new child, lines 597-637 (leaf-list) and 713-753 (list).  An `insert` value
other than first, last, before, after inserts nothing. -/
def placeNew (sn : SNode) (anchor : Except Err (Cell → Bool)) (o : Elem) (c : Cell)
    (st : List Cell) : Except Err (List Cell) :=
  match (if sn.userOrdered then insertOf o else none) with
  | none => .ok (putLast o.tag c st)
  | some i =>
    if i = "first" then .ok (putFirst o.tag c st)
    else if i = "last" then .ok (putLast o.tag c st)
    else if i = "before" then do
      let p ← anchor
      orWrong (insertBefore p c st)
    else if i = "after" then do
      let p ← anchor
      orWrong (insertAfter p c st)
    else .ok st

/-- `node_add` for the children of one child. -/
abbrev AddFn := Scope → Elem → Except Err Elem

/-- `etree.Element(child_other.tag, nsmap=child_other.nsmap)` with the key leaves copied, lines
701-705. -/
def listSkeleton (keys : List QName) (o : Elem) : Except Err Elem := do
  let ks ← keys.mapM (fun k =>
    match o.find k with
    | some e => Except.ok e.delAttrib
    | none => Except.error Err.attributeError)
  pure ((Elem.new o.tag o.nsmap).setKids ks)

/-- `_node_add_without_peer_*`, lines 542-755.  Simplification (list, operation merge, unknown
`insert` value): the entry is left detached and the recursive call on it is not modelled. -/
def addWithoutPeer (d : Device) (sc : Scope) (st : List Cell) (p : Elem × AddFn) :
    Except Err (List Cell) :=
  let o := p.1
  let op := opOf o
  if op = "delete" then .error (.configDelta .dataMissing)
  else if op = "remove" then .ok st
  else if op = "merge" ∨ op = "replace" ∨ op = "create" then do
    let f ← d.lookup sc o.tag
    match f.node.ntype with
    | .leaf => pure (append st (none, o.delAttrib))
    | .leafList => placeNew f.node (valueAnchor o) o (none, o.delAttrib) st
    | .container =>
      if op = "merge" then do
        let e ← p.2 (.node f.node) (Elem.new o.tag o.nsmap)
        pure (append st (none, e))
      else pure (append st (none, o.delAttrib))
    | .list =>
      if op = "merge" then do
        let e ← listSkeleton f.node.keys o
        -- the entry is placed before the recursive call fills it (lines 711-755); the placement
        -- does not look at the entry itself, so it is repeated with the filled entry
        let _ ← placeNew f.node (keyAnchor o) o (none, e) st
        let e' ← p.2 (.node f.node) e
        placeNew f.node (keyAnchor o) o (none, e') st
      else placeNew f.node (keyAnchor o) o (none, o.delAttrib) st
    | _ => pure st
  else .error (.configDelta .unknownOp)

/-- Is this the original child with handle `h`? -/
def isCell (h : Nat) (c : Cell) : Bool := c.1 = some h

/-- `parent.remove(child)`. -/
def removeCell (h : Nat) (st : List Cell) : List Cell := st.filter (fun c => !isCell h c)

/-- In-place change of a child. -/
def setCell (h : Nat) (e : Elem) (st : List Cell) : List Cell :=
  st.map (fun c => if isCell h c then (c.1, e) else c)

/-- `parent.replace(child, copy)`: the copy is a new object. -/
def replaceCell (h : Nat) (e : Elem) (st : List Cell) : List Cell :=
  st.map (fun c => if isCell h c then (none, e) else c)

/-- `if sibling != child_self: sibling.addprevious(child_self)` / `addnext` for the first child
that satisfies the test, e.g. lines 839-840 and 873-874. -/
def moveCell (ins : (Cell → Bool) → Cell → List Cell → Option (List Cell)) (p : Cell → Bool)
    (h : Nat) (e : Elem) (st : List Cell) : Except Err (List Cell) :=
  match st.find? p with
  | none => .error (.configDelta .insertWrong)
  | some c =>
    if isCell h c then .ok st
    else orWrong (ins p (some h, e) (removeCell h st))

/-- Moving an existing child to its `insert` position, lines 833-874 (leaf-list) and 965-1006
(list). -/
def placeOld (sn : SNode) (anchor : Except Err (Cell → Bool)) (o : Elem) (h : Nat) (e : Elem)
    (st : List Cell) : Except Err (List Cell) :=
  match (if sn.userOrdered then insertOf o else none) with
  | none => .ok st
  | some i =>
    if i = "first" then
      match st.find? (hasTag o.tag) with
      | none => .error .indexError
      | some c => if isCell h c then .ok st else .ok (putFirst o.tag (some h, e) (removeCell h st))
    else if i = "last" then
      match st.reverse.find? (hasTag o.tag) with
      | none => .error .indexError
      | some c => if isCell h c then .ok st else .ok (putLast o.tag (some h, e) (removeCell h st))
    else if i = "before" then do
      let p ← anchor
      moveCell insertBefore p h e st
    else if i = "after" then do
      let p ← anchor
      moveCell insertAfter p h e st
    else .ok st

/-- Result of the with-peer helpers: the children, `child_self` afterwards, and whether it is
still attached. -/
structure PeerResult where
  st : List Cell
  child : Elem
  attached : Bool

/-- `_node_add_with_peer_leaf`, lines 757-801. -/
def withPeerLeaf (d : Device) (sn : SNode) (o : Elem) (h : Nat) (e : Elem) (st : List Cell) :
    Except Err PeerResult :=
  let op := opOf o
  if op = "merge" ∨ op = "replace" then do
    let e' ← mergeText d sn o e
    pure ⟨setCell h e' st, e', true⟩
  else if op = "create" then .error (.configDelta .dataExists)
  else if op = "delete" ∨ op = "remove" then pure ⟨removeCell h st, e, false⟩
  else .error (.configDelta .unknownOp)

/-- `_node_add_with_peer_leaflist`, lines 803-888. -/
def withPeerLeafList (sn : SNode) (o : Elem) (h : Nat) (e : Elem) (st : List Cell) :
    Except Err PeerResult :=
  let op := opOf o
  if op = "merge" ∨ op = "replace" then do
    let st ← placeOld sn (valueAnchor o) o h e st
    pure ⟨st, e, true⟩
  else if op = "create" then .error (.configDelta .dataExists)
  else if op = "delete" ∨ op = "remove" then pure ⟨removeCell h st, e, false⟩
  else .error (.configDelta .unknownOp)

/-- The common end of `_node_add_with_peer_container` (lines 915-935) and
`_node_add_with_peer_list` (lines 1007-1025). -/
def withPeerTree (sn : SNode) (p : Elem × AddFn) (h : Nat) (e : Elem) (st : List Cell) :
    Except Err PeerResult :=
  let op := opOf p.1
  if op = "merge" then do
    let e' ← p.2 (.node sn) e
    pure ⟨setCell h e' st, e', true⟩
  else if op = "replace" then pure ⟨replaceCell h p.1.delAttrib st, e, false⟩
  else if op = "create" then .error (.configDelta .dataExists)
  else if op = "delete" ∨ op = "remove" then pure ⟨removeCell h st, e, false⟩
  else .error (.configDelta .unknownOp)

/-- `_node_add_with_peer_list`, lines 937-1025. -/
def withPeerList (sn : SNode) (p : Elem × AddFn) (h : Nat) (e : Elem) (st : List Cell) :
    Except Err PeerResult := do
  let op := opOf p.1
  let st ← if op ≠ "delete" ∧ op ≠ "remove" then placeOld sn (keyAnchor p.1) p.1 h e st
    else pure st
  withPeerTree sn p h e st

/-- Choice of the helper by the type of the schema node, lines 528-534. -/
def withPeer (d : Device) (sn : SNode) (p : Elem × AddFn) (h : Nat) (e : Elem) (st : List Cell) :
    Except Err PeerResult :=
  match sn.ntype with
  | .leaf => withPeerLeaf d sn p.1 h e st
  | .leafList => withPeerLeafList sn p.1 h e st
  | .container => withPeerTree sn p h e st
  | .list => withPeerList sn p h e st
  | _ => pure ⟨st, e, true⟩

/-- Removal of an empty non-presence container, lines 535-540. -/
def finishPeer (sn : SNode) (h : Nat) (r : PeerResult) : Except Err (List Cell) :=
  if r.child.kids = [] ∧ sn.isNP then
    if r.attached then pure (removeCell h r.st) else .error .valueError
  else pure r.st

/-- One iteration of the second loop of `node_add`, lines 525-540. -/
def addWithPeer (d : Device) (sc : Scope) (st : List Cell) (q : (Elem × Nat) × (Elem × AddFn)) :
    Except Err (List Cell) := do
  let f ← d.lookup sc q.1.1.tag
  let r ← withPeer d f.node q.2 q.1.2 q.1.1 st
  finishPeer f.node q.1.2 r

/-- `node_add`, lines 451-540, given the functions for the children of `node_other`. -/
def nodeAddBody (d : Device) (sc : Scope) (sum : Elem) (others : List (Elem × AddFn)) :
    Except Err Elem := do
  let g ← groupKids d sc Prod.fst Prod.fst sum.kids.zipIdx others
  let st := sum.kids.zipIdx.map (fun p => (some p.2, p.1))
  let st ← g.onlyTwo.foldlM (addWithoutPeer d sc) st
  let st ← g.both.foldlM (addWithPeer d sc) st
  pure (sum.setKids (st.map Prod.snd))

mutual
/-- `node_add(node_sum, node_other)`, `src/ncdiff/netconf.py` lines 451-540; the result is
`node_sum` afterwards.  The first tree argument is `node_other`. -/
def nodeAdd (d : Device) : Elem → Scope → Elem → Except Err Elem
  | .mk _ _ _ _ ks, sc, sum => nodeAddBody d sc sum (nodeAddTable d ks)
/-- The children of `node_other`, each with its `node_add`. -/
def nodeAddTable (d : Device) : List Elem → List (Elem × AddFn)
  | [] => []
  | k :: ks => (k, fun sc sum => nodeAdd d k sc sum) :: nodeAddTable d ks
end

theorem nodeAddTable_eq (d : Device) : ∀ ks,
    nodeAddTable d ks = ks.map (fun k => (k, fun sc sum => nodeAdd d k sc sum))
  | [] => rfl
  | k :: ks => by rw [nodeAddTable, nodeAddTable_eq d ks]; rfl

theorem nodeAdd_eq (d : Device) (sc : Scope) (sum o : Elem) :
    nodeAdd d o sc sum =
      nodeAddBody d sc sum (o.kids.map (fun k => (k, fun sc sum => nodeAdd d k sc sum))) := by
  cases o; rw [nodeAdd, nodeAddTable_eq]; rfl

/-- `NetconfCalculator.add`, lines 195-200. -/
def calcAdd (d : Device) (a b : Elem) : Except Err Elem := nodeAdd d b .root a

end NcDiff
