import Verif.Model.Ref
/-!
# Matching and comparing config nodes

Model of `src/ncdiff/calculator.py`.
-/

namespace NcDiff

/-- `_parse_text`, `src/ncdiff/calculator.py` lines 380-417, with the schema node given. -/
def parseText (d : Device) (e : Elem) (sn : SNode) : Except Err (Option String) :=
  match e.text with
  | none => .ok none
  | some t =>
    match sn.info.datatype with
    | .identityref => do
      let r ← IdentityRef.default d e.tag e.nsmap t.toList
      pure (some (String.ofList r))
    | .instanceId => do
      let r ← InstId.convert d e.tag e.nsmap none t.toList
      pure (some (String.ofList r))
    | _ => if sn.ntype = .container then .ok none else .ok (some t)

/-- `_parse_text(node)` where the schema node is looked up from the node (lines 403-404).  For
the config root the look-up raises `ModelMissing` (`src/ncdiff/composer.py` lines 104-122). -/
def parseTextAt (d : Device) (sc : Scope) (e : Elem) : Except Err (Option String) :=
  match e.text with
  | none => .ok none
  | some _ =>
    match sc with
    | .root => .error .modelMissing
    | .node sn => parseText d e sn

/-- `_same_text`, lines 419-442, of two nodes at schema position `sc`. -/
def sameText (d : Device) (sc : Scope) (a b : Elem) : Except Err Bool :=
  if a.text = none ∧ b.text = none then .ok true
  else do
    let x ← parseTextAt d sc a
    let y ← parseTextAt d sc b
    pure (x = y)

/-- `_merge_text`, lines 444-481: the new `to_node`. -/
def mergeText (d : Device) (sn : SNode) (src dst : Elem) : Except Err Elem :=
  match src.text with
  | none => .ok (dst.setText none)
  | some t =>
    match sn.info.datatype with
    | .identityref => do
      let r ← IdentityRef.converted d src.tag src.nsmap dst.nsmap t.toList
      pure (dst.setText (some (String.ofList r)))
    | .instanceId => do
      let r ← InstId.convert d src.tag src.nsmap (some dst.nsmap) t.toList
      pure (dst.setText (some (String.ofList r)))
    | _ => .ok (dst.setText (some t))

/-- The self-key of `_pair_children` (lines 134-139): text for a leaf-list, key tuple for a list,
nothing for others. -/
inductive UKey where
  | plain
  | text (t : Option String)
  | keys (ts : List (Option String))
  deriving DecidableEq, Repr, Inhabited

/-- `(tag, key)`, line 196. -/
abbrev UID := QName × UKey

/-- `find_one_child`, lines 141-154. -/
def findOneChild (e : Elem) (tag : QName) : Except Err Elem :=
  match e.childrenWith tag with
  | [k] => .ok k
  | _ => .error .configError

/-- `build_unique_id`, lines 156-196.  The text of a key is parsed with the schema node of the
list (line 162), not of the key. -/
def uidOf (d : Device) (sc : Scope) (e : Elem) : Except Err UID := do
  let f ← d.lookup sc e.tag
  match f.node.ntype with
  | .leafList => do
    let t ← parseText d e f.node
    pure (e.tag, .text t)
  | .list => do
    let ts ← f.node.keys.mapM (fun k => do
      let c ← findOneChild e k
      parseText d c f.node)
    pure (e.tag, .keys ts)
  | _ => pure (e.tag, .plain)

/-- The dictionaries `ones` and `twos`, lines 198-214, in insertion order.  The children carry a
payload (`proj` gives the element).  A duplicate raises `ConfigError`. -/
def indexKids (d : Device) (sc : Scope) (proj : α → Elem) : List UID → List α →
    Except Err (List (UID × α))
  | _, [] => .ok []
  | seen, a :: r => do
    let u ← uidOf d sc (proj a)
    if u ∈ seen then .error .configError
    else do
      let r ← indexKids d sc proj (seen ++ [u]) r
      pure ((u, a) :: r)

/-- "make pairs, in order", lines 216-220. -/
def pairUp (ones : List (UID × α)) (twos : List (UID × β)) : List (Option α × Option β) :=
  ones.map (fun p => (some p.2, twos.lookup p.1)) ++
    (twos.filter (fun q => (ones.lookup q.1).isNone)).map (fun q => (none, some q.2))

/-- `_pair_children`, lines 115-220. -/
def pairChildren (d : Device) (sc : Scope) (pa : α → Elem) (pb : β → Elem)
    (as : List α) (bs : List β) : Except Err (List (Option α × Option β)) := do
  let ones ← indexKids d sc pa [] as
  let twos ← indexKids d sc pb [] bs
  pure (pairUp ones twos)

/-- The three lists that `_group_kids` returns. -/
structure Groups (α β : Type) where
  onlyOne : List α
  onlyTwo : List β
  both : List (α × β)

/-- Grouping of the pairs, lines 251-263. -/
def groupPairs (ps : List (Option α × Option β)) : Groups α β where
  onlyOne := ps.filterMap fun p => match p with | (some a, none) => some a | _ => none
  onlyTwo := ps.filterMap fun p => match p with | (none, some b) => some b | _ => none
  both := ps.filterMap fun p => match p with | (some a, some b) => some (a, b) | _ => none

/-- `_group_kids`, lines 222-263. -/
def groupKids (d : Device) (sc : Scope) (pa : α → Elem) (pb : β → Elem)
    (as : List α) (bs : List β) : Except Err (Groups α β) := do
  let ps ← pairChildren d sc pa pb as bs
  pure (groupPairs ps)

/-- `_is_peer`, lines 322-360; `sc` is the position of the two list entries themselves. -/
def isPeer (d : Device) (sn : SNode) : List QName → Elem → Elem → Except Err Bool
  | [], _, _ => .ok true
  | k :: r, a, b => do
    let x ← findOneChild a k
    let y ← findOneChild b k
    let s ← if x.text = none ∧ y.text = none then pure true else do
      let f ← d.lookup (.node sn) k
      sameText d (.node f.node) x y
    if s then isPeer d sn r a b else pure false

/-- The filter of `_get_peers`, lines 308-320, for one candidate with the same tag. -/
def peerTest (d : Device) (sn : SNode) (a b : Elem) : Except Err Bool :=
  match sn.ntype with
  | .leafList => sameText d (.node sn) a b
  | .list => isPeer d sn sn.keys a b
  | _ => .ok true

/-- `_get_peers`, lines 287-320: the peers of `a` among children (with their positions). -/
def getPeers (d : Device) (sn : SNode) (a : Elem) : List (Elem × Nat) →
    Except Err (List (Elem × Nat))
  | [] => .ok []
  | b :: r =>
    if b.1.tag = a.tag then do
      let t ← peerTest d sn a b.1
      let r ← getPeers d sn a r
      pure (if t then b :: r else r)
    else getPeers d sn a r

/-- The check of ordered-by-user siblings inside `_node_le`, lines 551-575.  `elders` are the
preceding siblings of the child, nearest first; `others` the children of the other node with
positions, `pos` the position of the matched one. -/
def orderOk (d : Device) (sn : SNode) (child : Elem) (elders : List Elem)
    (others : List (Elem × Nat)) (pos : Nat) : Except Err Bool :=
  if sn.userOrdered ∧ (sn.ntype = .leafList ∨ sn.ntype = .list) then
    match elders.find? (fun e => e.tag = child.tag) with
    | none => .ok true
    | some elder => do
      let ps ← getPeers d sn elder others
      match ps with
      | [] => pure false
      | [p] => pure (p.2 < pos)
      | _ => .error .configError
  else .ok true

/-- `node_self.attrib` is contained in `node_other.attrib`, lines 539-542. -/
def attrsLe (a b : Attrs) : Bool := a.all (fun p => b.lookup p.1 = some p.2)

/-- The comparison function for one child. -/
abbrev LeFn := Scope → Elem → Except Err Bool

/-- The loop of `_node_le`, lines 543-577, over the pairs that have a left component.  `elders`
are the children already passed, nearest first. -/
def leLoop (d : Device) (sc : Scope) (others : List (Elem × Nat))
    (twos : List (UID × (Elem × Nat))) : List Elem → List (UID × (Elem × LeFn)) → Except Err Bool
  | _, [] => .ok true
  | elders, (u, (k, le)) :: r =>
    match twos.lookup u with
    | none => .ok false
    | some (k', pos) => do
      let f ← d.lookup sc k.tag
      let o ← orderOk d f.node k elders others pos
      if o then do
        let l ← le (.node f.node) k'
        if l then leLoop d sc others twos (k :: elders) r else pure false
      else pure false

/-- `_node_le`, lines 511-579, given the comparison functions of the children of `a`. -/
def nodeLeBody (d : Device) (sc : Scope) (a : Elem) (kids : List (Elem × LeFn)) (b : Elem) :
    Except Err Bool :=
  if a.tag ≠ b.tag then .ok false
  else do
    let t ← sameText d sc a b
    if !t then pure false
    else if !attrsLe a.attrs b.attrs then pure false
    else do
      let ones ← indexKids d sc Prod.fst [] kids
      let twos ← indexKids d sc Prod.fst [] b.kids.zipIdx
      leLoop d sc b.kids.zipIdx twos [] ones

mutual
/-- `_node_le`, `src/ncdiff/calculator.py` lines 511-579.  `sc` is the schema position of the two
nodes. -/
def nodeLe (d : Device) (sc : Scope) : Elem → Elem → Except Err Bool
  | .mk t n a x ks, b => nodeLeBody d sc (.mk t n a x ks) (nodeLeTable d ks) b
/-- The children of a node, each with its comparison function. -/
def nodeLeTable (d : Device) : List Elem → List (Elem × LeFn)
  | [] => []
  | k :: ks => (k, fun sc b => nodeLe d sc k b) :: nodeLeTable d ks
end

theorem nodeLeTable_eq (d : Device) : ∀ ks,
    nodeLeTable d ks = ks.map (fun k => (k, fun sc b => nodeLe d sc k b))
  | [] => rfl
  | k :: ks => by rw [nodeLeTable, nodeLeTable_eq d ks]; rfl

theorem nodeLe_eq (d : Device) (sc : Scope) (a b : Elem) :
    nodeLe d sc a b =
      nodeLeBody d sc a (a.kids.map (fun k => (k, fun sc b => nodeLe d sc k b))) b := by
  cases a; rw [nodeLe, nodeLeTable_eq]; rfl

/-- Python `x and y` on results of comparisons. -/
def andE (x y : Except Err Bool) : Except Err Bool := do if ← x then y else pure false
/-- Python `not x`. -/
def notE (x : Except Err Bool) : Except Err Bool := do pure (!(← x))
/-- Python `x or y`. -/
def orE (x y : Except Err Bool) : Except Err Bool := do if ← x then pure true else y

/-- The properties `le`, `lt`, `ge`, `gt`, `eq`, `ne`, lines 483-509, reached from
`Config.__le__` etc. (`src/ncdiff/config.py` lines 140-174). -/
def cfgLe (d : Device) (a b : Elem) : Except Err Bool := nodeLe d .root a b
def cfgLt (d : Device) (a b : Elem) : Except Err Bool :=
  andE (nodeLe d .root a b) (notE (nodeLe d .root b a))
def cfgGe (d : Device) (a b : Elem) : Except Err Bool := nodeLe d .root b a
def cfgGt (d : Device) (a b : Elem) : Except Err Bool :=
  andE (nodeLe d .root b a) (notE (nodeLe d .root a b))
def cfgEq (d : Device) (a b : Elem) : Except Err Bool :=
  andE (nodeLe d .root a b) (nodeLe d .root b a)
def cfgNe (d : Device) (a b : Elem) : Except Err Bool :=
  orE (notE (nodeLe d .root a b)) (notE (nodeLe d .root b a))

end NcDiff
