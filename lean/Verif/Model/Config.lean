import Verif.Model.NodeSub
/-!
# Config and ConfigDelta

Model of `src/ncdiff/config.py` and of `extract_config` (`src/ncdiff/manager.py` lines 480-528).
A `Config` is its element tree `ele`; the device is a parameter.

Not modelled: printing (`__str__`, `xml`), `xpath` evaluation (the result of a query is an input of
`configFilter`), Python type checks of arguments.
-/

namespace NcDiff

/-- `xml_.BASE_NS_1_0`. -/
def ncUrl : String := "urn:ietf:params:xml:ns:netconf:base:1.0"

/-- A tag of the NETCONF base namespace. -/
def ncTag (n : String) : QName := ⟨ncUrl, n⟩

/-- `etree.Element(config_tag, nsmap={'nc': nc_url})`, lines 72 and 346. -/
def emptyConfig : Elem := .new (ncTag "config") [(some "nc", ncUrl)]

/-! ## Building a config -/

/-- The elements that the absolute path `/nc:a/nc:b/.../*` selects below the root element `e`. -/
def selectPath : List String → Elem → List Elem
  | [], e => e.kids
  | [n], e => if e.tag = ncTag n then e.kids else []
  | n :: r, e => if e.tag = ncTag n then e.kids.flatMap (selectPath r) else []

/-- `NetconfParser.retrieve_config`, `src/ncdiff/netconf.py` lines 82-116.  The copies that
`_copy_element` makes (lines 36-44) are the elements themselves. -/
def retrieveConfig (e : Elem) : Elem :=
  emptyConfig.setKids
    (selectPath ["rpc-reply", "data"] e ++ selectPath ["data"] e ++ selectPath ["config"] e ++
     selectPath ["rpc", "edit-config", "config"] e ++ selectPath ["edit-config", "config"] e)

/-- `s.split(',')`. -/
def splitComma : List Char → List (List Char)
  | [] => [[]]
  | c :: r =>
    if c = ',' then [] :: splitComma r
    else
      match splitComma r with
      | [] => [[c]]
      | p :: ps => (c :: p) :: ps

/-- The values in attribute `default` of a leaf-list, line 416. -/
def defaultValues (s : String) : List (Option String) := (splitComma s.toList).map (fun l => some (String.ofList l))

/-- Lines 417-425: the leaf-list has its default values.  `values` are the texts of all instances. -/
def defaultList (sn : SNode) (dflt : String) (values : List (Option String)) : Bool :=
  if sn.userOrdered then values = defaultValues dflt
  else values.all (· ∈ defaultValues dflt) && (defaultValues dflt).all (· ∈ values)

/-- Lines 382-436: child `k` (already trimmed itself) is removed.  `all` are the children of the
parent before trimming. -/
def trimDrops (sn : SNode) (all : List Elem) (k : Elem) : Bool :=
  match sn.ntype with
  | .container => k.kids.isEmpty && !sn.info.presence
  | .list => k.kids.isEmpty
  | .leaf =>
    match sn.info.dflt with
    | some v => k.text = some v
    | none => false
  | .leafList =>
    match sn.info.dflt with
    | some v => defaultList sn v ((all.filter (fun x => x.tag = k.tag)).map Elem.text)
    | none => false
  | _ => false

mutual
/-- `_trim_defaults`, lines 351-436.  Removing the current child while iterating over lxml children
is safe, since the iterator has already stored the next one.  Leaf-lists are removed after the loop,
which is the same as removing them at their place. -/
def trimDefaults (d : Device) (sc : Scope) : Elem → Except Err Elem
  | .mk t n a x ks => do
    let ks' ← trimKids d sc ks ks
    pure (.mk t n a x ks')
/-- The loop over the children, lines 371-436. -/
def trimKids (d : Device) (sc : Scope) (all : List Elem) : List Elem → Except Err (List Elem)
  | [] => .ok []
  | k :: r => do
    let f ← d.lookup sc k.tag
    let k' ← trimDefaults d (.node f.node) k
    let r' ← trimKids d sc all r
    pure (if trimDrops f.node all k' then r' else k' :: r')
end

/-- `Config.roots`, lines 191-212: tag and model of every root of the config.  Prefixes of
`device.namespaces` are always given. -/
def configRoots (d : Device) (e : Elem) : Except Err (List (QName × String)) :=
  e.kids.mapM fun k =>
    match d.roots.lookup k.tag with
    | some m => .ok (k.tag, m)
    | none =>
      if k.tag.ns = "" then .error .configError
      else if d.namespaces.any (fun n => n.2.2 = k.tag.ns) then .error .modelMissing
      else .error .configError

/-- Lines 466-477: the checks of one node that is not the root.  `node.get(tag)` is falsy for an
absent and for an empty attribute. -/
def validateHere (sn : SNode) (e : Elem) : Except Err Unit := do
  if sn.ntype = .list ∧ sn.keys.any (fun q => (e.find q).isNone) then .error .configError
  else if [AName.operation, .insert, .value, .key].any
      (fun n => match e.get n with | none => false | some v => v ≠ .str "") then .error .configError
  else .ok ()

/-- Lines 493-514: child `k` is removed. -/
def validateDrops (removeDeprecated : Bool) (sn : SNode) (k : Elem) : Bool :=
  if k.kids.isEmpty && sn.isNP then true
  else if k.kids.isEmpty && sn.ntype = .list then true
  else sn.info.status = .obsolete || (sn.info.status = .deprecated && removeDeprecated)

mutual
/-- `_validate_node` of a node that is not the root, lines 438-514. -/
def validateNode (d : Device) (rd : Bool) (sn : SNode) : Elem → Except Err Elem
  | .mk t n a x ks => do
    validateHere sn (.mk t n a x ks)
    let ks' ← validateKids d rd (.node sn) ks
    pure (.mk t n a x ks')
/-- The loop over the children, lines 483-514: only children that have children are validated
(line 490). -/
def validateKids (d : Device) (rd : Bool) (sc : Scope) : List Elem → Except Err (List Elem)
  | [] => .ok []
  | k :: r => do
    let f ← d.lookup sc k.tag
    let k' ← if k.kids = [] then pure k else validateNode d rd f.node k
    let r' ← validateKids d rd sc r
    pure (if validateDrops rd f.node k' then r' else k' :: r')
end

/-- `validate_config`, lines 260-281. -/
def validateConfig (d : Device) (rd : Bool) (e : Elem) : Except Err Elem := do
  let _ ← configRoots d e
  let ks ← validateKids d rd .root e.kids
  pure (e.setKids ks)

/-- `Config(device, config, validate, remove_deprecated)` of an element, lines 62-88. -/
def newConfig (d : Device) (e : Elem) (validate := true) (removeDeprecated := false) : Except Err Elem := do
  let c ← trimDefaults d .root (retrieveConfig e)
  if validate then validateConfig d removeDeprecated c else pure c

/-! ## Arithmetic -/

/-- `ConfigCompatibility(config1, config2).is_compatible`, lines 853-962, for configs of one device:
the roots are known and their models are loaded.  The comparison of each model with itself (lines
908-918) is left out: it finds no difference, see `C33`. -/
def compatible (d : Device) (cs : List Elem) : Except Err Unit := do
  let rs ← cs.mapM (configRoots d)
  if rs.flatten.all (fun r => (d.models.lookup r.2).isSome) then .ok () else .error .modelMissing

/-- `config + element`, lines 123-128. -/
def configAddElem (d : Device) (c x : Elem) : Except Err Elem := do
  let r ← calcAdd d c x
  newConfig d r false

/-- `config + config`, lines 110-117. -/
def configAdd (d : Device) (c1 c2 : Elem) : Except Err Elem := do
  compatible d [c1, c2]
  configAddElem d c1 c2

/-- `Config.__bool__`, lines 103-108. -/
def configBool (d : Device) (c : Elem) : Except Err Bool := do
  let e ← newConfig d emptyConfig false
  let r ← cfgEq d c e
  pure (!r)

/-! ## ConfigDelta -/

/-- The number of leading key children, lines 820-827. -/
def leadingKeys (d : Device) (sc : Scope) : List Elem → Except Err Nat
  | [] => .ok 0
  | k :: r => do
    let f ← d.lookup sc k.tag
    if f.node.info.isKey then do
      let n ← leadingKeys d sc r
      pure (n + 1)
    else pure 0

/-- `reorder_children`, lines 812-837.  `rnd n` is the order that `random.sample` gives to `n`
elements after seeding. -/
def reorderChildren (d : Device) (rnd : Nat → List Nat) (sc : Scope) (e : Elem) : Except Err Elem := do
  let n ← leadingKeys d sc e.kids
  let rest := e.kids.drop n
  if rest.length = 2 then pure (e.setKids (e.kids.take n ++ rest.drop 1 ++ rest.take 1))
  else if 2 < rest.length then
    pure (e.setKids (e.kids.take n ++ (rnd rest.length).filterMap (fun i => rest[i]?)))
  else pure e

mutual
/-- `reorder`, lines 840-851; `depth` counts down.  The schema node of every child on the way is
looked up here, in the code only at the last level; in a computed delta every node has one. -/
def reorder (d : Device) (rnd : Nat → List Nat) (sc : Scope) : Nat → Elem → Except Err Elem
  | 0, e => reorderChildren d rnd sc e
  | depth + 1, .mk t n a x ks => do
    let ks' ← reorderKids d rnd sc depth ks
    pure (.mk t n a x ks')
/-- The loop of lines 850-851. -/
def reorderKids (d : Device) (rnd : Nat → List Nat) (sc : Scope) (depth : Nat) : List Elem → Except Err (List Elem)
  | [] => .ok []
  | k :: r => do
    let f ← d.lookup sc k.tag
    let k' ← reorder d rnd (.node f.node) depth k
    let r' ← reorderKids d rnd sc depth r
    pure (k' :: r')
end

/-- A `ConfigDelta`, lines 650-715.  `shuffle` stands for `random_depth` and `random_seed`: depth
and the order that the seeded generator gives. -/
structure Delta where
  src : Elem
  dst : Elem
  opts : Opts := {}
  shuffle : Option (Nat × (Nat → List Nat)) := none

/-- `ConfigDelta(config_src, config_dst, ...)`, lines 650-715. -/
def newDelta (d : Device) (src dst : Elem) (opts : Opts := {})
    (shuffle : Option (Nat × (Nat → List Nat)) := none) : Except Err Delta := do
  compatible d [src, dst]
  pure { src := src, dst := dst, opts := opts, shuffle := shuffle }

/-- `ConfigDelta(config_src, delta=..., ...)`, lines 707-712. -/
def newDeltaOf (d : Device) (src delta : Elem) (opts : Opts := {}) : Except Err Delta := do
  let dst ← configAddElem d src (retrieveConfig delta)
  pure { src := src, dst := dst, opts := opts }

/-- `config - config`, lines 132-134. -/
def configSub (d : Device) (c2 c1 : Elem) : Except Err Delta := newDelta d c1 c2

/-- `nc`, lines 722-735. -/
def Delta.nc (d : Device) (δ : Delta) : Except Err Elem := do
  let r ← calcSub d δ.opts δ.dst δ.src
  match δ.shuffle with
  | none => pure r
  | some (depth, rnd) => reorder d rnd .root depth r

/-- `__neg__`, lines 774-776. -/
def Delta.neg (d : Device) (δ : Delta) : Except Err Delta := newDelta d δ.dst δ.src

/-- `__bool__`, lines 781-785. -/
def Delta.bool (d : Device) (δ : Delta) : Except Err Bool := do
  let r ← cfgEq d δ.src δ.dst
  pure (!r)

/-- `config + delta`, lines 118-122. -/
def configAddDelta (d : Device) (c : Elem) (δ : Delta) : Except Err Elem := do
  compatible d [c, δ.src, δ.dst]
  let x ← δ.nc d
  configAddElem d c x

/-- `config - delta`, lines 135-136. -/
def configSubDelta (d : Device) (c : Elem) (δ : Delta) : Except Err Elem := do
  let n ← δ.neg d
  configAddDelta d c n

/-! ## Filtering -/

/-- The selected nodes inside child `i`: paths of child positions. -/
def selectIn (i : Nat) (sel : List (List Nat)) : List (List Nat) :=
  sel.filterMap fun p => match p with | j :: r => if j = i then some r else none | [] => none

/-- Line 547: the node is a list entry. -/
def keepsKeys : Scope → Bool
  | .root => false
  | .node sn => sn.ntype = .list

mutual
/-- `_node_filter` of a node that is an ancestor of a selected node and not selected itself, lines
516-567.  `sel` lists the positions of the selected nodes below it. -/
def filterNode (d : Device) (sc : Scope) (sel : List (List Nat)) : Elem → Except Err Elem
  | .mk t n a x ks => do
    let ks' ← filterKids d sc sel 0 ks
    pure (.mk t n a x ks')
/-- The loops of lines 549-565.  A child is selected if its position is in `sel`, an ancestor if
the position of something below it is.  Every child is looked up in the schema here, in the code
only where the schema node is used; in a validated config every node has one. -/
def filterKids (d : Device) (sc : Scope) (sel : List (List Nat)) (i : Nat) : List Elem → Except Err (List Elem)
  | [] => .ok []
  | k :: r => do
    let f ← d.lookup sc k.tag
    let sub := selectIn i sel
    let r' ← filterKids d sc sel (i + 1) r
    if [] ∈ sub ∨ (keepsKeys sc ∧ f.node.info.isKey) then pure (k :: r')
    else if sub = [] then pure r'
    else do
      let k' ← filterNode d (.node f.node) sub k
      pure (k' :: r')
end

/-- `filter`, lines 322-349, given the positions `sel` of the elements that the query selects in
the copy.  The root of the copy can be selected, too. -/
def configFilter (d : Device) (c : Elem) (sel : List (List Nat)) : Except Err Elem := do
  let c' ← newConfig d c
  if sel = [] then pure emptyConfig
  else if [] ∈ sel then pure c'
  else filterNode d .root sel c'

/-! ## Read-only nodes -/

mutual
/-- `remove_read_only`, `src/ncdiff/manager.py` lines 514-521. -/
def removeReadOnly (d : Device) (sc : Scope) : Elem → Except Err Elem
  | .mk t n a x ks => do
    let ks' ← removeReadOnlyKids d sc ks
    pure (.mk t n a x ks')
/-- See `removeReadOnly`. -/
def removeReadOnlyKids (d : Device) (sc : Scope) : List Elem → Except Err (List Elem)
  | [] => .ok []
  | k :: r => do
    let f ← d.lookup sc k.tag
    if f.node.info.readOnly then removeReadOnlyKids d sc r
    else do
      let k' ← removeReadOnly d (.node f.node) k
      let r' ← removeReadOnlyKids d sc r
      pure (k' :: r')
end

/-- `extract_config`, lines 480-528. -/
def extractConfig (d : Device) (reply : Elem) (removeDeprecated := false) : Except Err Elem := do
  let c ← newConfig d reply true removeDeprecated
  removeReadOnly d .root c

end NcDiff
