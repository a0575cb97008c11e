import Verif.Spec.Meaning
/-!
# A NETCONF server

What a server makes of the content of an edit-config, written from RFC 6241 (section 7.2) and RFC 7950 (sections 7.5.8,
7.6.7, 7.7.9 and 7.8.6).  It knows the YANG modules and nothing of the library: the nodes of the edit-config are
processed one after another, in the order of the document.  `none` stands for an `rpc-error`.

The default operation is `merge`.  Names without a prefix in a `key` attribute belong to the default namespace, and names
as lxml writes them (`{namespace}name`) are understood, too.
-/

namespace NcDiff.Compile

/-- The argument of the first substatement with a keyword. -/
def Info.said (i : Info) (k : String) : Option String := i.subs.lookup k

/-- The tag of the nodes at a place. -/
def nameOf (ns : List (String × String)) (s : Stmt) : Option QName :=
  (ns.lookup s.info.module).map fun u => ⟨u, s.info.arg⟩

/-- The place of the elements with a tag. -/
def placeOf (pl : List Place) (t : QName) : Option Place :=
  pl.find? fun p => p.2.info.keyword ∈ ["container", "leaf", "leaf-list", "list"] ∧ nameOf p.1 p.2 = some t

/-- The names of the keys of a list. -/
def keyNames (p : Place) : List QName := (p.2.kids.filter fun c => c.info.isKey).filterMap (nameOf p.1)

/-- What identifies an instance among those with the same tag: the value of an entry of a leaf-list, the values of the
keys of an entry of a list; there is only one instance of a leaf or a container. -/
def identity (p : Place) (x : Elem) : List (List (Option String)) :=
  if p.2.info.keyword = "leaf-list" then [[x.text]]
  else if p.2.info.keyword = "list" then (keyNames p).map fun q => (tagged q x.kids).map Elem.text
  else []

/-- `y` is the instance that `o` is about. -/
def about (p : Place) (o y : Elem) : Bool := y.tag = o.tag ∧ identity p y = identity p o

/-- The order of the entries is that of the user. -/
def byUser (p : Place) : Bool :=
  (p.2.info.keyword = "list" ∨ p.2.info.keyword = "leaf-list") ∧ p.2.info.said "ordered-by" = some "user"

/-- A name in a `key` attribute. -/
def readName (m : NsMap) : KeyId → Option QName
  | .brace q => some q
  | .bare n => some ⟨(m.url none).getD "", n⟩
  | .prefixed p n => (m.url (some p)).map fun u => ⟨u, n⟩

/-- The entry `y` is the one that the attribute `value` or `key` of `o` names. -/
def anchored (p : Place) (o y : Elem) : Bool :=
  decide (y.tag = o.tag) &&
  if p.2.info.keyword = "leaf-list" then
    match o.get .value with
    | some (.str v) => y.text = some v
    | _ => false
  else
    match o.get .key with
    | some (.pred ps) => decide ((∀ x ∈ ps, ∃ q ∈ keyNames p, readName o.nsmap x.1 = some q ∧
        (tagged q y.kids).map Elem.text = [some x.2]) ∧ ∀ q ∈ keyNames p, ∃ x ∈ ps, readName o.nsmap x.1 = some q)
    | _ => false

/-- `e` is inserted before the first element of which `P` is true. -/
def putBefore (P : Elem → Bool) (e : Elem) : List Elem → Option (List Elem)
  | [] => none
  | y :: r => if P y then some (e :: y :: r) else (putBefore P e r).map (y :: ·)

/-- `e` is inserted after the first element of which `P` is true. -/
def putAfter (P : Elem → Bool) (e : Elem) : List Elem → Option (List Elem)
  | [] => none
  | y :: r => if P y then some (y :: e :: r) else (putAfter P e r).map (y :: ·)

/-- The element `e` for `o` gets its place among the siblings `l`: an entry ordered by the user goes where the attribute
`insert` says; otherwise what is there is replaced, and what is new is appended. -/
def put (p : Place) (o e : Elem) (l : List Elem) : Option (List Elem) :=
  let others := l.filter fun y => !about p o y
  match if byUser p then o.get .insert else none with
  | none => some (if l.any (about p o) then l.map fun y => if about p o y then e else y else l ++ [e])
  | some (.str i) =>
    if i = "first" then some (e :: others)
    else if i = "last" then some (others ++ [e])
    else if i = "before" then putBefore (anchored p o) e others
    else if i = "after" then putAfter (anchored p o) e others
    else none
  | some (.pred _) => none

/-- The operation of a node of an edit-config. -/
def operation (o : Elem) : String :=
  match o.get .operation with
  | none => "merge"
  | some (.str s) => s
  | some (.pred _) => "?"

/-- What the node `o` does to the siblings `l`; `inside` is what its children do to a list of nodes.  A new entry of a
list has its keys to begin with. -/
def change (p : Place) (o : Elem) (inside : List Elem → Option (List Elem)) (l : List Elem) : Option (List Elem) :=
  let old := l.find? (about p o)
  let keys := (o.kids.filter fun c => c.tag ∈ keyNames p).map fun c => .mk c.tag c.nsmap [] c.text []
  if operation o = "delete" then if old.isSome then some (l.filter fun y => !about p o y) else none
  else if operation o = "remove" then some (l.filter fun y => !about p o y)
  else if operation o = "merge" ∨ operation o = "replace" ∨ (operation o = "create" ∧ old = none) then
    if p.2.info.keyword = "leaf" ∨ p.2.info.keyword = "leaf-list" then put p o (.mk o.tag o.nsmap [] o.text []) l
    else
      match inside (match old with
        | some y => if operation o = "merge" then y.kids else if p.2.info.keyword = "list" then keys else []
        | none => if p.2.info.keyword = "list" then keys else []) with
      | none => none
      | some r => put p o (.mk o.tag o.nsmap [] none r) l
  else none

mutual
/-- The nodes of an edit-config are processed one after another; `l` is what the server holds at these places. -/
def serve (pl : List Place) : List Elem → List Elem → Option (List Elem)
  | [], l => some l
  | o :: r, l =>
    match serveOne pl o l with
    | none => none
    | some l' => serve pl r l'
/-- See `serve`. -/
def serveOne (pl : List Place) : Elem → List Elem → Option (List Elem)
  | .mk t n a x ks, l =>
    match placeOf pl t with
    | none => none
    | some p => change p (.mk t n a x ks) (fun l' => serve (places p.1 p.2.kids) ks l') l
end

/-- A server that has `m` holds the configuration `a`: it has the nodes of `a`, with the values and in the order of `a`
where the order is that of the user, and otherwise nothing but containers without a meaning of their own. -/
inductive Holds : List Place → List Elem → List Elem → Prop
  | mk {pl : List Place} {a m : List Elem}
      (once : ∀ p ∈ pl, p.2.info.keyword ∈ ["container", "leaf", "leaf-list", "list"] → ∀ q, Named p.1 q p.2 →
        ((tagged q a).map (identity p)).Nodup ∧ ((tagged q m).map (identity p)).Nodup)
      (has : ∀ p ∈ pl, p.2.info.keyword ∈ ["container", "leaf", "leaf-list", "list"] → ∀ q, Named p.1 q p.2 →
        ∀ x ∈ tagged q a, ∃ y ∈ tagged q m, identity p x = identity p y)
      (more : ∀ p ∈ pl, p.2.info.keyword ∈ ["container", "leaf", "leaf-list", "list"] → ∀ q, Named p.1 q p.2 →
        ∀ y ∈ tagged q m, (∀ x ∈ tagged q a, identity p x ≠ identity p y) →
          p.2.info.keyword = "container" ∧ ∀ v, ¬ p.2.info.Says "presence" v)
      (empty : ∀ p ∈ pl, p.2.info.keyword ∈ ["container", "leaf", "leaf-list", "list"] → ∀ q, Named p.1 q p.2 →
        ∀ y ∈ tagged q m, (∀ x ∈ tagged q a, identity p x ≠ identity p y) → Holds (places p.1 p.2.kids) [] y.kids)
      (order : ∀ p ∈ pl, p.2.info.keyword = "list" ∨ p.2.info.keyword = "leaf-list" → p.2.info.Says "ordered-by" "user" →
        ∀ q, Named p.1 q p.2 → (tagged q a).map (identity p) = (tagged q m).map (identity p))
      (value : ∀ p ∈ pl, p.2.info.keyword = "leaf" → ∀ q, Named p.1 q p.2 →
        ∀ x ∈ tagged q a, ∀ y ∈ tagged q m, valueOf p.2 x = valueOf p.2 y)
      (sub : ∀ p ∈ pl, p.2.info.keyword = "container" ∨ p.2.info.keyword = "list" → ∀ q, Named p.1 q p.2 →
        ∀ x ∈ tagged q a, ∀ y ∈ tagged q m, identity p x = identity p y → Holds (places p.1 p.2.kids) x.kids y.kids) :
      Holds pl a m

end NcDiff.Compile
