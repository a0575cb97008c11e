/-!
# XML trees, exceptions and string helpers

Model of the part of the `lxml` element API that ncdiff uses.  Everything here is a total,
computable function; Python exceptions are values of `Err` inside `Except`.

Not modelled: comments / processing instructions, element tails (`_copy_element`,
`src/ncdiff/netconf.py` lines 37-49, drops tails when a `Config` is built), and the way libxml2
re-declares namespaces when a node is moved.  `nsmap` is the effective prefix map of the element
and stays with it.
-/

namespace NcDiff

/-- Exceptions that ncdiff (`src/ncdiff/errors.py` lines 1-18), Python or lxml raise.  The
`configDelta` sub-cases are the message prefixes of `ConfigDeltaError` in
`src/ncdiff/netconf.py` (lines 24-34, 490, 517, 788, 798). -/
inductive DeltaErr where
  | dataMissing | dataExists | unknownOp | insertMissing | insertWrong
  deriving DecidableEq, Repr

/-- See `DeltaErr`. -/
inductive Err where
  | modelError | modelMissing | modelIncompatible | configError
  | configDelta (k : DeltaErr)
  | valueError | typeError | attributeError | keyError | indexError | syntaxError
  deriving DecidableEq, Repr

instance [DecidableEq ε] [DecidableEq α] : DecidableEq (Except ε α)
  | .ok a, .ok b => if h : a = b then isTrue (by rw [h]) else isFalse (by intro e; cases e; exact h rfl)
  | .error a, .error b =>
    if h : a = b then isTrue (by rw [h]) else isFalse (by intro e; cases e; exact h rfl)
  | .ok _, .error _ => isFalse (by intro e; cases e)
  | .error _, .ok _ => isFalse (by intro e; cases e)

/-- A tag in `{url}name` notation (lxml's `Element.tag`).  `ns = ""` means no namespace. -/
structure QName where
  ns : String
  name : String
  deriving DecidableEq, Repr, Inhabited

/-- `Element.nsmap`: prefix (`none` is the default namespace) to URL, in dictionary order. -/
abbrev NsMap := List (Option String × String)

/-- One side of a `[id='text']` predicate inside the `key` attribute: the identifier as
`_url_to_prefix` (`src/ncdiff/netconf.py` lines 1354-1386) writes it. -/
inductive KeyId where
  | brace (q : QName)
  | prefixed (pfx name : String)
  | bare (name : String)
  deriving DecidableEq, Repr

/-- Attribute names: the four edit-config attributes of `src/ncdiff/netconf.py` lines 18-21,
and anything else. -/
inductive AName where
  | operation | insert | value | key
  | other (s : String)
  deriving DecidableEq, Repr

/-- Attribute values.  The `key` attribute is a string of ElementPath predicates
(`src/ncdiff/netconf.py` lines 1258-1262); the model keeps it in parsed form, as a list of
`[id='text']` pairs.  Simplification: a `key` attribute given as an arbitrary string (`str`) is
taken as unparsable. -/
inductive AVal where
  | str (s : String)
  | pred (ps : List (KeyId × String))
  deriving DecidableEq, Repr

/-- Attributes in dictionary order. -/
abbrev Attrs := List (AName × AVal)

/-- An lxml element.  Sibling order is the order of `kids`. -/
inductive Elem where
  | mk (tag : QName) (nsmap : NsMap) (attrs : Attrs) (text : Option String) (kids : List Elem)
  deriving Repr, Inhabited

namespace Elem

def tag : Elem → QName | .mk t _ _ _ _ => t
def nsmap : Elem → NsMap | .mk _ n _ _ _ => n
def attrs : Elem → Attrs | .mk _ _ a _ _ => a
def text : Elem → Option String | .mk _ _ _ x _ => x
def kids : Elem → List Elem | .mk _ _ _ _ k => k

@[simp] theorem tag_mk (t n a x k) : (Elem.mk t n a x k).tag = t := rfl
@[simp] theorem nsmap_mk (t n a x k) : (Elem.mk t n a x k).nsmap = n := rfl
@[simp] theorem attrs_mk (t n a x k) : (Elem.mk t n a x k).attrs = a := rfl
@[simp] theorem text_mk (t n a x k) : (Elem.mk t n a x k).text = x := rfl
@[simp] theorem kids_mk (t n a x k) : (Elem.mk t n a x k).kids = k := rfl

theorem eta (e : Elem) : Elem.mk e.tag e.nsmap e.attrs e.text e.kids = e := by cases e; rfl

/-- Induction over trees: every child may be assumed. -/
theorem ind {P : Elem → Prop}
    (h : ∀ t n a x ks, (∀ k ∈ ks, P k) → P (.mk t n a x ks)) : ∀ e, P e :=
  fun e => Elem.rec (motive_1 := P) (motive_2 := fun ks => ∀ k ∈ ks, P k)
    (fun t n a x ks ih => h t n a x ks ih)
    (fun _ hk => nomatch hk)
    (fun k ks ih1 ih2 k' hk' => by
      cases hk' with
      | head => exact ih1
      | tail _ hm => exact ih2 _ hm) e

mutual
/-- Decidable equality of trees. -/
def decEq : (a b : Elem) → Decidable (a = b)
  | .mk t n a x k, .mk t' n' a' x' k' =>
    if ht : t = t' then if hn : n = n' then if ha : a = a' then if hx : x = x' then
      match decEqList k k' with
      | isTrue hk => isTrue (by rw [ht, hn, ha, hx, hk])
      | isFalse hk => isFalse (by intro e; cases e; exact hk rfl)
    else isFalse (by intro e; cases e; exact hx rfl)
    else isFalse (by intro e; cases e; exact ha rfl)
    else isFalse (by intro e; cases e; exact hn rfl)
    else isFalse (by intro e; cases e; exact ht rfl)
/-- Decidable equality of forests. -/
def decEqList : (a b : List Elem) → Decidable (a = b)
  | [], [] => isTrue rfl
  | [], _ :: _ => isFalse (by intro e; cases e)
  | _ :: _, [] => isFalse (by intro e; cases e)
  | a :: as, b :: bs =>
    match decEq a b with
    | isTrue h =>
      match decEqList as bs with
      | isTrue h' => isTrue (by rw [h, h'])
      | isFalse h' => isFalse (by intro e; cases e; exact h' rfl)
    | isFalse h => isFalse (by intro e; cases e; exact h rfl)
end

instance : DecidableEq Elem := decEq

/-- `Element.get(name)`. -/
def get (e : Elem) (n : AName) : Option AVal := e.attrs.lookup n

/-- Dictionary update keeping the position of an existing key. -/
def setA (n : AName) (v : AVal) : Attrs → Attrs
  | [] => [(n, v)]
  | (n', v') :: r => if n' = n then (n, v) :: r else (n', v') :: setA n v r

/-- `Element.set(name, value)`. -/
def set (e : Elem) (n : AName) (v : AVal) : Elem :=
  .mk e.tag e.nsmap (setA n v e.attrs) e.text e.kids

/-- `e.text = t`. -/
def setText (e : Elem) (t : Option String) : Elem := .mk e.tag e.nsmap e.attrs t e.kids

/-- Replacing the list of children. -/
def setKids (e : Elem) (k : List Elem) : Elem := .mk e.tag e.nsmap e.attrs e.text k

@[simp] theorem tag_set (e : Elem) (n v) : (e.set n v).tag = e.tag := rfl
@[simp] theorem nsmap_set (e : Elem) (n v) : (e.set n v).nsmap = e.nsmap := rfl
@[simp] theorem text_set (e : Elem) (n v) : (e.set n v).text = e.text := rfl
@[simp] theorem kids_set (e : Elem) (n v) : (e.set n v).kids = e.kids := rfl
@[simp] theorem attrs_set (e : Elem) (n v) : (e.set n v).attrs = setA n v e.attrs := rfl
@[simp] theorem tag_setText (e : Elem) (t) : (e.setText t).tag = e.tag := rfl
@[simp] theorem text_setText (e : Elem) (t) : (e.setText t).text = t := rfl
@[simp] theorem kids_setText (e : Elem) (t) : (e.setText t).kids = e.kids := rfl
@[simp] theorem attrs_setText (e : Elem) (t) : (e.setText t).attrs = e.attrs := rfl
@[simp] theorem nsmap_setText (e : Elem) (t) : (e.setText t).nsmap = e.nsmap := rfl
@[simp] theorem tag_setKids (e : Elem) (k) : (e.setKids k).tag = e.tag := rfl
@[simp] theorem text_setKids (e : Elem) (k) : (e.setKids k).text = e.text := rfl
@[simp] theorem kids_setKids (e : Elem) (k) : (e.setKids k).kids = k := rfl
@[simp] theorem attrs_setKids (e : Elem) (k) : (e.setKids k).attrs = e.attrs := rfl
@[simp] theorem nsmap_setKids (e : Elem) (k) : (e.setKids k).nsmap = e.nsmap := rfl

/-- `etree.Element(tag, nsmap=nsmap)`: a new element without attributes, text or children. -/
def new (tag : QName) (nsmap : NsMap) : Elem := .mk tag nsmap [] none []

/-- `list(e.iterchildren(tag=tag))` and `e.findall(tag)`. -/
def childrenWith (e : Elem) (tag : QName) : List Elem := e.kids.filter (fun k => k.tag = tag)

/-- `e.find(tag)`. -/
def find (e : Elem) (tag : QName) : Option Elem := e.kids.find? (fun k => k.tag = tag)

mutual
/-- `BaseCalculator._del_attrib`, `src/ncdiff/calculator.py` lines 52-74: delete every attribute
of the element and of all its descendants. -/
def delAttrib : Elem → Elem
  | .mk t n _ x ks => .mk t n [] x (delAttribList ks)
/-- See `delAttrib`. -/
def delAttribList : List Elem → List Elem
  | [] => []
  | k :: ks => delAttrib k :: delAttribList ks
end

theorem delAttribList_eq : ∀ ks, delAttribList ks = ks.map delAttrib
  | [] => rfl
  | k :: ks => by rw [delAttribList, delAttribList_eq ks]; rfl

mutual
/-- `''.join(e.itertext())` without tails. -/
def itertext : Elem → String
  | .mk _ _ _ x ks => x.getD "" ++ itertextList ks
/-- See `itertext`. -/
def itertextList : List Elem → String
  | [] => ""
  | k :: ks => itertext k ++ itertextList ks
end

end Elem

/-- `{v: k for k, v in nsmap.items()}.get(url)`: in the inverted dictionary the last prefix of
a URL wins.  Result: `none` if absent, `some none` for the default namespace. -/
def NsMap.prefixOf (m : NsMap) (url : String) : Option (Option String) :=
  (m.reverse.find? (fun p => p.2 = url)).map Prod.fst

/-- `nsmap[prefix]`. -/
def NsMap.url (m : NsMap) (p : Option String) : Option String := m.lookup p

end NcDiff
