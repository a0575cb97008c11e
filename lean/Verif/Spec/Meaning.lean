import Verif.Spec.Yang
/-!
# What a document means

RFC 7950, sections 7.5.1, 7.6.1 and 7.7.2: a leaf that is absent has its default value, an absent leaf-list has its
default values, and a container without a presence statement exists in any case.  Sections 7.7.7 and 7.8.6: the order
of entries matters if they are ordered by the user.  Modules have no choices here: the default of a leaf in a case is
only in use if the case is the default case or has other nodes, see `C67_false_for_case`.

Simplification: the default values of leaves and leaf-lists are those of their own default statements.  RFC 7950 also
has default values of derived types; the library does not look at them (`config.py`, lines 402-404).
-/

namespace NcDiff.Compile

/-- The elements with a tag. -/
def tagged (q : QName) (l : List Elem) : List Elem := l.filter fun k => k.tag = q

/-- The type is identityref. -/
def isIdentity (s : Stmt) : Bool :=
  match s.info.type with
  | some t => t.arg.toList.take 11 = "identityref".toList
  | none => false

/-- The value of a leaf: a text (`none` if it is empty), or an identity with its namespace and its name. -/
inductive Value where
  | text (s : Option String)
  | identity (ns : String) (name : List Char)
  deriving DecidableEq

/-- The value of an instance `k` of a leaf.  RFC 7950, section 9.10.3: an identity can be written with any prefix for its
namespace that is declared. -/
def valueOf (s : Stmt) (k : Elem) : Value :=
  if isIdentity s then
    match identityOf k.nsmap (k.text.getD "").toList with
    | some v => .identity v.1 v.2
    | none => .text k.text
  else .text k.text

/-- The value of a leaf with a text in a module. -/
def textValue (v : String) : Value := .text (if v = "" then none else some v)

/-- The value of a leaf, whose instances are `l`. -/
def leafValue (s : Stmt) : List Elem → Option Value
  | [] => s.info.defaults.head?.map textValue
  | k :: _ => some (valueOf s k)

/-- The values of a leaf-list, whose instances are `l`. -/
def listValues (s : Stmt) (l : List Elem) : List String :=
  if l = [] then s.info.defaults else l.map fun k => k.text.getD ""

/-- What is in a container, whose instances are `l`. -/
def content (l : List Elem) : List Elem := l.flatMap Elem.kids

/-- Two entries of a list have the same values of the keys. -/
def SameEntry (p : Place) (x y : Elem) : Prop :=
  ∀ c ∈ p.2.kids, c.info.isKey = true → ∀ q, Named p.1 q c → keyTexts x q = keyTexts y q

/-- The elements `a` and `b` mean the same at the places. -/
inductive SameMeaning : List Place → List Elem → List Elem → Prop
  | mk {pl : List Place} {a b : List Elem}
      (leaf : ∀ p ∈ pl, p.2.info.keyword = "leaf" → ∀ q, Named p.1 q p.2 →
        leafValue p.2 (tagged q a) = leafValue p.2 (tagged q b))
      (leafList : ∀ p ∈ pl, p.2.info.keyword = "leaf-list" → ∀ q, Named p.1 q p.2 →
        (∀ v, v ∈ listValues p.2 (tagged q a) ↔ v ∈ listValues p.2 (tagged q b)) ∧
        (p.2.info.Says "ordered-by" "user" → listValues p.2 (tagged q a) = listValues p.2 (tagged q b)))
      (presence : ∀ p ∈ pl, p.2.info.keyword = "container" → (∃ v, p.2.info.Says "presence" v) → ∀ q, Named p.1 q p.2 →
        (tagged q a = [] ↔ tagged q b = []))
      (container : ∀ p ∈ pl, p.2.info.keyword = "container" → ∀ q, Named p.1 q p.2 →
        SameMeaning (places p.1 p.2.kids) (content (tagged q a)) (content (tagged q b)))
      (entries : ∀ p ∈ pl, p.2.info.keyword = "list" → ∀ q, Named p.1 q p.2 →
        (∀ x ∈ tagged q a, ∃ y ∈ tagged q b, SameEntry p x y) ∧ (∀ y ∈ tagged q b, ∃ x ∈ tagged q a, SameEntry p x y) ∧
        (p.2.info.Says "ordered-by" "user" → List.Forall₂ (SameEntry p) (tagged q a) (tagged q b)))
      (sub : ∀ p ∈ pl, p.2.info.keyword = "list" → ∀ q, Named p.1 q p.2 → ∀ x ∈ tagged q a, ∀ y ∈ tagged q b,
        SameEntry p x y → SameMeaning (places p.1 p.2.kids) x.kids y.kids) :
      SameMeaning pl a b

/-- What is asked of every statement, where there may be choices. -/
structure Regular (rd : Bool) (s : Stmt) : Prop where
  /-- the type is not instance-identifier -/
  plain : PlainType s ∨ isIdentity s = true
  /-- RFC 7950, section 7.6: a leaf has at most one default -/
  one : s.info.keyword = "leaf" → s.info.defaults.length ≤ 1
  /-- no default value is empty, and there is no comma in the default values of leaf-lists -/
  defaults : ∀ v ∈ s.info.defaults, v ≠ "" ∧ (s.info.keyword = "leaf-list" → ',' ∉ v.toList)
  /-- RFC 7950, section 7.8.2: lists in a configuration have keys -/
  keyed : s.info.keyword = "list" → ∃ c ∈ s.kids, c.info.isKey = true
  /-- outdated nodes are removed from configs, see C41 -/
  current : ¬ s.info.Says "status" "obsolete" ∧ (rd = true → ¬ s.info.Says "status" "deprecated")

/-- What is asked of every statement. -/
structure Clear (rd : Bool) (s : Stmt) : Prop extends Regular rd s where
  noChoice : s.info.keyword ≠ "choice" ∧ s.info.keyword ≠ "case"

/-- `P` is true of every leaf, together with its statement. -/
inductive Leaves (P : Stmt → Elem → Prop) : List Place → Elem → Prop
  | mk {pl : List Place} {e : Elem}
      (here : ∀ k ∈ e.kids, ∀ p ∈ pl, Named p.1 k.tag p.2 → p.2.info.keyword = "leaf" → P p.2 k)
      (sub : ∀ k ∈ e.kids, ∀ p ∈ pl, Named p.1 k.tag p.2 → Leaves P (places p.1 p.2.kids) k) : Leaves P pl e

/-- The leaf has prefixes for all the namespaces `us`, if its type is identityref. -/
def Declares (us : List String) (s : Stmt) (k : Elem) : Prop := isIdentity s = true → ∀ u ∈ us, ∃ p, (p, u) ∈ k.nsmap

/-- The value of the leaf is in one of the namespaces `us`, if its type is identityref. -/
def WithinNs (us : List String) (s : Stmt) (k : Elem) : Prop := ∀ u i, valueOf s k = .identity u i → u ∈ us

/-- The identities in the document `l2` can be written with the prefixes of the leaves in the document `l1`. -/
def Spellable (mods : List Module) (l1 l2 : List Elem) : Prop :=
  ∃ us, Leaves (Declares us) (topPlaces mods) (noConfig.setKids l1) ∧ Leaves (WithinNs us) (topPlaces mods) (noConfig.setKids l2)

/-- Every leaf of the document with the type identityref has prefixes for all the namespaces `us`, and no identity is in
another namespace.  This is the case for documents that declare all prefixes at the top, as most servers do. -/
structure WellSpelled (us : List String) (mods : List Module) (l : List Elem) : Prop where
  declares : Leaves (Declares us) (topPlaces mods) (noConfig.setKids l)
  within : Leaves (WithinNs us) (topPlaces mods) (noConfig.setKids l)

/-- No statement of the modules has the type identityref or instance-identifier. -/
def PlainModules (mods : List Module) : Prop := ∀ m ∈ mods, ∀ s ∈ m.kids, Everywhere PlainType s

/-- No text is an empty string: lxml has `None` for it. -/
inductive ReadByLxml : Elem → Prop
  | mk {e : Elem} (text : e.text ≠ some "") (sub : ∀ k ∈ e.kids, ReadByLxml k) : ReadByLxml e

end NcDiff.Compile
