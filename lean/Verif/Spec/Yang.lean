import Verif.Spec.Compile
import Verif.Spec.Instance
/-!
# Specification: YANG modules, and documents that are instances of them

Everything is said about statements and XML; the schema trees of the library do not occur.
-/

namespace NcDiff.Compile

/-- A module with its statements; `ns` gives the namespaces of the modules that its nodes belong to. -/
structure Module where
  name : String
  pfx : String
  ns : List (String × String)
  kids : List Stmt

mutual
/-- The statements whose nodes are children of the same node in a document: those inside choices and cases are on
the same level as those beside the choice. -/
def visible : List Stmt → List Stmt
  | [] => []
  | s :: r => visibleOne s ++ visible r
/-- See `visible`. -/
def visibleOne : Stmt → List Stmt
  | .mk i ks => if i.keyword = "choice" ∨ i.keyword = "case" then visible ks else [.mk i ks]
end

/-- A condition on a statement and all below. -/
inductive Everywhere (P : Stmt → Prop) : Stmt → Prop
  | mk {s : Stmt} (here : P s) (sub : ∀ k ∈ s.kids, Everywhere P k) : Everywhere P s

/-- The values of the statement are plain text: the type is neither identityref nor instance-identifier. -/
def PlainType (s : Stmt) : Prop :=
  ∀ t, s.info.type = some t → t.arg.toList.take 11 ≠ "identityref".toList ∧ t.arg ≠ "instance-identifier"

/-- The statement `c` is the first of its name. -/
def FirstNamed (l : List Stmt) (c : Stmt) : Prop :=
  ∃ a b, l = a ++ c :: b ∧ ∀ y ∈ a, y.info.arg ≠ c.info.arg

/-- What is asked of every statement of a module.  The rules are those of RFC 7950, except for those that are marked. -/
structure Proper (rd : Bool) (ns : List (String × String)) (s : Stmt) : Prop where
  /-- section 6.2.1: nodes on one level have different names -/
  names : DistinctNames ns (visible s.kids)
  /-- section 7.8.2: a key statement names leaves of the list, each once -/
  keys : ∀ v, s.info.keyword = "list" → s.info.Says "key" v → ∃ l, KeysSpelled v l ∧ (l.map Prod.snd).Nodup ∧
    (∀ n ∈ l.map Prod.snd, ∃ c ∈ s.kids, c.info.arg = n ∧ c.info.isKey = true) ∧
    ∀ c ∈ s.kids, c.info.isKey = true → c.info.arg ∈ l.map Prod.snd ∧ FirstNamed s.kids c
  /-- there are keys in lists with a key statement only -/
  keyless : (s.info.keyword ≠ "list" ∨ ∀ v, ¬ s.info.Says "key" v) → ∀ c ∈ s.kids, c.info.isKey = false
  keyLeaf : s.info.isKey = true → s.info.keyword = "leaf"
  /-- not in RFC 7950: keys are of plain types, have no default, and are not outdated -/
  keyPlain : s.info.isKey = true → PlainType s ∧ s.info.defaults = [] ∧ ¬ s.info.Says "status" "obsolete" ∧
    (rd = true → ¬ s.info.Says "status" "deprecated")
  /-- not in RFC 7950: only plain types have defaults -/
  dflt : s.info.defaults ≠ [] → PlainType s
  /-- not in RFC 7950: leaf-lists are of plain types -/
  lists : s.info.keyword = "leaf-list" → PlainType s

/-- What is asked of the modules of a device. -/
structure ProperModules (rd : Bool) (mods : List Module) : Prop where
  names : (mods.map Module.name).Nodup
  top : ∀ m ∈ mods, DistinctNames m.ns m.kids
  /-- not in RFC 7950: there is no choice at the top of a module -/
  noChoice : ∀ m ∈ mods, ∀ s ∈ m.kids, s.info.keyword ≠ "choice" ∧ s.info.keyword ≠ "case"
  /-- the nodes at the top of different modules are different -/
  own : ∀ m ∈ mods, ∀ m' ∈ mods, ∀ s ∈ m.kids, ∀ s' ∈ m'.kids, ∀ q, Named m.ns q s → Named m'.ns q s' →
    m.name = m'.name
  stmts : ∀ m ∈ mods, ∀ s ∈ m.kids, Everywhere (Proper rd m.ns) s

/-- The device has these modules: their trees are what the compiler makes of them. -/
def Loads (h : Host) (mods : List Module) : Prop :=
  List.Forall₂ (fun m p => p.1 = m.name ∧ compileTree m.ns m.name (some m.pfx) m.kids = .ok p.2) mods h.models

/-- A place for children of a node: the namespaces of modules, and the statement. -/
abbrev Place := List (String × String) × Stmt

/-- The places below a statement. -/
def places (ns : List (String × String)) (l : List Stmt) : List Place := (visible l).map fun s => (ns, s)

/-- The places at the top. -/
def topPlaces (mods : List Module) : List Place := mods.flatMap fun m => m.kids.map fun s => (m.ns, s)

/-- The identity that `s` stands for where the prefixes `m` are declared: its namespace and its name.  RFC 7950, section
9.10.3: a name without a prefix is in the default namespace. -/
def identityOf (m : NsMap) (s : List Char) : Option (String × List Char) :=
  let p := s.takeWhile (· ≠ ':')
  match s.dropWhile (· ≠ ':') with
  | [] => if p = [] then none else (m.lookup none).map fun u => (u, p)
  | _ :: i => if p = [] ∨ i = [] ∨ ':' ∈ i then none else (m.lookup (some (String.ofList p))).map fun u => (u, i)

/-- The module with the namespace `u` has a name, which no other module has. -/
def OwnName (d : Device) (u : String) : Prop :=
  ∀ n ∈ d.namespaces, n.2.2 = u → n.1 ≠ "" ∧ ∀ n' ∈ d.namespaces, n'.1 = n.1 → n'.2.2 = u

instance (d : Device) (u : String) : Decidable (OwnName d u) := by unfold OwnName; infer_instance

/-- The text of `k` is a value of the type, if that is plain; otherwise the library can read it, and prefixes of identities
are declared. -/
def ValueOf (d : Device) (s : Stmt) (k : Elem) : Prop :=
  PlainType s ∨ ∃ ty, s.info.type = some ty ∧
    (ty.arg.toList.take 11 = "identityref".toList ∧ (∀ t, k.text = some t →
        (∃ u i, identityOf k.nsmap t.toList = some (u, i) ∧ OwnName d u) ∧
        ∃ r, IdentityRef.default d k.tag k.nsmap t.toList = .ok r) ∨
      ty.arg = "instance-identifier" ∧ (∀ t, k.text = some t → (∃ ts, InstId.Readable t.toList ts) ∧
        ∃ r, InstId.convert d k.tag k.nsmap none t.toList = .ok r))

/-- The element `k` looks like an instance of the statement, apart from what is inside. -/
structure NodeOf (d : Device) (ns : List (String × String)) (s : Stmt) (k : Elem) : Prop where
  kind : s.info.keyword ∈ ["container", "leaf", "leaf-list", "list"]
  inner : s.info.keyword = "container" ∨ s.info.keyword = "list" → k.text = none
  leaf : s.info.keyword = "leaf" ∨ s.info.keyword = "leaf-list" → k.kids = [] ∧ ValueOf d s k
  /-- every key is there once -/
  keys : s.info.keyword = "list" → ∀ c ∈ s.kids, c.info.isKey = true → ∀ q, Named ns q c →
    ∃ e, k.childrenWith q = [e]
  /-- not in RFC 7950: values of leaf-lists and keys that are ordered by the user are not empty, and no such key has
  an apostrophe -/
  ordered : s.info.Says "ordered-by" "user" → (s.info.keyword = "leaf-list" → k.text ≠ none) ∧
    (s.info.keyword = "list" → ∀ c ∈ s.kids, c.info.isKey = true → ∀ q, Named ns q c → q.ns ≠ "" ∧
      ∀ e ∈ k.childrenWith q, ∃ t, e.text = some t ∧ '\'' ∉ t.toList)

/-- Two elements with the same tag are different instances of the statement. -/
def Distinct (ns : List (String × String)) (s : Stmt) (x y : Elem) : Prop :=
  (s.info.keyword = "leaf-list" ∧ x.text ≠ y.text) ∨
  (s.info.keyword = "list" ∧ ∃ c ∈ s.kids, c.info.isKey = true ∧ ∃ q, Named ns q c ∧ keyTexts x q ≠ keyTexts y q)

/-- The content of `e` is an instance of the statements at the places. -/
inductive InstanceOf (d : Device) : List Place → Elem → Prop
  | mk {pl : List Place} {e : Elem}
      (nsmap : NsMapOk e.nsmap)
      (attrs : e.attrs = [])
      (node : ∀ k ∈ e.kids, ∃ p ∈ pl, Named p.1 k.tag p.2 ∧ NodeOf d p.1 p.2 k)
      (once : e.kids.Pairwise fun x y => x.tag = y.tag → ∀ p ∈ pl, Named p.1 x.tag p.2 → Distinct p.1 p.2 x y)
      -- not in RFC 7950: the entries of a list that is ordered by the user have the same prefixes for the keys
      (prefixes : ∀ a ∈ e.kids, ∀ b ∈ e.kids, a.tag = b.tag → ∀ p ∈ pl, Named p.1 a.tag p.2 →
        p.2.info.keyword = "list" → p.2.info.Says "ordered-by" "user" → ∀ c ∈ p.2.kids, c.info.isKey = true → ∀ q, Named p.1 q c →
        ∀ x ∈ a.childrenWith q, ∀ z, (z, q.ns) ∈ x.nsmap → (z, q.ns) ∈ b.nsmap)
      (sub : ∀ k ∈ e.kids, ∀ p ∈ pl, Named p.1 k.tag p.2 → InstanceOf d (places p.1 p.2.kids) k) :
      InstanceOf d pl e

/-- A module with none of: choices, order by the user, and other types than plain ones. -/
def Simple (s : Stmt) : Prop :=
  s.info.keyword ≠ "choice" ∧ s.info.keyword ≠ "case" ∧ ¬ s.info.Says "ordered-by" "user" ∧ PlainType s

/-- The operation `replace` cannot land on the config node itself, in terms of the modules: replacing is not preferred,
or a replace-type delta starts at the roots, or there are no leaf-lists at the top of a module. -/
def TopSafe (opts : Opts) (mods : List Module) : Prop :=
  opts.replace = .merge ∨ (opts.diffType = .replace ∧ opts.replaceDepth = 0) ∨
    ∀ m ∈ mods, ∀ s ∈ m.kids, s.info.keyword ≠ "leaf-list"

/-- The document has the configuration of a device with the modules: `l` are its roots. -/
structure Document (h : Host) (mods : List Module) (x : Elem) (l : List Elem) : Prop where
  roots : RootsIn x l
  inst : InstanceOf h.device (topPlaces mods) (noConfig.setKids l)

end NcDiff.Compile
