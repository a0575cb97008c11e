import Verif.Spec.InstId
import Verif.Spec.Sum
import Verif.Spec.Deep
/-!
# Specification of edit-config deltas
-/

namespace NcDiff

/-- A prefix map as XML allows it: no prefix twice, no empty prefix, no characters in prefixes that
names do not have.  Dots are excluded, too: `src/ncdiff/ref.py` does not read them in
instance-identifiers. -/
def NsMapOk (m : NsMap) : Prop :=
  (m.map Prod.fst).Nodup ∧ (∀ p ∈ m, p.1 ≠ some "") ∧
    ∀ p ∈ m, ∀ q ∈ p.1, ∀ c ∈ q.toList, c ∉ InstId.reserved ∧ c ≠ '.'

instance (m : NsMap) : Decidable (NsMapOk m) := by unfold NsMapOk; infer_instance

/-- The value of a leaf is of a plain type, or an identityref that is not empty and does not start
with a colon, or an instance-identifier as RFC 7950 has it (with the restrictions of `InstId.Tok.Ok`
and `InstId.NoApostrophe`). -/
def LeafValueOk (sn : SNode) (k : Elem) : Prop :=
  sn.info.datatype.plain ∨ (sn.info.datatype = .identityref ∧
    ∀ t, k.text = some t → ∃ c r, t.toList = c :: r ∧ c ≠ ':') ∨
  (sn.info.datatype = .instanceId ∧ ∀ t, k.text = some t → ∃ ts, InstId.Readable t.toList ts)

/-- In the table of modules, `p` is the prefix or the name of the module with namespace `u` and of no module with another
namespace. -/
def ModulePrefix (d : Device) (p u : String) : Prop :=
  (∃ n ∈ d.namespaces, n.1 = p ∨ n.2.1 = p) ∧ ∀ n ∈ d.namespaces, n.1 = p ∨ n.2.1 = p → n.2.2 = u

/-- The prefix of the identityref `t`, and the namespace of the identity if prefixes are those of the table of modules and names
without prefix belong to the namespace `own`. -/
inductive KeyNs (d : Device) (own : String) : List Char → Option String → String → Prop
  | prefixed {p i : List Char} {u : String} : p ≠ [] → i ≠ [] → ':' ∉ i → ModulePrefix d (String.ofList p) u →
      KeyNs d own (p ++ ':' :: i) (some (String.ofList p)) u
  | bare {t : List Char} : ':' ∉ t → KeyNs d own t none own

/-- If the key `c`, an identityref, has a prefix of the table of modules, or none, then it means that module, or the one of the leaf,
and the namespace has no other prefix there. -/
def KeyHonest (d : Device) (c : Elem) : Prop :=
  ∀ t, c.text = some t → ∀ p u, KeyNs d c.tag.ns t.toList p u → c.nsmap.url p = some u ∧ ∀ q, (q, u) ∈ c.nsmap → q = p

/-- The key `c` is of a plain type, or an identityref with a prefix of the table of modules, or with none. -/
def KeyOk (d : Device) (sn : SNode) (c : Elem) : Prop :=
  sn.info.datatype.plain ∨ (sn.info.datatype = .identityref ∧ KeyHonest d c ∧
    ∀ t, c.text = some t → ∃ p u, KeyNs d c.tag.ns t.toList p u)

/-- What a delta must satisfy at one node: its children have the right shape, the key leaves
of its list entries are proper leaves that are merged (in particular not deleted), its leaves have
proper values. -/
structure DeltaLevel (d : Device) (sc : Scope) (e : Elem) : Prop where
  nsmap : NsMapOk e.nsmap
  shape : ∀ k ∈ e.kids, ∃ f, d.lookup sc k.tag = .ok f ∧ KidOk d f.node k
  keys : ∀ k ∈ e.kids, ∀ f, d.lookup sc k.tag = .ok f → f.node.ntype = .list → ∀ q ∈ f.node.keys,
    (∃ g, d.lookup (.node f.node) q = .ok g ∧ g.node.ntype = .leaf ∧ ∀ c ∈ k.childrenWith q, KeyOk d g.node c) ∧
    ∀ c ∈ k.childrenWith q, opOf c = "merge"
  values : ∀ k ∈ e.kids, ∀ f, d.lookup sc k.tag = .ok f → f.node.ntype = .leaf → LeafValueOk f.node k

/-- The prefix maps of the tree are proper, and keys of type identityref do not use prefixes of the table of modules for other
modules. -/
def NsLevel (d : Device) (sc : Scope) (e : Elem) : Prop :=
  NsMapOk e.nsmap ∧ ∀ k ∈ e.kids, ∀ f, d.lookup sc k.tag = .ok f → f.node.ntype = .list → ∀ q ∈ f.node.keys,
    ∀ g, d.lookup (.node f.node) q = .ok g → g.node.info.datatype = .identityref → ∀ c ∈ k.childrenWith q, KeyHonest d c

/-- No child denotes the instance of `o`. -/
def Absent (d : Device) (sc : Scope) (ks : List Elem) (o : Elem) : Prop :=
  ∀ y ∈ ks, ¬ SameInstance d sc y o

/-- Exactly one child denotes the instance of `o`, and it is `e`. -/
def OnceAs (d : Device) (sc : Scope) (ks : List Elem) (o e : Elem) : Prop :=
  ∃ l r, ks = l ++ e :: r ∧ SameInstance d sc e o ∧ ∀ y ∈ l ++ r, ¬ SameInstance d sc y o

/-- An `insert` value that edit-config does not know, on an entry of an ordered-by-user list or
leaf-list. -/
def BadInsert (f : Found) (k : Elem) : Prop :=
  (f.node.ntype = .leafList ∨ f.node.ntype = .list) ∧ f.node.userOrdered = true ∧
    ∃ i, insertOf k = some i ∧ i ≠ "first" ∧ i ≠ "last" ∧ i ≠ "before" ∧ i ≠ "after"

/-- What a merge into a missing container or list entry starts from: an empty element, or for a
list entry one that has copies of the keys. -/
def Fresh (f : Found) (o s : Elem) : Prop :=
  s.tag = o.tag ∧ s.text = none ∧ s.attrs = [] ∧
    (f.node.ntype = .container → s.kids = []) ∧
    (f.node.ntype = .list → ∀ x ∈ s.kids, ∃ q ∈ f.node.keys, ∃ c ∈ o.childrenWith q, x = c.delAttrib)

/-- edit-config semantics: applying `delta` to `src` gave `res`.  `sub o` is what the child `o` of
the delta was written as, `base o` what a merge of a missing `o` started from. -/
inductive Applied (d : Device) : Scope → Elem → Elem → Elem → Prop
  | mk {sc : Scope} {delta src res : Elem} (sub base : Elem → Elem)
      (ops : ∀ o ∈ delta.kids, opOf o ∈ ["merge", "replace", "create", "delete", "remove"])
      -- what is deleted existed, and is gone
      (delete : ∀ o ∈ delta.kids, opOf o = "delete" →
        (∃ s ∈ src.kids, SameInstance d sc s o) ∧ Absent d sc res.kids o)
      -- what is removed is gone
      (remove : ∀ o ∈ delta.kids, opOf o = "remove" → Absent d sc res.kids o)
      -- what is created did not exist
      (create : ∀ o ∈ delta.kids, opOf o = "create" → Absent d sc src.kids o)
      -- a new instance is there exactly once (unless its insert value is unknown)
      (new : ∀ o ∈ delta.kids, opOf o = "merge" ∨ opOf o = "replace" ∨ opOf o = "create" →
        Absent d sc src.kids o → ∀ f, d.lookup sc o.tag = .ok f →
        (BadInsert f o → Absent d sc res.kids o) ∧ (¬ BadInsert f o → OnceAs d sc res.kids o (sub o)))
      -- an existing instance is there exactly once, unless it is a non-presence container that the
      -- merge has emptied
      (old : ∀ o ∈ delta.kids, opOf o = "merge" ∨ opOf o = "replace" →
        (∃ s ∈ src.kids, SameInstance d sc s o) → ∀ f, d.lookup sc o.tag = .ok f →
        OnceAs d sc res.kids o (sub o) ∨ (f.node.isNP = true ∧ opOf o = "merge" ∧ (sub o).kids = [] ∧
          Absent d sc res.kids o))
      -- leaves get the value of the delta
      (value : ∀ o ∈ delta.kids, opOf o = "merge" ∨ opOf o = "replace" ∨ opOf o = "create" →
        ∀ f, d.lookup sc o.tag = .ok f → f.node.ntype = .leaf →
        parseText d (sub o) f.node = parseText d o f.node)
      -- containers and list entries that are created or replaced are copied
      (copy : ∀ o ∈ delta.kids, opOf o = "replace" ∨ opOf o = "create" →
        ∀ f, d.lookup sc o.tag = .ok f → f.node.ntype = .container ∨ f.node.ntype = .list →
        sub o = o.delAttrib)
      -- those that are merged are merged recursively
      (merge : ∀ o ∈ delta.kids, opOf o = "merge" → ∀ f, d.lookup sc o.tag = .ok f →
        f.node.ntype = .container ∨ f.node.ntype = .list →
        ∀ s ∈ src.kids, SameInstance d sc s o → Applied d (.node f.node) o s (sub o))
      (mergeNew : ∀ o ∈ delta.kids, opOf o = "merge" → Absent d sc src.kids o →
        ∀ f, d.lookup sc o.tag = .ok f → f.node.ntype = .container ∨ f.node.ntype = .list →
        Fresh f o (base o))
      (mergeBase : ∀ o ∈ delta.kids, opOf o = "merge" → Absent d sc src.kids o →
        ∀ f, d.lookup sc o.tag = .ok f → f.node.ntype = .container ∨ f.node.ntype = .list →
        Applied d (.node f.node) o (base o) (sub o))
      -- what the delta does not mention stays as it is
      (others : ∀ s ∈ src.kids, Absent d sc delta.kids s → OnceAs d sc res.kids s s)
      -- and nothing else appears
      (only : ∀ e ∈ res.kids, (∃ s ∈ src.kids, SameInstance d sc s e) ∨
        ∃ o ∈ delta.kids, SameInstance d sc o e ∧ opOf o ≠ "delete" ∧ opOf o ≠ "remove") :
      Applied d sc delta src res

/-- The operation of the child `o` of a delta cannot be carried out on `src`, for reason `x`. -/
inductive BadOp (d : Device) (sc : Scope) (src o : Elem) : DeltaErr → Prop
  | deleteMissing (hop : opOf o = "delete") (h : Absent d sc src.kids o) : BadOp d sc src o .dataMissing
  | createExisting (hop : opOf o = "create") (h : ∃ s ∈ src.kids, SameInstance d sc s o) :
      BadOp d sc src o .dataExists
  | unknown (hop : opOf o ∉ ["merge", "replace", "create", "delete", "remove"]) :
      BadOp d sc src o .unknownOp

/-- One child `o` of the delta, not an insert, cannot be applied to `src`: its operation cannot be
carried out, or it is a merge into an existing container or list entry where that is the case
further down.  Without `o` the delta can be applied. -/
inductive OneFault (d : Device) : Scope → Elem → Elem → DeltaErr → Prop
  | here {sc : Scope} {delta src : Elem} {x : DeltaErr} (l r : List Elem) (o : Elem)
      (kids : delta.kids = l ++ o :: r) (ins : insertOf o = none)
      (rest : ∃ res, nodeAdd d (delta.setKids (l ++ r)) sc src = .ok res)
      (bad : BadOp d sc src o x) : OneFault d sc delta src x
  | inside {sc : Scope} {delta src : Elem} {x : DeltaErr} (l r : List Elem) (o s : Elem) (f : Found)
      (kids : delta.kids = l ++ o :: r) (ins : insertOf o = none)
      (rest : ∃ res, nodeAdd d (delta.setKids (l ++ r)) sc src = .ok res)
      (hs : s ∈ src.kids) (hso : SameInstance d sc s o) (hop : opOf o = "merge")
      (hf : d.lookup sc o.tag = .ok f) (hn : f.node.ntype = .container ∨ f.node.ntype = .list)
      (bad : OneFault d (.node f.node) o s x) : OneFault d sc delta src x

end NcDiff
