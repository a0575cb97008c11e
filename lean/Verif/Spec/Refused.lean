import Verif.Spec.Insert
import Verif.Spec.RoundTrip
/-!
# Specification: deltas that cannot be applied

What can be wrong with a delta for a given config, in terms of the two trees only: nothing here runs
the code.
-/

namespace NcDiff

/-- `o` is to be placed before or after another entry of its list or leaf-list. -/
def Relative (sn : SNode) (o : Elem) : Prop :=
  (sn.ntype = .list ∨ sn.ntype = .leafList) ∧ sn.userOrdered = true ∧
    (Inserts o "before" ∨ Inserts o "after")

/-- `o` is not a deletion. -/
def Stays (o : Elem) : Prop := opOf o ≠ "delete" ∧ opOf o ≠ "remove"

/-- `o` creates what does not exist. -/
def Writes (o : Elem) : Prop := opOf o = "merge" ∨ opOf o = "replace" ∨ opOf o = "create"

/-- What a merge of the missing `o` starts from: an empty container, or a list entry with nothing
but copies of its keys, in the order in which the schema names the keys. -/
structure StartsFrom (f : Found) (o b : Elem) : Prop where
  tag : b.tag = o.tag
  nsmap : b.nsmap = o.nsmap
  attrs : b.attrs = []
  text : b.text = none
  container : f.node.ntype = .container → b.kids = []
  list : f.node.ntype = .list →
    List.Forall₂ (fun q x => ∃ c, o.childrenWith q = [c] ∧ x = c.delAttrib) f.node.keys b.kids

/-- Something is wrong with `delta` for the config `src`, and `x` is the exception for it. -/
inductive Refused (d : Device) : Scope → Elem → Elem → Err → Prop
  /-- something is deleted that does not exist, or created that exists, or the operation is not
  known -/
  | operation {sc : Scope} {delta src : Elem} {x : DeltaErr} (o : Elem) (ho : o ∈ delta.kids)
      (bad : BadOp d sc src o x) : Refused d sc delta src (.configDelta x)
  /-- an entry is placed before or after another without saying which -/
  | anchorMissing {sc : Scope} {delta src : Elem} (o : Elem) (f : Found) (ho : o ∈ delta.kids)
      (hf : d.lookup sc o.tag = .ok f) (hr : Relative f.node o) (hop : Stays o)
      (hm : AnchorMissing f.node o) : Refused d sc delta src (.configDelta .insertMissing)
  /-- the other entry is described in a form that cannot be evaluated -/
  | anchorUnreadable {sc : Scope} {delta src : Elem} (o : Elem) (f : Found) (ho : o ∈ delta.kids)
      (hf : d.lookup sc o.tag = .ok f) (hr : Relative f.node o) (hop : Stays o)
      (hn : f.node.ntype = .list) (hm : ¬ AnchorMissing f.node o) (hg : ¬ AnchorGiven f.node o) :
      Refused d sc delta src .syntaxError
  /-- a new entry is placed before or after another that is neither in the config nor created
  earlier in the delta -/
  | anchorNew {sc : Scope} {delta src : Elem} (l r : List Elem) (o : Elem) (f : Found)
      (kids : delta.kids = l ++ o :: r) (hf : d.lookup sc o.tag = .ok f) (hr : Relative f.node o)
      (hop : Stays o) (new : Absent d sc src.kids o)
      (config : ∀ p ∈ src.kids, ¬ Named f.node o p)
      (created : ∀ p ∈ l, Absent d sc src.kids p → Writes p → ¬ Named f.node o p) :
      Refused d sc delta src (.configDelta .insertWrong)
  /-- an existing entry is placed before or after another that is neither itself nor further down in
  the config, nor further up and not deleted, nor created by the delta -/
  | anchorOld {sc : Scope} {delta src : Elem} (a b : List Elem) (o s : Elem) (f : Found)
      (ho : o ∈ delta.kids) (kids : src.kids = a ++ s :: b) (hso : SameInstance d sc s o)
      (hf : d.lookup sc o.tag = .ok f) (hr : Relative f.node o) (hop : Stays o)
      (down : ∀ p ∈ s :: b, ¬ Named f.node o p)
      (up : ∀ p ∈ a, (∀ o' ∈ delta.kids, SameInstance d sc p o' → Stays o') → ¬ Named f.node o p)
      (created : ∀ p ∈ delta.kids, Absent d sc src.kids p → Writes p → ¬ Named f.node o p) :
      Refused d sc delta src (.configDelta .insertWrong)
  /-- a non-presence container that exists and is empty is replaced or deleted -/
  | empty {sc : Scope} {delta src : Elem} (o s : Elem) (f : Found) (ho : o ∈ delta.kids)
      (hs : s ∈ src.kids) (hso : SameInstance d sc s o) (hf : d.lookup sc o.tag = .ok f)
      (hn : f.node.isNP = true) (hk : s.kids = [])
      (hop : opOf o = "replace" ∨ opOf o = "delete" ∨ opOf o = "remove") :
      Refused d sc delta src .valueError
  /-- an existing leaf gets an identity or an instance-identifier with a namespace that has no prefix
  there -/
  | identity {sc : Scope} {delta src : Elem} (o s : Elem) (f : Found) (ho : o ∈ delta.kids)
      (hs : s ∈ src.kids) (hso : SameInstance d sc s o) (hf : d.lookup sc o.tag = .ok f)
      (hn : f.node.ntype = .leaf) (hop : opOf o = "merge" ∨ opOf o = "replace")
      (hw : ¬ Writable d f.node o s.nsmap) : Refused d sc delta src .configError
  /-- something is wrong inside what is merged into an existing container or list entry -/
  | inside {sc : Scope} {delta src : Elem} {x : Err} (o s : Elem) (f : Found) (ho : o ∈ delta.kids)
      (hs : s ∈ src.kids) (hso : SameInstance d sc s o) (hf : d.lookup sc o.tag = .ok f)
      (hn : f.node.ntype = .container ∨ f.node.ntype = .list) (hop : opOf o = "merge")
      (bad : Refused d (.node f.node) o s x) : Refused d sc delta src x
  /-- something is wrong inside a container or list entry that is merged and does not exist -/
  | insideNew {sc : Scope} {delta src : Elem} {x : Err} (o b : Elem) (f : Found) (ho : o ∈ delta.kids)
      (new : Absent d sc src.kids o) (hf : d.lookup sc o.tag = .ok f)
      (hn : f.node.ntype = .container ∨ f.node.ntype = .list) (hop : opOf o = "merge")
      (hb : StartsFrom f o b) (bad : Refused d (.node f.node) o b x) : Refused d sc delta src x

/-- What is asked of the `insert` and `key` attributes of a delta: positions are first, last, before
or after, and other entries of a list are described by values of its keys; no key is named twice in
the schema. -/
structure InsertLevel (d : Device) (sc : Scope) (e : Elem) : Prop where
  inserts : ∀ k ∈ e.kids, ∀ f, d.lookup sc k.tag = .ok f → ¬ BadInsert f k
  anchors : ∀ k ∈ e.kids, ∀ f, d.lookup sc k.tag = .ok f → f.node.ntype = .list →
    ∀ ps, k.get .key = some (.pred ps) → ∀ x ∈ ps, ∀ q, Denotes k.nsmap x.1 q → q ∈ f.node.keys
  keysOnce : ∀ k ∈ e.kids, ∀ f, d.lookup sc k.tag = .ok f → f.node.ntype = .list → f.node.keys.Nodup

end NcDiff
