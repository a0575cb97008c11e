import Verif.Spec.Trim
/-!
# Specification: validating a config
-/

namespace NcDiff

/-- What a node with children, other than the root, has to look like: a list entry has all its keys, and
there are no edit-config attributes (except empty ones). -/
structure NodeOk (sn : SNode) (e : Elem) : Prop where
  keys : sn.ntype = .list → ∀ q ∈ sn.keys, ∃ c ∈ e.kids, c.tag = q
  attrs : ∀ n ∈ [AName.operation, .insert, .value, .key], ∀ v, e.get n = some v → v = .str ""

/-- Everything in `e` has a schema node, and every node with children is as it has to be. -/
inductive Accepted (d : Device) : Scope → Elem → Prop
  | mk {sc : Scope} {e : Elem} (known : ∀ k ∈ e.kids, ∃ f, d.lookup sc k.tag = .ok f)
      (ok : ∀ k ∈ e.kids, k.kids ≠ [] → ∀ f, d.lookup sc k.tag = .ok f → NodeOk f.node k)
      (sub : ∀ k ∈ e.kids, k.kids ≠ [] → ∀ f, d.lookup sc k.tag = .ok f → Accepted d (.node f.node) k) :
      Accepted d sc e

/-- The schema says that the node is obsolete; or deprecated, if deprecated nodes are to be removed. -/
def Outdated (rd : Bool) (sn : SNode) : Prop :=
  sn.info.status = .obsolete ∨ (sn.info.status = .deprecated ∧ rd = true)

/-- The node `k` is outdated, or it is a non-presence container or list entry in which everything goes. -/
inductive Dropped (d : Device) (rd : Bool) : SNode → Elem → Prop
  | outdated {sn : SNode} {k : Elem} (h : Outdated rd sn) : Dropped d rd sn k
  | emptied {sn : SNode} {k : Elem} (hn : sn.isNP = true ∨ sn.ntype = .list)
      (h : ∀ c ∈ k.kids, ∀ f, d.lookup (.node sn) c.tag = .ok f → Dropped d rd f.node c) : Dropped d rd sn k

/-- `e'` is `e` without such nodes: every child of `e` is either removed, and then it is such a node, or
kept with its content cleaned, and then it is not. -/
inductive CleanedTo (d : Device) (rd : Bool) : Scope → Elem → Elem → Prop
  | mk {sc : Scope} {e e' : Elem} (l : List (Elem × Option Elem))
      (tag : e'.tag = e.tag) (nsmap : e'.nsmap = e.nsmap) (attrs : e'.attrs = e.attrs) (text : e'.text = e.text)
      (src : l.map Prod.fst = e.kids) (dst : l.filterMap Prod.snd = e'.kids)
      (removed : ∀ p ∈ l, p.2 = none → ∀ f, d.lookup sc p.1.tag = .ok f → Dropped d rd f.node p.1)
      (kept : ∀ p ∈ l, ∀ k', p.2 = some k' → ∀ f, d.lookup sc p.1.tag = .ok f → ¬ Dropped d rd f.node p.1)
      (sub : ∀ p ∈ l, ∀ k', p.2 = some k' → ∀ f, d.lookup sc p.1.tag = .ok f → CleanedTo d rd (.node f.node) p.1 k') :
      CleanedTo d rd sc e e'

/-- No key of a list entry in the tree is outdated or anything else than a leaf. -/
def KeysCurrent (d : Device) (rd : Bool) (sc : Scope) (e : Elem) : Prop :=
  Deep d (fun sc e => ∀ k ∈ e.kids, ∀ f, d.lookup sc k.tag = .ok f → f.node.ntype = .list → ∀ c ∈ k.kids,
    c.tag ∈ f.node.keys → ∀ g, d.lookup (.node f.node) c.tag = .ok g → g.node.ntype = .leaf ∧ ¬ Outdated rd g.node) sc e

/-- The roots of a config that is given as an element: the children of `<config>` or `<data>`, which may
be inside `<rpc-reply>`, `<edit-config>` or `<rpc><edit-config>`. -/
inductive RootsIn : Elem → List Elem → Prop
  | config {e : Elem} (h : e.tag = ncTag "config") : RootsIn e e.kids
  | data {e : Elem} (h : e.tag = ncTag "data") : RootsIn e e.kids
  | reply {e : Elem} (h : e.tag = ncTag "rpc-reply") :
      RootsIn e ((e.kids.filter (fun k => k.tag = ncTag "data")).flatMap Elem.kids)
  | edit {e : Elem} (h : e.tag = ncTag "edit-config") :
      RootsIn e ((e.kids.filter (fun k => k.tag = ncTag "config")).flatMap Elem.kids)
  | rpc {e : Elem} (h : e.tag = ncTag "rpc") :
      RootsIn e (((e.kids.filter (fun k => k.tag = ncTag "edit-config")).flatMap Elem.kids).filter
        (fun k => k.tag = ncTag "config") |>.flatMap Elem.kids)

/-- The element is none of these. -/
def Foreign (e : Elem) : Prop := ∀ n ∈ ["config", "data", "rpc-reply", "edit-config", "rpc"], e.tag ≠ ncTag n

/-- A config without content. -/
def noConfig : Elem := .mk (ncTag "config") [(some "nc", ncUrl)] [] none []

end NcDiff
