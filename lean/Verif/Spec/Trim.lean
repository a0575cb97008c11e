import Verif.Spec.Deep
import Verif.Model.Config
/-!
# Specification: trimming default values
-/

namespace NcDiff

/-- Every node of the tree has a schema node. -/
def Known (d : Device) (sc : Scope) (e : Elem) : Prop :=
  Deep d (fun sc e => ∀ k ∈ e.kids, ∃ f, d.lookup sc k.tag = .ok f) sc e

/-- `values` are the values that `dflt`, the default of a leaf-list, lists separated by commas: as a
sequence if the leaf-list is ordered by the user, as a set otherwise. -/
def HasDefaults (sn : SNode) (dflt : String) (values : List (Option String)) : Prop :=
  ∃ ds : List (List Char), ds ≠ [] ∧ (∀ p ∈ ds, ',' ∉ p) ∧ [','].intercalate ds = dflt.toList ∧
    (sn.userOrdered = true → values = ds.map (fun p => some (String.ofList p))) ∧
    (sn.userOrdered = false → ∀ v, v ∈ values ↔ v ∈ ds.map (fun p => some (String.ofList p)))

/-- The node `k`, with schema node `sn` and the siblings `all`, says nothing but defaults: it is a
leaf with its default value, an instance of a leaf-list that has its default values, or a
non-presence container or list entry in which everything says nothing but defaults. -/
inductive Default (d : Device) : SNode → List Elem → Elem → Prop
  | leaf {sn : SNode} {all : List Elem} {k : Elem} (v : String) (hn : sn.ntype = .leaf)
      (hd : sn.info.dflt = some v) (ht : k.text = some v) : Default d sn all k
  | leafList {sn : SNode} {all : List Elem} {k : Elem} (v : String) (hn : sn.ntype = .leafList)
      (hd : sn.info.dflt = some v)
      (hv : HasDefaults sn v ((all.filter (fun x => x.tag = k.tag)).map Elem.text)) : Default d sn all k
  | emptied {sn : SNode} {all : List Elem} {k : Elem} (hn : sn.isNP = true ∨ sn.ntype = .list)
      (h : ∀ c ∈ k.kids, ∀ f, d.lookup (.node sn) c.tag = .ok f → Default d f.node k.kids c) : Default d sn all k

/-- `e'` is `e` without the nodes that say nothing but defaults: every child of `e` is either
removed, and then it is such a node, or kept with its content trimmed, and then it is not. -/
inductive TrimmedTo (d : Device) : Scope → Elem → Elem → Prop
  | mk {sc : Scope} {e e' : Elem} (l : List (Elem × Option Elem))
      (tag : e'.tag = e.tag) (nsmap : e'.nsmap = e.nsmap) (attrs : e'.attrs = e.attrs) (text : e'.text = e.text)
      (src : l.map Prod.fst = e.kids) (dst : l.filterMap Prod.snd = e'.kids)
      (removed : ∀ p ∈ l, p.2 = none → ∀ f, d.lookup sc p.1.tag = .ok f → Default d f.node e.kids p.1)
      (kept : ∀ p ∈ l, ∀ k', p.2 = some k' → ∀ f, d.lookup sc p.1.tag = .ok f → ¬ Default d f.node e.kids p.1)
      (sub : ∀ p ∈ l, ∀ k', p.2 = some k' → ∀ f, d.lookup sc p.1.tag = .ok f → TrimmedTo d (.node f.node) p.1 k') :
      TrimmedTo d sc e e'

end NcDiff
