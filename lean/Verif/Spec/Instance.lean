import Verif.Spec.Transition
import Verif.Spec.Validate
/-!
# Specification: documents that configs are made of
-/

namespace NcDiff

/-- Keys have no default, and are not outdated. -/
def KeyLevel (d : Device) (rd : Bool) (sc : Scope) (e : Elem) : Prop :=
  ∀ k ∈ e.kids, ∀ f, d.lookup sc k.tag = .ok f → f.node.info.isKey = true →
    f.node.info.dflt = none ∧ ¬ Outdated rd f.node

/-- A tree that a config can be made of: like `PlainConfig`, but defaults and empty containers may be there. -/
structure RawConfig (d : Device) (rd : Bool) (e : Elem) : Prop where
  valid : ValidConfig d e
  bare : NoAttrs e
  level : Deep d (ConfLevel d) .root e
  keys : Deep d (KeyLevel d rd) .root e
  /-- identityrefs have no defaults -/
  defaults : Deep d (DefaultLevel d) .root e

/-- `e'` is `e` without some nodes; no key of a list entry is removed. -/
inductive Pruned (d : Device) : Scope → Elem → Elem → Prop
  | mk {sc : Scope} {e e' : Elem} (l : List (Elem × Option Elem))
      (tag : e'.tag = e.tag) (nsmap : e'.nsmap = e.nsmap) (attrs : e'.attrs = e.attrs) (text : e'.text = e.text)
      (src : l.map Prod.fst = e.kids) (dst : l.filterMap Prod.snd = e'.kids)
      (keys : ∀ sn, sc = .node sn → ∀ p ∈ l, p.1.tag ∈ sn.keys → p.2 ≠ none)
      (known : ∀ p ∈ l, ∃ f, d.lookup sc p.1.tag = .ok f)
      (sub : ∀ p ∈ l, ∀ k', p.2 = some k' → ∀ f, d.lookup sc p.1.tag = .ok f → Pruned d (.node f.node) p.1 k') :
      Pruned d sc e e'

end NcDiff
