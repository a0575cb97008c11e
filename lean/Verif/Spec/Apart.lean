import Verif.Spec.Config
import Verif.Model.NodeAdd
/-!
# Specification of deltas that have nothing to do with each other
-/

namespace NcDiff

/-- Nodes of this name in the delta are merged into nodes that the config has, without saying where to put them. -/
def MergesOnly (d : Device) (sc : Scope) (delta c : Elem) (t : QName) : Prop :=
  ∀ k ∈ delta.kids, k.tag = t → opOf k = "merge" ∧ insertOf k = none ∧ ∃ e ∈ c.kids, SameInstance d sc e k

/-- Two deltas are independent of each other for a config: names that both of them have are names of leaves, containers or
lists, and such nodes are merged by both; a leaf that both have gets the same value from both (as the keys of a list entry that both
go into); what they have inside a container or a list entry that both have is independent, and they leave something in it if
it would vanish otherwise. -/
inductive Independent (d : Device) : Scope → Elem → Elem → Elem → Prop
  | mk {sc : Scope} {one two c : Elem}
      (shared : ∀ k ∈ one.kids, ∀ l ∈ two.kids, k.tag = l.tag →
        MergesOnly d sc one c k.tag ∧ MergesOnly d sc two c k.tag ∧ ∀ f, d.lookup sc k.tag = .ok f →
          f.node.ntype = .leaf ∨ f.node.ntype = .container ∨ f.node.ntype = .list)
      (leaf : ∀ k ∈ one.kids, ∀ l ∈ two.kids, k.tag = l.tag → ∀ f, d.lookup sc k.tag = .ok f → f.node.ntype = .leaf →
        f.node.info.datatype.plain ∧ k.text = l.text)
      (inside : ∀ k ∈ one.kids, ∀ l ∈ two.kids, ∀ e ∈ c.kids, SameInstance d sc e k → SameInstance d sc e l →
        ∀ f, d.lookup sc k.tag = .ok f → f.node.ntype = .container ∨ f.node.ntype = .list →
          Independent d (.node f.node) k l e)
      (left : ∀ k ∈ one.kids, ∀ l ∈ two.kids, ∀ e ∈ c.kids, SameInstance d sc e k → SameInstance d sc e l →
        ∀ f, d.lookup sc k.tag = .ok f → f.node.isNP = true →
          ∃ x ∈ e.kids, (∀ y ∈ k.kids, y.tag ≠ x.tag) ∧ ∀ y ∈ l.kids, y.tag ≠ x.tag) :
      Independent d sc one two c

/-- Deltas without a common name at the top are independent for every config. -/
theorem Independent.of_names {d : Device} {sc : Scope} {one two : Elem}
    (h : ∀ k ∈ one.kids, ∀ l ∈ two.kids, k.tag ≠ l.tag) (c : Elem) : Independent d sc one two c :=
  .mk (fun k hk l hl e => absurd e (h k hk l hl)) (fun k hk l hl e => absurd e (h k hk l hl))
    (fun k hk l hl _ _ h1 h2 => absurd (h1.1.symm.trans h2.1) (h k hk l hl))
    (fun k hk l hl _ _ h1 h2 => absurd (h1.1.symm.trans h2.1) (h k hk l hl))

/-- The two trees differ in nothing but the order of siblings with different names, at every level. -/
inductive UpToOrder : Elem → Elem → Prop
  | mk {a b : Elem} (tag : a.tag = b.tag) (nsmap : a.nsmap = b.nsmap) (attrs : a.attrs = b.attrs) (text : a.text = b.text)
      (count : ∀ t : QName, (a.childrenWith t).length = (b.childrenWith t).length)
      (kids : ∀ (t : QName) (i : Nat) x y, (a.childrenWith t)[i]? = some x → (b.childrenWith t)[i]? = some y → UpToOrder x y) :
      UpToOrder a b

/-- The delta with some of its nodes at the top only. -/
def partOf (p : QName → Bool) (e : Elem) : Elem := e.setKids (e.kids.filter fun k => p k.tag)

end NcDiff
