import Verif.Spec.Apart
import Verif.Spec.Delta
import Verif.Spec.Minimal
/-!
# Specification of merging two changes of one config
-/

namespace NcDiff

/-- The two configs have the same nodes with this name at the top. -/
def AlikeAt (d : Device) (t : QName) (a b : Elem) : Prop :=
  SameConfig d .root (partOf (fun q => decide (q = t)) a) (partOf (fun q => decide (q = t)) b)

/-- `w` has the changes from `b` to `x` and those from `b` to `y`: no name at the top is that of a change in both, and where one of
them has changed nothing, `w` has what the other has. -/
structure MergeOf (d : Device) (b x y w : Elem) : Prop where
  one : ∀ t, AlikeAt d t b x ∨ AlikeAt d t b y
  fromX : ∀ t, AlikeAt d t b y → AlikeAt d t w x
  fromY : ∀ t, AlikeAt d t b x → AlikeAt d t w y

theorem MergeOf.swap {d : Device} {b x y w : Elem} (h : MergeOf d b x y w) : MergeOf d b y x w :=
  ⟨fun t => (h.one t).symm, h.fromY, h.fromX⟩

/-- Of the instance that `k` denotes, `a` and `b` have the same: none of them has it, or both have it with the same content. -/
def Unchanged (d : Device) (sc : Scope) (k a b : Elem) : Prop :=
  (Absent d sc a.kids k ∧ Absent d sc b.kids k) ∨ ∃ x ∈ a.kids, ∃ y ∈ b.kids, SameInstance d sc x k ∧ SameInstance d sc y k ∧
    ∀ f, d.lookup sc k.tag = .ok f → SameConfig d (.node f.node) x y

/-- One of the children denotes the instance that `k` denotes. -/
def HasInst (d : Device) (sc : Scope) (k a : Elem) : Prop := ∃ x ∈ a.kids, SameInstance d sc x k

/-- `w` has the changes from `b` to `x` and those from `b` to `y`, at all levels: an instance that only one of them has changed (or
added, or removed) is in `w` what it is there; an instance that both have changed is a container or an entry of a list which all of
them have, and in it `w` has the changes of both.  At such a place the keys, and lists and leaf-lists that are ordered by the user, are
the same in all of them. -/
inductive DeepMerge (d : Device) : Scope → Elem → Elem → Elem → Elem → Prop
  | mk {sc : Scope} {b x y w : Elem}
      (tag : b.tag = x.tag ∧ b.tag = y.tag ∧ b.tag = w.tag)
      (value : parseTextAt d sc b = parseTextAt d sc x ∧ parseTextAt d sc b = parseTextAt d sc y ∧ parseTextAt d sc b = parseTextAt d sc w)
      (fromX : ∀ k ∈ b.kids ++ x.kids ++ y.kids ++ w.kids, Unchanged d sc k b y → Unchanged d sc k x w)
      (fromY : ∀ k ∈ b.kids ++ x.kids ++ y.kids ++ w.kids, Unchanged d sc k b x → Unchanged d sc k y w)
      (both : ∀ k ∈ b.kids ++ x.kids ++ y.kids ++ w.kids, ¬ Unchanged d sc k b x → ¬ Unchanged d sc k b y →
        HasInst d sc k b ∧ HasInst d sc k x ∧ HasInst d sc k y ∧ HasInst d sc k w ∧ ∀ f, d.lookup sc k.tag = .ok f →
          f.node.ntype = .container ∨ f.node.ntype = .list)
      (inside : ∀ kb ∈ b.kids, ∀ kx ∈ x.kids, ∀ ky ∈ y.kids, ∀ kw ∈ w.kids, SameInstance d sc kb kx → SameInstance d sc kb ky →
        SameInstance d sc kb kw → ¬ Unchanged d sc kb b x → ¬ Unchanged d sc kb b y → ∀ f, d.lookup sc kb.tag = .ok f →
          DeepMerge d (.node f.node) kb kx ky kw)
      (fixed : ∀ t f, d.lookup sc t = .ok f → Repeated f →
        SameConfig d sc (partOf (fun q => decide (q = t)) b) (partOf (fun q => decide (q = t)) x) ∧
        SameConfig d sc (partOf (fun q => decide (q = t)) b) (partOf (fun q => decide (q = t)) y) ∧
        SameConfig d sc (partOf (fun q => decide (q = t)) b) (partOf (fun q => decide (q = t)) w)) :
      DeepMerge d sc b x y w

theorem DeepMerge.swap {d : Device} {sc : Scope} {b x y w : Elem} (h : DeepMerge d sc b x y w) : DeepMerge d sc b y x w := by
  induction h with
  | mk tag value fromX fromY both inside fixed ih =>
    have hm : ∀ {k : Elem} {b x y w : List Elem}, k ∈ b ++ y ++ x ++ w → k ∈ b ++ x ++ y ++ w := by
      intro k b x y w h
      simp only [List.mem_append] at h ⊢
      tauto
    refine .mk ⟨tag.2.1, tag.1, tag.2.2⟩ ⟨value.2.1, value.1, value.2.2⟩ (fun k hk => fromY k (hm hk)) (fun k hk => fromX k (hm hk))
      (fun k hk h1 h2 => ?_) (fun kb hb ky hy kx hx kw hw h1 h2 h3 n1 n2 f hf => ih kb hb kx hx ky hy kw hw h2 h1 h3 n2 n1 f hf)
      (fun t f hf hr => ⟨(fixed t f hf hr).2.1, (fixed t f hf hr).1, (fixed t f hf hr).2.2⟩)
    obtain ⟨p1, p2, p3, p4, p5⟩ := both k (hm hk) h2 h1
    exact ⟨p1, p3, p2, p4, p5⟩

end NcDiff
