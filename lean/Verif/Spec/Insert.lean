import Verif.Spec.Shape
import Verif.Spec.Delta
/-!
# Specification: `insert` attributes
-/

namespace NcDiff

/-- The `value` or `key` attribute of `o`, an entry of the leaf-list or list `sn`, names the sibling
`p`: it is the value of `p`, or `p` has all the key values that it gives. -/
def Named (sn : SNode) (o p : Elem) : Prop :=
  p.tag = o.tag ∧
  match sn.ntype with
  | .leafList => ∃ v, o.get .value = some (.str v) ∧ p.text = some v
  | .list => ∃ ps, o.get .key = some (.pred ps) ∧
      ∀ x ∈ ps, ∃ q, Denotes o.nsmap x.1 q ∧ ∃ c ∈ p.childrenWith q, c.itertext = x.2
  | _ => False

/-- `o` does not say which sibling it is to be inserted before or after. -/
def AnchorMissing (sn : SNode) (o : Elem) : Prop :=
  match sn.ntype with
  | .leafList => o.get .value = none
  | .list => o.get .key = none
  | _ => False

/-- `o` says which sibling, in a form that can be evaluated: no apostrophes in key values, and only
known prefixes. -/
def AnchorGiven (sn : SNode) (o : Elem) : Prop :=
  match sn.ntype with
  | .leafList => ∃ v, o.get .value = some (.str v)
  | .list => ∃ ps, o.get .key = some (.pred ps) ∧ ∀ x ∈ ps, '\'' ∉ x.2.toList ∧ ∃ q, Denotes o.nsmap x.1 q
  | _ => False

/-- `o` asks for position `i`. -/
def Inserts (o : Elem) (i : String) : Prop := o.get .insert = some (.str i)

/-- `K` is `B` with `e` added at the position that `o` asks for: first or last among the siblings
with the same tag, or immediately before or after the first sibling that is named. -/
inductive PlacedAs (sn : SNode) (o e : Elem) (B K : List Elem) : Prop
  | first (l r : List Elem) (hi : Inserts o "first") (hB : B = l ++ r) (hK : K = l ++ e :: r)
      (h : ∀ x ∈ l, x.tag ≠ o.tag)
  | last (l r : List Elem) (hi : Inserts o "last") (hB : B = l ++ r) (hK : K = l ++ e :: r)
      (h : ∀ x ∈ r, x.tag ≠ o.tag)
  | before (l r : List Elem) (p : Elem) (hi : Inserts o "before") (hB : B = l ++ p :: r)
      (hK : K = l ++ e :: p :: r) (hp : Named sn o p) (h : ∀ x ∈ l, ¬ Named sn o x)
  | after (l r : List Elem) (p : Elem) (hi : Inserts o "after") (hB : B = l ++ p :: r)
      (hK : K = l ++ p :: e :: r) (hp : Named sn o p) (h : ∀ x ∈ l, ¬ Named sn o x)

/-- `o` asks for one of the four positions, in a list or leaf-list where they mean something. -/
def Asks (sn : SNode) (o : Elem) : Prop :=
  (sn.ntype = .list ∨ sn.ntype = .leafList) ∧ sn.userOrdered = true ∧
    ∃ i ∈ ["first", "last", "before", "after"], Inserts o i

/-- `K'` is `K` with the new child `e` that `o` describes. -/
inductive Arrives (sn : SNode) (o e : Elem) (K K' : List Elem) : Prop
  | unordered (hn : sn.ntype = .leaf ∨ sn.ntype = .container) (hK : K' = K ++ [e])
  | last (l r : List Elem) (hn : sn.ntype = .list ∨ sn.ntype = .leafList)
      (hi : sn.userOrdered = false ∨ o.get .insert = none) (hK : K = l ++ r) (hK' : K' = l ++ e :: r)
      (h : ∀ x ∈ r, x.tag ≠ o.tag)
  | placed (hi : Asks sn o) (h : PlacedAs sn o e K K')
  | ignored (hn : sn.ntype = .list ∨ sn.ntype = .leafList) (hu : sn.userOrdered = true)
      (hi : ∃ v, o.get .insert = some v) (ha : ¬ Asks sn o) (hK : K' = K)

/-- One child `o` of a delta, which denotes nothing in the config, is applied to the siblings `K`. -/
inductive Created (d : Device) (sc : Scope) (o : Elem) (K K' : List Elem) : Prop
  | nothing (hop : opOf o = "remove") (hK : K' = K)
  | new (f : Found) (e : Elem) (hf : d.lookup sc o.tag = .ok f) (he : SameInstance d sc e o)
      (hop : opOf o = "merge" ∨ opOf o = "replace" ∨ opOf o = "create")
      (h : Arrives f.node o e K K')

/-- `K'` is `a ++ s :: b` with `e` instead of `s`, where `o` wants it. -/
inductive Moves (sn : SNode) (o s e : Elem) (a b K' : List Elem) : Prop
  | stays (hi : ¬ Asks sn o) (hK : K' = a ++ e :: b)
  | placed (hi : Asks sn o) (h : PlacedAs sn o e (a ++ b) K')
  | itself (hi : Inserts o "before" ∨ Inserts o "after") (h : Asks sn o) (hs : Named sn o s)
      (ha : ∀ x ∈ a, ¬ Named sn o x) (hK : K' = a ++ e :: b)

/-- One child `o` of a delta, which denotes the existing child `s`, is applied to the siblings `K`. -/
inductive Changed (d : Device) (sc : Scope) (s o : Elem) (K K' : List Elem) : Prop
  | gone (f : Found) (a b : List Elem) (hf : d.lookup sc o.tag = .ok f) (hK : K = a ++ s :: b)
      (hK' : K' = a ++ b)
      (h : opOf o = "delete" ∨ opOf o = "remove" ∨ (f.node.ntype = .container ∧ opOf o = "merge"))
  | there (f : Found) (e : Elem) (a b : List Elem) (hf : d.lookup sc o.tag = .ok f)
      (hK : K = a ++ s :: b) (he : SameInstance d sc e o)
      (hop : opOf o = "merge" ∨ opOf o = "replace") (h : Moves f.node o s e a b K')

/-- A sequence of steps. -/
inductive Runs {α σ : Type} (R : α → σ → σ → Prop) : List α → σ → σ → Prop
  | nil (s : σ) : Runs R [] s s
  | cons {a : α} {l : List α} {s t u : σ} (h : R a s t) (r : Runs R l t u) : Runs R (a :: l) s u

open Classical in
/-- The children of `D` are applied to the children of `S` one after the other, first those that
denote nothing in `S`, in the order of `D`, then the others, in the order of `S`, and this gives the
children of `R`; and the same holds inside every child that is merged (into an empty container or an
entry with nothing but its keys, `base o`, when it is new). -/
inductive Positioned (d : Device) : Scope → Elem → Elem → Elem → Prop
  | mk {sc : Scope} {D S R : Elem} (M : List Elem) (old : List (Elem × Elem)) (base : Elem → Elem)
      (new : Runs (Created d sc) (D.kids.filter (fun o => ∀ s ∈ S.kids, ¬ SameInstance d sc s o)) S.kids M)
      (order : (old.map Prod.fst).Sublist S.kids)
      (all : ∀ p, p ∈ old ↔ p.1 ∈ S.kids ∧ p.2 ∈ D.kids ∧ SameInstance d sc p.1 p.2)
      (change : Runs (fun p => Changed d sc p.1 p.2) old M R.kids)
      (inside : ∀ o ∈ D.kids, ∀ f, d.lookup sc o.tag = .ok f →
        f.node.ntype = .container ∨ f.node.ntype = .list → opOf o = "merge" →
        ∀ t ∈ R.kids, SameInstance d sc t o → ∀ s, s ∈ S.kids → SameInstance d sc s o →
        Positioned d (.node f.node) o s t)
      (within : ∀ o ∈ D.kids, ∀ f, d.lookup sc o.tag = .ok f →
        f.node.ntype = .container ∨ f.node.ntype = .list → opOf o = "merge" →
        ∀ t ∈ R.kids, SameInstance d sc t o → (∀ s ∈ S.kids, ¬ SameInstance d sc s o) →
        Positioned d (.node f.node) o (base o) t)
      (fresh : ∀ o ∈ D.kids, ∀ f, d.lookup sc o.tag = .ok f →
        f.node.ntype = .container ∨ f.node.ntype = .list → opOf o = "merge" →
        (∀ s ∈ S.kids, ¬ SameInstance d sc s o) → Fresh f o (base o)) :
      Positioned d sc D S R

/-- A delta with an insert position that cannot be found: `before` or `after` without saying what
(everything else in the delta can be applied), or the only change wants to be before or after an
entry that is not there, or one of these is so further down, in something that exists. -/
inductive InsertFault (d : Device) : Scope → Elem → Elem → DeltaErr → Prop
  | missing {sc : Scope} {delta src : Elem} (l r : List Elem) (o : Elem) (f : Found)
      (kids : delta.kids = l ++ o :: r)
      (rest : ∃ res, nodeAdd d (delta.setKids (l ++ r)) sc src = .ok res)
      (hf : d.lookup sc o.tag = .ok f) (ha : Asks f.node o)
      (hi : Inserts o "before" ∨ Inserts o "after")
      (hop : opOf o = "merge" ∨ opOf o = "replace" ∨
        (opOf o = "create" ∧ ∀ s ∈ src.kids, ¬ SameInstance d sc s o))
      (hm : AnchorMissing f.node o) : InsertFault d sc delta src .insertMissing
  | wrong {sc : Scope} {delta src : Elem} (o : Elem) (f : Found) (kids : delta.kids = [o])
      (hf : d.lookup sc o.tag = .ok f) (ha : Asks f.node o)
      (hi : Inserts o "before" ∨ Inserts o "after")
      (hop : opOf o = "merge" ∨ opOf o = "replace" ∨
        (opOf o = "create" ∧ ∀ s ∈ src.kids, ¬ SameInstance d sc s o))
      (hg : AnchorGiven f.node o) (hno : ∀ x ∈ src.kids, ¬ Named f.node o x) :
      InsertFault d sc delta src .insertWrong
  | inside {sc : Scope} {delta src : Elem} {x : DeltaErr} (l r : List Elem) (o s : Elem) (f : Found)
      (kids : delta.kids = l ++ o :: r) (ins : insertOf o = none)
      (rest : ∃ res, nodeAdd d (delta.setKids (l ++ r)) sc src = .ok res)
      (hs : s ∈ src.kids) (hso : SameInstance d sc s o) (hop : opOf o = "merge")
      (hf : d.lookup sc o.tag = .ok f) (hn : f.node.ntype = .container ∨ f.node.ntype = .list)
      (bad : InsertFault d (.node f.node) o s x) : InsertFault d sc delta src x

end NcDiff
