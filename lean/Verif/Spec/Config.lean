import Verif.Model.Calculator
/-!
# What it means for configs to be valid, included and equal

Independent of the dictionaries, positions and loops of the code.
-/

namespace NcDiff

/-- A data type whose value is its text (neither identityref nor instance-identifier). -/
def DType.plain : DType → Prop
  | .identityref => False
  | .instanceId => False
  | _ => True

instance (t : DType) : Decidable t.plain := by cases t <;> simp [DType.plain] <;> infer_instance

/-- The texts of the children with a given tag. -/
def keyTexts (e : Elem) (k : QName) : List (Option String) := (e.childrenWith k).map Elem.text

/-- Two siblings denote the same instance: same tag and, for a leaf-list, same value and, for a
list, same key values. -/
def SameInstance (d : Device) (sc : Scope) (x y : Elem) : Prop :=
  x.tag = y.tag ∧ ∀ f, d.lookup sc x.tag = .ok f →
    match f.node.ntype with
    | .leafList => parseText d x f.node = parseText d y f.node
    | .list => ∀ k ∈ f.node.keys, keyTexts x k = keyTexts y k
    | _ => True

/-- The shape of a node of a given schema type: leaves and leaf-lists have no children and a
readable value; a list entry has each key exactly once and no text; the keys of an
ordered-by-user list are leaves of plain types. -/
def KidOk (d : Device) (sn : SNode) (k : Elem) : Prop :=
  match sn.ntype with
  | .leaf => k.kids = [] ∧ ∃ t, parseText d k sn = .ok t
  | .leafList => k.kids = [] ∧ ∃ t, parseText d k sn = .ok t
  | .container => sn.info.datatype.plain
  | .list => k.text = none ∧ sn.info.datatype.plain ∧
      (∀ q ∈ sn.keys, ∃ c, k.childrenWith q = [c]) ∧
      (sn.userOrdered = true → ∀ q ∈ sn.keys, ∃ f, d.lookup (.node sn) q = .ok f ∧
        f.node.ntype = .leaf ∧ f.node.info.datatype.plain)
  | _ => False

/-- A well-formed config tree at schema position `sc`: attribute names differ, every child has a schema node and the
right shape, no two siblings denote the same instance, and all children are valid. -/
inductive Valid (d : Device) : Scope → Elem → Prop
  | mk {sc : Scope} {e : Elem}
      (attrNames : (e.attrs.map Prod.fst).Nodup)
      (shape : ∀ k ∈ e.kids, ∃ f, d.lookup sc k.tag = .ok f ∧ KidOk d f.node k)
      (unique : e.kids.Pairwise (fun x y => ¬ SameInstance d sc x y))
      (sub : ∀ k ∈ e.kids, ∀ f, d.lookup sc k.tag = .ok f → Valid d (.node f.node) k) :
      Valid d sc e

/-- A valid config: a valid tree at the root, without text. -/
structure ValidConfig (d : Device) (e : Elem) : Prop where
  valid : Valid d .root e
  noText : e.text = none

/-- `x` comes before `y` in the list. -/
def Before (l : List Elem) (x y : Elem) : Prop := [x, y].Sublist l

/-- The tag belongs to a list or leaf-list that is ordered by the user. -/
def UserOrdered (d : Device) (sc : Scope) (tag : QName) : Prop :=
  ∃ f, d.lookup sc tag = .ok f ∧ f.node.userOrdered = true ∧
    (f.node.ntype = .leafList ∨ f.node.ntype = .list)

/-- `a` is included in `b`: same tag and value, attributes of `a` are in `b`, every child of `a`
has a counterpart in `b` in which it is included, and user-ordered siblings of `a` come in the same
order in `b`. -/
inductive Incl (d : Device) : Scope → Elem → Elem → Prop
  | mk {sc : Scope} {a b : Elem}
      (tag : a.tag = b.tag)
      (value : parseTextAt d sc a = parseTextAt d sc b)
      (attrs : ∀ p ∈ a.attrs, p ∈ b.attrs)
      (kids : ∀ x ∈ a.kids, ∃ y ∈ b.kids, SameInstance d sc x y)
      (sub : ∀ x ∈ a.kids, ∀ y ∈ b.kids, SameInstance d sc x y →
        ∀ f, d.lookup sc x.tag = .ok f → Incl d (.node f.node) x y)
      (order : ∀ x y, Before a.kids x y → x.tag = y.tag → UserOrdered d sc x.tag →
        ∃ x' y', Before b.kids x' y' ∧ SameInstance d sc x x' ∧ SameInstance d sc y y') :
      Incl d sc a b

/-- Two configs are the same: each is included in the other. -/
def SameConfig (d : Device) (sc : Scope) (a b : Elem) : Prop := Incl d sc a b ∧ Incl d sc b a

/-- `b` is `a` with the children rearranged: same tag, value and attributes; the children of `b` are
those of `a` in another order `l`, each rearranged itself; siblings of one ordered-by-user list or
leaf-list keep their order. -/
inductive Rearranged (d : Device) : Scope → Elem → Elem → Prop
  | mk {sc : Scope} {a b : Elem} (l : List Elem)
      (tag : a.tag = b.tag)
      (value : parseTextAt d sc a = parseTextAt d sc b)
      (attrs : ∀ p, p ∈ a.attrs ↔ p ∈ b.attrs)
      (perm : l.Perm a.kids)
      (tags : l.map Elem.tag = b.kids.map Elem.tag)
      (sub : ∀ (i : Nat) x y f, l[i]? = some x → b.kids[i]? = some y → d.lookup sc x.tag = .ok f →
        Rearranged d (.node f.node) x y)
      (order : ∀ t, UserOrdered d sc t →
        l.filter (fun x => x.tag = t) = a.kids.filter (fun x => x.tag = t)) :
      Rearranged d sc a b

/-- Every list entry has each key once, as a leaf of a plain type. -/
inductive PlainKeys (d : Device) : Scope → Elem → Prop
  | mk {sc : Scope} {e : Elem}
      (keys : ∀ k ∈ e.kids, ∀ f, d.lookup sc k.tag = .ok f → f.node.ntype = .list →
        ∀ q ∈ f.node.keys, ∃ g, d.lookup (.node f.node) q = .ok g ∧
          g.node.ntype = .leaf ∧ g.node.info.datatype.plain)
      (sub : ∀ k ∈ e.kids, ∀ f, d.lookup sc k.tag = .ok f → PlainKeys d (.node f.node) k) :
      PlainKeys d sc e

end NcDiff
