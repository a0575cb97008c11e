import Verif.Spec.Config
import Mathlib.Data.List.Forall2
/-!
# Specification: when moving the entries one after another ends in the order of the target

The entries of the target are numbered `0`, `1`, `2`, … in the order of the target.  Each entry is
put at the front if it is number `0`, and right behind its predecessor otherwise.  New entries go
first, in the order of the target.  The entries that stay follow, in the order of the source.
-/

namespace NcDiff

/-- Puts entry number `j` where it belongs: at the front, or right behind entry number `j - 1`. -/
def putRank (l : List Nat) : Nat → List Nat
  | 0 => 0 :: l.filter (· ≠ 0)
  | j + 1 => (l.filter (· ≠ j + 1)).flatMap (fun y => if y = j then [j, j + 1] else [y])

/-- What comes out of it, for a target with `n` entries.  `σ` are the numbers of the entries that
stay, in the order of the source. -/
def settle (n : Nat) (σ : List Nat) : List Nat :=
  ((List.range n).filter (· ∉ σ) ++ σ).foldl putRank σ

/-- The entries end up in the order of the target. -/
def Settles (n : Nat) (σ : List Nat) : Prop := settle n σ = List.range n

/-- `σ` are the numbers, among the children of the target with tag `t`, of those that are in the
source as well, in the order of the source. -/
def Ranks (d : Device) (sc : Scope) (t : QName) (S T : List Elem) (σ : List Nat) : Prop :=
  ∃ m : List Elem, m.Sublist S ∧
    (∀ s ∈ S, s ∈ m ↔ s.tag = t ∧ ∃ k ∈ T, SameInstance d sc s k) ∧
    List.Forall₂ (fun s j => ∃ k, (T.filter (fun k => k.tag = t))[j]? = some k ∧ SameInstance d sc s k) m σ

/-- Moving the children with tag `t` one after another ends in the order of the target. -/
def OrderSettles (d : Device) (sc : Scope) (t : QName) (S T : List Elem) : Prop :=
  ∃ σ, Ranks d sc t S T σ ∧ Settles (T.filter (fun k => k.tag = t)).length σ

/-! Conditions that are easier to read and to check. -/

/-- The entries of `t` that are in both `S` and `T` are in the same order. -/
def KeepsOrder (d : Device) (sc : Scope) (t : QName) (S T : List Elem) : Prop :=
  ∀ x y, Before S x y → x.tag = t → y.tag = t → ∀ x' ∈ T, ∀ y' ∈ T,
    SameInstance d sc x x' → SameInstance d sc y y' → Before T x' y'

/-- The entries `l` are in `S`, in this order. -/
def InOrderOf (d : Device) (sc : Scope) (S l : List Elem) : Prop :=
  ∀ x y, Before l x y → ∃ x' y', Before S x' y' ∧ SameInstance d sc x' x ∧ SameInstance d sc y' y

/-- No entry of `t` is new in `T`, and the entries of `t` in `T` are one part of those in `S`
followed by the others, each part in the order of `S`: for example one entry moved to anywhere, or
several entries in a row moved together. -/
def MovesPart (d : Device) (sc : Scope) (t : QName) (S T : List Elem) : Prop :=
  (∀ k ∈ T, k.tag = t → ∃ s ∈ S, SameInstance d sc s k) ∧
    ∃ X Y, T.filter (fun k => k.tag = t) = X ++ Y ∧ InOrderOf d sc S X ∧ InOrderOf d sc S Y

end NcDiff
