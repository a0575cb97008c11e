import Verif.Spec.Server
/-!
# What a server may have

RFC 6243: servers differ in what they do with leaves that have their default values; these may be there or not.  The
property C72 is about servers of all kinds, so nothing is said here about the values of leaves.
-/

namespace NcDiff.Compile

/-- The values of a leaf-list that are there, `l`, are its default values. -/
def AsDefaults (s : Stmt) (l : List Elem) : Prop :=
  (∀ v, v ∈ l.map (fun k => k.text.getD "") ↔ v ∈ s.info.defaults) ∧
  (s.info.Says "ordered-by" "user" → l.map (fun k => k.text.getD "") = s.info.defaults)

/-- What a server has: every instance once, no text that is an empty string (as lxml reads it), and no leaf-list that is
there with just its default values, see `C72_false_for_leafList`. -/
inductive Sane : List Place → List Elem → Prop
  | mk {pl : List Place} {m : List Elem}
      (once : ∀ p ∈ pl, p.2.info.keyword ∈ ["container", "leaf", "leaf-list", "list"] → ∀ q, Named p.1 q p.2 →
        ((tagged q m).map (identity p)).Nodup)
      (text : ∀ p ∈ pl, p.2.info.keyword = "leaf" ∨ p.2.info.keyword = "leaf-list" → ∀ q, Named p.1 q p.2 →
        ∀ y ∈ tagged q m, y.text ≠ some "")
      (lists : ∀ p ∈ pl, p.2.info.keyword = "leaf-list" → ∀ q, Named p.1 q p.2 → tagged q m ≠ [] →
        ¬ AsDefaults p.2 (tagged q m))
      (sub : ∀ p ∈ pl, p.2.info.keyword = "container" ∨ p.2.info.keyword = "list" → ∀ q, Named p.1 q p.2 →
        ∀ y ∈ tagged q m, Sane (places p.1 p.2.kids) y.kids) : Sane pl m

end NcDiff.Compile
