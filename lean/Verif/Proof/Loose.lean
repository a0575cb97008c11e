import Verif.Proof.Laws
import Verif.Spec.Loose
/-!
# Sameness and conditions with the order of entries made optional

The proposition `ω` says whether the order of user-ordered entries counts.  With `ω` true these
are `SameConfig` and `Compat`; with `ω` false `SameAnyOrder` and `Matched`.
-/

namespace NcDiff

variable {ω : Prop} {d : Device} {sc : Scope}

/-- Inclusion; the order counts if `ω`. -/
inductive InclW (ω : Prop) (d : Device) : Scope → Elem → Elem → Prop
  | mk {sc : Scope} {a b : Elem}
      (tag : a.tag = b.tag)
      (value : parseTextAt d sc a = parseTextAt d sc b)
      (attrs : ∀ p ∈ a.attrs, p ∈ b.attrs)
      (kids : ∀ x ∈ a.kids, ∃ y ∈ b.kids, SameInstance d sc x y)
      (sub : ∀ x ∈ a.kids, ∀ y ∈ b.kids, SameInstance d sc x y →
        ∀ f, d.lookup sc x.tag = .ok f → InclW ω d (.node f.node) x y)
      (order : ω → ∀ x y, Before a.kids x y → x.tag = y.tag → UserOrdered d sc x.tag →
        ∃ x' y', Before b.kids x' y' ∧ SameInstance d sc x x' ∧ SameInstance d sc y y') :
      InclW ω d sc a b

def SameW (ω : Prop) (d : Device) (sc : Scope) (a b : Elem) : Prop := InclW ω d sc a b ∧ InclW ω d sc b a

/-- The node and the non-presence containers below it are not empty. -/
def Full (d : Device) (f : Found) (e : Elem) : Prop :=
  (f.node.isNP = true → e.kids ≠ []) ∧ Deep d (FilledLevel d) (.node f.node) e

theorem Deep.full {f : Found} {e k : Elem} (h : Deep d (FilledLevel d) sc e) (hk : k ∈ e.kids)
    (hf : d.lookup sc k.tag = .ok f) : Full d f k := ⟨h.here' k hk f hf, h.sub' k hk f hf⟩

/-- What source and target have to satisfy; the order counts if `ω`. -/
inductive CompatW (ω : Prop) (d : Device) : Scope → Elem → Elem → Prop
  | mk {sc : Scope} {S T : Elem}
      (choice : ∀ s ∈ S.kids, ∀ k ∈ T.kids, Absent d sc T.kids s → Absent d sc S.kids k →
        ∀ f g, d.lookup sc s.tag = .ok f → d.lookup sc k.tag = .ok g → SameCase f g)
      (order : ω → ∀ t, UserOrdered d sc t → OrderSettles d sc t S.kids T.kids)
      (values : ∀ s ∈ S.kids, ∀ k ∈ T.kids, SameInstance d sc s k → ∀ f, d.lookup sc k.tag = .ok f →
        f.node.ntype = .leaf → (f.node.info.isKey = true ∧ s.text ≠ k.text) ∨ parseText d s f.node ≠ parseText d k f.node →
        Writable d f.node k s.nsmap)
      (sub : ∀ s ∈ S.kids, ∀ k ∈ T.kids, SameInstance d sc s k → ∀ f, d.lookup sc k.tag = .ok f →
        f.node.ntype = .container ∨ f.node.ntype = .list → CompatW ω d (.node f.node) s k)
      (gone : ∀ s ∈ S.kids, Absent d sc T.kids s → ∀ f, d.lookup sc s.tag = .ok f → Full d f s)
      (full : Deep d (FilledLevel d) sc T) :
      CompatW ω d sc S T

theorem CompatW.full' {a b : Elem} (h : CompatW ω d sc a b) : Deep d (FilledLevel d) sc b := by
  cases h; assumption

theorem Incl.loose {a b : Elem} (h : Incl d sc a b) : InclW ω d sc a b := by
  induction h with
  | mk t v at' k _ o ih => exact ⟨t, v, at', k, ih, fun _ => o⟩

theorem InclW.tight {a b : Elem} (h : InclW True d sc a b) : Incl d sc a b := by
  induction h with
  | mk t v at' k _ o ih => exact ⟨t, v, at', k, ih, o trivial⟩

theorem InclW.anyOrder {a b : Elem} (h : InclW ω d sc a b) : InclAnyOrder d sc a b := by
  induction h with
  | mk t v at' k _ _ ih => exact ⟨t, v, at', k, ih⟩

theorem SameConfig.loose {a b : Elem} (h : SameConfig d sc a b) : SameW ω d sc a b := ⟨h.1.loose, h.2.loose⟩
theorem SameW.tight {a b : Elem} (h : SameW True d sc a b) : SameConfig d sc a b := ⟨h.1.tight, h.2.tight⟩
theorem SameW.anyOrder {a b : Elem} (h : SameW ω d sc a b) : SameAnyOrder d sc a b := ⟨h.1.anyOrder, h.2.anyOrder⟩

theorem Compat.loose {a b : Elem} (h : Compat d sc a b) (ha : Deep d (FilledLevel d) sc a)
    (hb : Deep d (FilledLevel d) sc b) : CompatW ω d sc a b := by
  induction h with
  | mk c o v _ ih =>
    exact ⟨c, fun _ => o, v, fun s hs k hk h f hf hn => ih s hs k hk h f hf hn
      (ha.sub' s hs f (by rw [h.1]; exact hf)) (hb.sub' k hk f hf), fun s hs _ f hf => ha.full hs hf, hb⟩

theorem Matched.loose {a b : Elem} (h : Matched d sc a b) (ha : Deep d (FilledLevel d) sc a)
    (hb : Deep d (FilledLevel d) sc b) : CompatW False d sc a b := by
  induction h with
  | mk c v _ ih =>
    exact ⟨c, False.elim, v, fun s hs k hk h f hf hn => ih s hs k hk h f hf hn
      (ha.sub' s hs f (by rw [h.1]; exact hf)) (hb.sub' k hk f hf), fun s hs _ f hf => ha.full hs hf, hb⟩

theorem Compat.matched {a b : Elem} (h : Compat d sc a b) : Matched d sc a b := by
  induction h with
  | mk c o v _ ih => exact ⟨c, v, ih⟩

theorem Compat.settles {a b : Elem} (h : Compat d sc a b) : AllSettle d sc a b := by
  induction h with
  | mk c o v _ ih => exact ⟨o, ih⟩

theorem Matched.compat {a b : Elem} (h : Matched d sc a b) (hs : AllSettle d sc a b) : Compat d sc a b := by
  induction h with
  | mk c v _ ih =>
    cases hs with
    | mk o sub => exact ⟨c, o, v, fun s hs k hk hsk f hf hn => ih s hs k hk hsk f hf hn (sub s hs k hk hsk f hf hn)⟩

/-- A config that a difference starts from. -/
structure SourceConfig (d : Device) (c : Elem) : Prop where
  valid : ValidConfig d c
  bare : NoAttrs c
  level : Deep d (ConfLevel d) .root c

theorem PlainConfig.source {c : Elem} (h : PlainConfig d c) : SourceConfig d c := ⟨h.valid, h.bare, h.level⟩

/-- Two configs between which a delta is computed; the order counts if `ω`. -/
structure TransitionW (ω : Prop) (d : Device) (c1 c2 : Elem) : Prop where
  src : SourceConfig d c1
  dst : PlainConfig d c2
  srcTag : c1.tag = ncTag "config"
  dstTag : c2.tag = ncTag "config"
  compat : CompatW ω d .root c1 c2
  trimmed : trimDefaults d .root c2 = .ok c2
  defaults : Deep d (DefaultLevel d) .root c2

theorem Transition.loose {a b : Elem} (h : Transition d a b) : TransitionW ω d a b :=
  ⟨h.src.source, h.dst, h.srcTag, h.dstTag, h.compat.loose h.src.filled h.dst.filled, h.trimmed, h.defaults⟩

theorem AnyOrder.loose {a b : Elem} (h : AnyOrder d a b) : TransitionW False d a b :=
  ⟨h.src.source, h.dst, h.srcTag, h.dstTag, h.matched.loose h.src.filled h.dst.filled, h.trimmed, h.defaults⟩

/-- A pair of configs that meets the conditions of C01 meets those without order. -/
theorem Transition.anyOrder {a b : Elem} (h : Transition d a b) : AnyOrder d a b :=
  ⟨h.src, h.dst, h.srcTag, h.dstTag, h.compat.matched, h.trimmed, h.defaults⟩

theorem AnyOrder.transition {a b : Elem} (h : AnyOrder d a b) (hs : AllSettle d .root a b) : Transition d a b :=
  ⟨h.src, h.dst, h.srcTag, h.dstTag, h.matched.compat hs, h.trimmed, h.defaults⟩

end NcDiff
