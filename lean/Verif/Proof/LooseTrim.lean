import Verif.Proof.Loose
import Verif.Proof.Laws
/-!
# Rearrangements with the order of entries made optional
-/

namespace NcDiff

variable {ω : Prop}

/-- A rearrangement; the order of user-ordered entries is kept if `ω`. -/
inductive RearrangedW (ω : Prop) (d : Device) : Scope → Elem → Elem → Prop
  | mk {sc : Scope} {a b : Elem} (l : List Elem)
      (tag : a.tag = b.tag)
      (value : parseTextAt d sc a = parseTextAt d sc b)
      (attrs : ∀ p, p ∈ a.attrs ↔ p ∈ b.attrs)
      (perm : l.Perm a.kids)
      (tags : l.map Elem.tag = b.kids.map Elem.tag)
      (sub : ∀ (i : Nat) x y f, l[i]? = some x → b.kids[i]? = some y → d.lookup sc x.tag = .ok f →
        RearrangedW ω d (.node f.node) x y)
      (order : ω → ∀ t, UserOrdered d sc t →
        l.filter (fun x => x.tag = t) = a.kids.filter (fun x => x.tag = t)) :
      RearrangedW ω d sc a b

theorem rearrangedW_of_same {d : Device} : ∀ (a : Elem) (sc : Scope) (b : Elem), Valid d sc a →
    Valid d sc b → SameW ω d sc a b → RearrangedW ω d sc a b := by
  intro a
  induction a using Elem.ind with
  | h t n at' x ks ih =>
    intro sc b va vb h
    generalize ha : Elem.mk t n at' x ks = a at *
    have hks : a.kids = ks := by rw [← ha]; rfl
    have na := va.indexable.nodup
    have nb := vb.indexable.nodup
    obtain ⟨h1, h2⟩ := h
    cases h1 with
    | mk tag value attrs kids sub order =>
    cases h2 with
    | mk tag2 value2 attrs2 kids2 sub2 order2 =>
    -- the counterpart in `a`
    have hm : ∀ y, ∃ x, y ∈ b.kids → x ∈ a.kids ∧ SameInstance d sc y x := by
      intro y
      by_cases hy : y ∈ b.kids
      · obtain ⟨x, hx, hxy⟩ := kids2 y hy; exact ⟨x, fun _ => ⟨hx, hxy⟩⟩
      · exact ⟨y, fun h => absurd h hy⟩
    choose m hm using hm
    have hu : (b.kids.map m).map (uid d sc) = b.kids.map (uid d sc) := by
      rw [List.map_map, List.map_inj_left]
      intro y hy
      exact (va.same_iff vb (hm y hy).1 hy).2 (hm y hy).2.symm
    have hln : (b.kids.map m).Nodup := List.Nodup.of_map (uid d sc) (by rw [hu]; exact nb)
    have han : a.kids.Nodup := List.Nodup.of_map _ na
    have hperm : (b.kids.map m).Perm a.kids := by
      rw [List.perm_ext_iff_of_nodup hln han]
      intro x
      constructor
      · intro hx
        obtain ⟨y, hy, rfl⟩ := List.mem_map.1 hx
        exact (hm y hy).1
      · intro hx
        obtain ⟨y, hy, hxy⟩ := kids x hx
        have := va.eq_of_same (hm y hy).1 hx ((hm y hy).2.symm.trans hxy.symm)
        rw [← this]
        exact List.mem_map_of_mem hy
    refine RearrangedW.mk (b.kids.map m) tag value (fun p => ⟨attrs p, attrs2 p⟩) hperm ?_ ?_ ?_
    · rw [List.map_map, List.map_inj_left]
      intro y hy
      exact (hm y hy).2.1.symm
    · intro i x y f hx hy hf
      rw [List.getElem?_map, hy] at hx
      simp at hx; subst hx
      have hyb := List.mem_of_getElem? hy
      obtain ⟨hma, hs⟩ := hm y hyb
      have hfy : d.lookup sc y.tag = .ok f := by rw [hs.1]; exact hf
      exact ih (m y) (by rw [← hks]; exact hma) _ y (va.sub' _ hma f hf) (vb.sub' _ hyb f hfy)
        ⟨sub _ hma y hyb hs.symm f hf, sub2 y hyb _ hma hs f hfy⟩
    · intro ho tg hU
      refine eq_of_before (han.filter _) (hperm.filter _) ?_
      intro x y hB
      rw [filter_before] at hB ⊢
      obtain ⟨hB, hx, hy⟩ := hB
      refine ⟨?_, hx, hy⟩
      obtain ⟨i, j, hij, hi, hj⟩ := before_iff.1 hB
      rw [List.getElem?_map, Option.map_eq_some_iff] at hi hj
      obtain ⟨y1, hy1, rfl⟩ := hi
      obtain ⟨y2, hy2, rfl⟩ := hj
      have b1 := List.mem_of_getElem? hy1
      have b2 := List.mem_of_getElem? hy2
      simp only [decide_eq_true_eq] at hx hy
      have ht1 : y1.tag = tg := by rw [(hm y1 b1).2.1]; exact hx
      have ht2 : y2.tag = tg := by rw [(hm y2 b2).2.1]; exact hy
      obtain ⟨x', y', hB', s1, s2⟩ := order2 ho y1 y2 (before_iff.2 ⟨i, j, hij, hy1, hy2⟩)
        (by rw [ht1, ht2]) (by rw [ht1]; exact hU)
      have e1 := va.eq_of_same hB'.mem_left (hm y1 b1).1 (s1.symm.trans (hm y1 b1).2)
      have e2 := va.eq_of_same hB'.mem_right (hm y2 b2).1 (s2.symm.trans (hm y2 b2).2)
      rw [← e1, ← e2]; exact hB'

end NcDiff
