import Verif.Proof.Commute
import Verif.Proof.StandIn
import Verif.Props.Minimal
import Verif.Spec.ThreeWay
/-!
# Merging two changes of one config
-/

namespace NcDiff
namespace Apart
variable {d : Device}

/-- The sum depends on the children only. -/
theorem nodeAdd_outer {sc : Scope} {s s' o r : Elem} (h : nodeAdd d o sc s = .ok r) (hk : s'.kids = s.kids) :
    nodeAdd d o sc s' = .ok (s'.setKids r.kids) := by
  obtain ⟨i1, i2, _⟩ := nodeAdd_inv h
  rw [nodeAdd_eq_run i1 i2] at h
  rw [nodeAdd_eq_run (by rw [hk]; exact i1) i2, hk]
  cases hx : run d sc s.kids.zipIdx (table d o.kids) with
  | error e => rw [hx] at h; cases h
  | ok st =>
    rw [hx] at h
    have := Except.ok.inj h
    rw [← this, Elem.kids_setKids]
    rfl

theorem before_only {l : List Elem} {x y : Elem} {P : QName → Bool} (h : Before l x y) (hx : P x.tag = true) (hy : P y.tag = true) :
    Before (l.filter fun k => P k.tag) x y := by
  have := List.Sublist.filter (fun k : Elem => P k.tag) h
  simpa [hx, hy, Before] using this

/-- Parts of configs that are included in each other. -/
theorem incl_only {sc : Scope} {a b : Elem} (h : Incl d sc a b) (P : QName → Bool) : Incl d sc (only P a) (only P b) := by
  have mem : ∀ {e x : Elem}, x ∈ (only P e).kids ↔ x ∈ e.kids ∧ P x.tag = true := by
    intro e x; rw [only_kids, List.mem_filter]
  have ht : ∀ e : Elem, (only P e).tag = e.tag ∧ (only P e).attrs = e.attrs ∧ (only P e).text = e.text := by
    intro e; unfold only; cases e; exact ⟨rfl, rfl, rfl⟩
  have hv : ∀ e : Elem, parseTextAt d sc (only P e) = parseTextAt d sc e := fun e => parseTextAt_setKids
  cases h with
  | mk h1 h2 h3 h4 h5 h6 =>
    refine .mk (by rw [(ht a).1, (ht b).1, h1]) (by rw [hv, hv, h2]) (by rw [(ht a).2.1, (ht b).2.1]; exact h3) ?_ ?_ ?_
    · intro x hx
      obtain ⟨y, hy, hs⟩ := h4 x (mem.1 hx).1
      exact ⟨y, mem.2 ⟨hy, by rw [← hs.1]; exact (mem.1 hx).2⟩, hs⟩
    · intro x hx y hy hs f hf
      exact h5 x (mem.1 hx).1 y (mem.1 hy).1 hs f hf
    · intro x y hb hxy hu
      rw [only_kids] at hb
      have hx : P x.tag = true := (List.mem_filter.1 (hb.subset (by simp))).2
      obtain ⟨x', y', hb', s1, s2⟩ := h6 x y (hb.trans List.filter_sublist) hxy hu
      refine ⟨x', y', ?_, s1, s2⟩
      rw [only_kids]
      exact before_only hb' (by rw [← s1.1]; exact hx) (by rw [← s2.1, ← hxy]; exact hx)

/-- A config is included in another one if it is for every name. -/
theorem incl_of_names {a b : Elem} (h1 : a.tag = b.tag) (h2 : a.text = b.text) (h3 : ∀ p ∈ a.attrs, p ∈ b.attrs)
    (h : ∀ t, Incl d .root (only (fun q => decide (q = t)) a) (only (fun q => decide (q = t)) b)) : Incl d .root a b := by
  have mem : ∀ {e x : Elem} {t : QName}, x ∈ (only (fun q => decide (q = t)) e).kids ↔ x ∈ e.kids ∧ x.tag = t := by
    intro e x t; rw [only_kids, List.mem_filter, decide_eq_true_eq]
  refine .mk h1 (by unfold parseTextAt; rw [h2]) h3 ?_ ?_ ?_
  · intro x hx
    cases h x.tag with
    | mk _ _ _ h4 _ _ =>
      obtain ⟨y, hy, hs⟩ := h4 x (mem.2 ⟨hx, rfl⟩)
      exact ⟨y, (mem.1 hy).1, hs⟩
  · intro x hx y hy hs f hf
    cases h x.tag with
    | mk _ _ _ _ h5 _ => exact h5 x (mem.2 ⟨hx, rfl⟩) y (mem.2 ⟨hy, hs.1.symm⟩) hs f hf
  · intro x y hb hxy hu
    cases h x.tag with
    | mk _ _ _ _ _ h6 =>
      obtain ⟨x', y', hb', s1, s2⟩ := h6 x y (by
        rw [only_kids]
        exact before_only (P := fun q => decide (q = x.tag)) hb (by simp) (by simp [hxy])) hxy hu
      rw [only_kids] at hb'
      exact ⟨x', y', hb'.trans List.filter_sublist, s1, s2⟩

theorem same_of_names {a b : Elem} (h1 : a.tag = b.tag) (h2 : a.text = b.text) (h3 : a.attrs = b.attrs)
    (h : ∀ t, SameConfig d .root (only (fun q => decide (q = t)) a) (only (fun q => decide (q = t)) b)) : SameConfig d .root a b :=
  ⟨incl_of_names h1 h2 (fun p hp => h3 ▸ hp) fun t => (h t).1, incl_of_names h1.symm h2.symm (fun p hp => h3 ▸ hp) fun t => (h t).2⟩

theorem same_only {sc : Scope} {a b : Elem} (h : SameConfig d sc a b) (P : QName → Bool) : SameConfig d sc (only P a) (only P b) :=
  ⟨incl_only h.1 P, incl_only h.2 P⟩

/-- What a delta between two configs does to the source, and which names it has. -/
theorem delta_facts (opts : Opts) {b x : Elem} (h : Transition d b x) (ho : opts.replace = .merge) (ht : opts.diffType ≠ .replace)
    (hr : ∀ t f, d.lookup .root t = .ok f → ¬ Repeated f) :
    ∃ e D R, Delta.nc d { src := b, dst := x, opts := opts } = .ok e ∧ (∀ s, nodeAdd d e .root s = nodeAdd d D .root s) ∧
      Fit d .root D b ∧ nodeAdd d e .root b = .ok R ∧ Valid d .root R ∧ SameConfig d .root R x ∧
      (∀ t, AlikeAt d t b x → ∀ o ∈ e.kids, o.tag ≠ t) := by
  obtain ⟨D, hx, _, hdiff⟩ := calcSub_ok carry_deletes.carry (h.loose (ω := True)) (fun _ => h.src.filled)
  obtain ⟨_, hdiff⟩ := hdiff (Or.inl ho)
  obtain ⟨R, hR, hsame⟩ := hdiff.add
  have hb := hdiff.base'
  have hvR := (nodeAdd_valid d D .root b R hb.vS hb.nS hb.vD hb.lD hR).1
  set e := if opts.diffType = .minimumReplace then addAttrAtDepth (opts.replaceDepth + 1) D else D with hxd
  have hadd : ∀ s, nodeAdd d e .root s = nodeAdd d D .root s := by
    intro s
    rw [hxd]
    split
    · rw [nodeAdd_addAttr]
    · rfl
  have hnc : Delta.nc d { src := b, dst := x, opts := opts } = .ok e := by
    simp only [Delta.nc, hx, bind, Except.bind, pure, Except.pure]
  refine ⟨e, D, R, hnc, hadd, ⟨hb.vS, hb.nS, hb.vD, hb.lD⟩, by rw [hadd]; exact hR, hvR, hsame.tight, ?_⟩
  intro t hal o hoo hot
  obtain ⟨δ, e1, h1, h2, h3⟩ := C78_untouched d opts b x h.anyOrder ho ht
  obtain ⟨δ', e2, h1', h2', h4⟩ := C15_deletes_missing d opts b x h.anyOrder
  rw [newDelta_ok h.src.valid.valid h.dst.valid.valid] at h1 h1'
  cases h1; cases h1'
  obtain rfl := Except.ok.inj (hnc.symm.trans h2)
  obtain rfl := Except.ok.inj (hnc.symm.trans h2')
  have mem : ∀ {e x : Elem} {t : QName}, x ∈ (only (fun q => decide (q = t)) e).kids ↔ x ∈ e.kids ∧ x.tag = t := by
    intro e x t; rw [only_kids, List.mem_filter, decide_eq_true_eq]
  have hal' : SameConfig d .root (only (fun q => decide (q = t)) b) (only (fun q => decide (q = t)) x) := hal
  have hk : ∃ k ∈ x.kids, SameInstance d .root k o := by
    cases h4 with
    | replaced hw _ _ => exact hw.elim (fun h => by rw [ho] at h; cases h) (fun h => absurd h ht)
    | level _ _ _ _ only' =>
      rcases only' o hoo with h | ⟨s, hs, hi⟩
      · exact h
      · obtain ⟨k, hk, hsk⟩ := hal'.left (mem.2 ⟨hs, hi.1.trans hot⟩)
        exact ⟨k, (mem.1 hk).1, hsk.symm.trans hi⟩
  obtain ⟨k, hk, hko⟩ := hk
  obtain ⟨f, hf, _⟩ := h.dst.valid.valid.shape' k hk
  have hkt : k ∈ (only (fun q => decide (q = t)) x).kids := mem.2 ⟨hk, hko.1.trans hot⟩
  obtain ⟨s, hs, hks⟩ := hal'.symm.left hkt
  exact h3 s (mem.1 hs).1 k hk f hf hks.symm (hal'.symm.sub' hkt hs hks hf).symm (hr _ f hf) o hoo hko

end Apart
end NcDiff
