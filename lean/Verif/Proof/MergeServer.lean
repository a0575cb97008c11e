import Verif.Proof.MergeDeep
import Verif.Proof.Minimal
import Verif.Proof.ServerMain
import Verif.Props.Server
/-!
# Two deltas from one config, sent to a server one after the other
-/

namespace NcDiff.Compile
open Deep83
section
variable {d : Device} {rd : Bool}

/-- In modules without identityrefs and instance-identifiers the leaves are of plain types. -/
theorem plain_leaves : ∀ (e : Elem) {sc : Scope} {pl : List Place}, Field d rd sc pl → (∀ p ∈ pl, Everywhere PlainType p.2) →
    Fits d pl e → Deep d (PlainLeaves d) sc e := by
  intro e
  induction e using Elem.ind with
  | h t n a x ks ih =>
    intro sc pl hF hP hf
    generalize he : Elem.mk t n a x ks = e at *
    have hks : e.kids = ks := by rw [← he]; rfl
    rw [← hks] at ih
    refine .mk (fun k hk f hl _ => ?_) fun k hk f hl => ?_
    · obtain ⟨p, hp, hn, hd⟩ := hf.node' hk
      obtain ⟨g, e', hg, hm, hge⟩ := hF.covers p hp hd _ hn
      rw [hl] at hg
      obtain rfl := Except.ok.inj hg
      rw [hge]
      exact plain_of hm (.inl (hP p hp).here')
    · obtain ⟨p, hp, hn, hd⟩ := hf.node' hk
      obtain ⟨g, hg⟩ := hF.fact hp hn hd
      have := hg.lookup
      rw [hl] at this
      obtain rfl := Except.ok.inj this
      exact ih k hk hg.field (plain_places (hP p hp)) (hf.sub' hk hp hn)

/-- The edit-config of a delta from `b` to `y`, without `replace`, takes a server that holds `x` to what has the changes of both. -/
theorem stale_serve {h : Host} {mods : List Module} (hl : Loads h mods) (hp : ProperModules rd mods)
    (hc : ∀ m ∈ mods, ∀ s ∈ m.kids, Everywhere (Clear rd) s) (hpl : PlainModules mods) {b x y w : Elem}
    (hA : AnyOrder h.device b y) (hx : PlainConfig h.device x) (hw : PlainConfig h.device w)
    (fx : Fits h.device (topPlaces mods) x) (fy : Fits h.device (topPlaces mods) y) (fw : Fits h.device (topPlaces mods) w)
    {opts : Opts} (hr : opts.replace = .merge) (ht : opts.diffType ≠ .replace) (hn : opts.create ≠ .replace)
    (hm : DeepMerge h.device .root b x y w) :
    ∃ δ e, newDelta h.device b y opts = .ok δ ∧ δ.nc h.device = .ok e ∧ ∀ m, Holds (topPlaces mods) x.kids m →
      ∃ r, serve (topPlaces mods) e.kids m = some r ∧ Holds (topPlaces mods) w.kids r := by
  have hF := field_root hl hp (regular_of_clear hc)
  have hP := plain_top hpl
  obtain ⟨D, hD, hok, hdiff⟩ := calcSub_ok (opts := opts) carry_minimal.carry hA.loose (fun _ => hA.src.filled)
  obtain ⟨_, hdiff⟩ := hdiff (Or.inl hr)
  have hops : OpsIn opts.Allows D := by
    have := operations_calcSub (lets_allows opts) (operations_noAttrs (lets_allows opts).none hA.dst.bare) hD
    split at this
    · exact ops_back _ _ this
    · exact this
  have hno : ¬ opts.Allows (some (.str "replace")) := by
    rintro (h | h | ⟨h, _⟩ | ⟨_, _, h⟩)
    · cases h
    · cases hd : opts.delete <;> rw [hd] at h <;> exact absurd h (by decide)
    · rcases h with h | h | h
      · exact hn h
      · rw [hr] at h; cases h
      · exact ht h
    · exact absurd h (by decide)
  have hsays : Says h.device .root b y D := says_delta hno (by
    rintro (h | h)
    · rw [hr] at h; cases h
    · exact ht h) hok.carried hops
  obtain ⟨T, t1, t3, t4, _, _, _, _, t8⟩ := third hdiff hsays hx.side hA.dst.side (plain_leaves x hF hP fx) (plain_leaves y hF hP fy)
    hw.valid.valid hw.bare hw.filled hm
  have tb := t1.base'
  have fT := fits_of_same T hF hP fw t3
  refine ⟨_, _, newDelta_ok hA.src.valid.valid hA.dst.valid.valid, (by
    simp only [Delta.nc, hD, bind, Except.bind, pure, Except.pure]; rfl), fun m hm' => ?_⟩
  obtain ⟨r, r1, r2⟩ := diff_serve t1 hF fx fT (Or.inl ⟨tb.vT, tb.aT, t8⟩) hm'
  refine ⟨r, ?_, (holds_of_same w hF hw.valid.valid tb.vT fw fT t3.symm).trans r2⟩
  split
  · rw [serve_addAttr]; exact r1
  · exact r1

end
end NcDiff.Compile
