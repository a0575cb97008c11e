import Verif.Proof.Merge
/-!
# Lemmas about sums of three configs
-/

namespace NcDiff

section
variable {d : Device} {sc : Scope}

theorem SameInstance.look {x y : Elem} (h : SameInstance d sc x y) {f : Found} (hf : d.lookup sc x.tag = .ok f) :
    d.lookup sc y.tag = .ok f := h.1 ▸ hf

theorem hasAll_refl : ∀ (e : Elem) {sc : Scope}, Valid d sc e → HasAll d sc e e := by
  intro e
  induction e using Elem.ind with
  | h t n a x ks ih =>
    intro sc hv
    have heq : ∀ x ∈ ks, ∀ y ∈ ks, SameInstance d sc x y → x = y := fun x hx y hy hs =>
      List.inj_on_of_nodup_map hv.indexable.nodup hx hy ((hv.same_iff hv hx hy).2 hs)
    refine .mk (fun x hx => ⟨x, hx, .refl _ _ _⟩) ?_ ?_
    · intro x hx y hy hs f hf _
      rw [heq x hx y hy hs]
    · intro x hx y hy hs f hf
      obtain rfl := heq x hx y hy hs
      exact ih x hx (hv.sub' x hx f hf)

theorem HasAll.trans : ∀ (a : Elem) {sc : Scope} {b c : Elem}, HasAll d sc a b → HasAll d sc b c → HasAll d sc a c := by
  intro a
  induction a using Elem.ind with
  | h t n at' x ks ih =>
    intro sc b c h1 h2
    cases h1 with
    | mk k1 v1 s1 =>
      cases h2 with
      | mk k2 v2 s2 =>
        refine .mk ?_ ?_ ?_
        · intro x hx
          obtain ⟨y, hy, hxy⟩ := k1 x hx
          obtain ⟨z, hz, hyz⟩ := k2 y hy
          exact ⟨z, hz, hxy.trans hyz⟩
        · intro x hx z hz hs f hf hn
          obtain ⟨y, hy, hxy⟩ := k1 x hx
          rw [v2 y hy z hz (hxy.symm.trans hs) f (hxy.look hf) hn, v1 x hx y hy hxy f hf hn]
        · intro x hx z hz hs f hf
          obtain ⟨y, hy, hxy⟩ := k1 x hx
          exact ih x hx (s1 x hx y hy hxy f hf) (s2 y hy z hz (hxy.symm.trans hs) f (hxy.look hf))

theorem HasAll.within : ∀ (a : Elem) {sc : Scope} {b : Elem}, HasAll d sc a b → Within d sc a b := by
  intro a
  induction a using Elem.ind with
  | h t n at' x ks ih =>
    intro sc b h
    cases h with
    | mk k v s => exact .mk k fun x hx y hy hs f hf => ih x hx (s x hx y hy hs f hf)

/-- What has the same instances has the same values. -/
theorem HasAll.back : ∀ (z : Elem) {sc : Scope} {y : Elem}, HasAll d sc y z → Within d sc z y → HasAll d sc z y := by
  intro z
  induction z using Elem.ind with
  | h t n at' x ks ih =>
    intro sc y h hw
    cases h with
    | mk k v s =>
      cases hw with
      | mk k' s' =>
        refine .mk k' ?_ ?_
        · intro x hx w hw hs f hf hn
          exact (v w hw x hx hs.symm f (hs.look hf) hn).symm
        · intro x hx w hw hs f hf
          exact ih x hx (s w hw x hx hs.symm f (hs.look hf)) (s' x hx w hw hs f hf)

/-- The instances of `a` are in `m`, and where `b` says nothing they have the values that they have in `a`. -/
inductive Kept (d : Device) : Scope → Elem → Elem → Elem → Prop
  | mk {sc : Scope} {a b m : Elem}
      (kids : ∀ x ∈ a.kids, ∃ w ∈ m.kids, SameInstance d sc x w)
      (alone : ∀ x ∈ a.kids, ∀ w ∈ m.kids, SameInstance d sc x w → Absent d sc b.kids x → ∀ f, d.lookup sc x.tag = .ok f →
        (f.node.ntype = .leaf → parseText d w f.node = parseText d x f.node) ∧ HasAll d (.node f.node) x w)
      (both : ∀ x ∈ a.kids, ∀ w ∈ m.kids, SameInstance d sc x w → ∀ y ∈ b.kids, SameInstance d sc y x →
        ∀ f, d.lookup sc x.tag = .ok f → Kept d (.node f.node) x y w) :
      Kept d sc a b m

theorem HasAll.kept : ∀ (a : Elem) {sc : Scope} {b m : Elem}, HasAll d sc a m → Kept d sc a b m := by
  intro a
  induction a using Elem.ind with
  | h t n at' x ks ih =>
    intro sc b m h
    cases h with
    | mk k v s =>
      exact .mk k (fun x hx w hw hs _ f hf => ⟨v x hx w hw hs f hf, s x hx w hw hs f hf⟩)
        fun x hx w hw hs y _ _ f hf => ih x hx (s x hx w hw hs f hf)

theorem Kept.mono : ∀ (a : Elem) {sc : Scope} {b b' m : Elem}, Kept d sc a b m → Within d sc b b' → Kept d sc a b' m := by
  intro a
  induction a using Elem.ind with
  | h t n at' x ks ih =>
    intro sc b b' m h hw
    cases h with
    | mk k al bo =>
      cases hw with
      | mk k' s' =>
        refine .mk k ?_ ?_
        · intro x hx w hw hs ha f hf
          refine al x hx w hw hs (fun y hy hyx => ?_) f hf
          obtain ⟨y', hy', hyy⟩ := k' y hy
          exact ha y' hy' (hyy.symm.trans hyx)
        · intro x hx w hw hs y' hy' hyx f hf
          by_cases ha : Absent d sc b.kids x
          · exact (al x hx w hw hs ha f hf).2.kept x
          · obtain ⟨y, hy, hyx'⟩ := not_absent ha
            exact ih x hx (bo x hx w hw hs y hy hyx' f hf) (s' y hy y' hy' (hyx'.trans hyx.symm) f (hyx'.symm.look hf))

/-- Less is kept as well. -/
theorem Kept.left : ∀ (z : Elem) {sc : Scope} {a b m : Elem}, HasAll d sc z a → Kept d sc a b m → Kept d sc z b m := by
  intro z
  induction z using Elem.ind with
  | h t n at' x ks ih =>
    intro sc a b m h hk
    cases h with
    | mk k v s =>
      cases hk with
      | mk k' al bo =>
        refine .mk ?_ ?_ ?_
        · intro x hx
          obtain ⟨y, hy, hxy⟩ := k x hx
          obtain ⟨w, hw, hyw⟩ := k' y hy
          exact ⟨w, hw, hxy.trans hyw⟩
        · intro x hx w hw hs ha f hf
          obtain ⟨y, hy, hxy⟩ := k x hx
          obtain ⟨h1, h2⟩ := al y hy w hw (hxy.symm.trans hs) (fun o ho hoy => ha o ho (hoy.trans hxy.symm)) f (hxy.look hf)
          exact ⟨fun hn => (h1 hn).trans (v x hx y hy hxy f hf hn), (s x hx y hy hxy f hf).trans x h2⟩
        · intro x hx w hw hs o ho hox f hf
          obtain ⟨y, hy, hxy⟩ := k x hx
          exact ih x hx (s x hx y hy hxy f hf) (bo y hy w hw (hxy.symm.trans hs) o ho (hox.trans hxy) f (hxy.look hf))

/-- More keeps as well. -/
theorem Kept.right : ∀ (a : Elem) {sc : Scope} {b z m : Elem}, Kept d sc a b z → HasAll d sc z m → Kept d sc a b m := by
  intro a
  induction a using Elem.ind with
  | h t n at' x ks ih =>
    intro sc b z m hk h
    cases h with
    | mk k v s =>
      cases hk with
      | mk k' al bo =>
        refine .mk ?_ ?_ ?_
        · intro x hx
          obtain ⟨y, hy, hxy⟩ := k' x hx
          obtain ⟨w, hw, hyw⟩ := k y hy
          exact ⟨w, hw, hxy.trans hyw⟩
        · intro x hx w hw hs ha f hf
          obtain ⟨y, hy, hxy⟩ := k' x hx
          obtain ⟨h1, h2⟩ := al x hx y hy hxy ha f hf
          have hyw := hxy.symm.trans hs
          exact ⟨fun hn => (v y hy w hw hyw f (hxy.look hf) hn).trans (h1 hn), h2.trans x (s y hy w hw hyw f (hxy.look hf))⟩
        · intro x hx w hw hs o ho hox f hf
          obtain ⟨y, hy, hxy⟩ := k' x hx
          exact ih x hx (bo x hx y hy hxy o ho hox f hf) (s y hy w hw (hxy.symm.trans hs) f (hxy.look hf))

/-- What a sum is. -/
structure Merged (d : Device) (sc : Scope) (a b r : Elem) : Prop where
  has : HasAll d sc b r
  frm : FromBoth d sc a b r
  wi : Within d sc a r
  valid : Valid d sc a

theorem Merged.sub {a b r x y z : Elem} (h : Merged d sc a b r) (hx : x ∈ a.kids) (hy : y ∈ b.kids) (hz : z ∈ r.kids)
    (hxz : SameInstance d sc x z) (hyz : SameInstance d sc y z) {f : Found} (hf : d.lookup sc x.tag = .ok f) :
    Merged d (.node f.node) x y z := by
  have hfy := hyz.symm.look (hxz.look hf)
  refine ⟨?_, ?_, ?_, h.valid.sub' x hx f hf⟩
  · cases h.has with | mk k v s => exact s y hy z hz hyz f hfy
  · cases h.frm with | mk o l r b => exact b z hz x hx y hy hxz hyz f hfy
  · cases h.wi with | mk k s => exact s x hx z hz hxz f hf

theorem Merged.kept : ∀ (a : Elem) {sc : Scope} {b r : Elem}, Merged d sc a b r → Kept d sc a b r := by
  intro a
  induction a using Elem.ind with
  | h t n at' x ks ih =>
    intro sc b r h
    refine .mk ?_ ?_ ?_
    · cases h.wi with | mk k s => exact k
    · intro x hx w hw hs ha f hf
      cases h.frm with
      | mk o l _ _ =>
        obtain rfl := l w hw x hx hs ha
        exact ⟨fun _ => rfl, hasAll_refl w (h.valid.sub' w hx f hf)⟩
    · intro x hx w hw hs y hy hyx f hf
      exact ih x hx (h.sub hx hy hw hs (hyx.trans hs) hf)

/-- A sum is the least. -/
theorem merged_least : ∀ (r : Elem) {sc : Scope} {a b m : Elem}, Merged d sc a b r → HasAll d sc b m → Kept d sc a b m →
    HasAll d sc r m := by
  intro r
  induction r using Elem.ind with
  | h t n at' x ks ih =>
    intro sc a b m h hb hk
    generalize hr : Elem.mk t n at' x ks = r at *
    have hks : r.kids = ks := by rw [← hr]; rfl
    rw [← hks] at ih
    have h' := h
    obtain ⟨⟨k0, v0, s0⟩, ⟨only, l, rr, bo⟩, wi, hv⟩ := h'
    obtain ⟨kb, vb, sb⟩ := hb
    obtain ⟨kk, al, kbo⟩ := hk
    -- every instance of the sum is in `a` and not in `b`, or in `b`
    have split : ∀ z ∈ r.kids, (∃ x ∈ a.kids, SameInstance d sc x z ∧ Absent d sc b.kids x) ∨ ∃ y ∈ b.kids, SameInstance d sc y z := by
      intro z hz
      rcases only z hz with ⟨x, hx, hxz⟩ | h
      · by_cases ha : Absent d sc b.kids x
        · exact .inl ⟨x, hx, hxz, ha⟩
        · obtain ⟨y, hy, hyx⟩ := not_absent ha
          exact .inr ⟨y, hy, hyx.trans hxz⟩
      · exact .inr h
    refine .mk ?_ ?_ ?_
    · intro z hz
      rcases split z hz with ⟨x, hx, hxz, _⟩ | ⟨y, hy, hyz⟩
      · obtain ⟨w, hw, h⟩ := kk x hx; exact ⟨w, hw, hxz.symm.trans h⟩
      · obtain ⟨w, hw, h⟩ := kb y hy; exact ⟨w, hw, hyz.symm.trans h⟩
    · intro z hz w hw hs f hf hn
      rcases split z hz with ⟨x, hx, hxz, ha⟩ | ⟨y, hy, hyz⟩
      · obtain rfl := l z hz x hx hxz ha
        exact (al z hx w hw hs ha f hf).1 hn
      · rw [vb y hy w hw (hyz.trans hs) f (hyz.symm.look hf) hn, v0 y hy z hz hyz f (hyz.symm.look hf) hn]
    · intro z hz w hw hs f hf
      rcases split z hz with ⟨x, hx, hxz, ha⟩ | ⟨y, hy, hyz⟩
      · obtain rfl := l z hz x hx hxz ha
        exact (al z hx w hw hs ha f hf).2
      · have hfy := hyz.symm.look hf
        by_cases ha : Absent d sc a.kids y
        · exact (HasAll.back z (s0 y hy z hz hyz f hfy) (rr z hz y hy hyz ha f hfy)).trans z
            (sb y hy w hw (hyz.trans hs) f hfy)
        · obtain ⟨x, hx, hxy⟩ := not_absent ha
          have hxz := hxy.trans hyz
          exact ih z hz (h.sub hx hy hz hxz hyz (hxz.symm.look hf)) (sb y hy w hw (hyz.trans hs) f hfy)
            (kbo x hx w hw (hxz.trans hs) y hy hxy.symm f (hxz.symm.look hf))

/-- The first direction of associativity: what a sum keeps. -/
theorem kept_sum : ∀ (u : Elem) {sc : Scope} {a b c v m : Elem}, Merged d sc a b u → Merged d sc b c v → Kept d sc b c m →
    Kept d sc a v m → Kept d sc u c m := by
  intro u
  induction u using Elem.ind with
  | h t n at' x ks ih =>
    intro sc a b c v m hu hv hb ha
    generalize hr : Elem.mk t n at' x ks = u at *
    have hks : u.kids = ks := by rw [← hr]; rfl
    rw [← hks] at ih
    obtain ⟨⟨ku, vu, su⟩, ⟨only, l, rr, bo⟩, wi, hva⟩ := id hu
    obtain ⟨⟨kv, vv, sv⟩, ⟨only', l', rr', bo'⟩, wi', hvb⟩ := id hv
    obtain ⟨kb, alb, bob⟩ := hb
    obtain ⟨ka, ala, boa⟩ := ha
    obtain ⟨kw', sw'⟩ := wi'
    have split : ∀ z ∈ u.kids, (∃ x ∈ a.kids, SameInstance d sc x z ∧ Absent d sc b.kids x) ∨ ∃ y ∈ b.kids, SameInstance d sc y z := by
      intro z hz
      rcases only z hz with ⟨x, hx, hxz⟩ | h
      · by_cases ha : Absent d sc b.kids x
        · exact .inl ⟨x, hx, hxz, ha⟩
        · obtain ⟨y, hy, hyx⟩ := not_absent ha
          exact .inr ⟨y, hy, hyx.trans hxz⟩
      · exact .inr h
    -- inside what is in `b`
    have inner : ∀ z ∈ u.kids, ∀ y ∈ b.kids, SameInstance d sc y z → Absent d sc a.kids y → ∀ f, d.lookup sc z.tag = .ok f →
        HasAll d (.node f.node) z y := fun z hz y hy hyz ha f hf =>
      HasAll.back z (su y hy z hz hyz f (hyz.symm.look hf)) (rr z hz y hy hyz ha f (hyz.symm.look hf))
    refine .mk ?_ ?_ ?_
    · intro z hz
      rcases split z hz with ⟨x, hx, hxz, _⟩ | ⟨y, hy, hyz⟩
      · obtain ⟨w, hw, h⟩ := ka x hx; exact ⟨w, hw, hxz.symm.trans h⟩
      · obtain ⟨w, hw, h⟩ := kb y hy; exact ⟨w, hw, hyz.symm.trans h⟩
    · intro z hz w hw hs hac f hf
      rcases split z hz with ⟨x, hx, hxz, hab⟩ | ⟨y, hy, hyz⟩
      · obtain rfl := l z hz x hx hxz hab
        refine ala z hx w hw hs (fun v0 hv0 hvz => ?_) f hf
        rcases only' v0 hv0 with ⟨y, hy, hyv⟩ | ⟨c0, hc0, hcv⟩
        · exact hab y hy (hyv.trans hvz)
        · exact hac c0 hc0 (hcv.trans hvz)
      · have hfy := hyz.symm.look hf
        have hacy : Absent d sc c.kids y := fun c0 hc0 h => hac c0 hc0 (h.trans hyz)
        obtain ⟨h1, h2⟩ := alb y hy w hw (hyz.trans hs) hacy f hfy
        refine ⟨fun hn => by rw [h1 hn, vu y hy z hz hyz f hfy hn], ?_⟩
        by_cases ha : Absent d sc a.kids y
        · exact (inner z hz y hy hyz ha f hf).trans z h2
        · obtain ⟨x, hx, hxy⟩ := not_absent ha
          have hxz := hxy.trans hyz
          obtain ⟨v0, hv0, hyv⟩ := kw' y hy
          obtain rfl := l' v0 hv0 y hy hyv hacy
          exact merged_least z (hu.sub hx hy hz hxz hyz (hxz.symm.look hf)) h2
            (boa x hx w hw (hxz.trans hs) v0 hv0 hxy.symm f (hxz.symm.look hf))
    · intro z hz w hw hs c0 hc0 hcz f hf
      rcases split z hz with ⟨x, hx, hxz, hab⟩ | ⟨y, hy, hyz⟩
      · obtain rfl := l z hz x hx hxz hab
        obtain ⟨v0, hv0, hcv⟩ := kv c0 hc0
        have habc : Absent d sc b.kids c0 := fun y hy h => hab y hy (h.trans hcz)
        exact (boa z hx w hw hs v0 hv0 (hcv.symm.trans hcz) f hf).mono z (rr' v0 hv0 c0 hc0 hcv habc f (hcz.symm.look hf))
      · have hfy := hyz.symm.look hf
        have hcy := hcz.trans hyz.symm
        by_cases ha : Absent d sc a.kids y
        · exact Kept.left z (inner z hz y hy hyz ha f hf) (bob y hy w hw (hyz.trans hs) c0 hc0 hcy f hfy)
        · obtain ⟨x, hx, hxy⟩ := not_absent ha
          have hxz := hxy.trans hyz
          obtain ⟨v0, hv0, hyv⟩ := kw' y hy
          exact ih z hz (hu.sub hx hy hz hxz hyz (hxz.symm.look hf)) (hv.sub hy hc0 hv0 hyv (hcy.trans hyv) hfy)
            (bob y hy w hw (hyz.trans hs) c0 hc0 hcy f hfy)
            (boa x hx w hw (hxz.trans hs) v0 hv0 (hyv.symm.trans hxy.symm) f (hxz.symm.look hf))

/-- The other direction. -/
theorem kept_over : ∀ (a : Elem) {sc : Scope} {b c u v m : Elem}, Kept d sc a b u → Kept d sc u c m → Merged d sc b c v →
    Kept d sc a v m := by
  intro a
  induction a using Elem.ind with
  | h t n at' x ks ih =>
    intro sc b c u v m h1 h2 hv
    obtain ⟨k1, al1, bo1⟩ := h1
    obtain ⟨k2, al2, bo2⟩ := h2
    obtain ⟨⟨kv, vv, sv⟩, ⟨only', l', rr', bo'⟩, wi', hvb⟩ := id hv
    obtain ⟨kw', sw'⟩ := wi'
    refine .mk ?_ ?_ ?_
    · intro x hx
      obtain ⟨z, hz, hxz⟩ := k1 x hx
      obtain ⟨w, hw, hzw⟩ := k2 z hz
      exact ⟨w, hw, hxz.trans hzw⟩
    · intro x hx w hw hs hav f hf
      obtain ⟨z, hz, hxz⟩ := k1 x hx
      have hab : Absent d sc b.kids x := fun y hy h => by
        obtain ⟨v0, hv0, hyv⟩ := kw' y hy
        exact hav v0 hv0 (hyv.symm.trans h)
      have hac : Absent d sc c.kids z := fun c0 hc0 h => by
        obtain ⟨v0, hv0, hcv⟩ := kv c0 hc0
        exact hav v0 hv0 (hcv.symm.trans (h.trans hxz.symm))
      obtain ⟨p1, p2⟩ := al1 x hx z hz hxz hab f hf
      obtain ⟨q1, q2⟩ := al2 z hz w hw (hxz.symm.trans hs) hac f (hxz.look hf)
      exact ⟨fun hn => (q1 hn).trans (p1 hn), p2.trans x q2⟩
    · intro x hx w hw hs v0 hv0 hvx f hf
      obtain ⟨z, hz, hxz⟩ := k1 x hx
      have hfz := hxz.look hf
      have hzw := hxz.symm.trans hs
      by_cases hab : Absent d sc b.kids x
      · obtain ⟨_, p2⟩ := al1 x hx z hz hxz hab f hf
        rcases only' v0 hv0 with ⟨y, hy, hyv⟩ | ⟨c0, hc0, hcv⟩
        · exact absurd (hyv.trans hvx) (hab y hy)
        · have hcx := hcv.trans hvx
          have hk := bo2 z hz w hw hzw c0 hc0 (hcx.trans hxz) f hfz
          exact (Kept.left x p2 hk).mono x ((sv c0 hc0 v0 hv0 hcv f (hcx.symm.look hf)).within c0)
      · obtain ⟨y, hy, hyx⟩ := not_absent hab
        have hk := bo1 x hx z hz hxz y hy hyx f hf
        by_cases hac : Absent d sc c.kids z
        · obtain ⟨_, q2⟩ := al2 z hz w hw hzw hac f hfz
          have hacy : Absent d sc c.kids y := fun c0 hc0 h => hac c0 hc0 (h.trans (hyx.trans hxz))
          obtain rfl := l' v0 hv0 y hy (hyx.trans hvx.symm) hacy
          exact Kept.right x hk q2
        · obtain ⟨c0, hc0, hcz⟩ := not_absent hac
          have hcx := hcz.trans hxz.symm
          exact ih x hx hk (bo2 z hz w hw hzw c0 hc0 hcz f hfz)
            (hv.sub hy hc0 hv0 (hyx.trans hvx.symm) (hcx.trans hvx.symm) (hyx.symm.look hf))

/-- Associativity. -/
theorem merged_assoc {a b c u v r r' : Elem} (hu : Merged d sc a b u) (hr : Merged d sc u c r) (hv : Merged d sc b c v)
    (hr' : Merged d sc a v r') : HasAll d sc r r' ∧ HasAll d sc r' r := by
  have hvr' : HasAll d sc v r' := hr'.has
  have hcr' := hv.has.trans c hvr'
  have hbv := hv.kept b
  have hbr' := Kept.right b hbv hvr'
  constructor
  · exact merged_least r hr hcr' (kept_sum u hu hv hbr' (hr'.kept a))
  · have hur := hr.kept u
    have hvr : HasAll d sc v r := merged_least v hv hr.has (Kept.left b hu.has hur)
    exact merged_least r' hr' hvr (kept_over a (hu.kept a) hur hv)

end
end NcDiff
