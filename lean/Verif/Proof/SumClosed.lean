import Verif.Proof.MergeLaws
import Verif.Spec.MergeLaws
import Verif.Proof.YangSimple
import Verif.Props.Merge
import Verif.Props.Yang
/-!
# Sums of plain configs are plain configs
-/

namespace NcDiff

/-- Containers have no text. -/
def TextLevel (d : Device) (sc : Scope) (e : Elem) : Prop :=
  ∀ k ∈ e.kids, ∀ f, d.lookup sc k.tag = .ok f → f.node.ntype = .container → k.text = none

theorem text_delAttrib {d : Device} : ∀ {e : Elem} {sc : Scope}, Deep d (TextLevel d) sc e → Deep d (TextLevel d) sc e.delAttrib := by
  intro e
  induction e using Elem.ind with
  | h t n a x ks ih =>
    intro sc h
    have hk : (Elem.mk t n a x ks).delAttrib.kids = ks.map Elem.delAttrib := delAttrib_kids _
    refine ⟨?_, ?_⟩
    · intro k hk' f hf hn
      rw [hk] at hk'
      obtain ⟨c, hc, rfl⟩ := List.mem_map.1 hk'
      rw [delAttrib_tag] at hf
      rw [delAttrib_text]
      exact h.here' c hc f hf hn
    · intro k hk' f hf
      rw [hk] at hk'
      obtain ⟨c, hc, rfl⟩ := List.mem_map.1 hk'
      rw [delAttrib_tag] at hf
      exact ih c hc (h.sub' c hc f hf)

theorem nodeAdd_texts (d : Device) : ∀ (o : Elem) (sc : Scope) (sum r : Elem),
    Valid d sc sum → Deep d (NsLevel d) sc sum → Valid d sc o → Deep d (DeltaLevel d) sc o →
    Deep d (TextLevel d) sc sum → Deep d (TextLevel d) sc o →
    nodeAdd d o sc sum = .ok r → Deep d (TextLevel d) sc r := by
  intro o
  induction o using Elem.ind with
  | h t n a x ks ih =>
  generalize ho : Elem.mk t n a x ks = o at *
  have ih' : ∀ k ∈ o.kids, ∀ (sc : Scope) (sum r : Elem),
    Valid d sc sum → Deep d (NsLevel d) sc sum → Valid d sc k → Deep d (DeltaLevel d) sc k →
    Deep d (TextLevel d) sc sum → Deep d (TextLevel d) sc k →
    nodeAdd d k sc sum = .ok r → Deep d (TextLevel d) sc r := by
    intro k hk; rw [← ho] at hk; exact ih k hk
  clear ih ho
  intro sc sum r hv hns hvo hdo hts hto h
  have hlev := hdo.here'
  obtain ⟨hnd, horig⟩ := nodeAdd_origin h hv.shape' hns.here'.2 hlev
  have hsub : ∀ e ∈ r.kids, ∀ f, d.lookup sc e.tag = .ok f →
      (f.node.ntype = .container → e.text = none) ∧ Deep d (TextLevel d) (.node f.node) e := by
    intro e he f hf
    have hcopy : ∀ k ∈ o.kids, d.lookup sc k.tag = .ok f →
        (f.node.ntype = .container → k.delAttrib.text = none) ∧ Deep d (TextLevel d) (.node f.node) k.delAttrib :=
      fun k hk hf => ⟨fun hn => by rw [delAttrib_text]; exact hto.here' k hk f hf hn, text_delAttrib (hto.sub' k hk f hf)⟩
    rcases horig e he with ⟨hm, _⟩ | ⟨k, hk, g, hg, hu, hno, hc⟩ | ⟨s, hs, k, hk, hu, g, hg, x, hx, hex⟩
    · exact ⟨hts.here' e hm f hf, hts.sub' e hm f hf⟩
    · obtain ⟨g', hg', kg⟩ := hvo.shape' k hk
      rw [hg] at hg'; cases hg'
      have hte := (newContent_ok hg kg (hlev.keys k hk g hg) hc).1
      obtain rfl : g = f := by rw [hte, hg] at hf; exact Except.ok.inj hf
      have hkv := hvo.sub' k hk g hg
      have hkd := hdo.sub' k hk g hg
      have hkt := hto.sub' k hk g hg
      have hkid := fun sum r => ih' k hk (.node g.node) sum r
      unfold newContent at hc
      cases hn : g.node.ntype <;> simp only [hn] at hc
      · cases hc; have q := hcopy k hk hg; rw [hn] at q; exact q
      · cases hc; have q := hcopy k hk hg; rw [hn] at q; exact q
      · split at hc
        · refine ⟨fun _ => by rw [(nodeAdd_tag hc).2.1]; rfl, hkid (Elem.new k.tag k.nsmap) _ (valid_leaf rfl rfl)
            ⟨⟨hkd.here'.nsmap, ?_⟩, ?_⟩ hkv hkd ⟨?_, ?_⟩ hkt hc⟩ <;> (intro k hk; simp [Elem.new] at hk)
        · cases hc; have q := hcopy k hk hg; rw [hn] at q; exact q
      · split at hc
        · simp only [bind, Except.bind] at hc
          cases hs : listSkeleton g.node.keys k with
          | error x => simp [hs] at hc
          | ok sk =>
            simp only [hs] at hc
            obtain ⟨v1, v2, v3⟩ := skeleton_valid hg hn kg (hlev.keys k hk g hg) hkv (deltaNs hkd) hs
              (nodeAdd_inv hc).1.nodup
            have v4 : ∀ x ∈ sk.kids, ∃ c ∈ k.kids, x = c.delAttrib := by
              intro x hx
              obtain ⟨q, hq, c, hc, rfl⟩ := v3 x hx
              exact ⟨c, by simp [Elem.childrenWith] at hc; exact hc.1, rfl⟩
            refine ⟨fun h => (by cases h), hkid _ _ v1 v2 hkv hkd ⟨?_, ?_⟩ hkt hc⟩
            · intro x hx f hf hn
              obtain ⟨c, hc, rfl⟩ := v4 x hx
              rw [delAttrib_tag] at hf
              rw [delAttrib_text]
              exact hkt.here' c hc f hf hn
            · intro x hx f hf
              obtain ⟨c, hc, rfl⟩ := v4 x hx
              rw [delAttrib_tag] at hf
              exact text_delAttrib (hkt.sub' c hc f hf)
        · cases hc; have q := hcopy k hk hg; rw [hn] at q; exact q
      all_goals cases hc; have q := hcopy k hk hg; rw [hn] at q; exact q
    · obtain ⟨g', hg', kg⟩ := hv.shape' s hs
      rw [hg] at hg'; cases hg'
      obtain ⟨g', hg', kg'⟩ := hvo.shape' k hk
      have hsk := (uid_eq_iff' hg kg hg' kg').1 hu
      have hft : d.lookup sc k.tag = .ok g := by rw [← hsk.1]; exact hg
      rw [hft] at hg'; cases hg'
      have hte := (peerContent_uid hg kg kg' hsk (hlev.keys k hk g hft) (hns.here'.2 s hs g hg) hx e hex).2
      obtain rfl : g = f := by rw [hte, hg] at hf; exact Except.ok.inj hf
      have hsv := hv.sub' s hs g hg
      have hsn := hns.sub' s hs g hg
      have hkv := hvo.sub' k hk g hft
      have hkd := hdo.sub' k hk g hft
      have hst := hts.sub' s hs g hg
      have hkt := hto.sub' k hk g hft
      have hself : (g.node.ntype = .container → s.text = none) ∧ Deep d (TextLevel d) (.node g.node) s :=
        ⟨hts.here' s hs g hg, hst⟩
      have htree : peerTree g.node (k, addFn d k) s = .ok x →
          (g.node.ntype = .container → e.text = none) ∧ Deep d (TextLevel d) (.node g.node) e := by
        intro hx
        unfold peerTree at hx
        simp only [bind, Except.bind] at hx
        split at hx
        · cases hr : nodeAdd d k (.node g.node) s with
          | error y => simp [addFn, hr] at hx
          | ok e1 =>
            simp only [addFn, hr] at hx
            split at hx
            · cases hx; simp [PeerRes.elem] at hex
            · cases hx
              simp only [PeerRes.elem, Option.some.injEq] at hex
              subst hex
              exact ⟨fun hn => by rw [(nodeAdd_tag hr).2.1]; exact hself.1 hn, ih' k hk _ _ _ hsv hsn hkv hkd hst hkt hr⟩
        split at hx
        · split at hx
          · cases hx
          · cases hx
            simp only [PeerRes.elem, Option.some.injEq] at hex
            subst hex
            exact hcopy k hk hft
        split at hx
        · cases hx
        split at hx
        · split at hx
          · cases hx
          · cases hx; simp [PeerRes.elem] at hex
        · cases hx
      unfold peerContent at hx
      cases hn : g.node.ntype <;> simp only [hn] at hx
      · split at hx
        · simp only [bind, Except.bind] at hx
          cases hm : mergeText d g.node k s with
          | error y => simp [hm] at hx
          | ok e1 =>
            simp only [hm] at hx
            cases hx
            simp only [PeerRes.elem, Option.some.injEq] at hex
            subst hex
            obtain ⟨t, rfl⟩ := mergeText_ok hm
            exact ⟨fun h => (by cases h), ⟨hst.here', hst.sub'⟩⟩
        split at hx
        · cases hx
        split at hx
        · cases hx; simp [PeerRes.elem] at hex
        · cases hx
      · split at hx
        · cases hx
          simp only [PeerRes.elem, Option.some.injEq] at hex
          subst hex; exact ⟨fun h => (by cases h), hst⟩
        split at hx
        · cases hx
        split at hx
        · cases hx; simp [PeerRes.elem] at hex
        · cases hx
      · have q := htree hx; rw [hn] at q; exact q
      · have q := htree hx; rw [hn] at q; exact q
      all_goals
        cases hx
        simp only [PeerRes.elem, Option.some.injEq] at hex
        subst hex; exact ⟨fun h => (by cases h), hst⟩
  exact ⟨fun e he f hf hn => (hsub e he f hf).1 hn, fun e he f hf => (hsub e he f hf).2⟩

/-! ## Easy schemas -/

/-- Scopes in which the order does not matter and all values are plain. -/
structure EasyWorld (d : Device) (E : Scope → Prop) : Prop where
  sub : ∀ sc q f, E sc → d.lookup sc q = .ok f → E (.node f.node)
  plain : ∀ sc q f, E sc → d.lookup sc q = .ok f → f.node.info.datatype.plain
  unordered : ∀ sc q f, E sc → d.lookup sc q = .ok f → f.node.userOrdered = false
  dflt : ∀ sc q f, E sc → d.lookup sc q = .ok f → f.node.info.dflt ≠ none → f.node.ntype ≠ .leafList
  keys : ∀ sc q f, E sc → d.lookup sc q = .ok f → f.node.ntype = .list → f.node.keys.Nodup ∧
    ∀ k ∈ f.node.keys, ∃ g, d.lookup (.node f.node) k = .ok g ∧ g.node.ntype = .leaf ∧ g.node.info.isKey = true
  keyLeaf : ∀ sc q f, E sc → d.lookup sc q = .ok f → f.node.info.isKey = true → f.node.ntype = .leaf

section
variable {d : Device} {E : Scope → Prop} (W : EasyWorld d E)
include W

theorem EasyWorld.values : ∀ (S : Elem) {sc : Scope} {T : Elem}, E sc → MergeValues d sc S T := by
  intro S
  induction S using Elem.ind with
  | h t n a x ks ih =>
    intro sc T hE
    refine .mk ?_ ?_
    · intro s _ k _ _ f hf _
      have := W.plain sc _ f hE hf
      unfold Writable
      constructor <;> (intro h; rw [h] at this; exact this.elim)
    · intro s hs k _ _ f hf _
      exact ih s hs (W.sub sc _ f hE hf)

theorem EasyWorld.defaults : ∀ (e : Elem) {sc : Scope}, E sc → Deep d (LeafDefaults d) sc e := by
  intro e
  induction e using Elem.ind with
  | h t n a x ks ih =>
    intro sc hE
    exact ⟨fun k _ f hf hd => ⟨W.dflt sc _ f hE hf hd, fun _ => W.plain sc _ f hE hf⟩,
      fun k hk f hf => ih k hk (W.sub sc _ f hE hf)⟩

theorem EasyWorld.level : ∀ (e : Elem) {sc : Scope}, E sc → Valid d sc e → Deep d (NsLevel d) sc e → Deep d (TextLevel d) sc e →
    Deep d (ConfLevel d) sc e := by
  intro e
  induction e using Elem.ind with
  | h t n a x ks ih =>
    intro sc hE hv hns htx
    refine ⟨⟨hns.here'.1, ?_, ?_, ?_, ?_, htx.here', ?_, ?_, ?_, ?_⟩, ?_⟩
    · intro k hk f hf hn q hq
      obtain ⟨g, hg, h1, h2⟩ := (W.keys sc _ f hE hf hn).2 q hq
      exact ⟨g, hg, h1, fun c _ => .inl (W.plain _ _ g (W.sub sc _ f hE hf) hg), h2⟩
    · intro k hk f hf hn
      exact (W.keys sc _ f hE hf hn).1
    · intro k hk f hf hn
      exact ⟨W.keyLeaf sc _ f hE hf hn, .inl (W.plain sc _ f hE hf)⟩
    · intro k hk f hf _
      exact .inl (W.plain sc _ f hE hf)
    · intro k hk f hf _
      have := W.plain sc _ f hE hf
      unfold Writable
      constructor <;> (intro h; rw [h] at this; exact this.elim)
    · intro k hk f hf hu
      rw [W.unordered sc _ f hE hf] at hu; cases hu
    · intro k hk f hf hu
      rw [W.unordered sc _ f hE hf] at hu; cases hu
    · intro k hk b hb _ f hf hu
      rw [W.unordered sc _ f hE hf] at hu; cases hu
    · intro k hk f hf
      exact ih k hk (W.sub sc _ f hE hf) (hv.sub' k hk f hf) (hns.sub' k hk f hf) (htx.sub' k hk f hf)

end

theorem EasyWorld.incl {d : Device} {E : Scope → Prop} (W : EasyWorld d E) : ∀ (a : Elem) {sc : Scope} {b : Elem}, E sc → Valid d sc a →
    Valid d sc b → NoAttrs a → Deep d (TextLevel d) sc a → Deep d (TextLevel d) sc b → a.tag = b.tag →
    parseTextAt d sc a = parseTextAt d sc b → HasAll d sc a b → Incl d sc a b := by
  intro a
  induction a using Elem.ind with
  | h t n at' x ks ih =>
    intro sc b hE hva hvb hna hta htb htag hval h
    cases h with
    | mk k v s =>
      refine .mk htag hval (by rw [hna.here']; simp) k ?_ ?_
      · intro x hx y hy hs f hf
        refine ih x hx (W.sub sc _ f hE hf) (hva.sub' x hx f hf) (hvb.sub' y hy f (hs.look hf)) (hna.sub' x hx) (hta.sub' x hx f hf)
          (htb.sub' y hy f (hs.look hf)) hs.1 ?_ (s x hx y hy hs f hf)
        rw [parseTextAt_node, parseTextAt_node]
        obtain ⟨g, hg, kx⟩ := hva.shape' x hx
        obtain rfl : g = f := Except.ok.inj (hg.symm.trans hf)
        obtain ⟨g', hg', ky⟩ := hvb.shape' y hy
        obtain rfl : g' = g := Except.ok.inj (hg'.symm.trans (hs.look hf))
        cases hn : g'.node.ntype with
        | leaf => exact (v x hx y hy hs g' hf hn).symm
        | leafList => have := hs.2 g' hf; simpa only [hn] using this
        | container =>
          unfold parseText
          rw [hta.here' x hx g' hf hn, htb.here' y hy g' hg' hn]
        | list =>
          unfold KidOk at kx ky
          simp only [hn] at kx ky
          unfold parseText
          rw [kx.1, ky.1]
        | _ => unfold KidOk at kx; simp only [hn] at kx
      · rintro x y _ _ ⟨f, hf, hu, _⟩
        rw [W.unordered sc _ f hE hf] at hu; cases hu

theorem Incl.hasAll {d : Device} : ∀ (a : Elem) {sc : Scope} {b : Elem}, Incl d sc a b → HasAll d sc a b := by
  intro a
  induction a using Elem.ind with
  | h t n at' x ks ih =>
    intro sc b h
    cases h with
    | mk tag value attrs kids sub order =>
      refine .mk kids ?_ fun x hx y hy hs f hf => ih x hx (sub x hx y hy hs f hf)
      intro x hx y hy hs f hf _
      cases sub x hx y hy hs f hf with
      | mk _ value _ _ _ _ =>
        rw [parseTextAt_node, parseTextAt_node] at value
        exact value.symm

/-! ## Filled -/

section
variable {d : Device}

theorem HasAll.nonempty {sc : Scope} {a b : Elem} (h : HasAll d sc a b) (ha : a.kids ≠ []) : b.kids ≠ [] := by
  obtain ⟨x, hx⟩ := List.exists_mem_of_ne_nil _ ha
  cases h with
  | mk k v s =>
    obtain ⟨y, hy, _⟩ := k x hx
    exact List.ne_nil_of_mem hy

theorem filled_back : ∀ (z : Elem) {sc : Scope} {y : Elem}, HasAll d sc y z → Within d sc z y → Deep d (FilledLevel d) sc y →
    Deep d (FilledLevel d) sc z := by
  intro z
  induction z using Elem.ind with
  | h t n at' x ks ih =>
    intro sc y h hw hf
    cases hw with
    | mk k' s' =>
      cases h with
      | mk k v s =>
        refine ⟨?_, ?_⟩
        · intro w hw f hfl hnp
          obtain ⟨u, hu, hwu⟩ := k' w hw
          exact (s u hu w hw hwu.symm f (hwu.look hfl)).nonempty (hf.here' u hu f (hwu.look hfl) hnp)
        · intro w hw f hfl
          obtain ⟨u, hu, hwu⟩ := k' w hw
          exact ih w hw (s u hu w hw hwu.symm f (hwu.look hfl)) (s' w hw u hu hwu f hfl) (hf.sub' u hu f (hwu.look hfl))

theorem Merged.filled : ∀ (r : Elem) {sc : Scope} {a b : Elem}, Merged d sc a b r → Deep d (FilledLevel d) sc a →
    Deep d (FilledLevel d) sc b → Deep d (FilledLevel d) sc r := by
  intro r
  induction r using Elem.ind with
  | h t n at' x ks ih =>
    intro sc a b h fa fb
    generalize hr : Elem.mk t n at' x ks = r at *
    have hks : r.kids = ks := by rw [← hr]; rfl
    rw [← hks] at ih
    obtain ⟨⟨k0, v0, s0⟩, ⟨only, l, rr, bo⟩, wi, hv⟩ := id h
    have key : ∀ z ∈ r.kids, ∀ f, d.lookup sc z.tag = .ok f → (f.node.isNP = true → z.kids ≠ []) ∧ Deep d (FilledLevel d) (.node f.node) z := by
      intro z hz f hf
      by_cases hb : ∃ y ∈ b.kids, SameInstance d sc y z
      · obtain ⟨y, hy, hyz⟩ := hb
        have hfy := hyz.symm.look hf
        refine ⟨fun hnp => (s0 y hy z hz hyz f hfy).nonempty (fb.here' y hy f hfy hnp), ?_⟩
        by_cases ha : Absent d sc a.kids y
        · exact filled_back z (s0 y hy z hz hyz f hfy) (rr z hz y hy hyz ha f hfy) (fb.sub' y hy f hfy)
        · obtain ⟨x, hx, hxy⟩ := not_absent ha
          have hxz := hxy.trans hyz
          exact ih z hz (h.sub hx hy hz hxz hyz (hxz.symm.look hf)) (fa.sub' x hx f (hxz.symm.look hf)) (fb.sub' y hy f hfy)
      · rcases only z hz with ⟨x, hx, hxz⟩ | h
        · obtain rfl := l z hz x hx hxz fun y hy hyx => hb ⟨y, hy, hyx.trans hxz⟩
          exact ⟨fa.here' z hx f hf, fa.sub' z hx f hf⟩
        · exact absurd h hb
    exact ⟨fun z hz f hf => (key z hz f hf).1, fun z hz f hf => (key z hz f hf).2⟩

/-! ## Sums -/

/-- What every config in question is. -/
structure Good (d : Device) (c : Elem) : Prop where
  plain : PlainConfig d c
  tag : c.tag = ncTag "config"
  trimmed : trimDefaults d .root c = .ok c

theorem Good.mergeable {E : Scope → Prop} (W : EasyWorld d E) (hE : E .root) {a b : Elem} (ha : Good d a) (hb : Good d b) :
    Mergeable d a b :=
  ⟨ha.plain.valid, ha.plain.side.ns, ha.plain.bare, hb.plain, ha.tag, W.values a hE, ha.trimmed, hb.trimmed, W.defaults a hE, W.defaults b hE⟩

theorem Good.texts {c : Elem} (h : Good d c) : Deep d (TextLevel d) .root c := h.plain.level.imp fun _ _ h => h.noText

theorem good_add {E : Scope → Prop} (W : EasyWorld d E) (hE : E .root) {a b : Elem} (ha : Good d a) (hb : Good d b) :
    ∃ r, configAdd d a b = .ok r ∧ Good d r ∧ Merged d .root a b r := by
  have h := ha.mergeable W hE hb
  have hs : FullSide d .root b := ⟨h.other.side, h.other.filled⟩
  obtain ⟨R, hR⟩ := merge_ok b hs h.src.valid h.values
  have hdl := side_delta hs.toSide
  obtain ⟨hvR, hnR⟩ := nodeAdd_valid d b .root a R h.src.valid h.ns hs.valid hdl hR
  have htR := nodeAdd_texts d b .root a R h.src.valid h.ns hs.valid hdl ha.texts hb.texts hR
  have happ := nodeAdd_applied d b .root a R h.src.valid h.ns hs.valid hdl hR
  have htr := merge_trimmed b hs hvR happ h.trimmed1 h.trimmed2 h.defaults1 h.defaults2
  have hbR := nodeAdd_noAttrs d b .root a R ha.plain.bare hR
  obtain ⟨e1, _⟩ := nodeAdd_tag hR
  have hm : Merged d .root a b (emptyConfig.setKids R.kids) :=
    ⟨(merge_inv b hs happ).1.root rfl, (merge_from b hs hvR happ).root rfl, (merge_within b hs h.src.valid happ).root rfl, h.src.valid⟩
  have htr' : trimDefaults d .root (emptyConfig.setKids R.kids) = .ok (emptyConfig.setKids R.kids) := trim_fixed.2 (by
    have := trim_fixed.1 htr
    simpa using this)
  have hv : Valid d .root (emptyConfig.setKids R.kids) :=
    .mk (by simp [emptyConfig, Elem.new, Elem.setKids]) hvR.shape' hvR.unique' hvR.sub'
  have hn : Deep d (NsLevel d) .root (emptyConfig.setKids R.kids) := ⟨⟨(by decide : NsMapOk emptyConfig.nsmap), hnR.here'.2⟩, hnR.sub'⟩
  have ht : Deep d (TextLevel d) .root (emptyConfig.setKids R.kids) := ⟨htR.here', htR.sub'⟩
  refine ⟨emptyConfig.setKids R.kids, ?_, ⟨⟨⟨hv, rfl⟩, ?_, W.level _ hE hv hn ht, ?_⟩, rfl, htr'⟩, hm⟩
  · rw [configAdd_eq h.src.valid hs.valid]
    unfold configAddElem newConfig calcAdd
    rw [hR]
    simp only [bind, Except.bind, pure, Except.pure]
    rw [retrieve_kids (e1.trans h.tag), htr']
    rfl
  · exact .mk rfl hbR.sub'
  · exact hm.filled _ ha.plain.filled hb.plain.filled

theorem good_le {E : Scope → Prop} (W : EasyWorld d E) (hE : E .root) {a b : Elem} (ha : Good d a) (hb : Good d b) :
    ∃ r, cfgLe d a b = .ok r ∧ (r = true ↔ HasAll d .root a b) := by
  obtain ⟨r, hr, hi⟩ := cfgLe_iff ha.plain.valid hb.plain.valid
  refine ⟨r, hr, hi.trans ⟨Incl.hasAll a, fun h => ?_⟩⟩
  exact W.incl a hE ha.plain.valid.valid hb.plain.valid.valid ha.plain.bare ha.texts hb.texts (ha.tag.trans hb.tag.symm)
    (by unfold parseTextAt; rw [ha.plain.valid.noText, hb.plain.valid.noText]) h

theorem good_eq {E : Scope → Prop} (W : EasyWorld d E) (hE : E .root) {a b : Elem} (ha : Good d a) (hb : Good d b) :
    ∃ r, cfgEq d a b = .ok r ∧ (r = true ↔ HasAll d .root a b ∧ HasAll d .root b a) := by
  obtain ⟨r, hr, hri⟩ := good_le W hE ha hb
  obtain ⟨s, hs, hsi⟩ := good_le W hE hb ha
  exact ⟨r && s, andE_ok hr hs, by simp [hri, hsi]⟩

/-! ## Shared leaves -/

theorem Agree.hasAll : ∀ (b : Elem) {sc : Scope} {a r : Elem}, Agree d sc a b → HasAll d sc a r → Kept d sc b a r → HasAll d sc b r := by
  intro b
  induction b using Elem.ind with
  | h t n at' x ks ih =>
    intro sc a r hag ha hk
    obtain ⟨av, as⟩ := hag
    obtain ⟨k, v, s⟩ := ha
    obtain ⟨kk, al, bo⟩ := hk
    refine .mk kk ?_ ?_
    · intro y hy w hw hs f hf hn
      by_cases hab : Absent d sc a.kids y
      · exact (al y hy w hw hs hab f hf).1 hn
      · obtain ⟨x, hx, hxy⟩ := not_absent hab
        rw [v x hx w hw (hxy.trans hs) f (hxy.symm.look hf) hn, av x hx y hy hxy f (hxy.symm.look hf) hn]
    · intro y hy w hw hs f hf
      by_cases hab : Absent d sc a.kids y
      · exact (al y hy w hw hs hab f hf).2
      · obtain ⟨x, hx, hxy⟩ := not_absent hab
        have hfx := hxy.symm.look hf
        exact ih y hy (as x hx y hy hxy f hfx) (s x hx w hw (hxy.trans hs) f hfx) (bo y hy w hw hs x hx hxy f hf)

theorem agree_of : ∀ (a : Elem) {sc : Scope} {b r : Elem}, HasAll d sc a r → HasAll d sc b r → Agree d sc a b := by
  intro a
  induction a using Elem.ind with
  | h t n at' x ks ih =>
    intro sc b r ha hb
    obtain ⟨k, v, s⟩ := ha
    obtain ⟨k', v', s'⟩ := hb
    refine .mk ?_ ?_
    · intro x hx y hy hs f hf hn
      obtain ⟨w, hw, hxw⟩ := k x hx
      rw [← v x hx w hw hxw f hf hn, ← v' y hy w hw (hs.symm.trans hxw) f (hs.look hf) hn]
    · intro x hx y hy hs f hf
      obtain ⟨w, hw, hxw⟩ := k x hx
      exact ih x hx (s x hx w hw hxw f hf) (s' y hy w hw (hs.symm.trans hxw) f (hs.look hf))

theorem Agree.symm : ∀ (a : Elem) {sc : Scope} {b : Elem}, Agree d sc a b → Agree d sc b a := by
  intro a
  induction a using Elem.ind with
  | h t n at' x ks ih =>
    intro sc b h
    obtain ⟨v, s⟩ := h
    exact .mk (fun y hy x hx hs f hf hn => (v x hx y hy hs.symm f (hs.look hf) hn).symm)
      fun y hy x hx hs f hf => ih x hx (s x hx y hy hs.symm f (hs.look hf))

end

/-! ## Modules -/

namespace Compile

variable {d : Device} {rd : Bool}

/-- What is found in the modules. -/
def AddFound (rd : Bool) (f : Found) : Prop :=
  ∃ ns s e, Made ns s e ∧ f.node = SNode.ofElem e ∧ Everywhere Additive s ∧ Everywhere (Proper rd ns) s

/-- Only such nodes are found. -/
def AddScope (d : Device) (rd : Bool) (sc : Scope) : Prop := ∀ q f, d.lookup sc q = .ok f → AddFound rd f

theorem AddFound.scope {f : Found} (h : AddFound rd f) : AddScope d rd (.node f.node) := by
  intro q g hg
  obtain ⟨ns, s, e, hm, he, hS, hP⟩ := h
  rw [he] at hg
  have hg := lookup_nodes hg
  have hk : (SNode.ofElem e).kids = ofElems e.kids := by cases e; rw [SNode.ofElem]; rfl
  obtain ⟨vs, hvs, hv⟩ := nodes_visible (ns := ns) q _ (Nat.le_refl _) hm.kids
  rw [hk] at hg
  have hmem : g.node ∈ (vs.filter fun e => e.tag = q).map SNode.ofElem := by
    rw [← hv [] (decide ((SNode.ofElem e).info.ntype = .case)) 0]
    exact List.mem_map_of_mem hg
  obtain ⟨e', he', hge⟩ := List.mem_map.1 hmem
  obtain ⟨s', hs', hm'⟩ := forall₂_mem_right hvs (List.mem_filter.1 he').1
  refine ⟨ns, s', e', hm', hge.symm, ?_, ?_⟩
  · exact everywhere_visible _ (Nat.le_refl _) (by cases hS; assumption) s' hs'
  · exact everywhere_visible _ (Nat.le_refl _) (by cases hP; assumption) s' hs'

theorem add_root {h : Host} {mods : List Module} (hl : Loads h mods) (hp : ProperModules rd mods) (ha : AdditiveModules mods) :
    AddScope h.device rd .root := by
  intro q f hf
  obtain ⟨_, m, hm, s, hs, e, hmade, he⟩ := top_found hl hp.noChoice hf
  exact ⟨m.ns, s, e, hmade, he, ha m hm s hs, hp.stmts m hm s hs⟩

theorem easy (d : Device) (rd : Bool) : EasyWorld d (AddScope d rd) := by
  refine ⟨?_, ?_, ?_, ?_, ?_, ?_⟩
  · intro sc q f hE hf
    exact (hE q f hf).scope
  all_goals
    intro sc q f hE hf
    obtain ⟨ns, s, e, hm, he, hS, hP⟩ := hE q f hf
    obtain ⟨_, hu⟩ := hm.understood
    rw [he]
  · exact plain_of hm (.inl hS.here'.1)
  · cases ho : (SNode.ofElem e).userOrdered with
    | false => rfl
    | true => exact absurd (hu.userOrdered.1 ho).2 hS.here'.2.1
  · intro hd hn
    exact hd (hu.noDflt.2 (hS.here'.2.2 (hu.leafList.1 hn)))
  · intro hn
    refine ⟨(keys_of_list hm hP.here' (hu.list.1 hn)).1, fun k hk => ?_⟩
    obtain ⟨g, c, _, _, _, h1, h2, _, h4⟩ := key_found (d := d) hm hP (hu.list.1 hn) hk
    exact ⟨g, h1, h2, h4⟩
  · intro hn
    exact hu.leaf.2 (hP.here'.keyLeaf (hu.isKey.1 hn).2)

/-- Configs of documents and their sums are good. -/
theorem SumOf.good {h : Host} {mods : List Module} (hl : Loads h mods) (hp : ProperModules rd mods) (ha : AdditiveModules mods)
    {c : Elem} (hc : SumOf h mods rd c) : Good h.device c := by
  induction hc with
  | @doc x l v c hd hn =>
    obtain ⟨c', hc', _, h1, h2, h3, _⟩ := C65_accepted h mods rd hl hp x l hd v
    obtain rfl : c' = c := Except.ok.inj (hc'.symm.trans hn)
    exact ⟨h1, h2, h3⟩
  | @add a b r _ _ hadd iha ihb =>
    obtain ⟨r', hr', hg, _⟩ := good_add (easy h.device rd) (add_root hl hp ha) iha ihb
    obtain rfl : r' = r := Except.ok.inj (hr'.symm.trans hadd)
    exact hg

end Compile
end NcDiff
