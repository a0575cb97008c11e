import Verif.Proof.Compat
import Verif.Proof.Laws
/-!
# A config that two devices see alike
-/

namespace NcDiff

/-- Both devices find schema nodes for the whole tree, with the same attributes and keys, and read the same
values. -/
inductive SeenAlike (d1 d2 : Device) : Scope → Scope → Elem → Prop
  | mk {s1 s2 : Scope} {e : Elem}
      (here : ∀ k ∈ e.kids, ∃ f g, d1.lookup s1 k.tag = .ok f ∧ d2.lookup s2 k.tag = .ok g ∧
        f.node.info = g.node.info ∧ f.node.keys = g.node.keys ∧ parseText d1 k f.node = parseText d2 k g.node)
      (sub : ∀ k ∈ e.kids, ∀ f g, d1.lookup s1 k.tag = .ok f → d2.lookup s2 k.tag = .ok g →
        SeenAlike d1 d2 (.node f.node) (.node g.node) k) : SeenAlike d1 d2 s1 s2 e

variable {d1 d2 : Device} {s1 s2 : Scope} {a b e : Elem}

theorem SeenAlike.here' (h : SeenAlike d1 d2 s1 s2 e) : ∀ k ∈ e.kids, ∃ f g, d1.lookup s1 k.tag = .ok f ∧
    d2.lookup s2 k.tag = .ok g ∧ f.node.info = g.node.info ∧ f.node.keys = g.node.keys ∧
    parseText d1 k f.node = parseText d2 k g.node := by cases h; assumption

theorem SeenAlike.sub' (h : SeenAlike d1 d2 s1 s2 e) : ∀ k ∈ e.kids, ∀ f g, d1.lookup s1 k.tag = .ok f →
    d2.lookup s2 k.tag = .ok g → SeenAlike d1 d2 (.node f.node) (.node g.node) k := by cases h; assumption

theorem SeenAlike.symm (h : SeenAlike d1 d2 s1 s2 e) : SeenAlike d2 d1 s2 s1 e := by
  induction h with
  | mk here _ ih =>
    refine ⟨fun k hk => ?_, fun k hk f g hf hg => ih k hk g f hg hf⟩
    obtain ⟨f, g, hf, hg, hi, hks, hp⟩ := here k hk
    exact ⟨g, f, hg, hf, hi.symm, hks.symm, hp.symm⟩

theorem ntype_of_info {f g : SNode} (h : f.info = g.info) : f.ntype = g.ntype := congrArg SInfo.ntype h

theorem userOrdered_of_info {f g : SNode} (h : f.info = g.info) : f.userOrdered = g.userOrdered :=
  congrArg SInfo.userOrdered h

theorem SeenAlike.kid (h : SeenAlike d1 d2 s1 s2 e) {k : Elem} (hk : k ∈ e.kids) {f : Found}
    (hf : d1.lookup s1 k.tag = .ok f) : ∃ g, d2.lookup s2 k.tag = .ok g ∧ f.node.info = g.node.info ∧
      f.node.keys = g.node.keys ∧ parseText d1 k f.node = parseText d2 k g.node ∧
      SeenAlike d1 d2 (.node f.node) (.node g.node) k := by
  obtain ⟨f', g, hf', hg, hi, hks, hp⟩ := h.here' k hk
  obtain rfl : f' = f := by rw [hf] at hf'; exact (Except.ok.inj hf').symm
  exact ⟨g, hg, hi, hks, hp, h.sub' k hk _ _ hf hg⟩

theorem parseText_node (d : Device) (e : Elem) {f g : SNode} (h : f.info = g.info) :
    parseText d e f = parseText d e g := by
  unfold parseText; rw [h, ntype_of_info h]

/-- Siblings denote the same instance on one device if and only if they do on the other. -/
theorem SeenAlike.instance (ha : SeenAlike d1 d2 s1 s2 a) (hb : SeenAlike d1 d2 s1 s2 b) {x y : Elem}
    (hx : x ∈ a.kids) (hy : y ∈ b.kids) (h : SameInstance d1 s1 x y) : SameInstance d2 s2 x y := by
  obtain ⟨ht, hi⟩ := h
  refine ⟨ht, fun g hg => ?_⟩
  obtain ⟨f, hf, hinfo, hkeys, hp, -⟩ := ha.symm.kid hx hg
  obtain ⟨g', hg', -, -, hp', -⟩ := hb.kid hy (ht ▸ hf)
  obtain rfl : g' = g := by rw [← ht, hg] at hg'; exact (Except.ok.inj hg').symm
  have := hi f hf
  rw [ntype_of_info hinfo]
  revert this
  split
  · intro h; rw [hp, h, hp']
  · intro h; rw [hkeys]; exact h
  · exact fun _ => trivial

theorem SeenAlike.kidOk (h : SeenAlike d1 d2 s1 s2 e) {k : Elem} (hk : k ∈ e.kids) {f g : Found}
    (hf : d1.lookup s1 k.tag = .ok f) (hg : d2.lookup s2 k.tag = .ok g) (ho : KidOk d1 f.node k) :
    KidOk d2 g.node k := by
  obtain ⟨g', hg', hinfo, hkeys, hp, hsub⟩ := h.kid hk hf
  obtain rfl : g' = g := by rw [hg] at hg'; exact (Except.ok.inj hg').symm
  unfold KidOk at ho ⊢
  rw [← ntype_of_info hinfo]
  revert ho
  split
  · intro ho; exact ⟨ho.1, by rw [← hp]; exact ho.2⟩
  · intro ho; exact ⟨ho.1, by rw [← hp]; exact ho.2⟩
  · intro ho; rw [← hinfo]; exact ho
  · rintro ⟨h1, h2, h3, h4⟩
    refine ⟨h1, hinfo ▸ h2, hkeys ▸ h3, fun hu q hq => ?_⟩
    rw [← hkeys] at hq
    obtain ⟨c, hc⟩ := h3 q hq
    obtain ⟨hcm, hct⟩ : c ∈ k.kids ∧ c.tag = q := by
      have : c ∈ k.childrenWith q := by rw [hc]; simp
      simpa [Elem.childrenWith] using this
    obtain ⟨ff, hff, hfl, hfp⟩ := h4 ((userOrdered_of_info hinfo).trans hu) q hq
    obtain ⟨gg, hgg, hii, -⟩ := hsub.kid hcm (hct ▸ hff)
    refine ⟨gg, hct ▸ hgg, by rw [← ntype_of_info hii]; exact hfl, hii ▸ hfp⟩
  · exact id

theorem SeenAlike.valid (h : SeenAlike d1 d2 s1 s2 e) : Valid d1 s1 e → Valid d2 s2 e := by
  induction h with
  | mk here sub ih =>
    intro hv
    cases hv with
    | mk attrNames shape unique vsub =>
      have hse := SeenAlike.mk here sub
      refine ⟨attrNames, fun k hk => ?_, ?_, fun k hk g hg => ?_⟩
      · obtain ⟨f, hf, ho⟩ := shape k hk
        obtain ⟨g, hg, -⟩ := hse.kid hk hf
        exact ⟨g, hg, hse.kidOk hk hf hg ho⟩
      · refine unique.imp_of_mem fun hx hy hn hi => hn ?_
        exact hse.symm.instance hse.symm hx hy hi
      · obtain ⟨f, hf, -⟩ := hse.symm.kid hk hg
        exact ih k hk f g hf hg (vsub k hk f hf)

theorem Before.mem {l : List Elem} {x y : Elem} (h : Before l x y) : x ∈ l ∧ y ∈ l :=
  ⟨h.subset (by simp), h.subset (by simp)⟩

theorem SeenAlike.incl (ha : SeenAlike d1 d2 s1 s2 a) : ∀ {b : Elem}, SeenAlike d1 d2 s1 s2 b →
    parseTextAt d1 s1 a = parseTextAt d2 s2 a → parseTextAt d1 s1 b = parseTextAt d2 s2 b →
    Incl d1 s1 a b → Incl d2 s2 a b := by
  induction ha with
  | @mk s1 s2 a here sub ih =>
    intro b hb hva hvb hi
    have hse := SeenAlike.mk here sub
    cases hi with
    | mk tag value attrs kids isub order =>
      refine ⟨tag, by rw [← hva, ← hvb]; exact value, attrs, fun x hx => ?_, fun x hx y hy hxy g hg => ?_,
        fun x y hxy ht hu => ?_⟩
      · obtain ⟨y, hy, h⟩ := kids x hx
        exact ⟨y, hy, hse.instance hb hx hy h⟩
      · obtain ⟨f, hf, hinfo, -, hp, -⟩ := hse.symm.kid hx hg
        have hs1 := hse.symm.instance hb.symm hx hy hxy
        obtain ⟨g', hg', -, -, hp', hsy⟩ := hb.kid hy (f := f) (hxy.1 ▸ hf)
        obtain rfl : g' = g := by rw [← hxy.1, hg] at hg'; exact (Except.ok.inj hg').symm
        refine ih x hx f _ hf hg hsy ?_ ?_ (isub x hx y hy hs1 f hf)
        · unfold parseTextAt; split
          · rfl
          · exact hp.symm
        · unfold parseTextAt; split
          · rfl
          · exact hp'
      · obtain ⟨hxm, hym⟩ := hxy.mem
        obtain ⟨g, hg, hu1, hu2⟩ := hu
        obtain ⟨f, hf, hinfo, -⟩ := hse.symm.kid hxm hg
        obtain ⟨x', y', hb', h1, h2⟩ := order x y hxy ht ⟨f, hf, by rw [← userOrdered_of_info hinfo]; exact hu1,
          by rw [← ntype_of_info hinfo]; exact hu2⟩
        exact ⟨x', y', hb', hse.instance hb hxm hb'.mem.1 h1, hse.instance hb hym hb'.mem.2 h2⟩

theorem SeenAlike.inclRoot {a b : Elem} (ha : SeenAlike d1 d2 .root .root a) (hb : SeenAlike d1 d2 .root .root b) :
    Incl d1 .root a b ↔ Incl d2 .root a b := by
  have hv : ∀ e, parseTextAt d1 .root e = parseTextAt d2 .root e := fun e => by unfold parseTextAt; split <;> rfl
  exact ⟨ha.incl hb (hv _) (hv _), ha.symm.incl hb.symm (hv _).symm (hv _).symm⟩

theorem SeenAlike.validConfig (h : SeenAlike d1 d2 .root .root e) (hv : ValidConfig d1 e) : ValidConfig d2 e :=
  ⟨h.valid hv.valid, hv.noText⟩

theorem SeenAlike.le {a b : Elem} (ha : SeenAlike d1 d2 .root .root a) (hb : SeenAlike d1 d2 .root .root b)
    (va : ValidConfig d1 a) (vb : ValidConfig d1 b) : cfgLe d1 a b = cfgLe d2 a b := by
  obtain ⟨r, hr, hri⟩ := cfgLe_iff va vb
  obtain ⟨s, hs, hsi⟩ := cfgLe_iff (ha.validConfig va) (hb.validConfig vb)
  rw [hr, hs]
  congr 1
  rw [Bool.eq_iff_iff, hri, hsi]
  exact ha.inclRoot hb

theorem SeenAlike.eq {a b : Elem} (ha : SeenAlike d1 d2 .root .root a) (hb : SeenAlike d1 d2 .root .root b)
    (va : ValidConfig d1 a) (vb : ValidConfig d1 b) : cfgEq d1 a b = cfgEq d2 a b := by
  obtain ⟨r, hr, hri⟩ := cfgEq_iff va vb
  obtain ⟨s, hs, hsi⟩ := cfgEq_iff (ha.validConfig va) (hb.validConfig vb)
  rw [hr, hs]
  congr 1
  rw [Bool.eq_iff_iff, hri, hsi]
  exact ⟨fun h => ⟨(ha.inclRoot hb).1 h.1, (hb.inclRoot ha).1 h.2⟩,
    fun h => ⟨(ha.inclRoot hb).2 h.1, (hb.inclRoot ha).2 h.2⟩⟩

/-! ## From schemas that are alike -/

theorem seenAlike_node {e : Elem} : ∀ {a b : SNode}, Alike a b → Valid d1 (.node a) e →
    Deep d1 (ReadAlike d1 d2) (.node a) e → SeenAlike d1 d2 (.node a) (.node b) e := by
  induction e using Elem.ind with
  | h t n at' x ks ih =>
    intro a b hab hv hd
    cases hv with
    | mk _ shape _ vsub =>
      have look : ∀ k ∈ (Elem.mk t n at' x ks).kids, ∀ f, d1.lookup (.node a) k.tag = .ok f →
          ∃ g, d2.lookup (.node b) k.tag = .ok g ∧ Alike f.node g.node := by
        intro k hk f hf
        have := lookup_alike d1 d2 hab k.tag
        rw [hf] at this
        cases hg : d2.lookup (.node b) k.tag with
        | error e => rw [hg] at this; exact this.elim
        | ok g => rw [hg] at this; exact ⟨g, rfl, this.1⟩
      refine ⟨fun k hk => ?_, fun k hk f g hf hg => ?_⟩
      · obtain ⟨f, hf, -⟩ := shape k hk
        obtain ⟨g, hg, hal⟩ := look k hk f hf
        obtain ⟨hc, hr⟩ := hd.here' k hk f hf
        exact ⟨f, g, hf, hg, hal.info, hal.keys hc, by rw [hr]; exact parseText_node d2 k hal.info⟩
      · obtain ⟨g', hg', hal⟩ := look k hk f hf
        obtain rfl : g' = g := by rw [hg] at hg'; exact (Except.ok.inj hg').symm
        exact ih k hk hal (vsub k hk f hf) (hd.sub' k hk f hf)

theorem seenAlike_root {e : Elem} (hv : Valid d1 .root e) (hd : Deep d1 (ReadAlike d1 d2) .root e)
    (hl : ∀ k ∈ e.kids, LookAlike (d1.lookup .root k.tag) (d2.lookup .root k.tag)) :
    SeenAlike d1 d2 .root .root e := by
  cases hv with
  | mk _ shape _ vsub =>
    have look : ∀ k ∈ e.kids, ∀ f, d1.lookup .root k.tag = .ok f →
        ∃ g, d2.lookup .root k.tag = .ok g ∧ Alike f.node g.node := by
      intro k hk f hf
      have := hl k hk
      rw [hf] at this
      cases hg : d2.lookup .root k.tag with
      | error e => rw [hg] at this; exact this.elim
      | ok g => rw [hg] at this; exact ⟨g, rfl, this.1⟩
    refine ⟨fun k hk => ?_, fun k hk f g hf hg => ?_⟩
    · obtain ⟨f, hf, -⟩ := shape k hk
      obtain ⟨g, hg, hal⟩ := look k hk f hf
      obtain ⟨hc, hr⟩ := hd.here' k hk f hf
      exact ⟨f, g, hf, hg, hal.info, hal.keys hc, by rw [hr]; exact parseText_node d2 k hal.info⟩
    · obtain ⟨g', hg', hal⟩ := look k hk f hf
      obtain rfl : g' = g := by rw [hg] at hg'; exact (Except.ok.inj hg').symm
      exact seenAlike_node hal (vsub k hk f hf) (hd.sub' k hk f hf)

end NcDiff
