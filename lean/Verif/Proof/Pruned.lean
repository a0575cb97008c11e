import Verif.Spec.Instance
import Verif.Proof.Validate
import Verif.Proof.Trim
import Verif.Props.Validate
/-!
# Trees without some of their nodes
-/

namespace NcDiff

section
variable {d : Device} {rd : Bool}

theorem Pruned.head {sc : Scope} {e e' : Elem} (h : Pruned d sc e e') :
    e'.tag = e.tag ∧ e'.nsmap = e.nsmap ∧ e'.attrs = e.attrs ∧ e'.text = e.text := by
  cases h; exact ⟨‹_›, ‹_›, ‹_›, ‹_›⟩

/-- Every child of the smaller tree comes from a child of the larger one. -/
theorem Pruned.kid {sc : Scope} {e e' : Elem} (h : Pruned d sc e e') {k' : Elem} (hk : k' ∈ e'.kids) :
    ∃ k ∈ e.kids, ∃ f, d.lookup sc k.tag = .ok f ∧ Pruned d (.node f.node) k k' := by
  cases h with
  | mk l _ _ _ _ src dst _ known sub =>
    rw [← dst] at hk
    obtain ⟨p, hp, hp2⟩ := List.mem_filterMap.1 hk
    obtain ⟨f, hf⟩ := known p hp
    exact ⟨p.1, by rw [← src]; exact List.mem_map_of_mem hp, f, hf, sub p hp k' hp2 f hf⟩

/-- The keys of a list entry are all there, in their order. -/
theorem Pruned.keyed {sn : SNode} {e e' : Elem} (h : Pruned d (.node sn) e e') {q : QName} (hq : q ∈ sn.keys) :
    List.Forall₂ (fun c c' => ∃ f, d.lookup (.node sn) c.tag = .ok f ∧ Pruned d (.node f.node) c c') (e.childrenWith q)
      (e'.childrenWith q) := by
  cases h with
  | mk l _ _ _ _ src dst keys known sub =>
    unfold Elem.childrenWith
    rw [← src, ← dst]
    clear src dst
    induction l with
    | nil => exact .nil
    | cons p r ih =>
      have ih := ih (fun s hs p hp => keys s hs p (by simp [hp])) (fun p hp => known p (by simp [hp]))
        (fun p hp => sub p (by simp [hp]))
      obtain ⟨f, hf⟩ := known p (by simp)
      rw [List.filterMap_cons, List.map_cons, List.filter_cons]
      by_cases ht : p.1.tag = q
      · rw [if_pos (by simpa using ht)]
        cases hp : p.2 with
        | none => exact absurd hp (keys sn rfl p (by simp) (by rw [ht]; exact hq))
        | some k' =>
          have hs := sub p (by simp) k' hp f hf
          simp only
          rw [List.filter_cons, if_pos (by rw [hs.head.1]; simpa using ht)]
          exact .cons ⟨f, hf, hs⟩ ih
      · rw [if_neg (by simpa using ht)]
        cases hp : p.2 with
        | none => exact ih
        | some k' =>
          have hs := sub p (by simp) k' hp f hf
          simp only
          rw [List.filter_cons, if_neg (by rw [hs.head.1]; simpa using ht)]
          exact ih

theorem Pruned.keyTexts {sn : SNode} {e e' : Elem} (h : Pruned d (.node sn) e e') {q : QName} (hq : q ∈ sn.keys) :
    keyTexts e' q = keyTexts e q := by
  unfold NcDiff.keyTexts
  have := h.keyed hq
  generalize e.childrenWith q = a, e'.childrenWith q = b at this
  induction this with
  | nil => rfl
  | cons hx _ ih =>
    obtain ⟨_, _, hx⟩ := hx
    rw [List.map_cons, List.map_cons, ih, hx.head.2.2.2]

theorem Pruned.same {sc : Scope} {x y x' y' : Elem} {f g : Found} (hf : d.lookup sc x.tag = .ok f)
    (hg : d.lookup sc y.tag = .ok g) (hx : Pruned d (.node f.node) x x') (hy : Pruned d (.node g.node) y y')
    (h : SameInstance d sc x' y') : SameInstance d sc x y := by
  obtain ⟨ht, hs⟩ := h
  rw [hx.head.1, hy.head.1] at ht
  refine ⟨ht, fun f' hf' => ?_⟩
  obtain rfl : f = f' := Except.ok.inj (hf.symm.trans hf')
  obtain rfl : f = g := by rw [ht, hg] at hf; exact (Except.ok.inj hf).symm
  have := hs f (by rw [hx.head.1]; exact hf)
  cases hn : f.node.ntype <;> simp only [hn] at this ⊢
  case leafList =>
    rw [parseText_congr hx.head.1 hx.head.2.2.2 hx.head.2.1, parseText_congr hy.head.1 hy.head.2.2.2 hy.head.2.1] at this
    exact this
  case list =>
    intro k hk
    rw [← hx.keyTexts hk, ← hy.keyTexts hk]
    exact this k hk

theorem Pruned.kids_nil {sc : Scope} {e e' : Elem} (h : Pruned d sc e e') (hk : e.kids = []) : e'.kids = [] := by
  apply List.eq_nil_iff_forall_not_mem.2
  intro k hk'
  obtain ⟨k, hk1, _⟩ := h.kid hk'
  rw [hk] at hk1; cases hk1

theorem Pruned.kidOk {sn : SNode} {k k' : Elem} (h : Pruned d (.node sn) k k') (hk : KidOk d sn k) : KidOk d sn k' := by
  obtain ⟨h1, h2, _, h4⟩ := h.head
  unfold KidOk at hk ⊢
  cases hn : sn.ntype <;> simp only [hn] at hk ⊢
  case leaf => rw [parseText_congr h1 h4 h2]; exact ⟨h.kids_nil hk.1, hk.2⟩
  case leafList => rw [parseText_congr h1 h4 h2]; exact ⟨h.kids_nil hk.1, hk.2⟩
  case container => exact hk
  case list =>
    obtain ⟨a, b, c, e⟩ := hk
    refine ⟨by rw [h4]; exact a, b, fun q hq => ?_, e⟩
    obtain ⟨c1, hc1⟩ := c q hq
    have := h.keyed hq
    rw [hc1] at this
    cases hc' : k'.childrenWith q with
    | nil => rw [hc'] at this; cases this
    | cons x r =>
      rw [hc'] at this
      cases this with
      | cons _ hr => cases hr; exact ⟨x, rfl⟩

/-- Validity. -/
theorem Pruned.valid {sc : Scope} {e e' : Elem} (h : Pruned d sc e e') (hv : Valid d sc e) : Valid d sc e' := by
  induction h with
  | @mk sc e e' l tag nsmap attrs text src dst keys known sub ih =>
    cases hv with
    | mk attrNames shape unique vsub =>
      have hin : ∀ p ∈ l, p.1 ∈ e.kids := fun p hp => by rw [← src]; exact List.mem_map_of_mem hp
      refine .mk (by rw [attrs]; exact attrNames) ?_ ?_ ?_
      · intro k' hk'
        rw [← dst] at hk'
        obtain ⟨p, hp, hp2⟩ := List.mem_filterMap.1 hk'
        obtain ⟨f, hf, hok⟩ := shape p.1 (hin p hp)
        have hs := sub p hp k' hp2 f hf
        exact ⟨f, by rw [hs.head.1]; exact hf, hs.kidOk hok⟩
      · rw [← dst, List.pairwise_filterMap]
        rw [← src, List.pairwise_map] at unique
        refine unique.imp_of_mem ?_
        intro p q hp hq hne x hx y hy hsame
        obtain ⟨f, hf⟩ := known p hp
        obtain ⟨g, hg⟩ := known q hq
        exact hne (Pruned.same hf hg (sub p hp x hx f hf) (sub q hq y hy g hg) hsame)
      · intro k' hk' f hf
        rw [← dst] at hk'
        obtain ⟨p, hp, hp2⟩ := List.mem_filterMap.1 hk'
        obtain ⟨g, hg⟩ := known p hp
        have ht := (sub p hp k' hp2 g hg).head.1
        rw [ht] at hf
        exact ih p hp k' hp2 f hf (vsub p.1 (hin p hp) f hf)

theorem Pruned.bare {sc : Scope} {e e' : Elem} (h : Pruned d sc e e') (hv : NoAttrs e) : NoAttrs e' := by
  induction h with
  | @mk sc e e' l tag nsmap attrs text src dst keys known sub ih =>
    cases hv with
    | mk here nsub =>
      refine ⟨by rw [attrs]; exact here, fun k' hk' => ?_⟩
      rw [← dst] at hk'
      obtain ⟨p, hp, hp2⟩ := List.mem_filterMap.1 hk'
      obtain ⟨f, hf⟩ := known p hp
      exact ih p hp k' hp2 f hf (nsub p.1 (by rw [← src]; exact List.mem_map_of_mem hp))

/-- A condition at every node is kept if it is kept at one node. -/
theorem Pruned.deep {P : Scope → Elem → Prop} (hP : ∀ {sc e e'}, Pruned d sc e e' → P sc e → P sc e') {sc : Scope}
    {e e' : Elem} (h : Pruned d sc e e') (hd : Deep d P sc e) : Deep d P sc e' := by
  have h0 := h
  induction h with
  | @mk sc e e' l tag nsmap attrs text src dst keys known sub ih =>
    refine ⟨hP h0 hd.here', fun k' hk' f hf => ?_⟩
    rw [← dst] at hk'
    obtain ⟨p, hp, hp2⟩ := List.mem_filterMap.1 hk'
    obtain ⟨g, hg⟩ := known p hp
    rw [(sub p hp k' hp2 g hg).head.1] at hf
    exact ih p hp k' hp2 f hf (hd.sub' p.1 (by rw [← src]; exact List.mem_map_of_mem hp) f hf) (sub p hp k' hp2 f hf)

theorem keyOk_congr {sn : SNode} {a b : Elem} (h1 : a.tag = b.tag) (h2 : a.nsmap = b.nsmap) (h3 : a.text = b.text)
    (h : KeyOk d sn b) : KeyOk d sn a := by
  unfold KeyOk KeyHonest at h ⊢
  rw [h1, h2, h3]; exact h

theorem writable_congr {sn : SNode} {a b : Elem} {m : NsMap} (h2 : a.nsmap = b.nsmap) (h3 : a.text = b.text)
    (h : Writable d sn b m) : Writable d sn a m := by
  unfold Writable at h ⊢
  rw [h2, h3]; exact h

theorem leafValueOk_congr {sn : SNode} {a b : Elem} (h3 : a.text = b.text)
    (h : LeafValueOk sn b) : LeafValueOk sn a := by
  unfold LeafValueOk at h ⊢
  rw [h3]; exact h

theorem Pruned.key_mem {sn : SNode} {e e' : Elem} (h : Pruned d (.node sn) e e') {q : QName} (hq : q ∈ sn.keys)
    {c' : Elem} (hc : c' ∈ e'.childrenWith q) : ∃ c ∈ e.childrenWith q, c'.tag = c.tag ∧ c'.nsmap = c.nsmap ∧
      c'.text = c.text := by
  have := h.keyed hq
  generalize e.childrenWith q = a, e'.childrenWith q = b at this hc
  induction this with
  | nil => cases hc
  | cons hx _ ih =>
    obtain ⟨_, _, hx⟩ := hx
    rcases List.mem_cons.1 hc with rfl | hc
    · exact ⟨_, List.mem_cons_self, hx.head.1, hx.head.2.1, hx.head.2.2.2⟩
    · obtain ⟨c, hc, h⟩ := ih hc
      exact ⟨c, List.mem_cons_of_mem _ hc, h⟩

theorem Pruned.confLevel {sc : Scope} {e e' : Elem} (h : Pruned d sc e e') (hl : ConfLevel d sc e) : ConfLevel d sc e' := by
  have key : ∀ k' ∈ e'.kids, ∀ f, d.lookup sc k'.tag = .ok f → ∃ k ∈ e.kids, k.tag = k'.tag ∧ d.lookup sc k.tag = .ok f ∧
      Pruned d (.node f.node) k k' := by
    intro k' hk' f hf
    obtain ⟨k, hk, g, hg, hp⟩ := h.kid hk'
    rw [hp.head.1] at hf
    obtain rfl : g = f := Except.ok.inj (hg.symm.trans hf)
    exact ⟨k, hk, hp.head.1.symm, hg, hp⟩
  constructor
  · rw [h.head.2.1]; exact hl.nsmap
  · intro k' hk' f hf hn q hq
    obtain ⟨k, hk, _, hg, hp⟩ := key k' hk' f hf
    obtain ⟨g, g1, g2, g3, g4⟩ := hl.keys k hk f hg hn q hq
    refine ⟨g, g1, g2, fun c' hc' => ?_, g4⟩
    obtain ⟨c, hc, e1, e2, e3⟩ := hp.key_mem hq hc'
    exact keyOk_congr e1 e2 e3 (g3 c hc)
  · intro k' hk' f hf hn
    obtain ⟨k, hk, _, hg, hp⟩ := key k' hk' f hf
    exact hl.keysOnce k hk f hg hn
  · intro k' hk' f hf hn
    obtain ⟨k, hk, _, hg, hp⟩ := key k' hk' f hf
    obtain ⟨a, b⟩ := hl.keyLeaf k hk f hg hn
    exact ⟨a, keyOk_congr hp.head.1 hp.head.2.1 hp.head.2.2.2 b⟩
  · intro k' hk' f hf hn
    obtain ⟨k, hk, _, hg, hp⟩ := key k' hk' f hf
    exact leafValueOk_congr hp.head.2.2.2 (hl.values k hk f hg hn)
  · intro k' hk' f hf hn
    obtain ⟨k, hk, _, hg, hp⟩ := key k' hk' f hf
    rw [hp.head.2.2.2]; exact hl.noText k hk f hg hn
  · intro k' hk' f hf hn
    obtain ⟨k, hk, _, hg, hp⟩ := key k' hk' f hf
    rw [hp.head.2.1]
    exact writable_congr hp.head.2.1 hp.head.2.2.2 (hl.own k hk f hg hn)
  · intro k' hk' f hf hu hn
    obtain ⟨k, hk, _, hg, hp⟩ := key k' hk' f hf
    rw [hp.head.2.2.2]
    exact hl.orderedValues k hk f hg hu hn
  · intro k' hk' f hf hu hn q hq c' hc'
    obtain ⟨k, hk, _, hg, hp⟩ := key k' hk' f hf
    obtain ⟨c, hc, _, _, e3⟩ := hp.key_mem hq hc'
    rw [e3]
    exact hl.orderedKeys k hk f hg hu hn q hq c hc
  · intro a' ha' b' hb' hab f hf hu hn q hq c' hc'
    obtain ⟨a, ha, ta, hg, hp⟩ := key a' ha' f hf
    obtain ⟨b, hb, tb, _, hpb⟩ := key b' hb' f (by rw [← hab]; exact hf)
    obtain ⟨c, hc, _, e2, _⟩ := hp.key_mem hq hc'
    rw [e2, hpb.head.2.1]
    exact hl.orderedPrefixes a ha b hb (by rw [ta, tb]; exact hab) f hg hu hn q hq c hc

theorem Pruned.keyLevel {sc : Scope} {e e' : Elem} (h : Pruned d sc e e') (hl : KeyLevel d rd sc e) : KeyLevel d rd sc e' := by
  intro k' hk' f hf hkey
  obtain ⟨k, hk, g, hg, hp⟩ := h.kid hk'
  rw [hp.head.1] at hf
  exact hl k hk f hf hkey

theorem Pruned.defaultLevel {sc : Scope} {e e' : Elem} (h : Pruned d sc e e') (hl : DefaultLevel d sc e) :
    DefaultLevel d sc e' := by
  intro k' hk' f hf
  obtain ⟨k, hk, g, hg, hp⟩ := h.kid hk'
  rw [hp.head.1] at hf
  exact hl k hk f hf

theorem Pruned.raw {e e' : Elem} (h : Pruned d .root e e') (hr : RawConfig d rd e) : RawConfig d rd e' :=
  ⟨⟨h.valid hr.valid.valid, by rw [h.head.2.2.2]; exact hr.valid.noText⟩, h.bare hr.bare, h.deep Pruned.confLevel hr.level,
    h.deep Pruned.keyLevel hr.keys, h.deep Pruned.defaultLevel hr.defaults⟩

/-- The keys of the list that a scope belongs to. -/
def KeysOf (d : Device) (sc : Scope) : Prop :=
  ∀ sn, sc = .node sn → ∀ q ∈ sn.keys, ∃ g, d.lookup sc q = .ok g ∧ g.node.ntype = .leaf ∧ g.node.info.isKey = true

theorem keysOf_below {sc : Scope} {e k : Elem} {f : Found} (hl : ConfLevel d sc e) (hk : k ∈ e.kids)
    (hf : d.lookup sc k.tag = .ok f) : KeysOf d (.node f.node) := by
  rintro sn hsn q hq
  obtain rfl : f.node = sn := by injection hsn
  by_cases hn : f.node.ntype = .list
  · obtain ⟨g, g1, g2, _, g4⟩ := hl.keys k hk f hf hn q hq
    exact ⟨g, g1, g2, g4⟩
  · unfold SNode.keys at hq
    rw [if_neg (show ¬ f.node.info.ntype = .list from hn)] at hq
    cases hq

/-- Trimming defaults removes nodes only. -/
theorem TrimmedTo.pruned {sc : Scope} {e e' : Elem} (h : TrimmedTo d sc e e') (hv : Valid d sc e)
    (hl : Deep d (ConfLevel d) sc e) (hkey : Deep d (KeyLevel d rd) sc e) (hk : KeysOf d sc) : Pruned d sc e e' := by
  induction h with
  | @mk sc e e' l tag nsmap attrs text src dst removed kept sub ih =>
    have hin : ∀ p ∈ l, p.1 ∈ e.kids := fun p hp => by rw [← src]; exact List.mem_map_of_mem hp
    refine .mk l tag nsmap attrs text src dst ?_ (fun p hp => hv.known p.1 (hin p hp)) ?_
    · rintro sn rfl p hp hq hn
      obtain ⟨g, g1, g2, g3⟩ := hk sn rfl _ hq
      have h1 := (hkey.here' p.1 (hin p hp) g g1 g3).1
      cases removed p hp hn g g1 with
      | leaf v _ h2 _ => rw [h1] at h2; cases h2
      | leafList v h2 _ _ => rw [g2] at h2; cases h2
      | emptied h2 _ =>
        rcases h2 with h2 | h2
        · unfold SNode.isNP at h2
          rw [show g.node.info.ntype = .leaf from g2] at h2
          simp at h2
        · rw [g2] at h2; cases h2
    · intro p hp k' hk' f hf
      cases hv with
      | mk _ _ _ vsub =>
        exact ih p hp k' hk' f hf (vsub _ (hin p hp) f hf) (hl.sub' _ (hin p hp) f hf) (hkey.sub' _ (hin p hp) f hf)
          (keysOf_below hl.here' (hin p hp) hf)

/-- Validation removes nodes only. -/
theorem CleanedTo.pruned {sc : Scope} {e e' : Elem} (h : CleanedTo d rd sc e e') (hv : Valid d sc e)
    (hl : Deep d (ConfLevel d) sc e) (hkey : Deep d (KeyLevel d rd) sc e) (hk : KeysOf d sc) : Pruned d sc e e' := by
  induction h with
  | @mk sc e e' l tag nsmap attrs text src dst removed kept sub ih =>
    have hin : ∀ p ∈ l, p.1 ∈ e.kids := fun p hp => by rw [← src]; exact List.mem_map_of_mem hp
    refine .mk l tag nsmap attrs text src dst ?_ (fun p hp => hv.known p.1 (hin p hp)) ?_
    · rintro sn rfl p hp hq hn
      obtain ⟨g, g1, g2, g3⟩ := hk sn rfl _ hq
      have h1 := (hkey.here' p.1 (hin p hp) g g1 g3).2
      cases removed p hp hn g g1 with
      | outdated h2 => exact h1 h2
      | emptied h2 _ =>
        rcases h2 with h2 | h2
        · unfold SNode.isNP at h2
          rw [show g.node.info.ntype = .leaf from g2] at h2
          simp at h2
        · rw [g2] at h2; cases h2
    · intro p hp k' hk' f hf
      cases hv with
      | mk _ _ _ vsub =>
        exact ih p hp k' hk' f hf (vsub _ (hin p hp) f hf) (hl.sub' _ (hin p hp) f hf) (hkey.sub' _ (hin p hp) f hf)
          (keysOf_below hl.here' (hin p hp) hf)

theorem keysOf_root : KeysOf d .root := by rintro sn h; cases h

/-- Without defaults there are no empty containers. -/
theorem filled_of_trimmed : ∀ (e : Elem) {sc : Scope}, trimDefaults d sc e = .ok e → Deep d (FilledLevel d) sc e := by
  intro e
  induction e using Elem.ind with
  | h t n a x ks ih =>
    intro sc ht
    rw [trim_fixed] at ht
    refine ⟨fun k hk f hf hnp hkk => ?_, fun k hk f hf => ?_⟩
    · obtain ⟨g, hg, _, h2⟩ := ht k hk
      obtain rfl : g = f := Except.ok.inj (hg.symm.trans hf)
      unfold SNode.isNP at hnp
      simp only [Bool.and_eq_true, decide_eq_true_eq, Bool.not_eq_true'] at hnp
      unfold trimDrops at h2
      rw [show g.node.ntype = .container from hnp.1] at h2
      simp [hkk, hnp.2] at h2
    · obtain ⟨g, hg, h1, _⟩ := ht k hk
      obtain rfl : g = f := Except.ok.inj (hg.symm.trans hf)
      exact ih k hk h1

/-- A raw config is accepted. -/
theorem accepted_of_valid {sc : Scope} {e : Elem} (hv : Valid d sc e) (hb : NoAttrs e) : Accepted d sc e := by
  induction hv with
  | @mk sc e _ shape _ _ ih =>
    cases hb with
    | mk here nsub =>
      refine .mk (fun k hk => ?_) (fun k hk _ f hf => ?_) (fun k hk _ f hf => ih k hk f hf (nsub k hk))
      · obtain ⟨f, hf, _⟩ := shape k hk; exact ⟨f, hf⟩
      · obtain ⟨g, hg, hok⟩ := shape k hk
        obtain rfl : g = f := Except.ok.inj (hg.symm.trans hf)
        refine ⟨fun hn q hq => ?_, fun n _ v hv => ?_⟩
        · unfold KidOk at hok
          simp only [hn] at hok
          obtain ⟨c, hc⟩ := hok.2.2.1 q hq
          have : c ∈ k.childrenWith q := by rw [hc]; simp
          unfold Elem.childrenWith at this
          obtain ⟨h1, h2⟩ := List.mem_filter.1 this
          exact ⟨c, h1, by simpa using h2⟩
        · have : k.attrs = [] := by cases nsub k hk; assumption
          unfold Elem.get at hv
          rw [this] at hv
          cases hv

theorem known_of_valid {sc : Scope} {e : Elem} (hv : Valid d sc e) : Known d sc e := by
  induction hv with
  | @mk sc e _ shape _ _ ih =>
    exact ⟨fun k hk => by obtain ⟨f, hf, _⟩ := shape k hk; exact ⟨f, hf⟩, ih⟩

theorem pruned_refl {sc : Scope} {e : Elem} (hv : Valid d sc e) : Pruned d sc e e := by
  induction hv with
  | @mk sc e _ shape _ _ ih =>
    refine .mk (e.kids.map fun k => (k, some k)) rfl rfl rfl rfl ?_ ?_ ?_ ?_ ?_
    · simp [Function.comp_def]
    · rw [List.filterMap_map]; simp [Function.comp_def]
    · rintro sn _ p hp _ hn
      obtain ⟨k, _, rfl⟩ := List.mem_map.1 hp
      cases hn
    · intro p hp
      obtain ⟨k, hk, rfl⟩ := List.mem_map.1 hp
      obtain ⟨f, hf, _⟩ := shape k hk
      exact ⟨f, hf⟩
    · intro p hp k' hk' f hf
      obtain ⟨k, hk, rfl⟩ := List.mem_map.1 hp
      obtain rfl : k = k' := Option.some.inj hk'
      exact ih k hk f hf

/-- Building a config of a raw config succeeds, and the result is one for which deltas are proved to be right. -/
theorem config_of_raw {x : Elem} {l : List Elem} (hl : RootsIn x l) (h : RawConfig d rd (noConfig.setKids l)) (v : Bool) :
    ∃ c, newConfig d x v rd = .ok c ∧ (∃ t, Pruned d .root (noConfig.setKids l) t ∧ Pruned d .root t c) ∧ PlainConfig d c ∧ c.tag = ncTag "config" ∧
      trimDefaults d .root c = .ok c ∧ Deep d (DefaultLevel d) .root c := by
  obtain ⟨t, ht⟩ := trim_ok (noConfig.setKids l) (known_of_valid h.valid.valid)
  obtain ⟨ht1, ht2, _⟩ := trim_spec _ ht
  have hp := ht1.pruned h.valid.valid h.level h.keys keysOf_root
  have hr := hp.raw h
  cases v with
  | false =>
    refine ⟨t, ?_, ⟨t, hp, pruned_refl hr.valid.valid⟩, ⟨hr.valid, hr.bare, hr.level, filled_of_trimmed t ht2⟩, ?_, ht2, hr.defaults⟩
    · unfold newConfig
      rw [C41_sources x l hl, ht]
      rfl
    · rw [hp.head.1]; rfl
  | true =>
    obtain ⟨c, hc⟩ := (C41_accepts (rd := rd) t).2 (accepted_of_valid hr.valid.valid hr.bare)
    have hn : newConfig d x true rd = .ok c := by
      unfold newConfig
      rw [C41_sources x l hl, ht]
      exact hc
    have hp2 := (C41_result t c hc).1.pruned hr.valid.valid hr.level hr.keys keysOf_root
    have hr2 := hp2.raw hr
    have htc : trimDefaults d .root c = .ok c := by
      unfold validateConfig at hc
      obtain ⟨_, _, hv⟩ := bind_ok.1 hc
      obtain ⟨ks, hks, hv⟩ := bind_ok.1 hv
      cases hv
      exact validate_trimmed t ht2 hks
    refine ⟨c, hn, ⟨t, hp, hp2⟩, ⟨hr2.valid, hr2.bare, hr2.level, filled_of_trimmed c htc⟩, ?_, htc, hr2.defaults⟩
    rw [hp2.head.1, hp.head.1]; rfl

end
end NcDiff
