import Verif.Spec.Yang
import Verif.Proof.Pruned
import Verif.Proof.CompileTree
import Verif.Proof.CompatHost
import Verif.Props.Compile
/-!
# Instances of YANG modules are raw configs
-/

namespace NcDiff.Compile

section
variable {d : Device} {rd : Bool}

/-- Statements and the elements made of them. -/
def Made (ns : List (String × String)) (s : Stmt) (e : Elem) : Prop := ∃ mode, depict ns mode s = .ok e

theorem Made.named {ns s e} (h : Made ns s e) : Named ns e.tag s := by
  obtain ⟨_, h⟩ := h; exact named_of_depict h

theorem Made.kids {ns s e} (h : Made ns s e) : List.Forall₂ (Made ns) s.kids e.kids := by
  obtain ⟨mode, h⟩ := h
  obtain ⟨u, a, sub, _, _, hs, rfl⟩ := depict_ok.1 h
  exact (depictKids_ok.1 hs).imp fun _ _ h => ⟨_, h⟩

theorem Made.understood {ns s e} (h : Made ns s e) : ∃ a, Understood ns s a (SNode.ofElem e).info := by
  obtain ⟨mode, h⟩ := h
  rw [ofElem_info]
  exact ⟨_, Compile.understood (describes h) (access_of_depict h)⟩

theorem named_inj {ns s} {q q' : QName} (h : Named ns q s) (h' : Named ns q' s) : q = q' := by
  obtain ⟨a, b⟩ := h
  obtain ⟨a', b'⟩ := h'
  cases q; cases q'
  simp only at a a' b b'
  rw [a] at a'
  cases a'
  rw [b, b']

theorem ofElem_tag (e : Elem) : (SNode.ofElem e).tag = e.tag := by
  rw [SNode.tag, ofElem_info]; rfl

/-- The nodes found for a tag are the visible statements with the tag. -/
theorem nodes_visible {ns : List (String × String)} (tag : QName) : ∀ (n : Nat) {l : List Stmt} {es : List Elem}, sizeOf l ≤ n →
    List.Forall₂ (Made ns) l es → ∃ vs, List.Forall₂ (Made ns) (visible l) vs ∧ ∀ pre ic i,
      (dataNodes tag pre ic i (ofElems es)).map Found.node = (vs.filter fun e => e.tag = tag).map SNode.ofElem := by
  intro n
  induction n with
  | zero => intro l es hn; cases l <;> simp at hn
  | succ n ih =>
    intro l es hn h
    cases h with
    | nil => exact ⟨[], by rw [visible]; exact .nil, fun _ _ _ => by rw [ofElems, dataNodes]; rfl⟩
    | @cons s e l es hs hr =>
      obtain ⟨i, ks⟩ := s
      obtain ⟨vr, hvr, hr'⟩ := ih (by simp at hn ⊢; omega) hr
      obtain ⟨_, hu⟩ := hs.understood
      have hk := hs.kids
      by_cases hc : i.keyword = "choice" ∨ i.keyword = "case"
      · obtain ⟨vk, hvk, hk'⟩ := ih (l := ks) (by simp at hn ⊢; omega) hk
        refine ⟨vk ++ vr, ?_, fun pre ic j => ?_⟩
        · rw [visible, visibleOne, if_pos hc]; exact List.rel_append hvk hvr
        · cases e with
          | mk t m a x ek =>
            rw [ofElem_info] at hu
            rw [ofElems, SNode.ofElem, dataNodes, List.map_append, List.filter_append, List.map_append, hr' pre ic (j + 1)]
            congr 1
            rw [dataNode]
            rcases hc with hc | hc
            · rw [if_pos (hu.choice.2 hc)]; exact hk' _ _ _
            · have : (infoOf (.mk t m a x ek)).ntype ≠ .choice := by rw [hu.case.2 hc]; decide
              rw [if_neg this, if_pos (hu.case.2 hc)]; exact hk' _ _ _
      · refine ⟨e :: vr, ?_, fun pre ic j => ?_⟩
        · rw [visible, visibleOne, if_neg hc]; exact .cons hs hvr
        · cases e with
          | mk t m a x ek =>
            rw [ofElem_info] at hu
            have h1 : (infoOf (.mk t m a x ek)).ntype ≠ .choice := fun h => hc (Or.inl (hu.choice.1 h))
            have h2 : (infoOf (.mk t m a x ek)).ntype ≠ .case := fun h => hc (Or.inr (hu.case.1 h))
            rw [ofElems, SNode.ofElem, dataNodes, List.map_append, hr' pre ic (j + 1), dataNode, if_neg h1, if_neg h2,
              List.filter_cons]
            have : (infoOf (.mk t m a x ek)).tag = t := rfl
            rw [this, show (Elem.mk t m a x ek).tag = t from rfl]
            by_cases ht : t = tag
            · rw [if_pos ht, if_pos (decide_eq_true ht), List.map_cons, List.map_cons, SNode.ofElem]; rfl
            · rw [if_neg ht, if_neg (by exact fun h => ht (of_decide_eq_true h))]; rfl

/-- Places, and what the device finds for them. -/
def Covers (d : Device) (sc : Scope) (pl : List Place) : Prop :=
  ∀ p ∈ pl, p.2.info.keyword ∈ ["container", "leaf", "leaf-list", "list"] → ∀ q, Named p.1 q p.2 → ∃ f e, d.lookup sc q = .ok f ∧ Made p.1 p.2 e ∧ f.node = SNode.ofElem e

theorem single {ns : List (String × String)} {l : List Stmt} {vs : List Elem} (h : List.Forall₂ (Made ns) l vs)
    (hd : DistinctNames ns l) {s : Stmt} (hs : s ∈ l) {q : QName} (hq : Named ns q s) :
    ∃ e, Made ns s e ∧ (vs.filter fun e => e.tag = q) = [e] := by
  obtain ⟨e, he, hm⟩ := forall₂_mem_left h hs
  have hn := nodup_tags (h.imp fun _ _ h => h.named) hd
  have ht : e.tag = q := named_inj hm.named hq
  refine ⟨e, hm, ?_⟩
  clear h hd hs hm
  induction vs with
  | nil => cases he
  | cons x r ih =>
    rw [List.map_cons, List.nodup_cons] at hn
    rw [List.filter_cons]
    rcases List.mem_cons.1 he with rfl | he
    · rw [if_pos (by simpa using ht)]
      congr 1
      rw [List.filter_eq_nil_iff]
      intro y hy
      simp only [decide_eq_true_eq]
      intro hy'
      exact hn.1 (by rw [ht, ← hy']; exact List.mem_map_of_mem hy)
    · rw [if_neg ?_]
      · exact ih he hn.2
      · simp only [decide_eq_true_eq]
        intro hx
        exact hn.1 (by rw [hx, ← ht]; exact List.mem_map_of_mem he)

theorem covers_below {ns s e} (h : Made ns s e) (hd : DistinctNames ns (visible s.kids)) :
    Covers d (.node (SNode.ofElem e)) (places ns s.kids) := by
  intro p hp _ q hq
  obtain ⟨s', hs', rfl⟩ := List.mem_map.1 hp
  obtain ⟨vs, hvs, hv⟩ := nodes_visible (ns := ns) q _ (Nat.le_refl _) h.kids
  obtain ⟨e', he', hf⟩ := single hvs hd hs' hq
  have := hv [] ((SNode.ofElem e).info.ntype = .case) 0
  rw [hf] at this
  have hk : (SNode.ofElem e).kids = ofElems e.kids := by cases e; rw [SNode.ofElem]; rfl
  unfold Device.lookup
  simp only [hk]
  cases hl : dataNodes q [] (decide ((SNode.ofElem e).info.ntype = .case)) 0 (ofElems e.kids) with
  | nil => rw [hl] at this; cases this
  | cons f r =>
    rw [hl] at this
    cases r with
    | nil =>
      refine ⟨f, e', rfl, he', ?_⟩
      simpa using this
    | cons g r => simp at this

theorem visible_plain : ∀ {l : List Stmt}, (∀ s ∈ l, s.info.keyword ≠ "choice" ∧ s.info.keyword ≠ "case") → visible l = l
  | [], _ => rfl
  | .mk i ks :: r, h => by
    have := h _ List.mem_cons_self
    simp only [Stmt.info_mk] at this
    rw [visible, visibleOne, if_neg (by tauto), visible_plain fun s hs => h s (by simp [hs])]
    rfl

theorem loaded_mem {h : Host} {mods : List Module} (hl : Loads h mods) {m : Module} (hm : m ∈ mods) :
    ∃ t, (m.name, t) ∈ h.models ∧ compileTree m.ns m.name (some m.pfx) m.kids = .ok t := by
  obtain ⟨p, hp, h1, h2⟩ := forall₂_mem_left hl hm
  exact ⟨p.2, by rw [← h1]; exact hp, h2⟩

theorem mem_loaded {h : Host} {mods : List Module} (hl : Loads h mods) {m : String} {t : Elem} (hm : (m, t) ∈ h.models) :
    ∃ x ∈ mods, x.name = m ∧ compileTree x.ns m (some x.pfx) x.kids = .ok t := by
  obtain ⟨x, hx, h1, h2⟩ := forall₂_mem_right hl hm
  simp only at h1 h2
  subst h1
  exact ⟨x, hx, rfl, h2⟩

theorem loaded_names {h : Host} {mods : List Module} (hl : Loads h mods) : h.models.map Prod.fst = mods.map Module.name := by
  unfold Loads at hl
  generalize h.models = l at hl ⊢
  induction hl with
  | nil => rfl
  | cons h _ ih => rw [List.map_cons, List.map_cons, ih, h.1]

theorem covers_root {h : Host} {mods : List Module} (hl : Loads h mods) (hp : ProperModules rd mods) :
    Covers h.device .root (topPlaces mods) := by
  intro p hpl hin q hq
  obtain ⟨m, hm, hpl⟩ := List.mem_flatMap.1 hpl
  obtain ⟨s, hs, rfl⟩ := List.mem_map.1 hpl
  replace hin : InTree s := by
    simp only [List.mem_cons, List.not_mem_nil, or_false] at hin
    rcases hin with h | h | h | h <;> simp [InTree, h]
  simp only at hq
  obtain ⟨t, ht, hc⟩ := loaded_mem hl hm
  have hown : OwnRoots h := by
    intro a ta b tb ha hb k hk k' hk' he
    obtain ⟨x, hx, rfl, hcx⟩ := mem_loaded hl ha
    obtain ⟨y, hy, rfl, hcy⟩ := mem_loaded hl hb
    obtain ⟨s1, hs1, hd1⟩ := forall₂_mem_right (compileTree_kids hcx) hk
    obtain ⟨s2, hs2, hd2⟩ := forall₂_mem_right (compileTree_kids hcy) hk'
    exact hp.own x hx y hy s1 (mem_ordered.1 hs1).1 s2 (mem_ordered.1 hs2).1 k.tag (named_of_depict hd1)
      (by rw [he]; exact named_of_depict hd2)
  have hmade : List.Forall₂ (Made m.ns) (ordered m.kids) t.kids := (compileTree_kids hc).imp fun _ _ h => ⟨_, h⟩
  have hvis : visible (ordered m.kids) = ordered m.kids :=
    visible_plain fun s hs => hp.noChoice m hm s (mem_ordered.1 hs).1
  obtain ⟨vs, hvs, hv⟩ := nodes_visible (ns := m.ns) q _ (Nat.le_refl _) hmade
  rw [hvis] at hvs
  obtain ⟨e, he, hf⟩ := single hvs (distinct_ordered (hp.top m hm)) (mem_ordered.2 ⟨hs, hin⟩) hq
  obtain ⟨r, hr, hrm⟩ := forall₂_mem_left hmade (mem_ordered.2 ⟨hs, hin⟩)
  have hrq : r.tag = q := named_inj hrm.named hq
  have h1 : h.device.roots.lookup q = some m.name := (roots_some hown).2 ⟨t, ht, r, hr, hrq⟩
  have h2 : h.device.models.lookup m.name = some (ofElems t.kids) := by
    refine ModelDiff.mem_lookup ?_ ?_
    · have := loaded_names hl
      have hn := hp.names
      rw [← this] at hn
      simpa [Host.device, List.map_map, Function.comp_def] using hn
    · exact List.mem_map.2 ⟨(m.name, t), ht, rfl⟩
  have := hv [h.device.models.findIdx (fun p => p.1 = m.name)] false 0
  rw [hf] at this
  unfold Device.lookup
  simp only [h1, h2]
  cases hl : dataNodes q [h.device.models.findIdx (fun p => p.1 = m.name)] false 0 (ofElems t.kids) with
  | nil => rw [hl] at this; cases this
  | cons f r =>
    rw [hl] at this
    cases r with
    | nil => exact ⟨f, e, rfl, he, by simpa using this⟩
    | cons g r => simp at this

/-! ## Keys -/

theorem find_first {ns : List (String × String)} {a b : List Stmt} {c : Stmt} {es : List Elem}
    (h : List.Forall₂ (Made ns) (a ++ c :: b) es) (ha : ∀ y ∈ a, y.info.arg ≠ c.info.arg) :
    ∃ e, Made ns c e ∧ ((es.map SNode.ofElem).find? fun x => x.tag.name = c.info.arg) = some (SNode.ofElem e) := by
  induction a generalizing es with
  | nil =>
    cases h with
    | @cons _ e _ r hc _ =>
      refine ⟨e, hc, ?_⟩
      rw [List.map_cons, List.find?_cons_of_pos]
      rw [ofElem_tag]
      exact decide_eq_true hc.named.2
  | cons y a ih =>
    cases h with
    | @cons _ e _ r hy hr =>
      obtain ⟨e', he', hf⟩ := ih hr fun z hz => ha z (by simp [hz])
      refine ⟨e', he', ?_⟩
      rw [List.map_cons, List.find?_cons_of_neg, hf]
      rw [ofElem_tag, hy.named.2]
      simpa using ha y (by simp)

/-- The keys of a compiled list are the leaves that are marked as keys. -/
theorem keys_of_list {ns s e} (h : Made ns s e) (hp : Proper rd ns s) (hl : s.info.keyword = "list") :
    (SNode.ofElem e).keys.Nodup ∧ (∀ q ∈ (SNode.ofElem e).keys, ∃ c ∈ s.kids, c.info.isKey = true ∧ Named ns q c) ∧
      ∀ c ∈ s.kids, c.info.isKey = true → (∃ v, s.info.Says "key" v) → ∀ q, Named ns q c → q ∈ (SNode.ofElem e).keys := by
  obtain ⟨_, hu⟩ := h.understood
  have hn : (SNode.ofElem e).info.ntype = .list := hu.list.2 hl
  unfold SNode.keys
  rw [if_pos hn]
  by_cases hv : ∃ v, s.info.Says "key" v
  · obtain ⟨v, hv⟩ := hv
    obtain ⟨l, hsp, hnd, hnamed, hmark⟩ := hp.keys v hl hv
    rw [hu.keys v l hl hv hsp, ofElem_kids]
    have hfind : ∀ c ∈ s.kids, c.info.isKey = true → ∃ e', Made ns c e' ∧
        ((e.kids.map SNode.ofElem).find? fun x => x.tag.name = c.info.arg) = some (SNode.ofElem e') := by
      intro c hc hk
      obtain ⟨_, a, b, hab, ha⟩ := hmark c hc hk
      exact find_first (by rw [← hab]; exact h.kids) ha
    refine ⟨?_, ?_, ?_⟩
    · apply List.Nodup.of_map QName.name
      have hname : ((l.map Prod.snd).filterMap fun n =>
          ((e.kids.map SNode.ofElem).find? fun c => c.tag.name = n).map SNode.tag).map QName.name = l.map Prod.snd := by
        have hall : ∀ n ∈ l.map Prod.snd, ∃ q : QName, q.name = n ∧
            (((e.kids.map SNode.ofElem).find? fun c => c.tag.name = n).map SNode.tag) = some q := by
          intro n hn
          obtain ⟨c, hc, rfl, hk⟩ := hnamed n hn
          obtain ⟨e', he', hf⟩ := hfind c hc hk
          refine ⟨e'.tag, he'.named.2, ?_⟩
          rw [hf, Option.map_some, ofElem_tag]
        generalize l.map Prod.snd = ns' at hall
        clear hsp hnd hnamed hmark
        induction ns' with
        | nil => rfl
        | cons n r ih =>
          obtain ⟨q, hq, hf⟩ := hall n (by simp)
          rw [List.filterMap_cons, hf]
          simp only [List.map_cons, hq]
          rw [ih fun n hn => hall n (by simp [hn])]
      rw [hname]; exact hnd
    · intro q hq
      obtain ⟨n, hn, hf⟩ := List.mem_filterMap.1 hq
      obtain ⟨c, hc, rfl, hk⟩ := hnamed n hn
      obtain ⟨e', he', hf'⟩ := hfind c hc hk
      rw [hf', Option.map_some, ofElem_tag] at hf
      cases hf
      exact ⟨c, hc, hk, he'.named⟩
    · intro c hc hk _ q hq
      obtain ⟨e', he', hf'⟩ := hfind c hc hk
      refine List.mem_filterMap.2 ⟨c.info.arg, (hmark c hc hk).1, ?_⟩
      rw [hf', Option.map_some, ofElem_tag, named_inj he'.named hq]
  · rw [hu.noKeys (Or.inr fun v hs => hv ⟨v, hs⟩)]
    exact ⟨List.nodup_nil, by simp, fun c hc hk h => absurd h hv⟩

/-! ## Instances -/

theorem mem_visible : ∀ {l : List Stmt} {c : Stmt}, c ∈ l → c.info.keyword ≠ "choice" → c.info.keyword ≠ "case" → c ∈ visible l
  | x :: r, c, hc, h1, h2 => by
    rw [visible]
    rcases List.mem_cons.1 hc with rfl | hc
    · obtain ⟨i, ks⟩ := c
      rw [visibleOne, if_neg (by simpa using ⟨h1, h2⟩)]
      simp
    · exact List.mem_append_right _ (mem_visible hc h1 h2)

theorem everywhere_visible {P : Stmt → Prop} : ∀ (n : Nat) {l : List Stmt}, sizeOf l ≤ n → (∀ s ∈ l, Everywhere P s) →
    ∀ c ∈ visible l, Everywhere P c := by
  intro n
  induction n with
  | zero => intro l hn; cases l <;> simp at hn
  | succ n ih =>
    intro l hn h c hc
    cases l with
    | nil => rw [visible] at hc; cases hc
    | cons x r =>
      rw [visible] at hc
      rcases List.mem_append.1 hc with hc | hc
      · obtain ⟨i, ks⟩ := x
        rw [visibleOne] at hc
        split at hc
        · have hx := h (.mk i ks) (by simp)
          cases hx with
          | mk _ sub => exact ih (l := ks) (by simp at hn ⊢; omega) (fun s hs => sub s hs) c hc
        · obtain rfl := List.mem_singleton.1 hc
          exact h _ (by simp)
      · exact ih (by simp at hn ⊢; omega) (fun s hs => h s (by simp [hs])) c hc

theorem Everywhere.here' {P : Stmt → Prop} {s : Stmt} (h : Everywhere P s) : P s := by cases h; assumption

theorem everywhere_places {ns s} {P : Stmt → Prop} (h : Everywhere P s) : ∀ p ∈ places ns s.kids, p.1 = ns ∧ Everywhere P p.2 := by
  intro p hp
  obtain ⟨c, hc, rfl⟩ := List.mem_map.1 hp
  refine ⟨rfl, everywhere_visible _ (Nat.le_refl _) ?_ c hc⟩
  cases h; assumption

theorem plain_of {ns s e} (h : Made ns s e) (hp : PlainType s ∨ ¬ s.info.LeafLike) : (SNode.ofElem e).info.datatype.plain := by
  obtain ⟨_, hu⟩ := h.understood
  cases hd : (SNode.ofElem e).info.datatype with
  | none => trivial
  | other => trivial
  | identityref =>
    obtain ⟨hl, t, ht, ha⟩ := hu.identity.1 hd
    rcases hp with hp | hp
    · exact absurd ha (hp t ht).1
    · exact absurd hl hp
  | instanceId =>
    obtain ⟨hl, t, ht, ha⟩ := hu.instance_.1 hd
    rcases hp with hp | hp
    · exact absurd ha (hp t ht).2
    · exact absurd hl hp

theorem identityOf_start {m : NsMap} {s i : List Char} {u : String} (h : identityOf m s = some (u, i)) :
    ∃ c r, s = c :: r ∧ c ≠ ':' := by
  unfold identityOf at h
  cases s with
  | nil => simp at h
  | cons c r =>
    refine ⟨c, r, rfl, fun hc => ?_⟩
    subst hc
    simp at h

theorem value_ok {ns s e} {k : Elem} (h : Made ns s e) (hl : s.info.LeafLike) (hv : ValueOf d s k) :
    (∃ t, parseText d k (SNode.ofElem e) = .ok t) ∧ LeafValueOk (SNode.ofElem e) k := by
  obtain ⟨_, hu⟩ := h.understood
  rcases hv with hv | ⟨ty, hty, ⟨ha, hv⟩ | ⟨ha, hv⟩⟩
  · have hp := plain_of h (Or.inl hv)
    refine ⟨?_, Or.inl hp⟩
    unfold parseText
    cases k.text with
    | none => exact ⟨_, rfl⟩
    | some t =>
      cases hd : (SNode.ofElem e).info.datatype with
      | none => simp only; split <;> exact ⟨_, rfl⟩
      | other => simp only; split <;> exact ⟨_, rfl⟩
      | identityref => rw [hd] at hp; exact hp.elim
      | instanceId => rw [hd] at hp; exact hp.elim
  · have hd := hu.identity.2 ⟨hl, ty, hty, ha⟩
    refine ⟨?_, Or.inr (Or.inl ⟨hd, fun t ht => ?_⟩)⟩
    rotate_left
    · obtain ⟨u, i, hi, _⟩ := (hv t ht).1
      exact identityOf_start hi
    unfold parseText
    cases ht : k.text with
    | none => exact ⟨_, rfl⟩
    | some t =>
      obtain ⟨r, hr⟩ := (hv t ht).2
      simp only [hd, hr]
      exact ⟨_, rfl⟩
  · have hd := hu.instance_.2 ⟨hl, ty, hty, ha⟩
    refine ⟨?_, Or.inr (Or.inr ⟨hd, fun t ht => (hv t ht).1⟩)⟩
    unfold parseText
    cases ht : k.text with
    | none => exact ⟨_, rfl⟩
    | some t =>
      obtain ⟨r, hr⟩ := (hv t ht).2
      simp only [hd, hr]
      exact ⟨_, rfl⟩

/-- A key of a compiled list. -/
theorem key_found {ns s e} (h : Made ns s e) (hE : Everywhere (Proper rd ns) s) (hl : s.info.keyword = "list") {q : QName}
    (hq : q ∈ (SNode.ofElem e).keys) : ∃ g, ∃ c ∈ s.kids, c.info.isKey = true ∧ Named ns q c ∧
      d.lookup (.node (SNode.ofElem e)) q = .ok g ∧ g.node.ntype = .leaf ∧ g.node.info.datatype.plain ∧
      g.node.info.isKey = true := by
  obtain ⟨c, hc, hk, hn⟩ := (keys_of_list h hE.here' hl).2.1 q hq
  have hcE : Everywhere (Proper rd ns) c := by cases hE with | mk _ sub => exact sub c hc
  have hleaf := hcE.here'.keyLeaf hk
  have hv : c ∈ visible s.kids := mem_visible hc (by rw [hleaf]; decide) (by rw [hleaf]; decide)
  obtain ⟨g, e', hg, hm, he⟩ := covers_below (d := d) h hE.here'.names (ns, c) (List.mem_map_of_mem hv)
    (by rw [hleaf]; decide) q hn
  simp only at hm
  obtain ⟨_, hu⟩ := hm.understood
  refine ⟨g, c, hc, hk, hn, hg, ?_, ?_, ?_⟩
  · rw [he]; exact hu.leaf.2 hleaf
  · rw [he]; exact plain_of hm (Or.inl (hcE.here'.keyPlain hk).1)
  · rw [he]; exact hu.isKey.2 ⟨Or.inl hleaf, hk⟩

/-- What the device knows about a child. -/
structure KidFact (d : Device) (rd : Bool) (sc : Scope) (pl : List Place) (k : Elem) (f : Found) : Prop where
  intro ::
  fact : ∃ p ∈ pl, ∃ e, Named p.1 k.tag p.2 ∧ NodeOf d p.1 p.2 k ∧ Made p.1 p.2 e ∧ f.node = SNode.ofElem e ∧
    Everywhere (Proper rd p.1) p.2

theorem kid_fact {sc : Scope} {pl : List Place} {e k : Elem} (hc : Covers d sc pl) (hE : ∀ p ∈ pl, Everywhere (Proper rd p.1) p.2)
    (node : ∀ k ∈ e.kids, ∃ p ∈ pl, Named p.1 k.tag p.2 ∧ NodeOf d p.1 p.2 k) (hk : k ∈ e.kids) :
    ∃ f, d.lookup sc k.tag = .ok f ∧ KidFact d rd sc pl k f := by
  obtain ⟨p, hp, hn, hno⟩ := node k hk
  obtain ⟨f, e', hf, hm, he⟩ := hc p hp hno.kind k.tag hn
  exact ⟨f, hf, ⟨p, hp, e', hn, hno, hm, he, hE p hp⟩⟩

theorem kidOk_of {sc : Scope} {pl : List Place} {k : Elem} {f : Found} (h : KidFact d rd sc pl k f) : KidOk d f.node k := by
  obtain ⟨p, hp, e, hn, hno, hm, he, hE⟩ := h.fact
  obtain ⟨_, hu⟩ := hm.understood
  rw [he]
  have hkind := hno.kind
  simp only [List.mem_cons, List.not_mem_nil, or_false] at hkind
  unfold KidOk SNode.ntype
  rcases hkind with hk | hk | hk | hk
  · simp only [hu.container.2 hk]
    exact plain_of hm (Or.inr (by rw [Info.LeafLike, hk]; decide))
  · simp only [hu.leaf.2 hk]
    exact ⟨(hno.leaf (Or.inl hk)).1, (value_ok hm (Or.inl hk) (hno.leaf (Or.inl hk)).2).1⟩
  · simp only [hu.leafList.2 hk]
    exact ⟨(hno.leaf (Or.inr hk)).1, (value_ok hm (Or.inr hk) (hno.leaf (Or.inr hk)).2).1⟩
  · simp only [hu.list.2 hk]
    refine ⟨hno.inner (Or.inr hk), plain_of hm (Or.inr (by rw [Info.LeafLike, hk]; decide)), fun q hq => ?_, fun _ q hq => ?_⟩
    · obtain ⟨c, hc, hkey, hnq⟩ := (keys_of_list hm hE.here' hk).2.1 q hq
      exact hno.keys hk c hc hkey q hnq
    · obtain ⟨g, c, _, _, _, h1, h2, h3, _⟩ := key_found (d := d) hm hE hk hq
      exact ⟨g, h1, h2, h3⟩

theorem not_same {sc : Scope} {pl : List Place} {x y : Elem} {f : Found} (hf : d.lookup sc x.tag = .ok f)
    (h : KidFact d rd sc pl x f) (hd : x.tag = y.tag → ∀ p ∈ pl, Named p.1 x.tag p.2 → Distinct p.1 p.2 x y) :
    ¬ SameInstance d sc x y := by
  rintro ⟨ht, hs⟩
  obtain ⟨p, hp, e, hn, hno, hm, he, hE⟩ := h.fact
  obtain ⟨_, hu⟩ := hm.understood
  have hs := hs f hf
  rw [he] at hs
  unfold SNode.ntype at hs
  rcases hd ht p hp hn with ⟨hk, hne⟩ | ⟨hk, c, hc, hkey, q, hq, hne⟩
  · simp only [hu.leafList.2 hk] at hs
    apply hne
    have hpl := plain_of hm (Or.inl (hE.here'.lists hk))
    have key : ∀ z : Elem, parseText d z (SNode.ofElem e) = .ok z.text := by
      intro z
      unfold parseText SNode.ntype
      rw [hu.leafList.2 hk]
      cases z.text with
      | none => rfl
      | some t =>
        cases hdt : (SNode.ofElem e).info.datatype with
        | none => rfl
        | other => rfl
        | identityref => rw [hdt] at hpl; exact hpl.elim
        | instanceId => rw [hdt] at hpl; exact hpl.elim
    rw [key, key] at hs
    exact Except.ok.inj hs
  · simp only [hu.list.2 hk] at hs
    apply hne
    refine hs q ((keys_of_list hm hE.here' hk).2.2 c hc hkey ?_ q hq)
    by_contra hno'
    have := hE.here'.keyless (Or.inr fun v hv => hno' ⟨v, hv⟩) c hc
    rw [hkey] at this
    cases this

/-- An instance of the statements is a raw config. -/
theorem raw_of_instance {pl : List Place} {e : Elem} (h : InstanceOf d pl e) : ∀ {sc : Scope}, Covers d sc pl →
    (∀ p ∈ pl, Everywhere (Proper rd p.1) p.2) →
    Valid d sc e ∧ NoAttrs e ∧ Deep d (ConfLevel d) sc e ∧ Deep d (KeyLevel d rd) sc e ∧ Deep d (DefaultLevel d) sc e := by
  induction h with
  | @mk pl e nsmap attrs node once prefixes sub ih =>
    intro sc hc hE
    have hfact : ∀ k ∈ e.kids, ∀ f, d.lookup sc k.tag = .ok f → KidFact d rd sc pl k f := by
      intro k hk f hf
      obtain ⟨g, hg, h⟩ := kid_fact hc hE node hk
      obtain rfl : g = f := Except.ok.inj (hg.symm.trans hf)
      exact h
    have hsub : ∀ k ∈ e.kids, ∀ f, d.lookup sc k.tag = .ok f → Valid d (.node f.node) k ∧ NoAttrs k ∧
        Deep d (ConfLevel d) (.node f.node) k ∧ Deep d (KeyLevel d rd) (.node f.node) k ∧
        Deep d (DefaultLevel d) (.node f.node) k := by
      intro k hk f hf
      obtain ⟨p, hp, e', hn, _, hm, he, hE'⟩ := (hfact k hk f hf).fact
      rw [he]
      refine ih k hk p hp hn (covers_below hm hE'.here'.names) fun p' hp' => ?_
      obtain ⟨h1, h2⟩ := everywhere_places hE' p' hp'
      rw [h1]; exact h2
    refine ⟨.mk (by rw [attrs]; simp) ?_ ?_ ?_, .mk attrs ?_, .mk ?_ ?_, .mk ?_ ?_, .mk ?_ ?_⟩
    · intro k hk
      obtain ⟨f, hf, h⟩ := kid_fact hc hE node hk
      exact ⟨f, hf, kidOk_of h⟩
    · refine once.imp_of_mem ?_
      intro x y hx hy hd
      obtain ⟨f, hf, h⟩ := kid_fact hc hE node hx
      exact not_same hf h hd
    · exact fun k hk f hf => (hsub k hk f hf).1
    · intro k hk
      obtain ⟨f, hf, _⟩ := kid_fact hc hE node hk
      exact (hsub k hk f hf).2.1
    · constructor
      · exact nsmap
      · intro k hk f hf hn q hq
        obtain ⟨p, hp, e', hnm, hno, hm, he, hE'⟩ := (hfact k hk f hf).fact
        obtain ⟨_, hu⟩ := hm.understood
        rw [he] at hn hq ⊢
        obtain ⟨g, c, _, _, _, h1, h2, h3, h4⟩ := key_found (d := d) hm hE' (hu.list.1 hn) hq
        exact ⟨g, h1, h2, fun _ _ => Or.inl h3, h4⟩
      · intro k hk f hf hn
        obtain ⟨p, hp, e', hnm, hno, hm, he, hE'⟩ := (hfact k hk f hf).fact
        obtain ⟨_, hu⟩ := hm.understood
        rw [he] at hn ⊢
        exact (keys_of_list hm hE'.here' (hu.list.1 hn)).1
      · intro k hk f hf hn
        obtain ⟨p, hp, e', hnm, hno, hm, he, hE'⟩ := (hfact k hk f hf).fact
        obtain ⟨_, hu⟩ := hm.understood
        rw [he] at hn ⊢
        obtain ⟨_, hkey⟩ := hu.isKey.1 hn
        exact ⟨hu.leaf.2 (hE'.here'.keyLeaf hkey), Or.inl (plain_of hm (Or.inl (hE'.here'.keyPlain hkey).1))⟩
      · intro k hk f hf hn
        obtain ⟨p, hp, e', hnm, hno, hm, he, hE'⟩ := (hfact k hk f hf).fact
        obtain ⟨_, hu⟩ := hm.understood
        rw [he] at hn ⊢
        have hl : p.2.info.keyword = "leaf" ∨ p.2.info.keyword = "leaf-list" := by
          rcases hn with hn | hn
          · exact Or.inl (hu.leaf.1 hn)
          · exact Or.inr (hu.leafList.1 hn)
        exact (value_ok hm hl (hno.leaf hl).2).2
      · intro k hk f hf hn
        obtain ⟨p, hp, e', hnm, hno, hm, he, hE'⟩ := (hfact k hk f hf).fact
        obtain ⟨_, hu⟩ := hm.understood
        rw [he] at hn
        exact hno.inner (Or.inl (hu.container.1 hn))
      · intro k hk f hf hn
        obtain ⟨p, hp, e', hnm, hno, hm, he, hE'⟩ := (hfact k hk f hf).fact
        obtain ⟨_, hu⟩ := hm.understood
        rw [he] at hn ⊢
        have hpl := plain_of hm (Or.inl (hE'.here'.lists (hu.leafList.1 hn)))
        unfold Writable
        constructor <;> (intro h; rw [h] at hpl; exact hpl.elim)
      · intro k hk f hf huo hn
        obtain ⟨p, hp, e', hnm, hno, hm, he, hE'⟩ := (hfact k hk f hf).fact
        obtain ⟨_, hu⟩ := hm.understood
        rw [he] at hn huo ⊢
        exact ⟨plain_of hm (Or.inl (hE'.here'.lists (hu.leafList.1 hn))),
          (hno.ordered (hu.userOrdered.1 huo).2).1 (hu.leafList.1 hn)⟩
      · intro k hk f hf huo hn q hq c hc
        obtain ⟨p, hp, e', hnm, hno, hm, he, hE'⟩ := (hfact k hk f hf).fact
        obtain ⟨_, hu⟩ := hm.understood
        rw [he] at hn huo hq
        obtain ⟨c', hc', hkey, hnq⟩ := (keys_of_list hm hE'.here' (hu.list.1 hn)).2.1 q hq
        exact ((hno.ordered (hu.userOrdered.1 huo).2).2 (hu.list.1 hn) c' hc' hkey q hnq).2 c hc
      · intro a ha b hb hab f hf huo hn q hq c hc
        obtain ⟨p, hp, e', hnm, hno, hm, he, hE'⟩ := (hfact a ha f hf).fact
        obtain ⟨_, hu⟩ := hm.understood
        rw [he] at hn huo hq
        obtain ⟨c', hc', hkey, hnq⟩ := (keys_of_list hm hE'.here' (hu.list.1 hn)).2.1 q hq
        have hord := (hu.userOrdered.1 huo).2
        exact ⟨((hno.ordered hord).2 (hu.list.1 hn) c' hc' hkey q hnq).1,
          prefixes a ha b hb hab p hp hnm (hu.list.1 hn) hord c' hc' hkey q hnq c hc⟩
    · exact fun k hk f hf => (hsub k hk f hf).2.2.1
    · intro k hk f hf hn
      obtain ⟨p, hp, e', hnm, hno, hm, he, hE'⟩ := (hfact k hk f hf).fact
      obtain ⟨_, hu⟩ := hm.understood
      rw [he] at hn ⊢
      obtain ⟨_, hkey⟩ := hu.isKey.1 hn
      obtain ⟨_, h2, h3, h4⟩ := hE'.here'.keyPlain hkey
      refine ⟨hu.noDflt.2 h2, ?_⟩
      rintro (h | ⟨h, hr⟩)
      · exact h3 (hu.obsolete.1 h)
      · exact h4 hr (hu.deprecated.1 h)
    · exact fun k hk f hf => (hsub k hk f hf).2.2.2.1
    · intro k hk f hf hdf _
      obtain ⟨p, hp, e', hnm, hno, hm, he, hE'⟩ := (hfact k hk f hf).fact
      obtain ⟨_, hu⟩ := hm.understood
      rw [he] at hdf ⊢
      exact plain_of hm (Or.inl (hE'.here'.dflt fun h => hdf (hu.noDflt.2 h)))
    · exact fun k hk f hf => (hsub k hk f hf).2.2.2.2

end
end NcDiff.Compile
