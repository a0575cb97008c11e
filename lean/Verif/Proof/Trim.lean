import Verif.Spec.Trim
import Verif.Proof.Laws
/-!
# Trimming default values
-/

namespace NcDiff

/-! ## Comma separated values -/

theorem splitComma_ne : ∀ s, splitComma s ≠ []
  | [] => by simp [splitComma]
  | c :: r => by
    rw [splitComma]
    split
    · simp
    · split <;> simp

theorem intercalate_cons {c : Char} : ∀ {p : List Char} {ps : List (List Char)},
    [','].intercalate ((c :: p) :: ps) = c :: [','].intercalate (p :: ps)
  | p, [] => by simp [List.intercalate, List.intersperse]
  | p, q :: r => by simp [List.intercalate, List.intersperse]

theorem intercalate_nil_cons {p : List Char} {ps : List (List Char)} :
    [','].intercalate ([] :: p :: ps) = ',' :: [','].intercalate (p :: ps) := by
  simp [List.intercalate, List.intersperse]

theorem splitComma_spec : ∀ s, (∀ p ∈ splitComma s, ',' ∉ p) ∧ [','].intercalate (splitComma s) = s
  | [] => by simp [splitComma, List.intercalate]
  | c :: r => by
    obtain ⟨h1, h2⟩ := splitComma_spec r
    obtain ⟨p, ps, hp⟩ := List.exists_cons_of_ne_nil (splitComma_ne r)
    rw [splitComma]
    split
    · rename_i hc
      subst hc
      refine ⟨by simpa using h1, ?_⟩
      rw [hp, intercalate_nil_cons, ← hp, h2]
    · rename_i hc
      rw [hp] at h1 h2 ⊢
      refine ⟨?_, by rw [intercalate_cons, h2]⟩
      intro x hx
      rcases List.mem_cons.1 hx with rfl | hx
      · intro hm
        rcases List.mem_cons.1 hm with e | hm
        · exact hc e.symm
        · exact h1 p (by simp) hm
      · exact h1 x (by simp [hx])

theorem splitComma_unique : ∀ {ds : List (List Char)}, ds ≠ [] → (∀ p ∈ ds, ',' ∉ p) →
    splitComma ([','].intercalate ds) = ds
  | [], h, _ => absurd rfl h
  | [p], _, h => by
    have hp : ',' ∉ p := h p (by simp)
    simp only [List.intercalate, List.intersperse, List.flatten_cons, List.flatten_nil, List.append_nil]
    clear h
    induction p with
    | nil => rfl
    | cons c r ih =>
      have h1 : c ≠ ',' := fun e => hp (by simp [e])
      have h2 : ',' ∉ r := fun e => hp (by simp [e])
      rw [splitComma, if_neg h1, ih (by simp) h2]
  | p :: q :: r, _, h => by
    have ih := splitComma_unique (ds := q :: r) (by simp) (fun x hx => h x (by simp [hx]))
    have hp : ',' ∉ p := h p (by simp)
    clear h
    induction p with
    | nil => rw [intercalate_nil_cons, splitComma, if_pos rfl, ih]
    | cons c s ihp =>
      have h1 : c ≠ ',' := fun e => hp (by simp [e])
      have h2 : ',' ∉ s := fun e => hp (by simp [e])
      rw [intercalate_cons, splitComma, if_neg h1, ihp (by simp) h2]

theorem defaultList_iff {sn : SNode} {v : String} {vs : List (Option String)} :
    defaultList sn v vs = true ↔ HasDefaults sn v vs := by
  have key : defaultList sn v vs = true ↔
      (sn.userOrdered = true → vs = (splitComma v.toList).map (fun p => some (String.ofList p))) ∧
      (sn.userOrdered = false → ∀ x, x ∈ vs ↔ x ∈ (splitComma v.toList).map (fun p => some (String.ofList p))) := by
    unfold defaultList defaultValues
    cases sn.userOrdered with
    | true => simp
    | false =>
      simp only [Bool.false_eq_true, if_false, Bool.and_eq_true, List.all_eq_true, decide_eq_true_eq, false_imp_iff,
        true_and, true_imp_iff]
      exact ⟨fun h x => ⟨h.1 x, h.2 x⟩, fun h => ⟨fun x => (h x).1, fun x => (h x).2⟩⟩
  rw [key]
  obtain ⟨h1, h2⟩ := splitComma_spec v.toList
  constructor
  · intro h
    exact ⟨splitComma v.toList, splitComma_ne _, h1, h2, h.1, h.2⟩
  · rintro ⟨ds, hne, hc, hi, ho, hs⟩
    rw [← hi, splitComma_unique hne hc]
    exact ⟨ho, hs⟩

/-! ## One level -/

section
variable {d : Device} {sc : Scope}

theorem trimDefaults_inv {e e' : Elem} (h : trimDefaults d sc e = .ok e') :
    ∃ ks', trimKids d sc e.kids e.kids = .ok ks' ∧ e' = e.setKids ks' := by
  cases e with
  | mk t n a x ks =>
    rw [trimDefaults] at h
    simp only [bind, Except.bind, pure, Except.pure] at h
    cases h1 : trimKids d sc ks ks with
    | error e => simp [h1] at h
    | ok ks' =>
      simp only [h1, Except.ok.injEq] at h
      exact ⟨ks', h1, h.symm⟩

theorem trimDefaults_eq {e : Elem} {ks' : List Elem} (h : trimKids d sc e.kids e.kids = .ok ks') :
    trimDefaults d sc e = .ok (e.setKids ks') := by
  cases e with
  | mk t n a x ks =>
    rw [trimDefaults]
    simp only [Elem.kids_mk] at h
    rw [h]; rfl

theorem trimKids_inv {all : List Elem} : ∀ {ks ks' : List Elem}, trimKids d sc all ks = .ok ks' →
    ∃ l : List (Elem × Option Elem), l.map Prod.fst = ks ∧ l.filterMap Prod.snd = ks' ∧
      ∀ p ∈ l, ∃ f k', d.lookup sc p.1.tag = .ok f ∧ trimDefaults d (.node f.node) p.1 = .ok k' ∧
        p.2 = if trimDrops f.node all k' then none else some k'
  | [], ks', h => by
    rw [trimKids] at h; cases h
    exact ⟨[], rfl, rfl, by simp⟩
  | k :: r, ks', h => by
    rw [trimKids] at h
    simp only [bind, Except.bind, pure, Except.pure] at h
    cases h1 : d.lookup sc k.tag with
    | error e => simp [h1] at h
    | ok f =>
      simp only [h1] at h
      cases h2 : trimDefaults d (.node f.node) k with
      | error e => simp [h2] at h
      | ok k' =>
        simp only [h2] at h
        cases h3 : trimKids d sc all r with
        | error e => simp [h3] at h
        | ok r' =>
          simp only [h3, Except.ok.injEq] at h
          obtain ⟨l, e1, e2, e3⟩ := trimKids_inv h3
          refine ⟨(k, if trimDrops f.node all k' then none else some k') :: l, by simp [e1], ?_, ?_⟩
          · rw [← h, List.filterMap_cons]
            cases trimDrops f.node all k' <;> simp [e2]
          · intro p hp
            rcases List.mem_cons.1 hp with rfl | hp
            · exact ⟨f, k', h1, h2, rfl⟩
            · exact e3 p hp

theorem trimKids_ok {all : List Elem} : ∀ {ks : List Elem},
    (∀ k ∈ ks, ∃ f k', d.lookup sc k.tag = .ok f ∧ trimDefaults d (.node f.node) k = .ok k') →
    ∃ ks', trimKids d sc all ks = .ok ks'
  | [], _ => ⟨[], rfl⟩
  | k :: r, h => by
    obtain ⟨f, k', hf, hk⟩ := h k (by simp)
    obtain ⟨r', hr⟩ := trimKids_ok (all := all) (ks := r) (fun x hx => h x (by simp [hx]))
    exact ⟨_, by rw [trimKids, hf]; simp only [bind, Except.bind]; rw [hk]; simp only [hr]; rfl⟩

theorem trimKids_stable {all : List Elem} : ∀ {ks : List Elem},
    (∀ k ∈ ks, ∃ f, d.lookup sc k.tag = .ok f ∧ trimDefaults d (.node f.node) k = .ok k ∧
      trimDrops f.node all k = false) → trimKids d sc all ks = .ok ks
  | [], _ => rfl
  | k :: r, h => by
    obtain ⟨f, hf, hk, hd⟩ := h k (by simp)
    have hr := trimKids_stable (ks := r) (fun x hx => h x (by simp [hx]))
    rw [trimKids, hf]; simp only [bind, Except.bind]; rw [hk]; simp only [hr, hd]; rfl

theorem filterMap_length_all {α β : Type} {f : α → Option β} : ∀ {l : List α}, (l.filterMap f).length = l.length →
    ∀ a ∈ l, ∃ b, f a = some b
  | [], _, _, ha => by simp at ha
  | x :: r, h, a, ha => by
    rw [List.filterMap_cons] at h
    cases hx : f x with
    | none =>
      simp only [hx] at h
      have := List.length_filterMap_le f r
      simp only [List.length_cons] at h; omega
    | some b =>
      simp only [hx, List.length_cons, Nat.add_right_cancel_iff] at h
      rcases List.mem_cons.1 ha with rfl | ha
      · exact ⟨b, hx⟩
      · exact filterMap_length_all h a ha

/-- A tree that trimming does not change. -/
theorem trim_fixed {e : Elem} : trimDefaults d sc e = .ok e ↔ ∀ k ∈ e.kids, ∃ f, d.lookup sc k.tag = .ok f ∧
    trimDefaults d (.node f.node) k = .ok k ∧ trimDrops f.node e.kids k = false := by
  constructor
  · intro h
    obtain ⟨ks', h1, h2⟩ := trimDefaults_inv h
    have hk : ks' = e.kids := by
      have := congrArg Elem.kids h2; simpa using this.symm
    subst hk
    obtain ⟨l, e1, e2, e3⟩ := trimKids_inv h1
    have hlen : (l.filterMap Prod.snd).length = l.length := by
      rw [e2, ← e1, List.length_map]
    have hall := filterMap_length_all hlen
    have heq : ∀ (l : List (Elem × Option Elem)), (∀ p ∈ l, ∃ b, p.2 = some b) →
        l.map Prod.fst = l.filterMap Prod.snd → ∀ p ∈ l, p.2 = some p.1 := by
      intro l
      induction l with
      | nil => intro _ _ p hp; simp at hp
      | cons q r ih =>
        intro ha he p hp
        obtain ⟨b, hb⟩ := ha q (by simp)
        rw [List.map_cons, List.filterMap_cons] at he
        simp only [hb, List.cons.injEq] at he
        rcases List.mem_cons.1 hp with rfl | hp
        · rw [hb, he.1]
        · exact ih (fun x hx => ha x (by simp [hx])) he.2 p hp
    have hself := heq l hall (e1.trans e2.symm)
    intro k hk
    rw [← e1] at hk
    obtain ⟨p, hp, rfl⟩ := List.mem_map.1 hk
    obtain ⟨f, k', hf, ht, hd⟩ := e3 p hp
    rw [hself p hp] at hd
    cases hdr : trimDrops f.node e.kids k' with
    | true => simp [hdr] at hd
    | false =>
      simp only [hdr, Bool.false_eq_true, if_false, Option.some.injEq] at hd
      rw [← hd] at ht hdr
      exact ⟨f, hf, ht, hdr⟩
  · intro h
    have := trimDefaults_eq (e := e) (trimKids_stable h)
    rw [this]; cases e; rfl

/-! ## All levels -/

theorem trim_head {e e' : Elem} (h : trimDefaults d sc e = .ok e') :
    e'.tag = e.tag ∧ e'.nsmap = e.nsmap ∧ e'.attrs = e.attrs ∧ e'.text = e.text := by
  obtain ⟨ks', _, rfl⟩ := trimDefaults_inv h
  exact ⟨rfl, rfl, rfl, rfl⟩

theorem trim_spec : ∀ (e : Elem) {sc : Scope} {e' : Elem}, trimDefaults d sc e = .ok e' →
    TrimmedTo d sc e e' ∧ trimDefaults d sc e' = .ok e' ∧
      ∀ sn, sc = .node sn → ∀ all, (trimDrops sn all e' = true ↔ Default d sn all e) := by
  intro e
  induction e using Elem.ind with
  | h t n a x ks ih =>
    intro sc e' h
    obtain ⟨ks', h1, rfl⟩ := trimDefaults_inv h
    obtain ⟨l, e1, e2, e3⟩ := trimKids_inv h1
    simp only [Elem.kids_mk] at e1 e2 e3
    have hin : ∀ p ∈ l, p.1 ∈ ks := fun p hp => by rw [← e1]; exact List.mem_map_of_mem hp
    have hmem : ∀ k' ∈ ks', ∃ p ∈ l, p.2 = some k' := by
      intro k' hk'
      rw [← e2] at hk'
      obtain ⟨p, hp, hpk⟩ := List.mem_filterMap.1 hk'
      exact ⟨p, hp, hpk⟩
    have hdrop : ∀ p ∈ l, ∀ f, d.lookup sc p.1.tag = .ok f → (p.2 = none ↔ Default d f.node ks p.1) := by
      intro p hp f hf
      obtain ⟨g, k', hg, ht, hd⟩ := e3 p hp
      obtain rfl : g = f := Except.ok.inj (hg.symm.trans hf)
      rw [← ((ih p.1 (hin p hp) ht).2.2 _ rfl ks)]
      by_cases hh : trimDrops g.node ks k' = true
      · exact iff_of_true (hd.trans (if_pos hh)) hh
      · exact iff_of_false (by rw [hd.trans (if_neg hh)]; simp) hh
    refine ⟨⟨l, rfl, rfl, rfl, rfl, e1, e2, ?_, ?_, ?_⟩, ?_, ?_⟩
    · intro p hp hn f hf; exact (hdrop p hp f hf).1 hn
    · intro p hp k' hk' f hf hdf
      rw [(hdrop p hp f hf).2 hdf] at hk'; cases hk'
    · intro p hp k' hk' f hf
      obtain ⟨g, k'', hg, ht, hd⟩ := e3 p hp
      obtain rfl : g = f := Except.ok.inj (hg.symm.trans hf)
      rw [hk'] at hd
      cases hdr : trimDrops g.node ks k'' with
      | true => simp [hdr] at hd
      | false =>
        simp only [hdr, Bool.false_eq_true, if_false, Option.some.injEq] at hd
        subst hd
        exact (ih p.1 (hin p hp) ht).1
    · rw [trim_fixed]
      intro k' hk'
      simp only [Elem.kids_setKids] at hk' ⊢
      obtain ⟨p, hp, hpk⟩ := hmem k' hk'
      obtain ⟨f, k'', hf, ht, hd⟩ := e3 p hp
      rw [hpk] at hd
      cases hdr : trimDrops f.node ks k'' with
      | true => simp [hdr] at hd
      | false =>
        simp only [hdr, Bool.false_eq_true, if_false, Option.some.injEq] at hd
        subst hd
        have htag := (trim_head ht).1
        refine ⟨f, by rw [htag]; exact hf, (ih p.1 (hin p hp) ht).2.1, ?_⟩
        unfold trimDrops at hdr ⊢
        cases hn : f.node.ntype <;> simp only [hn] at hdr ⊢
        · exact hdr
        · cases hdf : f.node.info.dflt with
          | none => rfl
          | some v =>
            simp only [hdf] at hdr ⊢
            rw [← hdr]
            congr 1
            -- all instances of the leaf-list were kept
            have hall : ∀ p' ∈ l, p'.1.tag = k'.tag → ∃ y, p'.2 = some y ∧ y.tag = k'.tag ∧ y.text = p'.1.text := by
              intro p' hp' htg
              obtain ⟨f', y, hf', ht', hd'⟩ := e3 p' hp'
              rw [htg, htag, hf] at hf'; cases hf'
              have : trimDrops f.node ks y = false := by
                unfold trimDrops
                simp only [hn, hdf]
                rw [(trim_head ht').1, htg]; exact hdr
              exact ⟨y, by simpa [this] using hd', (trim_head ht').1.trans htg, (trim_head ht').2.2.2⟩
            have hnot : ∀ p' ∈ l, p'.1.tag ≠ k'.tag → ∀ y, p'.2 = some y → y.tag ≠ k'.tag := by
              intro p' hp' htg y hy
              obtain ⟨f', y', hf', ht', hd'⟩ := e3 p' hp'
              rw [hy] at hd'
              cases hdr' : trimDrops f'.node ks y' with
              | true => simp [hdr'] at hd'
              | false =>
                simp only [hdr', Bool.false_eq_true, if_false, Option.some.injEq] at hd'
                rw [hd', (trim_head ht').1]; exact htg
            rw [← e2, ← e1]
            have key : ∀ (l : List (Elem × Option Elem)),
                (∀ p' ∈ l, p'.1.tag = k'.tag → ∃ y, p'.2 = some y ∧ y.tag = k'.tag ∧ y.text = p'.1.text) →
                (∀ p' ∈ l, p'.1.tag ≠ k'.tag → ∀ y, p'.2 = some y → y.tag ≠ k'.tag) →
                ((l.filterMap Prod.snd).filter (fun x => decide (x.tag = k'.tag))).map Elem.text =
                ((l.map Prod.fst).filter (fun x => decide (x.tag = k'.tag))).map Elem.text := by
              intro l
              induction l with
              | nil => intro _ _; rfl
              | cons p' r ihl =>
                intro ha hb
                have ih' := ihl (fun q hq => ha q (by simp [hq])) (fun q hq => hb q (by simp [hq]))
                rw [List.filterMap_cons, List.map_cons, List.filter_cons]
                by_cases ht' : p'.1.tag = k'.tag
                · obtain ⟨y, hy, hy1, hy2⟩ := ha p' (by simp) ht'
                  simp only [hy]
                  rw [List.filter_cons]
                  simp [hy1, ht', hy2, ih']
                · rw [if_neg (by simpa using ht')]
                  cases hy : p'.2 with
                  | none => exact ih'
                  | some y =>
                    simp only
                    rw [List.filter_cons, if_neg (by simpa using hb p' (by simp) ht' y hy)]
                    exact ih'
            exact key l hall hnot
        · exact hdr
        · exact hdr
    · rintro sn rfl all
      have hempty : ks' = [] ↔ ∀ c ∈ ks, ∀ f, d.lookup (.node sn) c.tag = .ok f → Default d f.node ks c := by
        constructor
        · intro hk c hc f hf
          rw [← e1] at hc
          obtain ⟨p, hp, rfl⟩ := List.mem_map.1 hc
          refine (hdrop p hp f hf).1 ?_
          cases hp2 : p.2 with
          | none => rfl
          | some y =>
            have : y ∈ ks' := by rw [← e2]; exact List.mem_filterMap.2 ⟨p, hp, hp2⟩
            rw [hk] at this; simp at this
        · intro hc
          rw [List.eq_nil_iff_forall_not_mem]
          intro y hy
          obtain ⟨p, hp, hp2⟩ := hmem y hy
          obtain ⟨f, _, hf, _⟩ := e3 p hp
          rw [(hdrop p hp f hf).2 (hc p.1 (hin p hp) f hf)] at hp2; cases hp2
      have hiff : (trimDrops sn all ((Elem.mk t n a x ks).setKids ks') = true) ↔
          ((∃ v, sn.ntype = .leaf ∧ sn.info.dflt = some v ∧ x = some v) ∨
           (∃ v, sn.ntype = .leafList ∧ sn.info.dflt = some v ∧
              HasDefaults sn v ((all.filter (fun y => y.tag = t)).map Elem.text)) ∨
           ((sn.isNP = true ∨ sn.ntype = .list) ∧ ks' = [])) := by
        unfold trimDrops SNode.isNP
        cases hn : sn.ntype <;>
          simp only [show sn.info.ntype = _ from hn, reduceCtorEq, false_and, exists_false, false_or, or_false,
            decide_false, decide_true, Bool.false_and, Bool.true_and, Bool.false_eq_true, true_and, or_true,
            Elem.kids_setKids, Elem.text_setKids, Elem.tag_setKids, Elem.tag_mk, Elem.text_mk, List.isEmpty_iff,
            Bool.and_eq_true]
        · cases sn.info.dflt with
          | none => simp
          | some v => exact ⟨fun h => ⟨v, rfl, of_decide_eq_true h⟩, fun ⟨w, h1, h2⟩ => decide_eq_true (by cases h1; exact h2)⟩
        · cases sn.info.dflt with
          | none => simp
          | some v =>
            exact ⟨fun h => ⟨v, rfl, defaultList_iff.1 h⟩, fun ⟨w, h1, h2⟩ => by cases h1; exact defaultList_iff.2 h2⟩
        · exact and_comm
      rw [hiff]
      constructor
      · rintro (⟨v, h1, h2, h3⟩ | ⟨v, h1, h2, h3⟩ | ⟨h1, h2⟩)
        · exact .leaf v h1 h2 h3
        · exact .leafList v h1 h2 h3
        · exact .emptied h1 (hempty.1 h2)
      · intro h
        cases h with
        | leaf v h1 h2 h3 => exact Or.inl ⟨v, h1, h2, h3⟩
        | leafList v h1 h2 h3 => exact Or.inr (Or.inl ⟨v, h1, h2, h3⟩)
        | emptied h1 h2 => exact Or.inr (Or.inr ⟨h1, hempty.2 h2⟩)

theorem trim_ok : ∀ (e : Elem) {sc : Scope}, Known d sc e → ∃ e', trimDefaults d sc e = .ok e' := by
  intro e
  induction e using Elem.ind with
  | h t n a x ks ih =>
    intro sc h
    obtain ⟨ks', hk⟩ := trimKids_ok (d := d) (sc := sc) (all := ks) (ks := ks) (by
      intro k hk
      obtain ⟨f, hf⟩ := h.here' k hk
      obtain ⟨k', hk'⟩ := ih k hk (h.sub' k hk f hf)
      exact ⟨f, k', hf, hk'⟩)
    exact ⟨_, trimDefaults_eq (e := Elem.mk t n a x ks) hk⟩

end
end NcDiff
