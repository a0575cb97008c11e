import Verif.Spec.Validate
import Verif.Proof.Trim
import Verif.Proof.Tree
import Verif.Proof.ConfigLaws
/-!
# Validating a config
-/

namespace NcDiff

section
variable {d : Device} {rd : Bool}

theorem validateHere_iff {sn : SNode} {e : Elem} : validateHere sn e = .ok () ↔ NodeOk sn e := by
  have hf : ∀ q, (e.find q).isNone = true ↔ ¬ ∃ c ∈ e.kids, c.tag = q := by
    intro q
    unfold Elem.find
    rw [Option.isNone_iff_eq_none, List.find?_eq_none]
    simp
  unfold validateHere
  constructor
  · intro h
    split at h
    · cases h
    · rename_i h1
      split at h
      · cases h
      · rename_i h2
        refine ⟨fun hn q hq => ?_, fun n hn v hv => ?_⟩
        · by_contra hc
          exact h1 ⟨hn, List.any_eq_true.2 ⟨q, hq, (hf q).2 hc⟩⟩
        · by_contra hc
          refine h2 (List.any_eq_true.2 ⟨n, hn, ?_⟩)
          simp only [hv]
          simpa using hc
  · intro h
    rw [if_neg, if_neg]
    · intro h2
      obtain ⟨n, hn, h3⟩ := List.any_eq_true.1 h2
      cases hv : e.get n with
      | none => simp [hv] at h3
      | some v =>
        simp only [hv] at h3
        rw [h.attrs n hn v hv] at h3; simp at h3
    · rintro ⟨hn, h1⟩
      obtain ⟨q, hq, h2⟩ := List.any_eq_true.1 h1
      exact (hf q).1 h2 (h.keys hn q hq)

/-- What validating does with one child. -/
def checkKid (d : Device) (rd : Bool) (sn : SNode) (k : Elem) : Except Err Elem :=
  if k.kids = [] then .ok k else validateNode d rd sn k

theorem validateKids_cons {sc : Scope} {k : Elem} {r : List Elem} : validateKids d rd sc (k :: r) = (do
    let f ← d.lookup sc k.tag
    let k' ← checkKid d rd f.node k
    let r' ← validateKids d rd sc r
    pure (if validateDrops rd f.node k' then r' else k' :: r')) := by
  rw [validateKids]
  unfold checkKid
  cases d.lookup sc k.tag with
  | error e => rfl
  | ok f =>
    simp only [bind, Except.bind]
    by_cases h : k.kids = [] <;> simp [h, pure, Except.pure]

theorem validateNode_eq {sn : SNode} {e : Elem} : validateNode d rd sn e = (do
    validateHere sn e
    let ks ← validateKids d rd (.node sn) e.kids
    pure (e.setKids ks)) := by
  cases e with
  | mk t n a x ks => rw [validateNode]; rfl

theorem validateKids_inv {sc : Scope} : ∀ {ks ks' : List Elem}, validateKids d rd sc ks = .ok ks' →
    ∃ l : List (Elem × Option Elem), l.map Prod.fst = ks ∧ l.filterMap Prod.snd = ks' ∧
      ∀ p ∈ l, ∃ f k', d.lookup sc p.1.tag = .ok f ∧ checkKid d rd f.node p.1 = .ok k' ∧
        p.2 = if validateDrops rd f.node k' then none else some k'
  | [], ks', h => by
    rw [validateKids] at h; cases h
    exact ⟨[], rfl, rfl, by simp⟩
  | k :: r, ks', h => by
    rw [validateKids_cons] at h
    obtain ⟨f, h1, h⟩ := bind_ok.1 h
    obtain ⟨k', h2, h⟩ := bind_ok.1 h
    obtain ⟨r', h3, h⟩ := bind_ok.1 h
    simp only [pure, Except.pure, Except.ok.injEq] at h
    obtain ⟨l, e1, e2, e3⟩ := validateKids_inv h3
    refine ⟨(k, if validateDrops rd f.node k' then none else some k') :: l, by simp [e1], ?_, ?_⟩
    · rw [← h, List.filterMap_cons]
      cases validateDrops rd f.node k' <;> simp [e2]
    · intro p hp
      rcases List.mem_cons.1 hp with rfl | hp
      · exact ⟨f, k', h1, h2, rfl⟩
      · exact e3 p hp

theorem validateKids_ok {sc : Scope} : ∀ {ks : List Elem},
    (∀ k ∈ ks, ∃ f k', d.lookup sc k.tag = .ok f ∧ checkKid d rd f.node k = .ok k') →
    ∃ ks', validateKids d rd sc ks = .ok ks'
  | [], _ => ⟨[], rfl⟩
  | k :: r, h => by
    obtain ⟨f, k', hf, hk⟩ := h k (by simp)
    obtain ⟨r', hr⟩ := validateKids_ok (ks := r) (fun x hx => h x (by simp [hx]))
    exact ⟨_, by rw [validateKids_cons, hf]; simp only [bind, Except.bind]; rw [hk]; simp only [hr]; rfl⟩

theorem validateKids_stable {sc : Scope} : ∀ {ks : List Elem},
    (∀ k ∈ ks, ∃ f, d.lookup sc k.tag = .ok f ∧ checkKid d rd f.node k = .ok k ∧
      validateDrops rd f.node k = false) → validateKids d rd sc ks = .ok ks
  | [], _ => rfl
  | k :: r, h => by
    obtain ⟨f, hf, hk, hd⟩ := h k (by simp)
    have hr := validateKids_stable (ks := r) (fun x hx => h x (by simp [hx]))
    rw [validateKids_cons, hf]; simp only [bind, Except.bind]; rw [hk]; simp only [hr, hd]; rfl

theorem validateDrops_iff {sn : SNode} {k : Elem} : validateDrops rd sn k = true ↔
    Outdated rd sn ∨ ((sn.isNP = true ∨ sn.ntype = .list) ∧ k.kids = []) := by
  unfold validateDrops Outdated
  by_cases h : k.kids = []
  · by_cases h1 : sn.isNP = true
    · simp [h, h1]
    · by_cases h2 : sn.ntype = .list <;> simp [h, h1, h2]
  · simp [h]

/-- The content of a node, after validating. -/
structure Checked (d : Device) (rd : Bool) (sc : Scope) (e : Elem) (ks' : List Elem) : Prop where
  acc : Accepted d sc e
  clean : CleanedTo d rd sc e (e.setKids ks')
  empty : ks' = [] ↔ ∀ c ∈ e.kids, ∀ f, d.lookup sc c.tag = .ok f → Dropped d rd f.node c
  stable : KeysCurrent d rd sc e → validateKids d rd sc ks' = .ok ks'

theorem checkKid_head {sn : SNode} {k k' : Elem} (h : checkKid d rd sn k = .ok k') :
    ∃ ks, k' = k.setKids ks ∧ (k.kids = [] → ks = []) := by
  unfold checkKid at h
  split at h
  · rename_i hk
    cases h
    exact ⟨[], by rw [← hk]; cases k; rfl, fun _ => rfl⟩
  · rename_i hk
    rw [validateNode_eq] at h
    obtain ⟨_, _, h⟩ := bind_ok.1 h
    obtain ⟨ks, _, h⟩ := bind_ok.1 h
    cases h
    exact ⟨ks, rfl, fun h => absurd h hk⟩

theorem checked : ∀ (e : Elem) {sc : Scope} {ks' : List Elem}, validateKids d rd sc e.kids = .ok ks' →
    Checked d rd sc e ks' := by
  intro e
  induction e using Elem.ind with
  | h t n a x ks ih =>
    intro sc ks' h
    obtain ⟨l, e1, e2, e3⟩ := validateKids_inv h
    simp only [Elem.kids_mk] at e1 e2 e3
    have hin : ∀ p ∈ l, p.1 ∈ ks := fun p hp => by rw [← e1]; exact List.mem_map_of_mem hp
    -- one child
    have kid : ∀ p ∈ l, ∀ f, d.lookup sc p.1.tag = .ok f → ∃ k', checkKid d rd f.node p.1 = .ok k' ∧
        p.2 = (if validateDrops rd f.node k' then none else some k') ∧
        (p.1.kids ≠ [] → NodeOk f.node p.1) ∧ Checked d rd (.node f.node) p.1 k'.kids ∧
        k' = p.1.setKids k'.kids := by
      intro p hp f hf
      obtain ⟨g, k', hg, hk, hd⟩ := e3 p hp
      obtain rfl : g = f := Except.ok.inj (hg.symm.trans hf)
      refine ⟨k', hk, hd, ?_, ?_, ?_⟩
      · intro hne
        unfold checkKid at hk
        rw [if_neg hne, validateNode_eq] at hk
        obtain ⟨_, h1, _⟩ := bind_ok.1 hk
        exact validateHere_iff.1 h1
      · by_cases hne : p.1.kids = []
        · unfold checkKid at hk
          rw [if_pos hne] at hk; cases hk
          exact ih p.1 (hin p hp) (by rw [hne]; rfl)
        · unfold checkKid at hk
          rw [if_neg hne, validateNode_eq] at hk
          obtain ⟨_, _, hk⟩ := bind_ok.1 hk
          obtain ⟨ks1, h1, hk⟩ := bind_ok.1 hk
          cases hk
          exact ih p.1 (hin p hp) (by simpa using h1)
      · obtain ⟨ks1, rfl, _⟩ := checkKid_head hk
        simp
    have hmem : ∀ c ∈ ks, ∃ p ∈ l, p.1 = c := by
      intro c hc
      rw [← e1] at hc
      obtain ⟨p, hp, rfl⟩ := List.mem_map.1 hc
      exact ⟨p, hp, rfl⟩
    have hdrop : ∀ p ∈ l, ∀ f, d.lookup sc p.1.tag = .ok f → (p.2 = none ↔ Dropped d rd f.node p.1) := by
      intro p hp f hf
      obtain ⟨k', hk, hd, _, hc, _⟩ := kid p hp f hf
      have h1 : validateDrops rd f.node k' = true ↔ Dropped d rd f.node p.1 := by
        rw [validateDrops_iff, hc.empty]
        constructor
        · rintro (h | ⟨h1, h2⟩)
          · exact .outdated h
          · exact .emptied h1 h2
        · intro h
          cases h with
          | outdated h => exact Or.inl h
          | emptied h1 h2 => exact Or.inr ⟨h1, h2⟩
      rw [← h1, hd]
      cases validateDrops rd f.node k' <;> simp
    refine ⟨⟨?_, ?_, ?_⟩, ⟨l, rfl, rfl, rfl, rfl, e1, e2, ?_, ?_, ?_⟩, ?_, ?_⟩
    · intro k hk
      obtain ⟨p, hp, rfl⟩ := hmem k hk
      obtain ⟨f, _, hf, _⟩ := e3 p hp
      exact ⟨f, hf⟩
    · intro k hk hne f hf
      obtain ⟨p, hp, rfl⟩ := hmem k hk
      obtain ⟨_, _, _, h, _⟩ := kid p hp f hf
      exact h hne
    · intro k hk hne f hf
      obtain ⟨p, hp, rfl⟩ := hmem k hk
      obtain ⟨_, _, _, _, h, _⟩ := kid p hp f hf
      exact h.acc
    · intro p hp hn f hf; exact (hdrop p hp f hf).1 hn
    · intro p hp k' hk' f hf hdf
      rw [(hdrop p hp f hf).2 hdf] at hk'; cases hk'
    · intro p hp k' hk' f hf
      obtain ⟨k2, hk, hd, _, hc, heq⟩ := kid p hp f hf
      rw [hk'] at hd
      cases hdr : validateDrops rd f.node k2 with
      | true => simp [hdr] at hd
      | false =>
        simp only [hdr, Bool.false_eq_true, if_false, Option.some.injEq] at hd
        subst hd
        rw [heq]; exact hc.clean
    · constructor
      · intro hnil c hc f hf
        obtain ⟨p, hp, rfl⟩ := hmem c hc
        refine (hdrop p hp f hf).1 ?_
        cases hp2 : p.2 with
        | none => rfl
        | some y =>
          have : y ∈ ks' := by rw [← e2]; exact List.mem_filterMap.2 ⟨p, hp, hp2⟩
          rw [hnil] at this; cases this
      · intro hall
        rw [← e2, List.filterMap_eq_nil_iff]
        intro p hp
        obtain ⟨f, _, hf, _⟩ := e3 p hp
        exact (hdrop p hp f hf).2 (hall p.1 (hin p hp) f hf)
    · intro hcur
      refine validateKids_stable ?_
      intro k' hk'
      rw [← e2] at hk'
      obtain ⟨p, hp, hp2⟩ := List.mem_filterMap.1 hk'
      obtain ⟨f, k2, hf, _⟩ := e3 p hp
      obtain ⟨k2, hk, hd, hok, hc, heq⟩ := kid p hp f hf
      rw [hp2] at hd
      cases hdr : validateDrops rd f.node k2 with
      | true => simp [hdr] at hd
      | false =>
        simp only [hdr, Bool.false_eq_true, if_false, Option.some.injEq] at hd
        subst hd
        have htag : k'.tag = p.1.tag := by rw [heq]; rfl
        refine ⟨f, by rw [htag]; exact hf, ?_, hdr⟩
        unfold checkKid
        split
        · rfl
        · rename_i hne
          have hne1 : p.1.kids ≠ [] := by
            intro h0
            have := (hc.empty).2 (by rw [h0]; simp)
            exact hne this
          have hst := hc.stable (hcur.sub' p.1 (hin p hp) f hf)
          have hnode : NodeOk f.node k' := by
            refine ⟨?_, ?_⟩
            · intro hl q hq
              obtain ⟨c, hcm, hcq⟩ := (hok hne1).keys hl q hq
              -- the key stays
              cases hcl : hc.clean with
              | mk l2 _ _ _ _ src dst removed kept sub =>
                rw [← src] at hcm
                obtain ⟨p2, hp2m, hp2e⟩ := List.mem_map.1 hcm
                obtain ⟨g, hg⟩ : ∃ g, d.lookup (.node f.node) p2.1.tag = .ok g := by
                  cases hc.acc with
                  | mk known _ _ => exact known p2.1 (by rw [← src]; exact List.mem_map_of_mem hp2m)
                obtain ⟨h1, h2⟩ := hcur.here' p.1 (hin p hp) f hf hl p2.1 (by rw [← src]; exact List.mem_map_of_mem hp2m)
                  (by rw [hp2e, hcq]; exact hq) g hg
                cases hs : p2.2 with
                | none =>
                  have := removed p2 hp2m hs g hg
                  cases this with
                  | outdated h => exact absurd h h2
                  | emptied h _ =>
                    rcases h with h | h
                    · unfold SNode.isNP at h
                      rw [show g.node.info.ntype = .leaf from h1] at h; simp at h
                    · rw [h1] at h; cases h
                | some y =>
                  have hy := sub p2 hp2m y hs g hg
                  refine ⟨y, ?_, ?_⟩
                  · have : y ∈ (p.1.setKids k'.kids).kids := by
                      rw [← dst]; exact List.mem_filterMap.2 ⟨p2, hp2m, hs⟩
                    simpa using this
                  · cases hy with
                    | mk _ tag => rw [tag, hp2e, hcq]
            · intro m hm v hv
              refine (hok hne1).attrs m hm v ?_
              rw [heq] at hv
              cases hp1 : p.1 with
              | mk t1 n1 a1 x1 ks1 => rw [hp1] at hv; exact hv
          rw [validateNode_eq]
          simp only [validateHere_iff.2 hnode, hst, bind, Except.bind, pure, Except.pure]
          rw [show k'.setKids k'.kids = k' by cases k'; rfl]

/-- Validating succeeds for what is accepted. -/
theorem accepted_ok : ∀ (e : Elem) {sc : Scope}, Accepted d sc e → ∃ ks', validateKids d rd sc e.kids = .ok ks' := by
  intro e
  induction e using Elem.ind with
  | h t n a x ks ih =>
    intro sc h
    cases h with
    | mk known ok sub =>
      refine validateKids_ok ?_
      intro k hk
      obtain ⟨f, hf⟩ := known k hk
      unfold checkKid
      by_cases hne : k.kids = []
      · exact ⟨f, k, hf, by rw [if_pos hne]⟩
      · obtain ⟨ks', hks⟩ := ih k hk (sub k hk hne f hf)
        refine ⟨f, k.setKids ks', hf, ?_⟩
        rw [if_neg hne, validateNode_eq, validateHere_iff.2 (ok k hk hne f hf)]
        simp only [hks, bind, Except.bind, pure, Except.pure]

theorem accepted_roots {e : Elem} (h : Accepted d .root e) : ∃ r, configRoots d e = .ok r := by
  cases h with
  | mk known _ _ =>
    obtain ⟨r, hr, _⟩ := configRoots_ok known
    exact ⟨r, hr⟩

theorem texts_kept {q : QName} : ∀ {l : List (Elem × Option Elem)},
    (∀ p ∈ l, p.1.tag = q → ∃ y, p.2 = some y ∧ y.tag = q ∧ y.text = p.1.text) →
    (∀ p ∈ l, p.1.tag ≠ q → ∀ y, p.2 = some y → y.tag ≠ q) →
    ((l.filterMap Prod.snd).filter (fun x => decide (x.tag = q))).map Elem.text =
    ((l.map Prod.fst).filter (fun x => decide (x.tag = q))).map Elem.text
  | [], _, _ => rfl
  | p :: r, ha, hb => by
    have ih := texts_kept (q := q) (l := r) (fun x hx => ha x (by simp [hx])) (fun x hx => hb x (by simp [hx]))
    rw [List.filterMap_cons, List.map_cons, List.filter_cons]
    by_cases ht : p.1.tag = q
    · obtain ⟨y, hy, hy1, hy2⟩ := ha p (by simp) ht
      simp only [hy]
      rw [List.filter_cons]
      simp [hy1, ht, hy2, ih]
    · rw [if_neg (by simpa using ht)]
      cases hy : p.2 with
      | none => exact ih
      | some y =>
        simp only
        rw [List.filter_cons, if_neg (by simpa using hb p (by simp) ht y hy)]
        exact ih

/-- A validated tree has no more defaults than before. -/
theorem validate_trimmed : ∀ (e : Elem) {sc : Scope} {ks' : List Elem}, trimDefaults d sc e = .ok e →
    validateKids d rd sc e.kids = .ok ks' → trimDefaults d sc (e.setKids ks') = .ok (e.setKids ks') := by
  intro e
  induction e using Elem.ind with
  | h t n a x ks ih =>
    intro sc ks' ht h
    obtain ⟨l, e1, e2, e3⟩ := validateKids_inv h
    simp only [Elem.kids_mk] at e1 e2 e3
    have hin : ∀ p ∈ l, p.1 ∈ ks := fun p hp => by rw [← e1]; exact List.mem_map_of_mem hp
    rw [trim_fixed] at ht ⊢
    simp only [Elem.kids_mk, Elem.kids_setKids] at ht ⊢
    intro k' hk'
    rw [← e2] at hk'
    obtain ⟨p, hp, hp2⟩ := List.mem_filterMap.1 hk'
    obtain ⟨f, k2, hf, hc, hd⟩ := e3 p hp
    rw [hp2] at hd
    cases hdr : validateDrops rd f.node k2 with
    | true => simp [hdr] at hd
    | false =>
      simp only [hdr, Bool.false_eq_true, if_false, Option.some.injEq] at hd
      subst hd
      obtain ⟨g, hg, htk, htd⟩ := ht p.1 (hin p hp)
      obtain rfl : f = g := Except.ok.inj (hf.symm.trans hg)
      obtain ⟨ks1, hk1, _⟩ := checkKid_head hc
      have htag : k'.tag = p.1.tag := by rw [hk1]; rfl
      have htext : k'.text = p.1.text := by rw [hk1]; simp
      refine ⟨f, by rw [htag]; exact hf, ?_, ?_⟩
      · unfold checkKid at hc
        split at hc
        · cases hc; exact htk
        · rw [validateNode_eq] at hc
          obtain ⟨_, _, hc⟩ := bind_ok.1 hc
          obtain ⟨ks2, h2, hc⟩ := bind_ok.1 hc
          cases hc
          exact ih p.1 (hin p hp) htk h2
      · unfold trimDrops at htd ⊢
        cases hn : f.node.ntype <;> simp only [hn] at htd ⊢
        case leaf =>
          rw [htext]; exact htd
        case leafList =>
          cases hdf : f.node.info.dflt with
          | none => rfl
          | some v =>
            simp only [hdf] at htd ⊢
            rw [← htd]
            congr 1
            rw [htag, ← e1, ← e2]
            refine texts_kept ?_ ?_
            · intro p' hp' htg
              obtain ⟨f', y, hf', hy, hd'⟩ := e3 p' hp'
              rw [htg, hf] at hf'; cases hf'
              obtain ⟨ks2, hy1, _⟩ := checkKid_head hy
              have : validateDrops rd f.node y = false := by
                rw [← Bool.not_eq_true, validateDrops_iff] at hdr ⊢
                rintro (h | ⟨h, _⟩)
                · exact hdr (Or.inl h)
                · unfold SNode.isNP at h
                  rw [show f.node.info.ntype = .leafList from hn] at h
                  simp [hn] at h
              refine ⟨y, by simpa [this] using hd', by rw [hy1]; exact htg, by rw [hy1]; simp⟩
            · intro p' hp' htg y hy
              obtain ⟨f', y', hf', hy', hd'⟩ := e3 p' hp'
              rw [hy] at hd'
              obtain ⟨ks2, hy1, _⟩ := checkKid_head hy'
              cases hdr' : validateDrops rd f'.node y' with
              | true => simp [hdr'] at hd'
              | false =>
                simp only [hdr', Bool.false_eq_true, if_false, Option.some.injEq] at hd'
                rw [hd', hy1]; exact htg
        case container =>
          rw [← Bool.not_eq_true, validateDrops_iff] at hdr
          rw [← Bool.not_eq_true]
          intro h
          refine hdr (Or.inr ⟨Or.inl ?_, ?_⟩)
          · unfold SNode.isNP
            rw [show f.node.info.ntype = .container from hn]
            simp only [Bool.and_eq_true] at h
            simp [h.2]
          · simp only [Bool.and_eq_true, List.isEmpty_iff] at h; exact h.1
        case list =>
          rw [← Bool.not_eq_true, validateDrops_iff] at hdr
          rw [← Bool.not_eq_true]
          intro h
          exact hdr (Or.inr ⟨Or.inr hn, by simpa using h⟩)

theorem retrieve_config {c : Elem} (h : c = emptyConfig.setKids c.kids) : retrieveConfig c = c := by
  have ht : c.tag = ncTag "config" := by rw [h]; rfl
  conv_rhs => rw [h]
  unfold retrieveConfig
  congr 1
  simp only [selectPath, ht]
  simp [ncTag]

theorem newConfig_root {e c : Elem} {v : Bool} (h : newConfig d e v rd = .ok c) : c = emptyConfig.setKids c.kids := by
  unfold newConfig at h
  obtain ⟨c', hc, h⟩ := bind_ok.1 h
  obtain ⟨ks', _, rfl⟩ := trimDefaults_inv hc
  cases v with
  | false => cases h; rfl
  | true =>
    rw [if_pos rfl] at h
    unfold validateConfig at h
    obtain ⟨_, _, h⟩ := bind_ok.mp h
    obtain ⟨ks, hks, h⟩ := bind_ok.mp h
    cases h; rfl

end

end NcDiff
