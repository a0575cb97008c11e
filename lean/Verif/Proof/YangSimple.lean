import Verif.Proof.Yang
import Verif.Proof.Pruned
/-!
# Modules without choices, order by the user, and references
-/

namespace NcDiff.Compile

variable {d : Device} {rd : Bool}

theorem simple_nodes {ns : List (String × String)} {l : List Stmt} {es : List Elem} (h : List.Forall₂ (Made ns) l es)
    (hs : ∀ s ∈ l, s.info.keyword ≠ "choice" ∧ s.info.keyword ≠ "case") {q : QName} {pre : List Nat} {ic : Bool} : ∀ {i : Nat} {f : Found},
    f ∈ dataNodes q pre ic i (ofElems es) → f.underCase = ic ∧ ∃ s ∈ l, ∃ e, Made ns s e ∧ f.node = SNode.ofElem e := by
  induction h with
  | nil => intro i f hf; rw [ofElems, dataNodes] at hf; cases hf
  | @cons s e l es hm hr ih =>
    intro i f hf
    rw [ofElems, dataNodes] at hf
    rcases List.mem_append.1 hf with hf | hf
    · obtain ⟨_, hu⟩ := hm.understood
      have h1 := hs s (by simp)
      have hc : (SNode.ofElem e).info.ntype ≠ .choice := fun h => h1.1 (hu.choice.1 h)
      have hc' : (SNode.ofElem e).info.ntype ≠ .case := fun h => h1.2 (hu.case.1 h)
      cases hx : SNode.ofElem e with
      | mk info kids =>
        rw [hx] at hf hc hc'
        rw [dataNode, if_neg (show ¬ info.ntype = .choice from hc), if_neg (show ¬ info.ntype = .case from hc')] at hf
        split at hf
        · obtain rfl := List.mem_singleton.1 hf
          exact ⟨rfl, s, by simp, e, hm, hx.symm⟩
        · cases hf
    · obtain ⟨h1, s', hs', r⟩ := ih (fun s h => hs s (by simp [h])) hf
      exact ⟨h1, s', by simp [hs'], r⟩

/-- What is found in a simple module. -/
def SimpleFound (f : Found) : Prop :=
  f.underCase = false ∧ ∃ ns s e, Made ns s e ∧ f.node = SNode.ofElem e ∧ Everywhere Simple s

/-- Only such nodes are found. -/
def SimpleScope (d : Device) (sc : Scope) : Prop := ∀ q f, d.lookup sc q = .ok f → SimpleFound f

theorem lookup_nodes {s : SNode} {q : QName} {f : Found} (h : d.lookup (.node s) q = .ok f) :
    f ∈ dataNodes q [] (s.info.ntype = .case) 0 s.kids := by
  unfold Device.lookup at h
  simp only at h
  split at h
  · cases h
  · rename_i g hg; cases h; rw [hg]; simp
  · cases h

theorem SimpleFound.scope {f : Found} (h : SimpleFound f) : SimpleScope d (.node f.node) := by
  intro q g hg
  obtain ⟨_, ns, s, e, hm, he, hS⟩ := h
  rw [he] at hg
  have hg := lookup_nodes hg
  have hk : (SNode.ofElem e).kids = ofElems e.kids := by cases e; rw [SNode.ofElem]; rfl
  obtain ⟨_, hu⟩ := hm.understood
  have hcase : decide ((SNode.ofElem e).info.ntype = .case) = false :=
    decide_eq_false fun h => hS.here'.2.1 (hu.case.1 h)
  rw [hk, hcase] at hg
  have hsub : ∀ c ∈ s.kids, Everywhere Simple c := by cases hS; assumption
  obtain ⟨h1, s', hs', e', hm', he'⟩ := simple_nodes hm.kids
    (fun c hc => ⟨(hsub c hc).here'.1, (hsub c hc).here'.2.1⟩) hg
  exact ⟨h1, ns, s', e', hm', he', hsub s' hs'⟩

/-- What is found at the top. -/
theorem top_found {h : Host} {mods : List Module} (hl : Loads h mods)
    (hc : ∀ m ∈ mods, ∀ s ∈ m.kids, s.info.keyword ≠ "choice" ∧ s.info.keyword ≠ "case") {q : QName} {f : Found}
    (hf : h.device.lookup .root q = .ok f) :
    f.underCase = false ∧ ∃ m ∈ mods, ∃ s ∈ m.kids, ∃ e, Made m.ns s e ∧ f.node = SNode.ofElem e := by
  unfold Device.lookup at hf
  simp only at hf
  split at hf
  · cases hf
  · rename_i n hn
    split at hf
    · cases hf
    · rename_i tree ht
      have hmem : f ∈ dataNodes q [h.device.models.findIdx (fun p => p.1 = n)] false 0 tree := by
        split at hf
        · cases hf
        · rename_i g hg; cases hf; rw [hg]; simp
        · cases hf
      have := ModelDiff.lookup_mem ht
      obtain ⟨p, hp, he⟩ := List.mem_map.1 this
      obtain ⟨x, hx, _, hcomp⟩ := mem_loaded (m := p.1) (t := p.2) hl hp
      cases he
      obtain ⟨h1, s, hs, r⟩ := simple_nodes ((compileTree_kids hcomp).imp fun _ _ h => ⟨_, h⟩)
        (fun s hs => hc x hx s (mem_ordered.1 hs).1) hmem
      exact ⟨h1, x, hx, s, (mem_ordered.1 hs).1, r⟩

theorem simple_root {h : Host} {mods : List Module} (hl : Loads h mods)
    (hs : ∀ m ∈ mods, ∀ s ∈ m.kids, Everywhere Simple s) : SimpleScope h.device .root := by
  intro q f hf
  obtain ⟨h1, m, hm, s, hsm, e, hmade, he⟩ := top_found hl
    (fun m hm s hsm => ⟨(hs m hm s hsm).here'.1, (hs m hm s hsm).here'.2.1⟩) hf
  exact ⟨h1, m.ns, s, e, hmade, he, hs m hm s hsm⟩

theorem simple_compat (S : Elem) : ∀ (T : Elem) (sc : Scope), SimpleScope d sc → Compat d sc S T := by
  induction S using Elem.ind with
  | h tag nsmap attrs text kids ih =>
    intro T sc hsc
    refine .mk ?_ ?_ ?_ ?_
    · intro s _ k _ _ _ f g hf _ hu
      rw [(hsc _ f hf).1] at hu
      cases hu
    · rintro t ⟨f, hf, hu, _⟩
      obtain ⟨_, ns, s, e, hm, he, hS⟩ := hsc _ f hf
      obtain ⟨_, hun⟩ := hm.understood
      rw [he] at hu
      exact absurd (hun.userOrdered.1 hu).2 hS.here'.2.2.1
    · intro s _ k _ _ f hf _ _
      obtain ⟨_, ns, s, e, hm, he, hS⟩ := hsc _ f hf
      have hpl := plain_of hm (Or.inl hS.here'.2.2.2)
      rw [he]
      unfold Writable
      constructor <;> (intro h; rw [h] at hpl; exact hpl.elim)
    · intro s hs k _ _ f hf _
      exact ih s hs k _ (hsc _ f hf).scope

theorem rootSafe_of {h : Host} {mods : List Module} {opts : Opts} {c : Elem} (hl : Loads h mods) (hp : ProperModules rd mods)
    (hs : TopSafe opts mods) : RootSafe h.device opts c := by
  rcases hs with hs | hs | hs
  · exact Or.inl hs
  · exact Or.inr (Or.inl hs)
  · refine Or.inr (Or.inr fun k _ f hf hn => ?_)
    obtain ⟨_, m, hm, s, hsm, e, hmade, he⟩ := top_found hl hp.noChoice hf
    obtain ⟨_, hu⟩ := hmade.understood
    rw [he] at hn
    exact hs m hm s hsm (hu.leafList.1 hn)

/-- A document with an instance of the modules has a raw config. -/
theorem raw_of_document {h : Host} {mods : List Module} {x : Elem} {l : List Elem} (hl : Loads h mods) (hp : ProperModules rd mods)
    (hd : Document h mods x l) : RawConfig h.device rd (noConfig.setKids l) := by
  obtain ⟨h1, h2, h3, h4, h5⟩ := raw_of_instance (rd := rd) hd.inst (covers_root hl hp) (by
    intro p hpm
    obtain ⟨m, hm, hpm⟩ := List.mem_flatMap.1 hpm
    obtain ⟨s, hs, rfl⟩ := List.mem_map.1 hpm
    exact hp.stmts m hm s hs)
  exact ⟨⟨h1, rfl⟩, h2, h3, h4, h5⟩

end NcDiff.Compile
