import Verif.Proof.ExplicitShed
import Verif.Proof.CasesDelta
/-!
# Servers with choices that have leaves with their default values
-/

namespace NcDiff.Compile

/-- The nodes of other cases are removed from the one and from the other. -/
theorem others_explicit {pl : List Place} {ex : QName → QName → Bool} {o : Elem} {m0 m : List Elem} (h : Explicit pl m0 m) :
    Explicit pl (others ex o m0) (others ex o m) := by
  unfold others
  split
  · exact h
  · rw [explicit_iff] at h ⊢
    intro p hp hk q hq
    cases hx : ex o.tag q with
    | false =>
      rw [tagged_filter (P := fun t => !ex o.tag t) (by simp [hx]), tagged_filter (P := fun t => !ex o.tag t) (by simp [hx])]
      exact h p hp hk q hq
    | true =>
      rw [tagged_filter_none (P := fun t => !ex o.tag t) (by simp [hx]), tagged_filter_none (P := fun t => !ex o.tag t) (by simp [hx])]
      exact .inl .nil

mutual
/-- What is done to the one is done to the other. -/
theorem serveCases_explicit {d : Device} {rd : Bool} : ∀ (D : List Elem) {sc : Scope} {pl : List Place} {ex : QName → QName → Bool}
    {m0 m r0 : List Elem}, Field d rd sc pl → (∀ o ∈ D, OpsIn NotCreate o) → Explicit pl m0 m → serveCases pl ex D m0 = some r0 →
    ∃ r, serveCases pl ex D m = some r ∧ Explicit pl r0 r
  | [], sc, pl, ex, m0, m, r0, _, _, hm, h => by
    rw [serveCases] at h ⊢
    cases h
    exact ⟨m, rfl, hm⟩
  | o :: D, sc, pl, ex, m0, m, r0, hF, hD, hm, h => by
    rw [serveCases] at h ⊢
    cases h1 : serveCase pl ex o m0 with
    | none => rw [h1] at h; cases h
    | some l =>
      rw [h1] at h
      obtain ⟨l', h2, h3⟩ := serveCase_explicit o hF (hD o (by simp)) hm h1
      rw [h2]
      exact serveCases_explicit D hF (fun o ho => hD o (by simp [ho])) h3 h
theorem serveCase_explicit {d : Device} {rd : Bool} : ∀ (o : Elem) {sc : Scope} {pl : List Place} {ex : QName → QName → Bool}
    {m0 m r0 : List Elem}, Field d rd sc pl → OpsIn NotCreate o → Explicit pl m0 m → serveCase pl ex o m0 = some r0 →
    ∃ r, serveCase pl ex o m = some r ∧ Explicit pl r0 r
  | .mk t n a x ks, sc, pl, ex, m0, m, r0, hF, ho, hm, h => by
    rw [serveCase] at h ⊢
    cases hp : placeOf pl t with
    | none => rw [hp] at h; cases h
    | some p =>
      rw [hp] at h
      simp only at h ⊢
      obtain ⟨p1, p2, p3⟩ := placeOf_some hp
      obtain ⟨f, hf⟩ := hF.fact p1 p2 p3
      refine change_explicit (o := .mk t n a x ks) hF hp (operation_notCreate ho) (fun {A B s} hAB hs => ?_) (others_explicit hm) h
      exact serveCases_explicit ks hf.field ho.sub' hAB hs
end

section
variable {h : Host} {mods : List Module} {rd : Bool}

/-- Configs of documents are equal exactly if the documents mean the same, where all defaults are taken to be in use. -/
theorem equal_regular (hl : Loads h mods) (hp : ProperModules rd mods) (hc : ∀ m ∈ mods, ∀ s ∈ m.kids, Everywhere (Regular rd) s)
    {x1 x2 : Elem} {l1 l2 : List Elem} (hx1 : Document h mods x1 l1) (hx2 : Document h mods x2 l2) (hr1 : ∀ k ∈ l1, ReadByLxml k)
    (hr2 : ∀ k ∈ l2, ReadByLxml k) {v1 v2 : Bool} {c1 c2 : Elem} (h1 : newConfig h.device x1 v1 rd = .ok c1)
    (h2 : newConfig h.device x2 v2 rd = .ok c2) (hs : SameMeaning (topPlaces mods) l1 l2) : cfgEq h.device c1 c2 = .ok true := by
  have hF := field_root hl hp hc
  obtain ⟨s1, t1, g1, n1, m1⟩ := document_means hl hp hc hx1 hr1 h1
  obtain ⟨s2, t2, g2, n2, m2⟩ := document_means hl hp hc hx2 hr2 h2
  obtain ⟨r, hr, hri⟩ := cfgEq_iff (d := h.device) ⟨s1.valid, n1⟩ ⟨s2.valid, n2⟩
  rw [hr, Except.ok.injEq, hri]
  have hm : SameMeaning (topPlaces mods) c1.kids c2.kids := m1.symm.trans (hs.trans m2)
  have hv : ∀ {a b : Elem}, a.text = none → b.text = none → parseTextAt h.device .root a = parseTextAt h.device .root b := by
    intro a b ha hb
    unfold parseTextAt
    rw [ha, hb]
  exact ⟨incl_of_meaning c1 hF s1 s2 t1 t2 (g1.trans g2.symm) (hv n1 n2) hm,
    incl_of_meaning c2 hF s2 s1 t2 t1 (g2.trans g1.symm) (hv n2 n1) hm.symm⟩

/-- No operation `create` without the preference. -/
theorem notCreate_nc {d : Device} {c1 c2 x : Elem} {opts : Opts} {δ : Delta} (ho : opts.create ≠ .create ∨ opts.diffType = .replace)
    (e1 : newDelta d c1 c2 opts = .ok δ) (hb : NoAttrs c2) (e2 : δ.nc d = .ok x) : OpsIn NotCreate x := by
  have hd : δ.dst = c2 ∧ δ.opts = opts := by
    unfold newDelta at e1
    obtain ⟨_, _, e1⟩ := bind_ok.1 e1
    cases e1
    exact ⟨rfl, rfl⟩
  refine operations_nc (opts := opts) (fun {o} hoo => ?_) hd.2 (operations_noAttrs (by simp [NotCreate]) (by rw [hd.1]; exact hb)) e2
  rw [hoo]
  refine ⟨by simp [NotCreate], ?_, fun _ => by simp [NotCreate], fun h1 h2 => ?_⟩
  · cases opts.delete <;> simp [NotCreate, PrefDelete.str]
  · rcases ho with ho | ho
    · exact absurd h1 ho
    · exact absurd ho h2

end
end NcDiff.Compile
