import Verif.Model.Roots
import Verif.Proof.Places
import Verif.Proof.Offer
import Verif.Proof.ConfigLaws
import Verif.Proof.Tags
/-!
# Lemmas about roots and models
-/

namespace NcDiff

section
variable {d : Device}

/-! ## Sorted lists without repetitions -/

theorem uniqueTexts_mem {x : String} : ∀ {l : List String}, x ∈ uniqueTexts l ↔ x ∈ l
  | [] => by simp [uniqueTexts]
  | a :: r => by
    rw [uniqueTexts]
    split
    · rename_i h
      rw [uniqueTexts_mem, List.mem_cons]
      exact ⟨.inr, fun h' => h'.elim (fun e => e ▸ h) id⟩
    · rw [List.mem_cons, uniqueTexts_mem, List.mem_cons]

theorem uniqueTexts_nodup : ∀ (l : List String), (uniqueTexts l).Nodup
  | [] => by simp [uniqueTexts]
  | a :: r => by
    rw [uniqueTexts]
    split
    · exact uniqueTexts_nodup r
    · rename_i h
      rw [List.nodup_cons]
      exact ⟨fun h' => h (uniqueTexts_mem.1 h'), uniqueTexts_nodup r⟩

theorem insertText_nodup {a : String} : ∀ {l : List String}, l.Nodup → a ∉ l → (Offer.insertText a l).Nodup
  | [], _, _ => by simp [Offer.insertText]
  | b :: r, h, ha => by
    rw [List.nodup_cons] at h
    rw [List.mem_cons, not_or] at ha
    rw [Offer.insertText]
    split
    · rw [List.nodup_cons]
      refine ⟨fun h' => ?_, insertText_nodup h.2 ha.2⟩
      rcases Offer.insertText_mem.1 h' with e | h'
      · exact ha.1 e.symm
      · exact h.1 h'
    · rw [List.nodup_cons, List.mem_cons, not_or, List.nodup_cons]
      exact ⟨ha, h⟩

theorem sortTexts_nodup : ∀ {l : List String}, l.Nodup → (Offer.sortTexts l).Nodup
  | [], _ => by simp [Offer.sortTexts]
  | a :: r, h => by
    rw [List.nodup_cons] at h
    rw [Offer.sortTexts]
    exact insertText_nodup (sortTexts_nodup h.2) fun h' => h.1 (Offer.sortTexts_mem.1 h')

theorem strictly_ascending : ∀ {l : List String}, Offer.Ascending l → l.Nodup → l.Pairwise (· < ·)
  | [], _, _ => .nil
  | a :: r, h, hn => by
    rw [List.nodup_cons] at hn
    refine .cons (fun b hb => ?_) (strictly_ascending h.2 hn.2)
    have h1 : a ≤ b := String.not_lt.1 (h.1 b hb)
    refine Decidable.by_contra fun hlt => ?_
    have : a = b := String.le_antisymm h1 (String.not_lt.1 hlt)
    exact hn.1 (this ▸ hb)

theorem sortedUnique (l : List String) :
    (Offer.sortTexts (uniqueTexts l)).Pairwise (· < ·) ∧ ∀ m, m ∈ Offer.sortTexts (uniqueTexts l) ↔ m ∈ l :=
  ⟨strictly_ascending (Offer.sortTexts_ascending _) (sortTexts_nodup (uniqueTexts_nodup l)),
    fun m => by rw [Offer.sortTexts_mem, uniqueTexts_mem]⟩

theorem pairwise_ext : ∀ {l l' : List String}, l.Pairwise (· < ·) → l'.Pairwise (· < ·) → (∀ m, m ∈ l ↔ m ∈ l') → l = l'
  | [], [], _, _, _ => rfl
  | [], b :: s, _, _, h => absurd ((h b).2 (by simp)) (by simp)
  | a :: r, [], _, _, h => absurd ((h a).1 (by simp)) (by simp)
  | a :: r, b :: s, h1, h2, h => by
    rw [List.pairwise_cons] at h1 h2
    have hab : a = b := by
      rcases List.mem_cons.1 ((h a).1 (by simp)) with e | ha
      · exact e
      rcases List.mem_cons.1 ((h b).2 (by simp)) with e | hb
      · exact e.symm
      · exact absurd (h1.1 b hb) (String.lt_asymm (h2.1 a ha))
    subst hab
    refine congrArg _ (pairwise_ext h1.2 h2.2 fun m => ⟨fun hm => ?_, fun hm => ?_⟩)
    · rcases List.mem_cons.1 ((h m).1 (by simp [hm])) with e | hm'
      · subst e; exact absurd (h1.1 m hm) (String.lt_irrefl m)
      · exact hm'
    · rcases List.mem_cons.1 ((h m).2 (by simp [hm])) with e | hm'
      · subst e; exact absurd (h2.1 m hm) (String.lt_irrefl m)
      · exact hm'

/-! ## Dictionaries -/

theorem mem_dictSet_same {α β : Type} [DecidableEq α] {k : α} {v : β} {x : α × β} : ∀ {l : List (α × β)},
    (∀ y ∈ l, y.1 = k → y.2 = v) → (x ∈ dictSet k v l ↔ x ∈ l ∨ x = (k, v))
  | [], _ => by simp [dictSet]
  | p :: l, h => by
    rw [dictSet]
    split
    · rename_i hp
      have : p = (k, v) := Prod.ext hp (h p (by simp) hp)
      rw [this, List.mem_cons]
      exact ⟨fun h' => .inl h', fun h' => h'.elim id .inl⟩
    · rw [List.mem_cons, mem_dictSet_same (fun y hy => h y (by simp [hy])), List.mem_cons, or_assoc]

theorem mem_update {α β : Type} [DecidableEq α] {x : α × β} : ∀ {b a : List (α × β)},
    (∀ y ∈ a ++ b, ∀ z ∈ a ++ b, y.1 = z.1 → y.2 = z.2) →
    (x ∈ b.foldl (fun acc p => dictSet p.1 p.2 acc) a ↔ x ∈ a ∨ x ∈ b)
  | [], a, _ => by simp
  | p :: b, a, h => by
    have hm : ∀ y, y ∈ dictSet p.1 p.2 a ↔ y ∈ a ∨ y = (p.1, p.2) := fun y =>
      mem_dictSet_same fun z hz e => h z (by simp [hz]) p (by simp) e
    rw [List.foldl_cons, mem_update, hm, List.mem_cons, or_assoc]
    intro y hy z hz
    refine h y ?_ z ?_
    · rcases List.mem_append.1 hy with hy | hy
      · rcases (hm y).1 hy with hy | hy
        · simp [hy]
        · simp [hy]
      · simp [hy]
    · rcases List.mem_append.1 hz with hz | hz
      · rcases (hm z).1 hz with hz | hz
        · simp [hz]
        · simp [hz]
      · simp [hz]

/-! ## Roots -/

/-- The entries of a list are those that the device has for the tags of the roots. -/
def RootList (d : Device) (cs : List Elem) (l : List (QName × String)) : Prop :=
  ∀ t m, (t, m) ∈ l ↔ (∃ c ∈ cs, ∃ k ∈ c.kids, k.tag = t) ∧ d.roots.lookup t = some m

theorem configRoots_spec {c : Elem} {rs : List (QName × String)} (h : configRoots d c = .ok rs) :
    KnownRoots d c ∧ RootList d [c] rs := by
  unfold configRoots at h
  suffices hs : ∀ (l : List Elem) (rs : List (QName × String)), (l.mapM fun k =>
      match d.roots.lookup k.tag with
      | some m => Except.ok (k.tag, m)
      | none =>
        if k.tag.ns = "" then Except.error Err.configError
        else if d.namespaces.any (fun n => n.2.2 = k.tag.ns) then Except.error Err.modelMissing
        else Except.error Err.configError) = .ok rs →
      (∀ k ∈ l, ∃ m, d.roots.lookup k.tag = some m) ∧
        ∀ t m, (t, m) ∈ rs ↔ (∃ k ∈ l, k.tag = t) ∧ d.roots.lookup t = some m by
    obtain ⟨h1, h2⟩ := hs _ _ h
    refine ⟨h1, fun t m => ?_⟩
    rw [h2]
    simp
  intro l
  induction l with
  | nil => intro rs h; cases h; simp
  | cons k l ih =>
    intro rs h
    rw [List.mapM_cons] at h
    obtain ⟨r, h1, h⟩ := bind_ok.1 h
    obtain ⟨rs', h2, h⟩ := bind_ok.1 h
    cases h
    obtain ⟨i1, i2⟩ := ih _ h2
    split at h1
    · rename_i m0 hm
      cases h1
      refine ⟨fun x hx => ?_, fun t m => ?_⟩
      · rcases List.mem_cons.1 hx with e | hx
        · rw [e]; exact ⟨m0, hm⟩
        · exact i1 x hx
      · rw [List.mem_cons, i2]
        constructor
        · rintro (e | ⟨⟨x, hx, e⟩, h⟩)
          · cases e; exact ⟨⟨k, by simp, rfl⟩, hm⟩
          · exact ⟨⟨x, by simp [hx], e⟩, h⟩
        · rintro ⟨⟨x, hx, e⟩, h⟩
          rcases List.mem_cons.1 hx with e' | hx
          · subst e'; subst e; rw [hm] at h; cases h; exact .inl rfl
          · exact .inr ⟨⟨x, hx, e⟩, h⟩
    · split at h1
      · cases h1
      · split at h1 <;> cases h1

theorem configRoots_known {c : Elem} (h : KnownRoots d c) : ∃ rs, configRoots d c = .ok rs := by
  obtain ⟨rs, h, _⟩ := mapM_ok (P := fun _ => True) (l := c.kids) (f := fun k =>
      match d.roots.lookup k.tag with
      | some m => Except.ok (k.tag, m)
      | none =>
        if k.tag.ns = "" then Except.error Err.configError
        else if d.namespaces.any (fun n => n.2.2 = k.tag.ns) then Except.error Err.modelMissing
        else Except.error Err.configError) (fun k hk => by
    obtain ⟨m, hm⟩ := h k hk
    exact ⟨(k.tag, m), by rw [hm], trivial⟩)
  exact ⟨rs, h⟩

theorem RootList.functional {cs : List Elem} {l : List (QName × String)} (h : RootList d cs l) :
    ∀ y ∈ l, ∀ z ∈ l, y.1 = z.1 → y.2 = z.2 := by
  intro y hy z hz e
  have h1 := ((h y.1 y.2).1 hy).2
  have h2 := ((h z.1 z.2).1 hz).2
  rw [e, h2] at h1
  exact (Option.some.inj h1).symm

theorem rootDict_spec {c : Elem} {l : List (QName × String)} (h : rootDict d c = .ok l) : KnownRoots d c ∧ RootsOf d [c] l := by
  unfold rootDict at h
  obtain ⟨rs, h1, h⟩ := bind_ok.1 h
  cases h
  obtain ⟨a, b⟩ := configRoots_spec h1
  refine ⟨a, dictOf_keys (by simp), fun t m => ?_⟩
  rw [← b t m]
  unfold dictOf
  rw [mem_update (by simpa using b.functional)]
  simp

theorem rootDict_known {c : Elem} (h : KnownRoots d c) : ∃ l, rootDict d c = .ok l := by
  obtain ⟨rs, h⟩ := configRoots_known h
  exact ⟨_, by unfold rootDict; rw [h]; rfl⟩

theorem configModels_spec {c : Elem} {l : List String} (h : configModels d c = .ok l) : KnownRoots d c ∧ ModelsOf d [c] l := by
  unfold configModels at h
  obtain ⟨rs, h1, h⟩ := bind_ok.1 h
  cases h
  obtain ⟨a, _, b⟩ := rootDict_spec h1
  obtain ⟨s1, s2⟩ := sortedUnique (rs.map Prod.snd)
  refine ⟨a, s1, fun m => ?_⟩
  rw [s2, List.mem_map]
  constructor
  · rintro ⟨⟨t, m'⟩, hx, rfl⟩
    obtain ⟨⟨c', hc, k, hk, e⟩, hl⟩ := (b t m').1 hx
    exact ⟨c', hc, k, hk, e ▸ hl⟩
  · rintro ⟨c', hc, k, hk, hl⟩
    exact ⟨(k.tag, m), (b _ _).2 ⟨⟨c', hc, k, hk, rfl⟩, hl⟩, rfl⟩

theorem configModels_known {c : Elem} (h : KnownRoots d c) : ∃ l, configModels d c = .ok l := by
  obtain ⟨rs, h⟩ := rootDict_known h
  exact ⟨_, by unfold configModels; rw [h]; rfl⟩

theorem deltaModels_spec {δ : Delta} {l : List String} (h : δ.models d = .ok l) :
    KnownRoots d δ.src ∧ KnownRoots d δ.dst ∧ ModelsOf d [δ.src, δ.dst] l := by
  unfold Delta.models at h
  obtain ⟨a, h1, h⟩ := bind_ok.1 h
  obtain ⟨b, h2, h⟩ := bind_ok.1 h
  cases h
  obtain ⟨k1, _, e1⟩ := configModels_spec h1
  obtain ⟨k2, _, e2⟩ := configModels_spec h2
  obtain ⟨s1, s2⟩ := sortedUnique (a ++ b)
  refine ⟨k1, k2, s1, fun m => ?_⟩
  rw [s2, List.mem_append, e1, e2]
  simp [RootIn]

theorem deltaRoots_spec {δ : Delta} {l : List (QName × String)} (h : δ.roots d = .ok l) :
    KnownRoots d δ.src ∧ KnownRoots d δ.dst ∧ RootsOf d [δ.src, δ.dst] l := by
  unfold Delta.roots at h
  obtain ⟨a, h1, h⟩ := bind_ok.1 h
  obtain ⟨b, h2, h⟩ := bind_ok.1 h
  cases h
  obtain ⟨k1, n1, e1⟩ := rootDict_spec h1
  obtain ⟨k2, _, e2⟩ := rootDict_spec h2
  have ha : ∀ x, x ∈ dictUpdate [] a ↔ x ∈ a := fun x => by
    unfold dictUpdate
    rw [mem_update (by simpa using RootList.functional e1)]
    simp
  refine ⟨k1, k2, dictOf_keys (dictOf_keys (by simp)), fun t m => ?_⟩
  have hm : (t, m) ∈ dictUpdate (dictUpdate [] a) b ↔ (t, m) ∈ a ∨ (t, m) ∈ b := by
    rw [dictUpdate, mem_update, ha]
    intro y hy z hz e
    have lk : ∀ y ∈ dictUpdate [] a ++ b, d.roots.lookup y.1 = some y.2 := by
      intro y hy
      rcases List.mem_append.1 hy with hy | hy
      · exact ((e1 _ _).1 ((ha y).1 hy)).2
      · exact ((e2 _ _).1 hy).2
    have h1 := lk y hy
    have h2 := lk z hz
    rw [e, h2] at h1
    exact (Option.some.inj h1).symm
  rw [hm, e1, e2]
  constructor
  · rintro (⟨⟨c, hc, r⟩, h⟩ | ⟨⟨c, hc, r⟩, h⟩)
    · exact ⟨⟨c, by simp only [List.mem_singleton] at hc; simp [hc], r⟩, h⟩
    · exact ⟨⟨c, by simp only [List.mem_singleton] at hc; simp [hc], r⟩, h⟩
  · rintro ⟨⟨c, hc, r⟩, h⟩
    rcases List.mem_cons.1 hc with hc | hc
    · exact .inl ⟨⟨c, by simp [hc], r⟩, h⟩
    · exact .inr ⟨⟨c, hc, r⟩, h⟩

theorem deltaModels_known {δ : Delta} (h1 : KnownRoots d δ.src) (h2 : KnownRoots d δ.dst) : ∃ l, δ.models d = .ok l := by
  obtain ⟨a, ha⟩ := configModels_known h1
  obtain ⟨b, hb⟩ := configModels_known h2
  exact ⟨_, by unfold Delta.models; rw [ha, hb]; rfl⟩

theorem deltaRoots_known {δ : Delta} (h1 : KnownRoots d δ.src) (h2 : KnownRoots d δ.dst) : ∃ l, δ.roots d = .ok l := by
  obtain ⟨a, ha⟩ := rootDict_known h1
  obtain ⟨b, hb⟩ := rootDict_known h2
  exact ⟨_, by unfold Delta.roots; rw [ha, hb]; rfl⟩

theorem KnownRoots.either {r a b : Elem} (h1 : KnownRoots d a) (h2 : KnownRoots d b) (h : PlacesOfEither r a b) : KnownRoots d r := by
  intro k hk
  rcases h [k.tag] (.down hk (.here k)) with hp | hp
  · obtain ⟨k', hk', e, _⟩ := hp.inv
    exact e ▸ h1 k' hk'
  · obtain ⟨k', hk', e, _⟩ := hp.inv
    exact e ▸ h2 k' hk'

theorem rootIn_either {r a b : Elem} (h : PlacesOfEither r a b) {m : String} (hm : RootIn d [r] m) : RootIn d [a, b] m := by
  obtain ⟨c, hc, k, hk, hl⟩ := hm
  have hc' : c = r := by simpa using hc
  subst hc'
  rcases h [k.tag] (.down hk (.here k)) with hp | hp
  · obtain ⟨k', hk', e, _⟩ := hp.inv
    exact ⟨a, by simp, k', hk', e ▸ hl⟩
  · obtain ⟨k', hk', e, _⟩ := hp.inv
    exact ⟨b, by simp, k', hk', e ▸ hl⟩

end
end NcDiff
