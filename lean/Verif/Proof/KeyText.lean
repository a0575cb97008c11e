import Verif.Proof.RefValue
import Verif.Proof.Keys
import Verif.Spec.Delta
/-!
# Keys that are identityrefs
-/

namespace NcDiff

section
variable {d : Device}

/-- What is read from a key where the prefix means what it should. -/
theorem KeyNs.parse {own : String} {t : List Char} {p : Option String} {u : String} (h : KeyNs d own t p u) :
    ∃ i, (∀ m : NsMap, m.url p = some u → IdentityRef.parse d m t = .ok (u, i)) ∧
      ∀ m : NsMap, m.url p = some u → (∀ q, (q, u) ∈ m → q = p) → IdentityRef.composeTo m u i = .ok t := by
  have hpre : ∀ m : NsMap, m.url p = some u → (∀ q, (q, u) ∈ m → q = p) → m.prefixOf u = some p := by
    intro m hm hq
    have hmem : (p, u) ∈ m := by
      obtain ⟨l, r, rfl, _⟩ := List.lookup_eq_some_iff.1 hm
      simp
    unfold NsMap.prefixOf
    cases hf : m.reverse.find? (fun p => decide (p.2 = u)) with
    | none =>
      have := List.find?_eq_none.1 hf (p, u) (by simpa using hmem)
      simp at this
    | some x =>
      have h1 : x ∈ m := by simpa using List.mem_of_find?_eq_some hf
      have h2 : x.2 = u := by simpa using List.find?_some hf
      obtain ⟨a, b⟩ := x
      simp only at h2; subst h2
      rw [hq a h1]; rfl
  cases h with
  | @prefixed p i _ h1 h2 h3 h4 =>
    refine ⟨i, ?_, ?_⟩
    · intro m hm
      unfold IdentityRef.parse
      simp only [splitLastColon_prefixed h1 h2 h3, resolvePrefix, hm, bind, Except.bind, pure, Except.pure]
    · intro m hm hq
      unfold IdentityRef.composeTo
      simp only [hpre m hm hq, String.toList_ofList]
  | bare h1 =>
    refine ⟨t, ?_, ?_⟩
    · intro m hm
      unfold IdentityRef.parse
      simp only [splitLastColon_no_colon h1, hm]
    · intro m hm hq
      unfold IdentityRef.composeTo
      simp only [hpre m hm hq]

/-- Merging a key into the same key leaves it as it is. -/
theorem mergeText_key {sn : SNode} {c c' : Elem} (hk : KeyOk d sn c') (hh : sn.info.datatype = .identityref → KeyHonest d c)
    (ht : c.text = c'.text) (htag : c.tag = c'.tag) {x : Elem} (hx : mergeText d sn c' c = .ok x) : x = c := by
  rcases hk with hp | ⟨hi, h1, h2⟩
  · rw [mergeText_plain hp, ← ht, setText_self] at hx
    exact (Except.ok.inj hx).symm
  · unfold mergeText at hx
    cases htx : c'.text with
    | none =>
      simp only [htx] at hx
      rw [htx] at ht
      rw [← ht, setText_self] at hx
      exact (Except.ok.inj hx).symm
    | some t =>
      simp only [htx, hi, IdentityRef.converted, bind, Except.bind] at hx
      rw [htx] at ht
      obtain ⟨p, u, hn⟩ := h2 t htx
      have h3 := h1 t htx p u hn
      have h4 := hh hi t ht p u (by rw [htag]; exact hn)
      obtain ⟨i, h5, h6⟩ := hn.parse
      cases hnu : nodeUrl d c'.tag with
      | error e => simp [hnu] at hx
      | ok self =>
        simp only [hnu, h5 _ h3.1, h6 _ h4.1 h4.2, pure, Except.pure, String.ofList_toList, ← ht, setText_self,
          Except.ok.injEq] at hx
        exact hx.symm

/-- It succeeds if the key can be read. -/
theorem mergeText_key_ok {sn : SNode} {c c' : Elem} (hk : KeyOk d sn c')
    (hh : sn.info.datatype = .identityref → KeyHonest d c)
    (ht : c.text = c'.text) (htag : c.tag = c'.tag) (hp : ∃ t, parseText d c' sn = .ok t) : mergeText d sn c' c = .ok c := by
  have : ∃ x, mergeText d sn c' c = .ok x := by
    rcases hk with hpl | ⟨hi, h1, h2⟩
    · exact ⟨_, mergeText_plain hpl _ _⟩
    · obtain ⟨y, hp⟩ := hp
      unfold mergeText
      unfold parseText at hp
      cases htx : c'.text with
      | none => exact ⟨_, rfl⟩
      | some t =>
        simp only [htx, hi, IdentityRef.default, bind, Except.bind] at hp
        simp only [hi, IdentityRef.converted, bind, Except.bind]
        rw [htx] at ht
        obtain ⟨p, u, hn⟩ := h2 t htx
        have h3 := h1 t htx p u hn
        have h4 := hh hi t ht p u (by rw [htag]; exact hn)
        obtain ⟨i, h5, h6⟩ := hn.parse
        cases hnu : nodeUrl d c'.tag with
        | error e => simp [hnu] at hp
        | ok self =>
          simp only [h5 _ h3.1, h6 _ h4.1 h4.2]
          exact ⟨_, rfl⟩
  obtain ⟨x, hx⟩ := this
  rw [hx, mergeText_key hk hh ht htag hx]

/-- Keys with the same text are read in the same way. -/
theorem parseText_key {sn : SNode} {c c' : Elem} (hn : sn.ntype ≠ .container) (hk : KeyOk d sn c') (hk' : KeyOk d sn c)
    (ht : c.text = c'.text) (htag : c.tag = c'.tag) : parseText d c sn = parseText d c' sn := by
  rcases hk with hp | ⟨hi, h1, h2⟩
  · rw [parseText_plain hp hn, parseText_plain hp hn, ht]
  · rcases hk' with hp | ⟨_, h3, _⟩
    · rw [hi] at hp; exact hp.elim
    · unfold parseText
      rw [ht]
      cases htx : c'.text with
      | none => rfl
      | some t =>
        simp only [hi, IdentityRef.default, htag]
        obtain ⟨p, u, hn⟩ := h2 t htx
        obtain ⟨i, h5, h6⟩ := hn.parse
        rw [h5 _ (h1 t htx p u hn).1, h5 _ (h3 t (ht.trans htx) p u (by rw [htag]; exact hn)).1]

theorem KeyOk.honest {sn : SNode} {c : Elem} (h : KeyOk d sn c) (hi : sn.info.datatype = .identityref) : KeyHonest d c := by
  rcases h with hp | ⟨_, h, _⟩
  · rw [hi] at hp; exact hp.elim
  · exact h

/-- Only tag, prefixes and text of a key matter. -/
theorem KeyHonest.congr {c c' : Elem} (h : KeyHonest d c) (ht : c'.text = c.text) (htag : c'.tag = c.tag)
    (hns : c'.nsmap = c.nsmap) : KeyHonest d c' := by
  unfold KeyHonest
  rw [ht, htag, hns]; exact h

theorem KeyOk.congr {sn : SNode} {c c' : Elem} (h : KeyOk d sn c) (ht : c'.text = c.text) (htag : c'.tag = c.tag)
    (hns : c'.nsmap = c.nsmap) : KeyOk d sn c' := by
  rcases h with hp | ⟨hi, h1, h2⟩
  · exact .inl hp
  · refine .inr ⟨hi, h1.congr ht htag hns, ?_⟩
    rw [ht, htag]; exact h2

/-- What is known about the keys of a child of the source. -/
abbrev KeysHonest (d : Device) (f : Found) (s : Elem) : Prop :=
  f.node.ntype = .list → ∀ q ∈ f.node.keys, ∀ g, d.lookup (.node f.node) q = .ok g →
    g.node.info.datatype = .identityref → ∀ c ∈ s.childrenWith q, KeyHonest d c

/-- For all children. -/
abbrev KidsHonest (d : Device) (sc : Scope) (e : Elem) : Prop :=
  ∀ k ∈ e.kids, ∀ f, d.lookup sc k.tag = .ok f → KeysHonest d f k

end
end NcDiff
