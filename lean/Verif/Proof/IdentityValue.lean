import Verif.Spec.Meaning
import Verif.Proof.Yang
import Verif.Proof.RefValue
import Verif.Proof.Pairing
/-!
# Values of leaves: what the library compares, and what they stand for
-/

namespace NcDiff.Compile

section
variable {d : Device} {rd : Bool}

theorem identityOf_parse {m : NsMap} {s i : List Char} {u : String} (h : identityOf m s = some (u, i)) :
    IdentityRef.parse d m s = .ok (u, i) ∧ i ≠ [] ∧ ':' ∉ i := by
  have hs := List.takeWhile_append_dropWhile (p := fun c : Char => decide (c ≠ ':')) (l := s)
  have hp : ':' ∉ s.takeWhile (fun c => decide (c ≠ ':')) := by
    intro hm
    have := List.all_eq_true.1 (List.all_takeWhile (p := fun c : Char => decide (c ≠ ':')) (l := s)) _ hm
    simp at this
  unfold identityOf at h
  simp only at h
  split at h
  · rename_i hd
    split at h
    · cases h
    · rename_i hne
      obtain ⟨v, hv, he⟩ := Option.map_eq_some_iff.1 h
      cases he
      rw [hd, List.append_nil] at hs
      refine ⟨?_, hne, hp⟩
      unfold IdentityRef.parse
      rw [splitLastColon_no_colon (by rw [← hs]; exact hp)]
      simp only [NsMap.url, hv]
      rw [hs]
  · rename_i c r hd
    split at h
    · cases h
    · rename_i hne
      rw [not_or, not_or] at hne
      obtain ⟨v, hv, he⟩ := Option.map_eq_some_iff.1 h
      cases he
      have hc : c = ':' := by
        have := List.head_dropWhile_not (fun c : Char => decide (c ≠ ':')) (l := s) (by rw [hd]; simp)
        simp only [hd, List.head_cons] at this
        simpa using this
      subst hc
      rw [hd] at hs
      refine ⟨?_, hne.2.1, hne.2.2⟩
      unfold IdentityRef.parse
      rw [← hs, splitLastColon_prefixed hne.1 hne.2.1 hne.2.2]
      simp only [resolvePrefix, NsMap.url, hv]
      rfl

theorem composeDefault_eq {self u v : String} {i j s t : List Char} (hu : OwnName d u) (hv : OwnName d v)
    (hi : i ≠ [] ∧ ':' ∉ i) (hj : j ≠ [] ∧ ':' ∉ j) (h1 : IdentityRef.composeDefault d self u i = .ok s)
    (h2 : IdentityRef.composeDefault d self v j = .ok t) : s = t ↔ u = v ∧ i = j := by
  constructor
  swap
  · rintro ⟨rfl, rfl⟩
    exact Except.ok.inj (h1.symm.trans h2)
  have known : ∀ {u : String} {i s : List Char}, u ≠ self → IdentityRef.composeDefault d self u i = .ok s →
      ∃ n ∈ d.namespaces, n.2.2 = u ∧ s = n.1.toList ++ ':' :: i := by
    intro u i s hne h
    unfold IdentityRef.composeDefault at h
    rw [if_neg hne] at h
    obtain ⟨n, hn, h⟩ := bind_ok.1 h
    cases h
    unfold urlToName at hn
    split at hn
    · rename_i x hx
      cases hn
      have : x ∈ d.namespaces.filter (fun n => n.2.2 = u) := by rw [hx]; exact List.mem_cons_self
      obtain ⟨m1, m2⟩ := List.mem_filter.1 this
      exact ⟨x, m1, by simpa using m2, rfl⟩
    · cases hn
  intro e
  subst e
  by_cases c1 : u = self
  · have e1 : i = s := by
      unfold IdentityRef.composeDefault at h1
      rw [if_pos c1] at h1
      exact Except.ok.inj h1
    by_cases c2 : v = self
    · have e2 : j = s := by
        unfold IdentityRef.composeDefault at h2
        rw [if_pos c2] at h2
        exact Except.ok.inj h2
      exact ⟨c1.trans c2.symm, e1.trans e2.symm⟩
    · obtain ⟨n, _, _, hs⟩ := known c2 h2
      exact absurd (by rw [e1, hs]; simp) hi.2
  · obtain ⟨n, hn, hnu, hs⟩ := known c1 h1
    by_cases c2 : v = self
    · have e2 : j = s := by
        unfold IdentityRef.composeDefault at h2
        rw [if_pos c2] at h2
        exact Except.ok.inj h2
      exact absurd (by rw [e2, hs]; simp) hj.2
    · obtain ⟨n', hn', hnu', hs'⟩ := known c2 h2
      have e1 := splitLastColon_prefixed (IdentityRef.toList_ne (hu n hn hnu).1) hi.1 hi.2
      have e2 := splitLastColon_prefixed (IdentityRef.toList_ne (hv n' hn' hnu').1) hj.1 hj.2
      rw [← hs, hs', e2, Option.some.injEq, Prod.mk.injEq] at e1
      have e3 : n'.1 = n.1 := by rw [← String.ofList_toList (s := n'.1), e1.1, String.ofList_toList]
      exact ⟨((hu n hn hnu).2 n' hn' e3).symm.trans hnu', e1.2.symm⟩

theorem isIdentity_iff {s : Stmt} : isIdentity s = true ↔ ∃ t, s.info.type = some t ∧ t.arg.toList.take 11 = "identityref".toList := by
  unfold isIdentity
  cases s.info.type with
  | none => exact ⟨fun h => (by cases h), fun ⟨t, ht, _⟩ => by cases ht⟩
  | some t =>
    exact ⟨fun h => ⟨t, rfl, of_decide_eq_true h⟩, fun ⟨t', ht, h⟩ => by cases ht; exact decide_eq_true h⟩

theorem not_identity {s : Stmt} (h : PlainType s) : isIdentity s = false := by
  cases hi : isIdentity s with
  | false => rfl
  | true =>
    obtain ⟨t, ht, ha⟩ := isIdentity_iff.1 hi
    exact absurd ha (h t ht).1

theorem valueOf_plain {s : Stmt} (h : PlainType s) (k : Elem) : valueOf s k = .text k.text := by
  unfold valueOf
  rw [not_identity h]
  rfl

theorem valueOf_text {s : Stmt} {k : Elem} {t : Option String} (h : valueOf s k = .text t) : k.text = t := by
  unfold valueOf at h
  split at h
  · split at h
    · cases h
    · exact Value.text.inj h
  · exact Value.text.inj h

theorem valueOf_empty {s : Stmt} {k : Elem} (h : k.text = some "") : valueOf s k = .text (some "") := by
  unfold valueOf
  rw [h]
  split
  · rfl
  · rfl

theorem valueOf_congr {s : Stmt} {x y : Elem} (h1 : x.nsmap = y.nsmap) (h2 : x.text = y.text) : valueOf s x = valueOf s y := by
  unfold valueOf
  rw [h1, h2]

/-- The values of two instances of a leaf are the same for the library exactly if they stand for the same. -/
theorem value_same {ns : List (String × String)} {s : Stmt} {e : Elem} (hm : Made ns s e) (hk : s.info.keyword = "leaf")
    (ht : PlainType s ∨ isIdentity s = true) {x y : Elem} (htag : x.tag = y.tag) (hx : ValueOf d s x) (hy : ValueOf d s y) :
    parseText d x (SNode.ofElem e) = parseText d y (SNode.ofElem e) ↔ valueOf s x = valueOf s y := by
  obtain ⟨_, hu⟩ := hm.understood
  rcases ht with ht | ht
  · have hp := plain_of hm (Or.inl ht)
    have hnc : (SNode.ofElem e).ntype ≠ .container := by
      intro h
      have := hu.container.1 h
      rw [hk] at this
      exact absurd this (by decide)
    rw [valueOf_plain ht, valueOf_plain ht, parseText_plain hp hnc, parseText_plain hp hnc, Except.ok.injEq, Value.text.injEq]
  · obtain ⟨ty, hty, ha⟩ := isIdentity_iff.1 ht
    have hd : (SNode.ofElem e).info.datatype = .identityref := hu.identity.2 ⟨Or.inl hk, ty, hty, ha⟩
    have read : ∀ {z : Elem}, ValueOf d s z → ∀ t, z.text = some t → ∃ u i r self, identityOf z.nsmap t.toList = some (u, i) ∧
        OwnName d u ∧ nodeUrl d z.tag = .ok self ∧ IdentityRef.composeDefault d self u i = .ok r ∧
        (i ≠ [] ∧ ':' ∉ i) ∧ parseText d z (SNode.ofElem e) = .ok (some (String.ofList r)) ∧
        valueOf s z = .identity u i := by
      intro z hz t hzt
      rcases hz with hz | ⟨ty', hty', ⟨_, hz⟩ | ⟨hz, _⟩⟩
      · exact absurd ht (by rw [not_identity hz]; decide)
      · obtain ⟨⟨u, i, h1, h2⟩, r, hr⟩ := hz t hzt
        have hr' := hr
        unfold IdentityRef.default at hr'
        obtain ⟨self, hs, hr'⟩ := bind_ok.1 hr'
        obtain ⟨p1, p2⟩ := identityOf_parse (d := d) h1
        obtain ⟨v, hv, hr'⟩ := bind_ok.1 hr'
        obtain rfl : (u, i) = v := Except.ok.inj (p1.symm.trans hv)
        refine ⟨u, i, r, self, h1, h2, hs, hr', p2, ?_, ?_⟩
        · unfold parseText
          rw [hzt]
          simp only [hd, hr]
          rfl
        · unfold valueOf
          rw [if_pos ht, hzt, Option.getD_some, h1]
      · rw [hty] at hty'
        cases hty'
        rw [hz] at ha
        exact absurd ha (by decide)
    have none' : ∀ {z : Elem}, z.text = none → parseText d z (SNode.ofElem e) = .ok none ∧ valueOf s z = .text none := by
      intro z hz
      constructor
      · unfold parseText; rw [hz]
      · unfold valueOf
        rw [if_pos ht, hz]
        rfl
    cases hxt : x.text with
    | none =>
      obtain ⟨n1, n2⟩ := none' hxt
      cases hyt : y.text with
      | none =>
        obtain ⟨n3, n4⟩ := none' hyt
        rw [n1, n2, n3, n4]
        exact ⟨fun _ => rfl, fun _ => rfl⟩
      | some b =>
        obtain ⟨u, i, r, self, _, _, _, _, _, h6, h7⟩ := read hy b hyt
        rw [n1, n2, h6, h7]
        exact ⟨fun h => by simp at h, fun h => by simp at h⟩
    | some a =>
      obtain ⟨u, i, r, self, _, h2, h3, h4, h5, h6, h7⟩ := read hx a hxt
      cases hyt : y.text with
      | none =>
        obtain ⟨n1, n2⟩ := none' hyt
        rw [n1, n2, h6, h7]
        exact ⟨fun h => by simp at h, fun h => by simp at h⟩
      | some b =>
        obtain ⟨u', i', r', self', _, g2, g3, g4, g5, g6, g7⟩ := read hy b hyt
        rw [← htag, h3] at g3
        cases g3
        have key := composeDefault_eq h2 g2 h5 g5 h4 g4
        rw [h6, h7, g6, g7]
        constructor
        · intro h
          have hr : String.ofList r = String.ofList r' := Option.some.inj (Except.ok.inj h)
          obtain ⟨k1, k2⟩ := key.1 (by rw [← String.toList_ofList (l := r), hr, String.toList_ofList])
          rw [k1, k2]
        · intro h
          rw [Value.identity.injEq] at h
          rw [key.2 h]

/-- Values that can be written. -/
theorem value_writable {ns : List (String × String)} {s : Stmt} {e : Elem} (hm : Made ns s e)
    (ht : PlainType s ∨ isIdentity s = true) {k : Elem} (hx : ValueOf d s k) {us : List String} (hw : WithinNs us s k)
    {m : NsMap} (hd : isIdentity s = true → ∀ u ∈ us, ∃ p, (p, u) ∈ m) : Writable d (SNode.ofElem e) k m := by
  obtain ⟨_, hu⟩ := hm.understood
  rcases ht with ht | ht
  · have hpl := plain_of hm (Or.inl ht)
    unfold Writable
    constructor <;> (intro h; rw [h] at hpl; exact hpl.elim)
  · obtain ⟨ty, hty, ha⟩ := isIdentity_iff.1 ht
    refine ⟨fun _ t htx u i hpu => ?_, fun hi => ?_⟩
    · rcases hx with hz | ⟨ty', hty', ⟨_, hz⟩ | ⟨hz, _⟩⟩
      · exact absurd ht (by rw [not_identity hz]; decide)
      · obtain ⟨⟨u', i', h1, _⟩, _⟩ := hz t htx
        have h2 := (identityOf_parse (d := d) h1).1.symm.trans hpu
        cases h2
        refine hd ht u (hw u i ?_)
        unfold valueOf
        rw [if_pos ht, htx, Option.getD_some, h1]
      · rw [hty] at hty'
        cases hty'
        rw [hz] at ha
        exact absurd ha (by decide)
    · have hk : s.info.keyword = "leaf" ∨ s.info.keyword = "leaf-list" := by
        by_contra hk
        have hpl := plain_of hm (Or.inr hk)
        rw [hi] at hpl
        exact hpl.elim
      have hd : (SNode.ofElem e).info.datatype = .identityref := hu.identity.2 ⟨hk, ty, hty, ha⟩
      rw [hi] at hd
      cases hd

theorem WithinNs.congr {us : List String} {s : Stmt} {x y : Elem} (h : WithinNs us s x) (h2 : y.nsmap = x.nsmap)
    (h3 : y.text = x.text) : WithinNs us s y := by
  unfold WithinNs
  rw [valueOf_congr h2 h3]
  exact h

theorem Declares.congr {us : List String} {s : Stmt} {x y : Elem} (h : Declares us s x) (h2 : y.nsmap = x.nsmap) : Declares us s y := by
  unfold Declares
  rw [h2]
  exact h

theorem Leaves.here' {P : Stmt → Elem → Prop} {pl : List Place} {e k : Elem} (h : Leaves P pl e) (hk : k ∈ e.kids) {p : Place}
    (hp : p ∈ pl) (hn : Named p.1 k.tag p.2) (hl : p.2.info.keyword = "leaf") : P p.2 k := by
  cases h; rename_i s _; exact s k hk p hp hn hl

theorem Leaves.sub' {P : Stmt → Elem → Prop} {pl : List Place} {e k : Elem} (h : Leaves P pl e) (hk : k ∈ e.kids) {p : Place}
    (hp : p ∈ pl) (hn : Named p.1 k.tag p.2) : Leaves P (places p.1 p.2.kids) k := by
  cases h; rename_i _ s; exact s k hk p hp hn

theorem Leaves.pruned {P : Stmt → Elem → Prop} (hP : ∀ {s x y}, P s x → y.nsmap = x.nsmap → y.text = x.text → P s y)
    {sc : Scope} {e e' : Elem} (h : Pruned d sc e e') : ∀ {pl : List Place}, Leaves P pl e → Leaves P pl e' := by
  induction h with
  | @mk sc e e' l tag nsmap attrs text src dst keys known sub ih =>
    intro pl hr
    cases hr with
    | mk v s =>
      refine ⟨fun k' hk' => ?_, fun k' hk' => ?_⟩ <;>
      · rw [← dst] at hk'
        obtain ⟨p, hp, hp2⟩ := List.mem_filterMap.1 hk'
        obtain ⟨f, hf⟩ := known p hp
        have hin : p.1 ∈ e.kids := by rw [← src]; exact List.mem_map_of_mem hp
        have hh := (sub p hp k' hp2 f hf).head
        rw [hh.1]
        first
        | exact fun pp hpp hn hl => hP (v p.1 hin pp hpp hn hl) hh.2.1 hh.2.2.2
        | exact fun pp hpp hn => ih p hp k' hp2 f hf (s p.1 hin pp hpp hn)

theorem Leaves.declares_pruned {us : List String} {sc : Scope} {e e' e'' : Elem} {pl : List Place} (h : Leaves (Declares us) pl e)
    (h1 : Pruned d sc e e') (h2 : Pruned d sc e' e'') : Leaves (Declares us) pl e'' :=
  .pruned (fun h h1 _ => h.congr h1) h2 (.pruned (fun h h1 _ => h.congr h1) h1 h)

theorem Leaves.within_pruned {us : List String} {sc : Scope} {e e' e'' : Elem} {pl : List Place} (h : Leaves (WithinNs us) pl e)
    (h1 : Pruned d sc e e') (h2 : Pruned d sc e' e'') : Leaves (WithinNs us) pl e'' :=
  .pruned (fun h h1 h2 => h.congr h1 h2) h2 (.pruned (fun h h1 h2 => h.congr h1 h2) h1 h)

end
end NcDiff.Compile
