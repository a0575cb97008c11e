import Verif.Spec.Prefer
import Verif.Proof.Replace
import Verif.Proof.Tree
/-!
# The preferences for creating, replacing and deleting
-/

namespace NcDiff

/-! ## Leaf-lists -/

theorem mapM_values {α β : Type} {f : α → Except Err β} : ∀ {l : List α} {r : List β}, l.mapM f = .ok r →
    l.map f = r.map .ok
  | [], r, h => by
    simp only [List.mapM_nil, pure, Except.pure, Except.ok.injEq] at h
    subst h; rfl
  | a :: l, r, h => by
    rw [List.mapM_cons] at h
    obtain ⟨b, hb, h⟩ := bind_ok.1 h
    obtain ⟨r', hr, h⟩ := bind_ok.1 h
    simp only [pure, Except.pure, Except.ok.injEq] at h
    subst h
    rw [List.map_cons, List.map_cons, hb, mapM_values hr]

section
variable {d : Device} {sc : Scope} {S T : Elem}

theorem sameLeafList_iff {sn : SNode} {t : QName} {b : Bool} (h : sameLeafList d sn t T.kids S.kids = .ok b) :
    b = true ↔ (sn.userOrdered = true → valuesOf d sn S t = valuesOf d sn T t) ∧
      (sn.userOrdered = false → ∀ v, v ∈ valuesOf d sn S t ↔ v ∈ valuesOf d sn T t) := by
  unfold sameLeafList at h
  obtain ⟨x, hx, h⟩ := bind_ok.1 h
  obtain ⟨y, hy, h⟩ := bind_ok.1 h
  have hx' : valuesOf d sn T t = x.map .ok := mapM_values hx
  have hy' : valuesOf d sn S t = y.map .ok := mapM_values hy
  have inj : Function.Injective (Except.ok : Option String → Except Err (Option String)) := fun a b h => by cases h; rfl
  rw [hx', hy']
  by_cases hu : sn.userOrdered = true
  · simp only [hu, if_true, pure, Except.pure, Except.ok.injEq] at h
    subst h
    simp only [decide_eq_true_eq, hu, true_implies, Bool.true_eq_false, false_implies, and_true]
    exact ⟨fun h => by rw [h], fun h => ((List.map_injective_iff.2 inj) h).symm⟩
  · simp only [hu, if_false, pure, Except.pure, Except.ok.injEq, Bool.false_eq_true] at h
    subst h
    have hu' : sn.userOrdered = false := by simpa using hu
    simp only [Bool.and_eq_true, List.all_eq_true, decide_eq_true_eq, hu', Bool.false_eq_true, false_implies,
      true_and, true_implies]
    constructor
    · rintro ⟨h1, h2⟩ v
      simp only [List.mem_map]
      exact ⟨fun ⟨a, ha, e⟩ => ⟨a, h2 a ha, e⟩, fun ⟨a, ha, e⟩ => ⟨a, h1 a ha, e⟩⟩
    · intro h
      refine ⟨fun a ha => ?_, fun a ha => ?_⟩
      · obtain ⟨a', h1, h2⟩ := List.mem_map.1 ((h (.ok a)).2 (List.mem_map_of_mem ha))
        cases h2; exact h1
      · obtain ⟨a', h1, h2⟩ := List.mem_map.1 ((h (.ok a)).1 (List.mem_map_of_mem ha))
        cases h2; exact h1

theorem siblings_ne {E : Elem} {t : QName} : siblings E t ≠ [] ↔ ∃ k ∈ E.kids, k.tag = t := by
  unfold siblings
  rw [Ne, List.filter_eq_nil_iff]
  simp

theorem leafListsDiffer_iff : ∀ {l : List Elem} {b : Bool}, leafListsDiffer d sc T.kids S.kids l = .ok b →
    (b = true ↔ ∃ c ∈ l, ∃ f, d.lookup sc c.tag = .ok f ∧ f.node.ntype = .leafList ∧ siblings S c.tag ≠ [] ∧
      sameLeafList d f.node c.tag T.kids S.kids = .ok false)
  | [], b, h => by
    simp only [leafListsDiffer, Except.ok.injEq] at h
    subst h; simp
  | c :: r, b, h => by
    rw [leafListsDiffer] at h
    obtain ⟨f, hf, h⟩ := bind_ok.1 h
    have hany : S.kids.any (fun k => decide (k.tag = c.tag)) = true ↔ siblings S c.tag ≠ [] := by
      rw [siblings_ne]; simp
    have hcons : (∃ c' ∈ c :: r, ∃ f, d.lookup sc c'.tag = .ok f ∧ f.node.ntype = .leafList ∧ siblings S c'.tag ≠ [] ∧
        sameLeafList d f.node c'.tag T.kids S.kids = .ok false) ↔
        (f.node.ntype = .leafList ∧ siblings S c.tag ≠ [] ∧ sameLeafList d f.node c.tag T.kids S.kids = .ok false) ∨
        ∃ c ∈ r, ∃ f, d.lookup sc c.tag = .ok f ∧ f.node.ntype = .leafList ∧ siblings S c.tag ≠ [] ∧
          sameLeafList d f.node c.tag T.kids S.kids = .ok false := by
      constructor
      · rintro ⟨c', hc', g, hg, h1⟩
        rcases List.mem_cons.1 hc' with rfl | hc'
        · rw [hf] at hg; cases hg; exact Or.inl h1
        · exact Or.inr ⟨c', hc', g, hg, h1⟩
      · rintro (h1 | ⟨c', hc', h1⟩)
        · exact ⟨c, by simp, f, hf, h1⟩
        · exact ⟨c', by simp [hc'], h1⟩
    rw [hcons]
    by_cases hc : f.node.ntype = .leafList ∧ S.kids.any (fun k => decide (k.tag = c.tag)) = true
    · rw [if_pos hc] at h
      obtain ⟨same, hs, h⟩ := bind_ok.1 h
      rw [hs]
      cases same
      · simp only [Bool.false_eq_true, if_false, pure, Except.pure, Except.ok.injEq] at h
        subst h
        simp [hc.1, hany.1 hc.2]
      · simp only [if_true] at h
        rw [leafListsDiffer_iff h]
        simp
    · rw [if_neg hc] at h
      rw [leafListsDiffer_iff h]
      constructor
      · exact Or.inr
      · rintro (⟨h1, h2, _⟩ | h1)
        · exact absurd ⟨h1, hany.2 h2⟩ hc
        · exact h1

theorem leafLists_iff {b : Bool} (h : leafListsDiffer d sc T.kids S.kids T.kids = .ok b) (hS : Side d sc S)
    (hT : Side d sc T) : b = true ↔ LeafListsDiffer d sc S T := by
  rw [leafListsDiffer_iff h]
  constructor
  · rintro ⟨c, hc, f, hf, hn, hs, hsame⟩
    have := sameLeafList_iff hsame
    refine ⟨c.tag, f, hf, hn, hs, siblings_ne.2 ⟨c, hc, rfl⟩, ?_, ?_⟩
    · intro hu he
      exact absurd (this.2 ⟨fun _ => he, fun h => by rw [hu] at h; cases h⟩) (by simp)
    · intro hu he
      exact absurd (this.2 ⟨fun h => (by rw [hu] at h; cases h), fun _ => he⟩) (by simp)
  · rintro ⟨t, f, hf, hn, hs, ht, h1, h2⟩
    obtain ⟨c, hc, rfl⟩ := siblings_ne.1 ht
    refine ⟨c, hc, f, hf, hn, hs, ?_⟩
    have key : ∀ {E : Elem}, Side d sc E → ∀ x ∈ E.kids, x.tag = c.tag → ∃ v, parseText d x f.node = .ok v := by
      intro E hE x hx hxt
      have := hE.kid hx (f := f) (by rw [hxt]; exact hf)
      unfold KidOk at this
      simp only [hn] at this
      exact this.2
    obtain ⟨b, hb⟩ := sameLeafList_ok (sn := f.node) (t := c.tag) (key hT) (key hS)
    rw [hb]
    cases b
    · rfl
    · obtain ⟨h3, h4⟩ := (sameLeafList_iff hb).1 rfl
      cases hu : f.node.userOrdered
      · exact absurd (h4 hu) (h2 hu)
      · exact absurd (h3 hu) (h1 hu)

end

/-! ## What exists by default -/

/-- What `DefaultAt` says about the path below one child. -/
def KidAt (c : SNode) (q : List Nat) : Prop :=
  ((c.ntype = .leaf ∨ c.ntype = .leafList) ∧ c.info.dflt.isSome = true ∧ q = []) ∨
  (∃ v j k, c.ntype = .choice ∧ c.info.dflt = some v ∧ c.kids[j]? = some k ∧ k.tag = ⟨c.tag.ns, v⟩ ∧
    (∀ l < j, ∀ k', c.kids[l]? = some k' → k'.tag ≠ ⟨c.tag.ns, v⟩) ∧
    (q = [j] ∨ ∃ r, q = j :: r ∧ DefaultAt k r)) ∨
  (c.isNP = true ∧ DefaultAt c q)

theorem defaultAt_iff {sn : SNode} {p : List Nat} :
    DefaultAt sn p ↔ ∃ i c q, sn.kids[i]? = some c ∧ p = i :: q ∧ KidAt c q := by
  constructor
  · intro h
    cases h with
    | leaf hc hn hd => exact ⟨_, _, _, hc, rfl, Or.inl ⟨hn, hd, rfl⟩⟩
    | case hc hn hd hk ht first => exact ⟨_, _, _, hc, rfl, Or.inr (Or.inl ⟨_, _, _, hn, hd, hk, ht, first, Or.inl rfl⟩)⟩
    | inCase hc hn hd hk ht first h =>
      exact ⟨_, _, _, hc, rfl, Or.inr (Or.inl ⟨_, _, _, hn, hd, hk, ht, first, Or.inr ⟨_, rfl, h⟩⟩)⟩
    | inside hc hn h => exact ⟨_, _, _, hc, rfl, Or.inr (Or.inr ⟨hn, h⟩)⟩
  · rintro ⟨i, c, q, hc, rfl, ⟨hn, hd, rfl⟩ | ⟨v, j, k, hn, hd, hk, ht, first, rfl | ⟨r, rfl, h⟩⟩ | ⟨hn, h⟩⟩
    · exact .leaf hc hn hd
    · exact .case hc hn hd hk ht first
    · exact .inCase hc hn hd hk ht first h
    · exact .inside hc hn h

mutual
theorem mem_default : ∀ (sn : SNode) (pre p : List Nat),
    p ∈ sn.defaultInUse pre ↔ ∃ q, p = pre ++ q ∧ DefaultAt sn q
  | .mk info kids, pre, p => by
    rw [SNode.defaultInUse, mem_defaultList kids pre 0 p]
    constructor
    · rintro ⟨j, c, q, hc, rfl, h⟩
      exact ⟨_, rfl, defaultAt_iff.2 ⟨0 + j, c, q, by simpa using hc, rfl, h⟩⟩
    · rintro ⟨q, rfl, h⟩
      obtain ⟨i, c, q', hc, hq, h'⟩ := defaultAt_iff.1 h
      exact ⟨i, c, q', by simpa using hc, by simp [hq], h'⟩
theorem mem_defaultList : ∀ (ks : List SNode) (pre : List Nat) (i : Nat) (p : List Nat),
    p ∈ defaultInUseList pre i ks ↔ ∃ j c q, ks[j]? = some c ∧ p = pre ++ (i + j) :: q ∧ KidAt c q
  | [], pre, i, p => by simp [defaultInUseList]
  | .mk info ks :: r, pre, i, p => by
    rw [defaultInUseList, List.mem_append, mem_defaultList r pre (i + 1) p]
    have hhead : p ∈ (if (info.ntype = .leaf ∨ info.ntype = .leafList) ∧ info.dflt.isSome then [pre ++ [i]]
        else if info.ntype = .choice ∧ info.dflt.isSome then
          defaultCase (pre ++ [i]) ⟨info.tag.ns, info.dflt.getD ""⟩ 0 ks
        else if info.ntype = .container ∧ !info.presence then
          SNode.defaultInUse (pre ++ [i]) (.mk info ks)
        else []) ↔ ∃ q, p = pre ++ i :: q ∧ KidAt (.mk info ks) q := by
      split
      · rename_i h
        simp only [List.mem_singleton]
        constructor
        · rintro rfl; exact ⟨[], rfl, Or.inl ⟨h.1, h.2, rfl⟩⟩
        · rintro ⟨q, rfl, ⟨_, _, rfl⟩ | ⟨v, j, k, hn, _⟩ | ⟨hn, _⟩⟩
          · rfl
          · rcases h.1 with h | h <;> (change info.ntype = _ at hn; rw [h] at hn; cases hn)
          · rcases h.1 with h | h <;> simp [SNode.isNP, h] at hn
      · rename_i h0
        split
        · rename_i h
          obtain ⟨v, hv⟩ := Option.isSome_iff_exists.1 h.2
          rw [mem_defaultCase ks (pre ++ [i]) _ 0 p]
          simp only [hv, Option.getD_some, Nat.zero_add]
          constructor
          · rintro ⟨j, k, hk, ht, first, rfl | ⟨q, rfl, hq⟩⟩
            · exact ⟨[j], by simp, Or.inr (Or.inl ⟨v, j, k, h.1, hv, hk, ht, first, Or.inl rfl⟩)⟩
            · exact ⟨j :: q, by simp, Or.inr (Or.inl ⟨v, j, k, h.1, hv, hk, ht, first, Or.inr ⟨q, rfl, hq⟩⟩)⟩
          · rintro ⟨q, rfl, ⟨hn, hd, rfl⟩ | ⟨v', j, k, hn, hd, hk, ht, first, hq⟩ | ⟨hn, _⟩⟩
            · exact absurd ⟨hn, hd⟩ h0
            · change info.dflt = some v' at hd
              rw [hv] at hd; cases hd
              refine ⟨j, k, hk, ht, first, ?_⟩
              rcases hq with rfl | ⟨r, rfl, hr⟩
              · exact Or.inl (by simp)
              · exact Or.inr ⟨r, by simp, hr⟩
            · simp [SNode.isNP, h.1] at hn
        · rename_i h1
          split
          · rename_i h
            rw [mem_default (.mk info ks) (pre ++ [i]) p]
            constructor
            · rintro ⟨q, rfl, hq⟩
              exact ⟨q, by simp, Or.inr (Or.inr ⟨by simp [SNode.isNP, h.1]; simpa using h.2, hq⟩)⟩
            · rintro ⟨q, rfl, ⟨hn, hd, rfl⟩ | ⟨v', j, k, hn, hd, hk, ht, first, hq⟩ | ⟨hn, hq⟩⟩
              · exact absurd ⟨hn, hd⟩ h0
              · exact absurd ⟨hn, by rw [show info.dflt = some v' from hd]; rfl⟩ h1
              · exact ⟨q, by simp, hq⟩
          · rename_i h2
            simp only [List.not_mem_nil, false_iff]
            rintro ⟨q, rfl, ⟨hn, hd, rfl⟩ | ⟨v', j, k, hn, hd, hk, ht, first, hq⟩ | ⟨hn, hq⟩⟩
            · exact absurd ⟨hn, hd⟩ h0
            · exact absurd ⟨hn, by rw [show info.dflt = some v' from hd]; rfl⟩ h1
            · simp [SNode.isNP] at hn
              exact h2 ⟨of_decide_eq_true hn.1, by simp [hn.2]⟩
    rw [hhead]
    constructor
    · rintro (⟨q, h1, h2⟩ | ⟨j, c, q, h1, h2, h3⟩)
      · exact ⟨0, _, q, rfl, h1, h2⟩
      · exact ⟨j + 1, c, q, h1, by rw [h2]; congr 2; omega, h3⟩
    · rintro ⟨j, c, q, h1, h2, h3⟩
      cases j with
      | zero => cases h1; exact Or.inl ⟨q, h2, h3⟩
      | succ j => exact Or.inr ⟨j, c, q, h1, by rw [h2]; congr 2; omega, h3⟩
theorem mem_defaultCase : ∀ (ks : List SNode) (pre : List Nat) (tag : QName) (i : Nat) (p : List Nat),
    p ∈ defaultCase pre tag i ks ↔ ∃ j k, ks[j]? = some k ∧ k.tag = tag ∧
      (∀ l < j, ∀ k', ks[l]? = some k' → k'.tag ≠ tag) ∧
      (p = pre ++ [i + j] ∨ ∃ q, p = pre ++ (i + j) :: q ∧ DefaultAt k q)
  | [], pre, tag, i, p => by simp [defaultCase]
  | s :: r, pre, tag, i, p => by
    rw [defaultCase]
    by_cases ht : s.info.tag = tag
    · rw [if_pos ht, List.mem_cons, mem_default s (pre ++ [i]) p]
      constructor
      · intro h
        refine ⟨0, s, rfl, ht, by simp, ?_⟩
        rcases h with h | ⟨q, h, hq⟩
        · exact Or.inl h
        · exact Or.inr ⟨q, by rw [h]; simp, hq⟩
      · rintro ⟨j, k, hk, hkt, first, h⟩
        cases j with
        | zero =>
          cases hk
          rcases h with h | ⟨q, h, hq⟩
          · exact Or.inl h
          · exact Or.inr ⟨q, by rw [h]; simp, hq⟩
        | succ j => exact absurd ht (first 0 (by omega) s rfl)
    · rw [if_neg ht, mem_defaultCase r pre tag (i + 1) p]
      constructor
      · rintro ⟨j, k, hk, hkt, first, h⟩
        refine ⟨j + 1, k, hk, hkt, ?_, ?_⟩
        · intro l hl k' hk'
          cases l with
          | zero => cases hk'; exact ht
          | succ l => exact first l (by omega) k' hk'
        · rw [show i + (j + 1) = i + 1 + j by omega]; exact h
      · rintro ⟨j, k, hk, hkt, first, h⟩
        cases j with
        | zero => cases hk; exact absurd hkt ht
        | succ j =>
          refine ⟨j, k, hk, hkt, fun l hl k' hk' => first (l + 1) (by omega) k' hk', ?_⟩
          rw [show i + 1 + j = i + (j + 1) by omega]; exact h
end

theorem defaultInUse_iff {sn : SNode} {p : List Nat} : p ∈ sn.defaultInUse [] ↔ DefaultAt sn p := by
  rw [mem_default]
  simp

/-! ## Operations -/

theorem noOp_bare {e : Elem} (h : e.attrs = []) : NoOp e := by
  unfold NoOp Elem.get; rw [h]; rfl

theorem noOps_bare : ∀ {e : Elem}, NoAttrs e → NoOps e := by
  intro e
  induction e using Elem.ind with
  | h t n a x ks ih =>
    intro h
    exact ⟨noOp_bare h.here', fun k hk => ih k hk (h.sub' k hk)⟩

theorem NoOps.sub' {e : Elem} (h : NoOps e) : ∀ k ∈ e.kids, NoOps k := by cases h; assumption
theorem NoOps.here' {e : Elem} (h : NoOps e) : NoOp e := by cases h; assumption

theorem hasOp_setOp (e : Elem) (s : String) : HasOp (setOp e s) s := by
  unfold HasOp setOp; rw [get_set, if_pos rfl]

theorem onlyOp_setOp {e : Elem} {s : String} (h : NoAttrs e) : OnlyOp (setOp e s) s :=
  ⟨hasOp_setOp e s, fun k hk => noOps_bare (h.sub' k (by cases e; exact hk))⟩

section
variable {d : Device} {a b : Elem}

theorem NoOp.body (ho : b.get .operation = a.get .operation) (h : NoOp a) : NoOp b := ho.trans h

theorem NoOps.body (hb : SameBody a b) (ho : b.get .operation = a.get .operation) (h : NoOps a) : NoOps b :=
  ⟨h.here'.body ho, by rw [← hb.2.2.2]; exact h.sub'⟩

theorem OnlyOp.body {s : String} (hb : SameBody a b) (ho : b.get .operation = a.get .operation) (h : OnlyOp a s) :
    OnlyOp b s := ⟨ho.trans h.1, by rw [← hb.2.2.2]; exact h.2⟩

theorem CreatedAs.body {sn : SNode} (hb : SameBody a b) (ho : b.get .operation = a.get .operation)
    (h : CreatedAs d sn a) : CreatedAs d sn b := by
  cases h with
  | node hn op => exact .node hn (op.body hb ho)
  | inside hn op dflt sub =>
    exact .inside hn (op.body ho) (by rw [← hb.2.2.2]; exact dflt) (by rw [← hb.2.2.2]; exact sub)

theorem newAs_body {p : PrefCreate} {sn : SNode} (hb : SameBody a b) (ho : b.get .operation = a.get .operation)
    (h : NewAs d p sn a) : NewAs d p sn b := by
  cases p with
  | merge => exact NoOps.body hb ho h
  | replace => exact OnlyOp.body hb ho h
  | create => exact CreatedAs.body hb ho h

theorem Prefers.body {opts : Opts} {sc : Scope} {S T : Elem} (hb : SameBody a b)
    (ho : b.get .operation = a.get .operation) (h : Prefers d opts sc S T a) : Prefers d opts sc S T b := by
  cases h with
  | whole h hd op => exact .whole h hd (op.body hb ho)
  | same h op => exact .same h (op.body hb ho)
  | level h op new gone leaf both =>
    exact .level h (op.body ho) (by rw [← hb.2.2.2]; exact new) (by rw [← hb.2.2.2]; exact gone)
      (by rw [← hb.2.2.2]; exact leaf) (by rw [← hb.2.2.2]; exact both)

end

theorem setCreateKids_mem {d : Device} {sn : SNode} {dflts : List (List Nat)} : ∀ {ks os : List Elem},
    setCreateKids d sn dflts ks = .ok os → ∀ o ∈ os, ∃ k ∈ ks, ∃ f, d.lookup (.node sn) k.tag = .ok f ∧
      (f.path ∈ dflts → o = k) ∧ (f.path ∉ dflts → setCreate d f k = .ok o)
  | [], os, h, o, ho => by
    simp only [setCreateKids, Except.ok.injEq] at h
    subst h; cases ho
  | k :: ks, os, h, o, ho => by
    rw [setCreateKids] at h
    obtain ⟨f, hf, h⟩ := bind_ok.1 h
    have key : ∃ o', ((f.path ∈ dflts → o' = k) ∧ (f.path ∉ dflts → setCreate d f k = .ok o')) ∧
        ∃ os', setCreateKids d sn dflts ks = .ok os' ∧ o' :: os' = os := by
      by_cases hp : f.path ∈ dflts
      · simp only [hp, if_true] at h
        obtain ⟨o', ho', h⟩ := bind_ok.1 h
        obtain ⟨os', hos, h⟩ := bind_ok.1 h
        cases ho'
        exact ⟨k, ⟨fun _ => rfl, fun h => absurd hp h⟩, os', hos, by cases h; rfl⟩
      · simp only [hp, if_false] at h
        obtain ⟨o', ho', h⟩ := bind_ok.1 h
        obtain ⟨os', hos, h⟩ := bind_ok.1 h
        exact ⟨o', ⟨fun h => absurd h hp, fun _ => ho'⟩, os', hos, by cases h; rfl⟩
    obtain ⟨o', ho', os', hos, rfl⟩ := key
    rcases List.mem_cons.1 ho with rfl | ho
    · exact ⟨k, by simp, f, hf, ho'⟩
    · obtain ⟨k', hk', h'⟩ := setCreateKids_mem hos o ho
      exact ⟨k', by simp [hk'], h'⟩

theorem setCreate_tag {d : Device} {f : Found} {k o : Elem} (h : setCreate d f k = .ok o) : o.tag = k.tag := by
  cases k with
  | mk t n a x ks =>
    rw [setCreate] at h
    split at h
    · obtain ⟨os, _, h⟩ := bind_ok.1 h
      cases h; rfl
    · cases h; rfl

theorem setCreate_as {d : Device} : ∀ {k : Elem} {f : Found} {o : Elem}, setCreate d f k = .ok o → NoAttrs k →
    CreatedAs d f.node o := by
  intro k
  induction k using Elem.ind with
  | h t n a x ks ih =>
    intro f o h hb
    rw [setCreate] at h
    split at h
    · rename_i hnp
      obtain ⟨os, hos, h⟩ := bind_ok.1 h
      simp only [pure, Except.pure, Except.ok.injEq] at h
      subst h
      refine .inside hnp (noOp_bare hb.here') ?_ ?_
      · intro c hc g hg hd
        obtain ⟨k, hk, f', hf', h1, h2⟩ := setCreateKids_mem hos c hc
        have hbk := hb.sub' k hk
        by_cases hp : f'.path ∈ f.node.defaultInUse []
        · rw [h1 hp]; exact noOps_bare hbk
        · have := setCreate_tag (h2 hp)
          rw [this, hf'] at hg; cases hg
          exact absurd (defaultInUse_iff.2 hd) hp
      · intro c hc g hg hd
        obtain ⟨k, hk, f', hf', h1, h2⟩ := setCreateKids_mem hos c hc
        have hbk := hb.sub' k hk
        by_cases hp : f'.path ∈ f.node.defaultInUse []
        · rw [h1 hp, hf'] at hg; cases hg
          exact absurd (defaultInUse_iff.1 hp) hd
        · have := setCreate_tag (h2 hp)
          rw [this, hf'] at hg; cases hg
          exact ih k hk (h2 hp) hbk
    · rename_i hnp
      cases h
      exact .node (by simpa using hnp) (onlyOp_setOp hb)

theorem keyCopies_bare {keys : List QName} {o : Elem} {ks : List Elem} (h : keyCopies keys o = .ok ks) :
    ∀ k ∈ ks, NoAttrs k := by
  intro k hk
  have h1 := mapM_values h
  have : Except.ok k ∈ keys.map _ := h1 ▸ List.mem_map_of_mem hk
  obtain ⟨q, _, hq⟩ := List.mem_map.1 this
  split at hq
  · cases hq; exact ⟨rfl, by simp [Elem.new]⟩
  · cases hq

theorem deleteKids_mem {d : Device} {sn : SNode} : ∀ {rs ms : List Elem}, deleteKids d sn rs = .ok ms →
    ∀ m ∈ ms, ∃ r ∈ rs, deleteKid d sn r = .ok m
  | [], ms, h, m, hm => by
    simp only [deleteKids, Except.ok.injEq] at h
    subst h; cases hm
  | r :: rs, ms, h, m, hm => by
    rw [deleteKids] at h
    obtain ⟨k, hk, h⟩ := bind_ok.1 h
    obtain ⟨ks, hks, h⟩ := bind_ok.1 h
    simp only [pure, Except.pure, Except.ok.injEq] at h
    subst h
    rcases List.mem_cons.1 hm with rfl | hm
    · exact ⟨r, by simp, hk⟩
    · obtain ⟨r', hr', h'⟩ := deleteKids_mem hks m hm
      exact ⟨r', by simp [hr'], h'⟩

theorem onlyOp_new {t : QName} {n : NsMap} {s : String} {ks : List Elem} (h : ∀ k ∈ ks, NoAttrs k) :
    OnlyOp ((setOp (Elem.new t n) s).setKids ks) s :=
  ⟨hasOp_setOp _ s, fun k hk => noOps_bare (h k hk)⟩

theorem deleteMarker_tag {d : Device} {opts : Opts} {f : Found} {s m : Elem} (h : deleteMarker d opts f s = .ok m) :
    m.tag = s.tag := by
  unfold deleteMarker at h
  split at h
  · obtain ⟨tx, rfl⟩ := mergeText_ok h; rfl
  · obtain ⟨ks, _, h⟩ := bind_ok.1 h; cases h; rfl
  · split at h
    · obtain ⟨ks, _, h⟩ := bind_ok.1 h; cases h; rfl
    · cases h; rfl

/-- A marker is marked as a whole, or it is a container in which everything is to be deleted. -/
theorem deleteMarker_cases {d : Device} {opts : Opts} {f : Found} {s m : Elem} (h : deleteMarker d opts f s = .ok m) :
    (OnlyOp m opts.delete.str ∧ ¬ (f.node.isNP = true ∧ opts.delete = .delete)) ∨
    (f.node.isNP = true ∧ opts.delete = .delete ∧ NoOp m ∧ ∀ c ∈ m.kids, ∃ r ∈ s.kids, deleteKid d f.node r = .ok c) := by
  unfold deleteMarker at h
  split at h
  · rename_i hn
    obtain ⟨tx, rfl⟩ := mergeText_ok h
    refine Or.inl ⟨⟨hasOp_setOp _ _, fun k hk => by cases hk⟩, fun h => ?_⟩
    rw [notNP (by rw [hn]; decide)] at h; exact absurd h.1 (by simp)
  · rename_i hn
    obtain ⟨ks, hks, h⟩ := bind_ok.1 h
    cases h
    refine Or.inl ⟨onlyOp_new (keyCopies_bare hks), fun h => ?_⟩
    rw [notNP (by rw [hn]; decide)] at h; exact absurd h.1 (by simp)
  · split at h
    · rename_i hc
      obtain ⟨ks, hks, h⟩ := bind_ok.1 h
      cases h
      exact Or.inr ⟨hc.1, hc.2, rfl, fun c hc => deleteKids_mem hks c hc⟩
    · rename_i hc
      cases h
      exact Or.inl ⟨onlyOp_new (ks := []) (by simp), hc⟩

theorem deletedAs {d : Device} {opts : Opts} (ho : opts.delete = .delete) : ∀ {s : Elem} {f : Found} {m : Elem},
    deleteMarker d opts f s = .ok m → DeletedAs d f.node m := by
  intro s
  induction s using Elem.ind with
  | h t n a x ks ih =>
    intro f m h
    rcases deleteMarker_cases h with ⟨h1, h2⟩ | ⟨h1, _, h3, h4⟩
    · rw [ho] at h1
      exact .node (by simpa [ho] using h2) h1
    · refine .inside h1 h3 ?_
      intro c hc g hg
      obtain ⟨r, hr, h5⟩ := h4 c hc
      rw [deleteKid_eq d opts ho] at h5
      obtain ⟨g', hg', h6⟩ := bind_ok.1 h5
      rw [deleteMarker_tag h6, hg'] at hg; cases hg
      exact ih r hr h6

theorem goneAs {d : Device} {opts : Opts} {s : Elem} {f : Found} {m : Elem} (h : deleteMarker d opts f s = .ok m) :
    GoneAs d opts.delete f.node m := by
  cases ho : opts.delete with
  | delete => exact deletedAs ho h
  | remove =>
    rcases deleteMarker_cases h with ⟨h1, _⟩ | ⟨_, h2, _⟩
    · rw [ho] at h1; exact h1
    · rw [ho] at h2; cases h2

theorem newAs {d : Device} {opts : Opts} {f : Found} {k x : Elem} (h : freshKid d opts f k = .ok x) (hb : NoAttrs k) :
    NewAs d opts.create f.node x := by
  unfold freshKid at h
  cases ho : opts.create with
  | merge => simp only [ho] at h; cases h; exact noOps_bare hb
  | replace => simp only [ho] at h; cases h; exact onlyOp_setOp hb
  | create => simp only [ho] at h; exact setCreate_as h hb

/-! ## All levels -/

theorem carry_prefer {d : Device} {opts : Opts} (hr : opts.diffType ≠ .replace) :
    Carry d opts ⟨fun _ => Prefers d opts, fun f _ x => NewAs d opts.create f.node x,
      fun f _ m => GoneAs d opts.delete f.node m, fun _ f s k x =>
        (f.node.ntype = .leaf ∧ parseText d s f.node ≠ parseText d k f.node ∧ opts.replace = .replace →
          HasOp x "replace") ∧
        (¬ (f.node.ntype = .leaf ∧ parseText d s f.node ≠ parseText d k f.node ∧ opts.replace = .replace) →
          NoOp x)⟩ where
  whole {n sc S T} hw hS hT := by
    rcases hw with ⟨h1, h2⟩ | ⟨h, _⟩
    · exact .whole h1 ((leafLists_iff h2 hS hT).1 rfl) (onlyOp_setOp hT.bare)
    · exact absurd h hr
  keys {n sn s k} _ hs hk hsame := by
    refine .same hsame ⟨noOp_bare (by rw [Elem.attrs_setKids]; exact hk.bare.here'), ?_⟩
    intro c hc
    exact noOps_bare (hk.bare.sub' c (key_kids hk hc).1)
  level {ω n sc S T φ M obu st st'} _ hdiff h := by
    have hD := h.diff (D := T.setKids (st'.map Prod.snd)) rfl rfl (by
      show (T.attrs.map Prod.fst).Nodup
      rw [h.sideT.bare.here']; simp)
    have B := hD.base'
    refine .level ?_ (noOp_bare (by rw [Elem.attrs_setKids]; exact h.sideT.bare.here')) ?_ ?_ ?_ ?_
    · rintro ⟨h1, h2⟩
      exact absurd ((leafLists_iff (hdiff hr h1) h.sideS h.sideT).2 h2) (by simp)
    · intro k hk habs o ho hko f hf
      have hu := (B.vT.same_iff B.vD hk ho).2 hko
      obtain ⟨x, hl⟩ := h.link ho hk hu.symm hf
      cases hl.out with
      | new _ _ hq => exact newAs_body hl.body hl.getOp hq
      | both hs' hu' hB => exact absurd ((B.vS.same_iff B.vT hs' hk).1 hu') (habs _ hs')
    · intro s hs habs o ho hso f hf
      have hu := (B.vS.same_iff B.vD hs ho).2 hso
      exact (h.markOf ho hs (fun k hk hu => habs k hk ((B.vT.same_iff B.vS hk hs).1 hu)) hu.symm hf).carried
    · intro s hs k hk hsk o ho hko f hf hn'
      have hu := (B.vT.same_iff B.vD hk ho).2 hko
      have hu2 := (B.vS.same_iff B.vT hs hk).2 hsk
      obtain ⟨x, hl⟩ := h.link ho hk hu.symm hf
      cases hl.out with
      | new hno _ => exact absurd hu2 (hno s hs)
      | both hs' hu' hB =>
        have := List.inj_on_of_nodup_map h.sideS.valid.indexable.nodup hs' hs (hu'.trans hu2.symm)
        subst this
        have := hB.plain hn'
        exact ⟨fun hc => hl.getOp.trans (this.1 hc), fun hc => hl.getOp.trans (this.2 hc)⟩
    · intro s hs k hk hsk o ho hko f hf hn'
      have hu := (B.vT.same_iff B.vD hk ho).2 hko
      have hu2 := (B.vS.same_iff B.vT hs hk).2 hsk
      obtain ⟨x, hl⟩ := h.link ho hk hu.symm hf
      cases hl.out with
      | new hno _ => exact absurd hu2 (hno s hs)
      | both hs' hu' hB =>
        have := List.inj_on_of_nodup_map h.sideS.valid.indexable.nodup hs' hs (hu'.trans hu2.symm)
        subst this
        exact (hB.carried hn').body hl.body hl.getOp
  new _ hx hb := newAs (hx hr) hb
  gone h := goneAs h
  leaf {n f s k x} _ hx hb := by
    rcases hx with ⟨rfl, h⟩ | ⟨rfl, h1, h2, h3⟩
    · exact ⟨fun ⟨h1, h2, h3⟩ => absurd (h h1 h3) h2, fun _ => noOp_bare hb⟩
    · exact ⟨fun _ => hasOp_setOp _ _, fun h => absurd ⟨h2, h3, h1⟩ h⟩
  replaced h := absurd h hr

/-! ## Other attributes do not matter -/

section
variable {d : Device} {D D' : Elem}

theorem strip_noOp (h : strip D = strip D') (hn : NoOp D) : NoOp D' := (strip_get_eq rfl h).symm.trans hn

theorem strip_noOps (hn : NoOps D) : ∀ {D' : Elem}, strip D = strip D' → NoOps D' := by
  induction hn with
  | @mk o here _ ih =>
    intro D' h
    refine ⟨strip_noOp h here, ?_⟩
    intro k' hk'
    obtain ⟨k, hk, hs⟩ := strip_kid h hk'
    exact ih k hk hs

theorem strip_onlyOp {v : String} (h : strip D = strip D') (hn : OnlyOp D v) : OnlyOp D' v := by
  refine ⟨(strip_get_eq rfl h).symm.trans hn.1, ?_⟩
  intro k' hk'
  obtain ⟨k, hk, hs⟩ := strip_kid h hk'
  exact strip_noOps (hn.2 k hk) hs

theorem strip_createdAs {sn : SNode} (hc : CreatedAs d sn D) : ∀ {D' : Elem}, strip D = strip D' →
    CreatedAs d sn D' := by
  induction hc with
  | node hn op => intro D' h; exact .node hn (strip_onlyOp h op)
  | inside hn op dflt sub ih =>
    intro D' h
    refine .inside hn (strip_noOp h op) ?_ ?_
    · intro c' hc' f hf hd
      obtain ⟨c, hc, hs⟩ := strip_kid h hc'
      exact strip_noOps (dflt c hc f (by rw [strip_tag_eq hs]; exact hf) hd) hs
    · intro c' hc' f hf hd
      obtain ⟨c, hc, hs⟩ := strip_kid h hc'
      exact ih c hc f (by rw [strip_tag_eq hs]; exact hf) hd hs

theorem strip_deletedAs {sn : SNode} (hc : DeletedAs d sn D) : ∀ {D' : Elem}, strip D = strip D' →
    DeletedAs d sn D' := by
  induction hc with
  | node hn op => intro D' h; exact .node hn (strip_onlyOp h op)
  | inside hn op sub ih =>
    intro D' h
    refine .inside hn (strip_noOp h op) ?_
    intro c' hc' f hf
    obtain ⟨c, hc, hs⟩ := strip_kid h hc'
    exact ih c hc f (by rw [strip_tag_eq hs]; exact hf) hs

theorem strip_newAs {p : PrefCreate} {sn : SNode} (h : strip D = strip D') (hc : NewAs d p sn D) : NewAs d p sn D' := by
  cases p with
  | merge => exact strip_noOps hc h
  | replace => exact strip_onlyOp h hc
  | create => exact strip_createdAs hc h

theorem strip_goneAs {p : PrefDelete} {sn : SNode} (h : strip D = strip D') (hc : GoneAs d p sn D) : GoneAs d p sn D' := by
  cases p with
  | delete => exact strip_deletedAs hc h
  | remove => exact strip_onlyOp h hc

theorem strip_prefers {opts : Opts} {sc : Scope} {S T : Elem} (hp : Prefers d opts sc S T D) :
    ∀ {D' : Elem}, strip D = strip D' → Prefers d opts sc S T D' := by
  induction hp with
  | whole h hd op => intro D' hs; exact .whole h hd (strip_onlyOp hs op)
  | same h op => intro D' hs; exact .same h (strip_noOps op hs)
  | level h op new gone leaf both ih =>
    intro D' hs
    refine .level h (strip_noOp hs op) ?_ ?_ ?_ ?_
    · intro k hk habs o' ho' hko f hf
      obtain ⟨o, ho, hos⟩ := strip_kid hs ho'
      exact strip_newAs hos (new k hk habs o ho ((strip_instance_eq hos).2 hko) f hf)
    · intro s hsm habs o' ho' hso f hf
      obtain ⟨o, ho, hos⟩ := strip_kid hs ho'
      exact strip_goneAs hos (gone s hsm habs o ho ((strip_instance_eq hos).2 hso) f hf)
    · intro s hsm k hk hsk o' ho' hko f hf hn
      obtain ⟨o, ho, hos⟩ := strip_kid hs ho'
      have := leaf s hsm k hk hsk o ho ((strip_instance_eq hos).2 hko) f hf hn
      exact ⟨fun hc => (strip_get_eq rfl hos).symm.trans (this.1 hc), fun hc => strip_noOp hos (this.2 hc)⟩
    · intro s hsm k hk hsk o' ho' hko f hf hn
      obtain ⟨o, ho, hos⟩ := strip_kid hs ho'
      exact ih s hsm k hk hsk o ho ((strip_instance_eq hos).2 hko) f hf hn hos

end

end NcDiff
