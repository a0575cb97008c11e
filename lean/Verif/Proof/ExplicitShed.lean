import Verif.Proof.ExplicitMeaning
/-!
# What a server has without the leaves that have their default values
-/

namespace NcDiff.Compile

/-- A leaf with its default value. -/
def isDflt (p : Place) (t : Option String) : Bool :=
  p.2.info.keyword = "leaf" ∧ t.map (fun v => [v]) = some p.2.info.defaults

mutual
def shedOne (pl : List Place) : Elem → Option Elem
  | .mk t n a x ks =>
    match placeOf pl t with
    | none => some (.mk t n a x ks)
    | some p => if isDflt p x then none else some (.mk t n a x (shed (places p.1 p.2.kids) ks))
def shed (pl : List Place) : List Elem → List Elem
  | [] => []
  | x :: l =>
    match shedOne pl x with
    | none => shed pl l
    | some y => y :: shed pl l
end

theorem shed_eq (pl : List Place) : ∀ l, shed pl l = l.filterMap (shedOne pl)
  | [] => by rw [shed]; rfl
  | x :: l => by
    rw [shed, List.filterMap_cons, shed_eq pl l]
    cases shedOne pl x <;> rfl

theorem shedOne_eq {pl : List Place} {p : Place} {y : Elem} (h : placeOf pl y.tag = some p) : shedOne pl y =
    if isDflt p y.text then none else some (y.setKids (shed (places p.1 p.2.kids) y.kids)) := by
  cases y with
  | mk t n a x ks =>
    rw [shedOne]
    rw [Elem.tag_mk] at h
    rw [h]
    rfl

theorem shedOne_tag {pl : List Place} {x y : Elem} (h : shedOne pl x = some y) : y.tag = x.tag := by
  cases x with
  | mk t n a x ks =>
    rw [shedOne] at h
    split at h
    · cases h; rfl
    · split at h
      · cases h
      · cases h; rfl

theorem tagged_shed (pl : List Place) (q : QName) (l : List Elem) : tagged q (shed pl l) = (tagged q l).filterMap (shedOne pl) := by
  rw [shed_eq]
  unfold tagged
  induction l with
  | nil => rfl
  | cons x l ih =>
    rw [List.filterMap_cons]
    cases hx : shedOne pl x with
    | none =>
      simp only
      rw [ih, List.filter_cons]
      split
      · rw [List.filterMap_cons, hx]
      · rfl
    | some y =>
      simp only
      rw [List.filter_cons, List.filter_cons, shedOne_tag hx, ih]
      split
      · rw [List.filterMap_cons, hx]
      · rfl

section
variable {d : Device} {rd : Bool}

/-- What a server has is something without explicit defaults, and some explicit defaults. -/
theorem shed_explicit : ∀ (e : Elem) {sc : Scope} {pl : List Place}, Field d rd sc pl → Sane pl e.kids →
    Explicit pl (shed pl e.kids) e.kids ∧ Shed pl (shed pl e.kids) := by
  intro e
  induction e using Elem.ind with
  | h t n at' x ks ih =>
    intro sc pl hF hs
    simp only [Elem.kids_mk] at hs ⊢
    have pof : ∀ {p q y}, p ∈ pl → DataKind p.2 → Named p.1 q p.2 → y ∈ tagged q ks → placeOf pl y.tag = some p := by
      intro p q y hp hk hq hy
      rw [(mem_tagged.1 hy).2]; exact placeOf_eq hF.one hp hq hk
    have keep : ∀ {p q}, p ∈ pl → DataKind p.2 → Named p.1 q p.2 → p.2.info.keyword ≠ "leaf" → ∀ {l : List Elem}, (∀ y ∈ l, y ∈ tagged q ks) →
        l.filterMap (shedOne pl) = l.map fun y => y.setKids (shed (places p.1 p.2.kids) y.kids) := by
      intro p q hp hk hq hn l hl
      induction l with
      | nil => rfl
      | cons y l ih' =>
        rw [List.filterMap_cons, shedOne_eq (pof hp hk hq (hl y (by simp))), if_neg (by simp [isDflt, hn])]
        simp only [List.map_cons]
        rw [ih' fun z hz => hl z (by simp [hz])]
    have below : ∀ {p q y}, p ∈ pl → p.2.info.keyword = "container" ∨ p.2.info.keyword = "list" → Named p.1 q p.2 → y ∈ tagged q ks →
        Explicit (places p.1 p.2.kids) (shed (places p.1 p.2.kids) y.kids) y.kids ∧
          Shed (places p.1 p.2.kids) (shed (places p.1 p.2.kids) y.kids) := by
      intro p q y hp hk hq hy
      obtain ⟨f, hf⟩ := hF.fact hp hq (inner_kind hk).1
      exact ih y (mem_tagged.1 hy).1 hf.field (hs.sub' hp hk hq hy)
    constructor
    · rw [explicit_iff]
      intro p hp hk q hq
      rw [tagged_shed]
      by_cases hn : p.2.info.keyword = "leaf"
      · cases hl : tagged q ks with
        | nil => exact .inl .nil
        | cons y r =>
          have hy : y ∈ tagged q ks := by rw [hl]; simp
          have h1 := only_one (by rw [hn]; decide) (by rw [hn]; decide) (hs.once' hp hk hq) hy
          rw [← hl, h1, List.filterMap_cons, shedOne_eq (pof hp hk hq hy), List.filterMap_nil]
          cases hd : isDflt p y.text with
          | true =>
            simp only [if_true]
            unfold isDflt at hd
            simp only [decide_eq_true_eq] at hd
            obtain ⟨_, hd⟩ := hd
            cases hy' : y.text with
            | none => rw [hy'] at hd; cases hd
            | some v =>
              rw [hy'] at hd
              exact .inr ⟨hn, rfl, y, v, rfl, (mem_tagged.1 hy).2, hy', by simpa using hd.symm⟩
          | false =>
            simp only [Bool.false_eq_true, if_false]
            refine .inl (.cons ⟨by simp, fun _ => by simp [face], fun h => ?_⟩ .nil)
            rw [hn] at h
            exact absurd h (by decide)
      · rw [keep hp hk hq hn fun y hy => hy]
        refine .inl ?_
        rw [List.forall₂_map_left_iff, List.forall₂_same]
        intro y hy
        exact ⟨by simp, fun _ => by simp [face], fun h => by simpa using (below hp h hq hy).1⟩
    · refine ⟨fun p hp hk q hq y hy v hv hdv => ?_, fun p hp hk q hq y hy => ?_⟩
      · rw [tagged_shed, List.mem_filterMap] at hy
        obtain ⟨z, hz, he⟩ := hy
        rw [shedOne_eq (pof hp (by simp [DataKind, hk]) hq hz)] at he
        split at he
        · cases he
        · rename_i hno
          cases he
          refine hno ?_
          unfold isDflt
          rw [Elem.text_setKids] at hv
          simp [hk, hv, hdv]
      · rw [tagged_shed, keep hp (inner_kind hk).1 hq (inner_kind hk).2.1 fun y hy => hy, List.mem_map] at hy
        obtain ⟨z, hz, rfl⟩ := hy
        simpa using (below hp hk hq hz).2

/-- A config without defaults. -/
theorem config_sane : ∀ (e : Elem) {sc : Scope} {pl : List Place}, Field d rd sc pl → Stands d rd sc pl e →
    trimDefaults d sc e = .ok e → Sane pl e.kids ∧ Shed pl e.kids ∧ Tight pl e.kids := by
  intro e
  induction e using Elem.ind with
  | h t n at' x ks ih =>
    intro sc pl hF hS ht
    generalize he : Elem.mk t n at' x ks = e at *
    have hks : e.kids = ks := by rw [← he]; rfl
    rw [← hks] at ih
    have below : ∀ {p q y}, p ∈ pl → p.2.info.keyword = "container" ∨ p.2.info.keyword = "list" → Named p.1 q p.2 → y ∈ tagged q e.kids →
        Sane (places p.1 p.2.kids) y.kids ∧ Shed (places p.1 p.2.kids) y.kids ∧ Tight (places p.1 p.2.kids) y.kids := by
      intro p q y hp hk hq hy
      obtain ⟨hy1, rfl⟩ := mem_tagged.1 hy
      obtain ⟨f, hf⟩ := hF.fact hp hq (inner_kind hk).1
      obtain ⟨g, hg, hkt, hnd⟩ := trim_fixed.1 ht y hy1
      obtain rfl : g = f := Except.ok.inj (hg.symm.trans hf.lookup)
      exact ih y hy1 hf.field (hS.sub hy1 hp hq hf) hkt
    have hnone : ∀ {p : Place} {q : QName}, p ∈ pl → p.2.info.keyword = "leaf-list" → Named p.1 q p.2 → tagged q e.kids ≠ [] →
        ¬ AsDefaults p.2 (tagged q e.kids) := by
      intro p q hp hkw hq hne had
      obtain ⟨k, hin⟩ := List.exists_mem_of_ne_nil _ hne
      obtain ⟨hk, rfl⟩ := mem_tagged.1 hin
      obtain ⟨f, hf⟩ := hF.fact hp hq (by simp [DataKind, hkw])
      obtain ⟨a, hu⟩ := hf.understood
      obtain ⟨g, hg, hkt, hnd⟩ := trim_fixed.1 ht k hk
      obtain rfl : g = f := Except.ok.inj (hg.symm.trans hf.lookup)
      obtain ⟨h1, h2⟩ := had
      have hsome : ∀ y ∈ tagged k.tag e.kids, y.text = some (y.text.getD "") := by
        intro y hy
        have := (h1 (y.text.getD "")).1 (List.mem_map_of_mem (f := fun k : Elem => k.text.getD "") hy)
        have := (hf.clear.defaults _ this).1
        cases hy' : y.text with
        | none => rw [hy'] at this; simp at this
        | some w => rfl
      have hmap : (tagged k.tag e.kids).map Elem.text = ((tagged k.tag e.kids).map fun k => k.text.getD "").map some := by
        rw [List.map_map, List.map_inj_left]
        exact hsome
      have hdef : p.2.info.defaults ≠ [] := by
        intro h
        have := (h1 (k.text.getD "")).1 (List.mem_map_of_mem (f := fun k : Elem => k.text.getD "") hin)
        rw [h] at this; cases this
      cases hdf : g.node.info.dflt with
      | none => exact hdef (hu.noDflt.1 hdf)
      | some v =>
        unfold trimDrops at hnd
        rw [show g.node.ntype = .leafList from hu.leafList.2 hkw, hdf] at hnd
        simp only at hnd
        have := (defaultList_defaults hu hf.clear hkw hdf (vs := (tagged k.tag e.kids).map Elem.text)).2 (by
          rw [hmap]
          refine ⟨fun y => ?_, fun ho => by rw [h2 ho]⟩
          rw [List.mem_map, List.mem_map]
          constructor
          · rintro ⟨w, hw, rfl⟩; exact ⟨w, (h1 w).1 hw, rfl⟩
          · rintro ⟨w, hw, rfl⟩; exact ⟨w, (h1 w).2 hw, rfl⟩)
        unfold tagged at this
        rw [this] at hnd
        cases hnd
    refine ⟨⟨fun p hp hk q hq => ?_, fun p hp hk q hq y hy => (hS.lxml.sub' (mem_tagged.1 hy).1).text',
      fun p hp hk q hq hne => hnone hp hk hq hne, fun p hp hk q hq y hy => (below hp hk hq hy).1⟩,
      ⟨fun p hp hk q hq y hy v hv hdv => ?_, fun p hp hk q hq y hy => (below hp hk hq hy).2.1⟩,
      ⟨fun p hp hk q hq hne m hm => ?_, fun p hp hk q hq y hy => (below hp hk hq hy).2.2⟩⟩
    · obtain ⟨f, hf⟩ := hF.fact hp hq hk
      exact identity_nodup hf hS.valid
    · obtain ⟨hy1, rfl⟩ := mem_tagged.1 hy
      obtain ⟨f, hf⟩ := hF.fact hp hq (by simp [DataKind, hk])
      obtain ⟨a, hu⟩ := hf.understood
      obtain ⟨g, hg, hkt, hnd⟩ := trim_fixed.1 ht y hy1
      obtain rfl : g = f := Except.ok.inj (hg.symm.trans hf.lookup)
      unfold trimDrops at hnd
      rw [show g.node.ntype = .leaf from hu.leaf.2 hk, hu.dflt v hdv] at hnd
      simp [hv] at hnd
    · obtain ⟨k, hk'⟩ := List.exists_mem_of_ne_nil _ hne
      obtain ⟨hk1, rfl⟩ := mem_tagged.1 hk'
      exact present e hF hS ht hm k hk1

/-- A server that has what means the same as a config holds the config, but for explicit defaults. -/
theorem holds_shed {sc : Scope} {pl : List Place} {c : Elem} {m : List Elem} (hF : Field d rd sc pl) (hS : Stands d rd sc pl c)
    (ht : trimDefaults d sc c = .ok c) (hs : Sane pl m) (hm : SameMeaning pl c.kids m) :
    ∃ m0, Holds pl c.kids m0 ∧ Explicit pl m0 m := by
  obtain ⟨h1, h2⟩ := shed_explicit (noConfig.setKids m) hF (by simpa using hs)
  rw [Elem.kids_setKids] at h1 h2
  obtain ⟨a1, a2, a3⟩ := config_sane c hF hS ht
  have hm0 : Sane pl (shed pl m) := (h1.sane hF).2 hs
  exact ⟨_, holds_of_meaning (hm.trans (h1.meaning hF hs).symm) hF a1 hm0 a2 h2 a3, h1⟩

end
end NcDiff.Compile
