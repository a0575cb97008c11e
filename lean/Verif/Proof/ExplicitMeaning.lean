import Verif.Proof.Explicit
/-!
# What servers with explicit defaults have means
-/

namespace NcDiff.Compile

section
variable {d : Device} {rd : Bool}

theorem Sane.once' {pl : List Place} {m : List Elem} (h : Sane pl m) {p : Place} (hp : p ∈ pl) (hk : DataKind p.2) {q : QName}
    (hq : Named p.1 q p.2) : ((tagged q m).map (identity p)).Nodup := by cases h; rename_i a _ _ _; exact a p hp hk q hq
theorem Sane.text' {pl : List Place} {m : List Elem} (h : Sane pl m) {p : Place} (hp : p ∈ pl)
    (hk : p.2.info.keyword = "leaf" ∨ p.2.info.keyword = "leaf-list") {q : QName}
    (hq : Named p.1 q p.2) {y : Elem} (hy : y ∈ tagged q m) : y.text ≠ some "" := by cases h; rename_i _ a _ _; exact a p hp hk q hq y hy
theorem Sane.lists' {pl : List Place} {m : List Elem} (h : Sane pl m) {p : Place} (hp : p ∈ pl)
    (hk : p.2.info.keyword = "leaf-list") {q : QName} (hq : Named p.1 q p.2) (hy : tagged q m ≠ []) :
    ¬ AsDefaults p.2 (tagged q m) := by cases h; rename_i _ _ a _; exact a p hp hk q hq hy
theorem Sane.sub' {pl : List Place} {m : List Elem} (h : Sane pl m) {p : Place} (hp : p ∈ pl)
    (hk : p.2.info.keyword = "container" ∨ p.2.info.keyword = "list") {q : QName}
    (hq : Named p.1 q p.2) {y : Elem} (hy : y ∈ tagged q m) : Sane (places p.1 p.2.kids) y.kids := by
  cases h; rename_i _ _ _ a; exact a p hp hk q hq y hy

/-- An instance that is there once is the only one. -/
theorem only_one {p : Place} {l : List Elem} (h1 : p.2.info.keyword ≠ "leaf-list") (h2 : p.2.info.keyword ≠ "list")
    (hn : (l.map (identity p)).Nodup) {x : Elem} (hx : x ∈ l) : l = [x] := by
  have hc : ∀ y, identity p y = [] := by
    intro y
    unfold identity
    rw [if_neg h1, if_neg h2]
  cases l with
  | nil => cases hx
  | cons y r =>
    cases r with
    | nil => rw [List.mem_singleton.1 hx]
    | cons z r => simp [hc] at hn

theorem same_of_identity {p : Place} {l : List Elem} (hn : (l.map (identity p)).Nodup) {x y : Elem} (hx : x ∈ l) (hy : y ∈ l)
    (h : identity p x = identity p y) : x = y := List.inj_on_of_nodup_map hn hx hy h

theorem asDefaults_texts {s : Stmt} {a b : List Elem} (h : a.map Elem.text = b.map Elem.text) : AsDefaults s a ↔ AsDefaults s b := by
  have : a.map (fun k => k.text.getD "") = b.map (fun k => k.text.getD "") := by
    have := congrArg (List.map fun t : Option String => t.getD "") h
    simpa [List.map_map, Function.comp_def] using this
  unfold AsDefaults
  rw [this]

theorem rel_identities {p : Place} (hk : KeysSet p) {a b : List Elem} (h : List.Forall₂ (Rel p) a b) :
    a.map (identity p) = b.map (identity p) := by
  induction h with
  | nil => rfl
  | cons hxy _ ih => rw [List.map_cons, List.map_cons, ih, hxy.identity hk]

theorem forall₂_right {R : Elem → Elem → Prop} {a b : List Elem} (h : List.Forall₂ R a b) {y : Elem} (hy : y ∈ b) : ∃ x ∈ a, R x y := by
  induction h with
  | nil => cases hy
  | @cons x z _ _ hxz _ ih =>
    rcases List.mem_cons.1 hy with rfl | hy
    · exact ⟨x, by simp, hxz⟩
    · obtain ⟨w, hw, h⟩ := ih hy; exact ⟨w, by simp [hw], h⟩

theorem forall₂_left {R : Elem → Elem → Prop} {a b : List Elem} (h : List.Forall₂ R a b) {x : Elem} (hx : x ∈ a) : ∃ y ∈ b, R x y := by
  induction h with
  | nil => cases hx
  | @cons z y _ _ hzy _ ih =>
    rcases List.mem_cons.1 hx with rfl | hx
    · exact ⟨y, by simp, hzy⟩
    · obtain ⟨w, hw, h⟩ := ih hx; exact ⟨w, by simp [hw], h⟩

theorem tagRel_inner {p : Place} {q : QName} {a b : List Elem} (h : p.2.info.keyword ≠ "leaf") (ht : TagRel p q a b) :
    List.Forall₂ (Rel p) a b := by
  rcases ht with ht | ht
  · exact ht
  · exact absurd ht.1 h

theorem inner_kind {s : Stmt} (h : s.info.keyword = "container" ∨ s.info.keyword = "list") : DataKind s ∧ s.info.keyword ≠ "leaf" ∧
    s.info.keyword ≠ "leaf-list" := by
  rcases h with h | h <;> simp [DataKind, h]

theorem Explicit.sane {pl : List Place} {m0 m : List Elem} (h : Explicit pl m0 m) : ∀ {sc : Scope}, Field d rd sc pl →
    (Sane pl m0 ↔ Sane pl m) := by
  induction h with
  | @mk pl m0 m leaf leafList inner sub ih =>
    intro sc hF
    have hx := explicit_iff.1 (Explicit.mk leaf leafList inner sub)
    have onceiff : ∀ p ∈ pl, DataKind p.2 → ∀ q, Named p.1 q p.2 →
        (((tagged q m0).map (identity p)).Nodup ↔ ((tagged q m).map (identity p)).Nodup) := by
      intro p hp hk q hq
      rcases hx p hp hk q hq with h | ⟨_, h0, y, v, h1, _⟩
      · rw [rel_identities (keysSet_of hF hp) h]
      · rw [h0, h1]; simp
    have subiff : ∀ p ∈ pl, p.2.info.keyword = "container" ∨ p.2.info.keyword = "list" → ∀ q, Named p.1 q p.2 →
        ∀ (i : Nat) (x y : Elem), (tagged q m0)[i]? = some x → (tagged q m)[i]? = some y →
        (Sane (places p.1 p.2.kids) x.kids ↔ Sane (places p.1 p.2.kids) y.kids) := by
      intro p hp hk q hq i x y hx hy
      obtain ⟨f, hf⟩ := hF.fact hp hq (inner_kind hk).1
      exact ih p hp hk q hq i x y hx hy hf.field
    have texteq : ∀ p ∈ pl, p.2.info.keyword = "leaf" ∨ p.2.info.keyword = "leaf-list" → ∀ q, Named p.1 q p.2 →
        ((∀ y ∈ tagged q m0, y.text ≠ some "") ↔ ∀ y ∈ tagged q m, y.text ≠ some "") := by
      intro p hp hk q hq
      have hdk : DataKind p.2 := by rcases hk with h | h <;> simp [DataKind, h]
      rcases hx p hp hdk q hq with h | ⟨_, h0, y, v, h1, _, h2, h3⟩
      · constructor
        · intro ha y hy
          obtain ⟨x, hx, hr⟩ := forall₂_right h hy
          rw [← (face_eq (hr.2.1 hk)).2]; exact ha x hx
        · intro ha x hx
          obtain ⟨y, hy, hr⟩ := forall₂_left h hx
          rw [(face_eq (hr.2.1 hk)).2]; exact ha y hy
      · rw [h0, h1]
        obtain ⟨f, hf⟩ := hF.fact hp hq hdk
        have := (hf.clear.defaults v (by rw [h3]; simp)).1
        simp [h2, this]
    constructor
    · intro hs
      refine ⟨fun p hp hk q hq => (onceiff p hp hk q hq).1 (hs.once' hp hk hq), fun p hp hk q hq =>
        (texteq p hp hk q hq).1 fun y hy => hs.text' hp hk hq hy, fun p hp hk q hq hne => ?_, fun p hp hk q hq y hy => ?_⟩
      · rw [← asDefaults_texts (faces_texts (leafList p hp hk q hq))]
        refine hs.lists' hp hk hq fun h0 => hne ?_
        have := leafList p hp hk q hq
        rw [h0] at this
        simpa using this.symm
      · obtain ⟨i, hi⟩ := List.mem_iff_getElem?.1 hy
        have hlt : i < (tagged q m0).length := by
          rw [inner p hp hk q hq]; exact (List.getElem?_eq_some_iff.1 hi).1
        have hx' := List.getElem?_eq_getElem hlt
        exact (subiff p hp hk q hq i _ y hx' hi).1 (hs.sub' hp hk hq (List.mem_of_getElem? hx'))
    · intro hs
      refine ⟨fun p hp hk q hq => (onceiff p hp hk q hq).2 (hs.once' hp hk hq), fun p hp hk q hq =>
        (texteq p hp hk q hq).2 fun y hy => hs.text' hp hk hq hy, fun p hp hk q hq hne => ?_, fun p hp hk q hq y hy => ?_⟩
      · rw [asDefaults_texts (faces_texts (leafList p hp hk q hq))]
        refine hs.lists' hp hk hq fun h0 => hne ?_
        have := leafList p hp hk q hq
        rw [h0] at this
        simpa using this
      · obtain ⟨i, hi⟩ := List.mem_iff_getElem?.1 hy
        have hlt : i < (tagged q m).length := by
          rw [← inner p hp hk q hq]; exact (List.getElem?_eq_some_iff.1 hi).1
        have hx' := List.getElem?_eq_getElem hlt
        exact (subiff p hp hk q hq i y _ hi hx').2 (hs.sub' hp hk hq (List.mem_of_getElem? hx'))

theorem Explicit.meaning {pl : List Place} {m0 m : List Elem} (h : Explicit pl m0 m) : ∀ {sc : Scope}, Field d rd sc pl →
    Sane pl m → SameMeaning pl m0 m := by
  induction h with
  | @mk pl m0 m leaf leafList inner sub ih =>
    intro sc hF hs
    have hE := Explicit.mk leaf leafList inner sub
    have hx := explicit_iff.1 hE
    have hs0 := (hE.sane hF).2 hs
    have below : ∀ p ∈ pl, p.2.info.keyword = "container" ∨ p.2.info.keyword = "list" → ∀ q, Named p.1 q p.2 →
        ∀ (i : Nat) (x y : Elem), (tagged q m0)[i]? = some x → (tagged q m)[i]? = some y →
        SameMeaning (places p.1 p.2.kids) x.kids y.kids := by
      intro p hp hk q hq i x y hx hy
      obtain ⟨f, hf⟩ := hF.fact hp hq (inner_kind hk).1
      exact ih p hp hk q hq i x y hx hy hf.field (hs.sub' hp hk hq (List.mem_of_getElem? hy))
    refine ⟨fun p hp hk q hq => ?_, fun p hp hk q hq => ?_, fun p hp hk hpr q hq => ?_, fun p hp hk q hq => ?_,
      fun p hp hk q hq => ?_, fun p hp hk q hq x hx' y hy hxy => ?_⟩
    · rcases leaf p hp hk q hq with h | ⟨h0, y, v, h1, h2, h3⟩
      · generalize tagged q m0 = a at *
        generalize tagged q m = b at *
        cases a with
        | nil => cases b with
          | nil => rfl
          | cons y b => simp at h
        | cons x a => cases b with
          | nil => simp at h
          | cons y b =>
            simp only [List.map_cons, List.cons.injEq] at h
            simp only [leafValue, valueOf_congr (face_eq h.1).1 (face_eq h.1).2]
      · rw [h0, h1]
        obtain ⟨f, hf⟩ := hF.fact hp hq (by simp [DataKind, hk])
        have hne := (hf.clear.defaults v (by rw [h3]; simp)).1
        simp [leafValue, valueOf_plain ((hF.proper p hp).here'.dflt (by rw [h3]; simp)), h2, h3, textValue, hne]
    · have h := faces_texts (leafList p hp hk q hq)
      have hv : listValues p.2 (tagged q m0) = listValues p.2 (tagged q m) := by
        have hmap : (tagged q m0).map (fun k => k.text.getD "") = (tagged q m).map (fun k => k.text.getD "") := by
          have := congrArg (List.map fun t : Option String => t.getD "") h
          simpa [List.map_map, Function.comp_def] using this
        have hnil : tagged q m0 = [] ↔ tagged q m = [] := by
          rw [← List.length_eq_zero_iff, ← List.length_eq_zero_iff]
          have := congrArg List.length h
          simp only [List.length_map] at this
          rw [this]
        unfold listValues
        simp only [hnil, hmap]
      rw [hv]
      exact ⟨fun _ => Iff.rfl, fun _ => rfl⟩
    · rw [← List.length_eq_zero_iff, ← List.length_eq_zero_iff, inner p hp (.inl hk) q hq]
    · have hlen := inner p hp (.inl hk) q hq
      cases h1 : tagged q m0 with
      | nil =>
        rw [h1] at hlen
        rw [List.length_eq_zero_iff.1 hlen.symm]
        exact sameMeaning_nil' _
      | cons x a =>
        have hx0 : x ∈ tagged q m0 := by rw [h1]; simp
        have e1 := only_one (by rw [hk]; decide) (by rw [hk]; decide) (hs0.once' hp (by simp [DataKind, hk]) hq) hx0
        rw [e1] at hlen
        obtain ⟨y, e2⟩ := List.length_eq_one_iff.1 hlen.symm
        rw [← h1, e1, e2]
        simpa [content] using below p hp (.inl hk) q hq 0 x y (by rw [e1]; rfl) (by rw [e2]; rfl)
    · have h := tagRel_inner (by rw [hk]; decide) (hx p hp (by simp [DataKind, hk]) q hq)
      have hent : ∀ x y, Rel p x y → SameEntry p x y := fun x y hr => (identity_eq.1 (hr.identity (keysSet_of hF hp))).2 hk
      refine ⟨fun x hx => ?_, fun y hy => ?_, fun _ => h.imp hent⟩
      · obtain ⟨y, hy, hr⟩ := forall₂_left h hx
        exact ⟨y, hy, hent x y hr⟩
      · obtain ⟨x, hx, hr⟩ := forall₂_right h hy
        exact ⟨x, hx, hent x y hr⟩
    · have h := tagRel_inner (by rw [hk]; decide) (hx p hp (by simp [DataKind, hk]) q hq)
      obtain ⟨i, hi⟩ := List.mem_iff_getElem?.1 hx'
      have hlt : i < (tagged q m).length := by
        rw [← h.length_eq]; exact (List.getElem?_eq_some_iff.1 hi).1
      have hi' := List.getElem?_eq_getElem hlt
      have hrel := (forall₂_idx.1 h).2 i _ _ hi hi'
      have hid : identity p x = identity p y := identity_eq.2 ⟨fun h => by rw [hk] at h; exact absurd h (by decide), fun _ => hxy⟩
      obtain rfl := same_of_identity (hs.once' hp (by simp [DataKind, hk]) hq) (List.mem_of_getElem? hi') hy
        ((hrel.identity (keysSet_of hF hp)).symm.trans hid)
      exact below p hp (.inr hk) q hq i _ _ hi hi'

/-- A server that holds something sane is sane. -/
theorem Holds.sane {pl : List Place} {a m : List Elem} (h : Holds pl a m) : Sane pl a → Sane pl m := by
  induction h with
  | @mk pl a m once has more empty order value sub ihe ihs =>
    intro hs
    have back : ∀ {p : Place} {q : QName} {y : Elem}, p ∈ pl → p.2.info.keyword ∈ ["container", "leaf", "leaf-list", "list"] →
        Named p.1 q p.2 → p.2.info.keyword ≠ "container" → y ∈ tagged q m → ∃ x ∈ tagged q a, identity p x = identity p y := by
      intro p q y hp hk hq hn hy
      by_contra hno
      exact hn (more p hp hk q hq y hy fun x hx h => hno ⟨x, hx, h⟩).1
    refine ⟨fun p hp hk q hq => (once p hp hk q hq).2, fun p hp hk q hq y hy => ?_, fun p hp hk q hq hne had => ?_,
      fun p hp hk q hq y hy => ?_⟩
    · rcases hk with hk | hk
      · obtain ⟨x, hx, _⟩ := back hp (by simp [hk]) hq (by rw [hk]; decide) hy
        intro he
        exact hs.text' hp (.inl hk) hq hx (valueOf_text ((value p hp hk q hq x hx y hy).trans (valueOf_empty he)))
      · obtain ⟨x, hx, hi⟩ := back hp (by simp [hk]) hq (by rw [hk]; decide) hy
        rw [← (identity_eq.1 hi).1 hk]
        exact hs.text' hp (.inr hk) hq hx
    · have hm := (Holds.mk once has more empty order value sub).meaning
      obtain ⟨y, hy⟩ := List.exists_mem_of_ne_nil _ hne
      obtain ⟨x, hx, _⟩ := back hp (by simp [hk]) hq (by rw [hk]; decide) hy
      have hne' : tagged q a ≠ [] := fun h => by rw [h] at hx; cases hx
      refine hs.lists' hp hk hq hne' ?_
      cases hm with
      | mk _ leafList _ _ _ _ =>
        obtain ⟨l1, l2⟩ := leafList p hp hk q hq
        unfold listValues at l1 l2
        rw [if_neg hne, if_neg hne'] at l1 l2
        exact ⟨fun v => (l1 v).trans (had.1 v), fun hu => (l2 hu).trans (had.2 hu)⟩
    · by_cases hx : ∃ x ∈ tagged q a, identity p x = identity p y
      · obtain ⟨x, hx, hi⟩ := hx
        exact ihs p hp hk q hq x hx y hy hi (hs.sub' hp hk hq hx)
      · refine ihe p hp (inner_kind hk).1 q hq y hy (fun x hx' h => hx ⟨x, hx', h⟩) ?_
        refine ⟨fun _ _ _ _ _ => by simp [tagged], fun _ _ _ _ _ => by simp [tagged], fun _ _ _ _ _ => by simp [tagged],
          fun _ _ _ _ _ => by simp [tagged]⟩

theorem sane_nil (pl : List Place) : Sane pl [] :=
  ⟨fun _ _ _ _ _ => by simp [tagged], fun _ _ _ _ _ => by simp [tagged], fun _ _ _ _ _ => by simp [tagged],
    fun _ _ _ _ _ => by simp [tagged]⟩

/-! ## Without the defaults -/

/-- No leaf is set to its default value. -/
inductive Shed : List Place → List Elem → Prop
  | mk {pl : List Place} {m : List Elem}
      (leaf : ∀ p ∈ pl, p.2.info.keyword = "leaf" → ∀ q, Named p.1 q p.2 → ∀ y ∈ tagged q m, ∀ v, y.text = some v →
        p.2.info.defaults ≠ [v])
      (sub : ∀ p ∈ pl, p.2.info.keyword = "container" ∨ p.2.info.keyword = "list" → ∀ q, Named p.1 q p.2 →
        ∀ y ∈ tagged q m, Shed (places p.1 p.2.kids) y.kids) : Shed pl m

theorem Shed.leaf' {pl : List Place} {m : List Elem} (h : Shed pl m) {p : Place} (hp : p ∈ pl) (hk : p.2.info.keyword = "leaf")
    {q : QName} (hq : Named p.1 q p.2) {y : Elem} (hy : y ∈ tagged q m) {v : String} (hv : y.text = some v) :
    p.2.info.defaults ≠ [v] := by cases h; rename_i a _; exact a p hp hk q hq y hy v hv
theorem Shed.sub' {pl : List Place} {m : List Elem} (h : Shed pl m) {p : Place} (hp : p ∈ pl)
    (hk : p.2.info.keyword = "container" ∨ p.2.info.keyword = "list") {q : QName} (hq : Named p.1 q p.2) {y : Elem}
    (hy : y ∈ tagged q m) : Shed (places p.1 p.2.kids) y.kids := by cases h; rename_i _ a; exact a p hp hk q hq y hy

theorem shed_nil (pl : List Place) : Shed pl [] := ⟨fun _ _ _ _ _ => by simp [tagged], fun _ _ _ _ _ => by simp [tagged]⟩

/-- There are no containers that mean nothing. -/
inductive Tight : List Place → List Elem → Prop
  | mk {pl : List Place} {a : List Elem}
      (here : ∀ p ∈ pl, p.2.info.keyword = "container" → ∀ q, Named p.1 q p.2 → tagged q a ≠ [] →
        ∀ m, SameMeaning pl a m → tagged q m ≠ [])
      (sub : ∀ p ∈ pl, p.2.info.keyword = "container" ∨ p.2.info.keyword = "list" → ∀ q, Named p.1 q p.2 →
        ∀ x ∈ tagged q a, Tight (places p.1 p.2.kids) x.kids) : Tight pl a

theorem tight_nil (pl : List Place) : Tight pl [] := ⟨fun _ _ _ _ _ h => by simp [tagged] at h, fun _ _ _ _ _ => by simp [tagged]⟩

theorem Tight.here' {pl : List Place} {a : List Elem} (h : Tight pl a) {p : Place} (hp : p ∈ pl) (hk : p.2.info.keyword = "container")
    {q : QName} (hq : Named p.1 q p.2) (hne : tagged q a ≠ []) {m : List Elem} (hm : SameMeaning pl a m) : tagged q m ≠ [] := by
  cases h; rename_i b _; exact b p hp hk q hq hne m hm
theorem Tight.sub' {pl : List Place} {a : List Elem} (h : Tight pl a) {p : Place} (hp : p ∈ pl)
    (hk : p.2.info.keyword = "container" ∨ p.2.info.keyword = "list") {q : QName} (hq : Named p.1 q p.2) {x : Elem}
    (hx : x ∈ tagged q a) : Tight (places p.1 p.2.kids) x.kids := by cases h; rename_i _ b; exact b p hp hk q hq x hx

theorem leaf_head {s : Stmt} (hc : Regular rd s) (hk : s.info.keyword = "leaf") {k : Elem}
    (h : s.info.defaults.head?.map textValue = some (valueOf s k)) :
    ∃ v, k.text = some v ∧ s.info.defaults = [v] := by
  have h1 := hc.one hk
  cases hd : s.info.defaults with
  | nil => rw [hd] at h; cases h
  | cons v r =>
    have hv := (hc.defaults v (by rw [hd]; simp)).1
    rw [hd] at h h1
    cases r with
    | cons _ _ => simp at h1
    | nil =>
      simp only [List.head?_cons, Option.map_some, Option.some.injEq, textValue, if_neg hv] at h
      exact ⟨v, valueOf_text h.symm, rfl⟩

/-- What means the same, without leaves with defaults, is held. -/
theorem holds_of_meaning {pl : List Place} {a m : List Elem} (h : SameMeaning pl a m) : ∀ {sc : Scope}, Field d rd sc pl →
    Sane pl a → Sane pl m → Shed pl a → Shed pl m → Tight pl a → Holds pl a m := by
  induction h with
  | @mk pl a m leaf leafList presence container entries sub ihc ihs =>
    intro sc hF sa sm da dm ta
    have hM : SameMeaning pl a m := ⟨leaf, leafList, presence, container, entries, sub⟩
    have leafEmpty : ∀ p ∈ pl, p.2.info.keyword = "leaf" → ∀ q, Named p.1 q p.2 → (tagged q a = [] ↔ tagged q m = []) := by
      intro p hp hk q hq
      obtain ⟨f, hf⟩ := hF.fact hp hq (by simp [DataKind, hk])
      have hv := leaf p hp hk q hq
      cases h1 : tagged q a with
      | nil =>
        cases h2 : tagged q m with
        | nil => simp
        | cons y s =>
          exfalso
          rw [h1, h2] at hv
          obtain ⟨v, e1, e2⟩ := leaf_head hf.clear hk hv
          exact dm.leaf' hp hk hq (by rw [h2]; simp) e1 e2
      | cons x r =>
        cases h2 : tagged q m with
        | nil =>
          exfalso
          rw [h1, h2] at hv
          obtain ⟨v, e1, e2⟩ := leaf_head hf.clear hk hv.symm
          exact da.leaf' hp hk hq (by rw [h1]; simp) e1 e2
        | cons y s => simp
    have listEq : ∀ p ∈ pl, p.2.info.keyword = "leaf-list" → ∀ q, Named p.1 q p.2 →
        (∀ v, v ∈ (tagged q a).map (fun k => k.text.getD "") ↔ v ∈ (tagged q m).map (fun k => k.text.getD "")) ∧
        (p.2.info.Says "ordered-by" "user" →
          (tagged q a).map (fun k => k.text.getD "") = (tagged q m).map (fun k => k.text.getD "")) := by
      intro p hp hk q hq
      obtain ⟨v1, v2⟩ := leafList p hp hk q hq
      unfold listValues at v1 v2
      by_cases h1 : tagged q a = []
      · by_cases h2 : tagged q m = []
        · rw [h1, h2]; simp
        · exfalso
          rw [if_pos h1, if_neg h2] at v1 v2
          exact sm.lists' hp hk hq h2 ⟨fun v => (v1 v).symm, fun hu => (v2 hu).symm⟩
      · by_cases h2 : tagged q m = []
        · exfalso
          rw [if_neg h1, if_pos h2] at v1 v2
          exact sa.lists' hp hk hq h1 ⟨v1, v2⟩
        · rw [if_neg h1, if_neg h2] at v1 v2
          exact ⟨v1, v2⟩
    have txt : ∀ p ∈ pl, p.2.info.keyword = "leaf-list" → ∀ q, Named p.1 q p.2 → ∀ x ∈ tagged q a, ∀ y ∈ tagged q m,
        x.text.getD "" = y.text.getD "" → identity p x = identity p y := by
      intro p hp hk q hq x hx y hy he
      rw [identity_eq]
      exact ⟨fun _ => getD_inj (sa.text' hp (.inr hk) hq hx) (sm.text' hp (.inr hk) hq hy) he,
        fun h => by rw [hk] at h; exact absurd h (by decide)⟩
    have ent : ∀ {p : Place}, p.2.info.keyword = "list" → ∀ {x y}, SameEntry p x y → identity p x = identity p y := by
      intro p hk x y h
      exact identity_eq.2 ⟨fun h => by rw [hk] at h; exact absurd h (by decide), fun _ => h⟩
    have plain : ∀ {p : Place}, p.2.info.keyword = "leaf" ∨ p.2.info.keyword = "container" → ∀ {x y}, identity p x = identity p y := by
      intro p hk x y
      rw [identity_eq]
      rcases hk with h | h <;> rw [h] <;> exact ⟨fun h => absurd h (by decide), fun h => absurd h (by decide)⟩
    have cont : ∀ p ∈ pl, p.2.info.keyword = "container" → ∀ q, Named p.1 q p.2 → ∀ y ∈ tagged q m,
        Holds (places p.1 p.2.kids) (content (tagged q a)) y.kids := by
      intro p hp hk q hq y hy
      obtain ⟨f, hf⟩ := hF.fact hp hq (by simp [DataKind, hk])
      have hy' := only_one (by rw [hk]; decide) (by rw [hk]; decide) (sm.once' hp (by simp [DataKind, hk]) hq) hy
      have hc := fun s1 s2 s3 s4 s5 => ihc p hp hk q hq hf.field s1 s2 s3 s4 s5
      rw [hy'] at hc
      simp only [content, List.flatMap_cons, List.flatMap_nil, List.append_nil] at hc
      have s2 := sm.sub' hp (.inl hk) hq hy
      have s4 := dm.sub' hp (.inl hk) hq hy
      cases h1 : tagged q a with
      | nil =>
        rw [h1] at hc
        exact hc (sane_nil _) s2 (shed_nil _) s4 (tight_nil _)
      | cons x r =>
        have hx : x ∈ tagged q a := by rw [h1]; simp
        have hx' := only_one (by rw [hk]; decide) (by rw [hk]; decide) (sa.once' hp (by simp [DataKind, hk]) hq) hx
        rw [hx'] at hc
        rw [← h1, hx']
        simp only [List.flatMap_cons, List.flatMap_nil, List.append_nil] at hc
        simp only [content, List.flatMap_cons, List.flatMap_nil, List.append_nil]
        exact hc (sa.sub' hp (.inl hk) hq hx) s2 (da.sub' hp (.inl hk) hq hx) s4 (ta.sub' hp (.inl hk) hq hx)
    have kc : ∀ {s : Stmt}, s.info.keyword ∈ ["container", "leaf", "leaf-list", "list"] → s.info.keyword = "leaf" ∨
        s.info.keyword = "leaf-list" ∨ s.info.keyword = "container" ∨ s.info.keyword = "list" := by
      intro s h
      exact dataKind_cases h
    refine ⟨fun p hp hk q hq => ⟨sa.once' hp hk hq, sm.once' hp hk hq⟩, fun p hp hk q hq x hx => ?_,
      fun p hp hk q hq y hy hno => ?_, fun p hp hk q hq y hy hno => ?_, fun p hp hk hu q hq => ?_,
      fun p hp hk q hq x hx y hy => ?_, fun p hp hk q hq x hx y hy hxy => ?_⟩
    · rcases kc hk with h | h | h | h
      · have : tagged q m ≠ [] := fun h0 => by rw [(leafEmpty p hp h q hq).2 h0] at hx; cases hx
        obtain ⟨y, hy⟩ := List.exists_mem_of_ne_nil _ this
        exact ⟨y, hy, plain (.inl h)⟩
      · obtain ⟨y, hy, he⟩ := List.mem_map.1 (((listEq p hp h q hq).1 (x.text.getD "")).1
          (List.mem_map_of_mem (f := fun k : Elem => k.text.getD "") hx))
        exact ⟨y, hy, txt p hp h q hq x hx y hy he.symm⟩
      · obtain ⟨y, hy⟩ := List.exists_mem_of_ne_nil _ (ta.here' hp h hq (fun h0 => by rw [h0] at hx; cases hx) hM)
        exact ⟨y, hy, plain (.inr h)⟩
      · obtain ⟨y, hy, he⟩ := (entries p hp h q hq).1 x hx
        exact ⟨y, hy, ent h he⟩
    · rcases kc hk with h | h | h | h
      · exfalso
        have : tagged q a ≠ [] := fun h0 => by rw [(leafEmpty p hp h q hq).1 h0] at hy; cases hy
        obtain ⟨x, hx⟩ := List.exists_mem_of_ne_nil _ this
        exact hno x hx (plain (.inl h))
      · exfalso
        obtain ⟨x, hx, he⟩ := List.mem_map.1 (((listEq p hp h q hq).1 (y.text.getD "")).2
          (List.mem_map_of_mem (f := fun k : Elem => k.text.getD "") hy))
        exact hno x hx (txt p hp h q hq x hx y hy he)
      · refine ⟨h, fun v hv => ?_⟩
        have : tagged q a ≠ [] := fun h0 => by rw [(presence p hp h ⟨v, hv⟩ q hq).1 h0] at hy; cases hy
        obtain ⟨x, hx⟩ := List.exists_mem_of_ne_nil _ this
        exact hno x hx (plain (.inr h))
      · exfalso
        obtain ⟨x, hx, he⟩ := (entries p hp h q hq).2.1 y hy
        exact hno x hx (ent h he)
    · have hcon : p.2.info.keyword = "container" := by
        rcases kc hk with h | h | h | h
        · exfalso
          have : tagged q a ≠ [] := fun h0 => by rw [(leafEmpty p hp h q hq).1 h0] at hy; cases hy
          obtain ⟨x, hx⟩ := List.exists_mem_of_ne_nil _ this
          exact hno x hx (plain (.inl h))
        · exfalso
          obtain ⟨x, hx, he⟩ := List.mem_map.1 (((listEq p hp h q hq).1 (y.text.getD "")).2
            (List.mem_map_of_mem (f := fun k : Elem => k.text.getD "") hy))
          exact hno x hx (txt p hp h q hq x hx y hy he)
        · exact h
        · exfalso
          obtain ⟨x, hx, he⟩ := (entries p hp h q hq).2.1 y hy
          exact hno x hx (ent h he)
      have : tagged q a = [] := by
        rw [List.eq_nil_iff_forall_not_mem]
        exact fun x hx => hno x hx (plain (.inr hcon))
      have hc := cont p hp hcon q hq y hy
      rw [this] at hc
      exact hc
    · rcases hk with hk | hk
      · have h := (entries p hp hk q hq).2.2 hu
        clear ihc ihs
        generalize tagged q a = l, tagged q m = r at h
        induction h with
        | nil => rfl
        | cons hxy _ ih => rw [List.map_cons, List.map_cons, ih, ent hk hxy]
      · have h := (listEq p hp hk q hq).2 hu
        have hid := txt p hp hk q hq
        clear ihc ihs
        generalize tagged q a = l, tagged q m = r at h hid
        induction l generalizing r with
        | nil =>
          cases r with
          | nil => rfl
          | cons _ _ => simp at h
        | cons x l ih =>
          cases r with
          | nil => simp at h
          | cons y r =>
            simp only [List.map_cons, List.cons.injEq] at h
            rw [List.map_cons, List.map_cons, hid x (by simp) y (by simp) h.1,
              ih r h.2 fun x hx y hy => hid x (by simp [hx]) y (by simp [hy])]
    · have hv := leaf p hp hk q hq
      rw [only_one (by rw [hk]; decide) (by rw [hk]; decide) (sa.once' hp (by simp [DataKind, hk]) hq) hx,
        only_one (by rw [hk]; decide) (by rw [hk]; decide) (sm.once' hp (by simp [DataKind, hk]) hq) hy] at hv
      simp only [leafValue, Option.some.injEq] at hv
      exact hv
    · rcases hk with hk | hk
      · have hc := cont p hp hk q hq y hy
        rw [only_one (by rw [hk]; decide) (by rw [hk]; decide) (sa.once' hp (by simp [DataKind, hk]) hq) hx] at hc
        simpa [content] using hc
      · obtain ⟨f, hf⟩ := hF.fact hp hq (by simp [DataKind, hk])
        exact ihs p hp hk q hq x hx y hy ((identity_eq.1 hxy).2 hk) hf.field (sa.sub' hp (.inr hk) hq hx)
          (sm.sub' hp (.inr hk) hq hy) (da.sub' hp (.inr hk) hq hx) (dm.sub' hp (.inr hk) hq hy) (ta.sub' hp (.inr hk) hq hx)

end
end NcDiff.Compile
