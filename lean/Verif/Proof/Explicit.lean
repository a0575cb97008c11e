import Verif.Spec.Explicit
import Verif.Proof.ServerMain
import Verif.Proof.Vocabulary
/-!
# Servers that have leaves with their default values
-/

namespace NcDiff.Compile

/-- The text, and the prefixes for it. -/
def face (k : Elem) : NsMap × Option String := (k.nsmap, k.text)

theorem face_eq {x y : Elem} (h : face x = face y) : x.nsmap = y.nsmap ∧ x.text = y.text := Prod.mk.inj h

/-- `m` has what `m0` has, and some leaves that are set to their default values. -/
inductive Explicit : List Place → List Elem → List Elem → Prop
  | mk {pl : List Place} {m0 m : List Elem}
      (leaf : ∀ p ∈ pl, p.2.info.keyword = "leaf" → ∀ q, Named p.1 q p.2 →
        (tagged q m0).map face = (tagged q m).map face ∨
        (tagged q m0 = [] ∧ ∃ y v, tagged q m = [y] ∧ y.text = some v ∧ p.2.info.defaults = [v]))
      (leafList : ∀ p ∈ pl, p.2.info.keyword = "leaf-list" → ∀ q, Named p.1 q p.2 →
        (tagged q m0).map face = (tagged q m).map face)
      (inner : ∀ p ∈ pl, p.2.info.keyword = "container" ∨ p.2.info.keyword = "list" → ∀ q, Named p.1 q p.2 →
        (tagged q m0).length = (tagged q m).length)
      (sub : ∀ p ∈ pl, p.2.info.keyword = "container" ∨ p.2.info.keyword = "list" → ∀ q, Named p.1 q p.2 →
        ∀ (i : Nat) (x y : Elem), (tagged q m0)[i]? = some x → (tagged q m)[i]? = some y →
          Explicit (places p.1 p.2.kids) x.kids y.kids) : Explicit pl m0 m

/-- Two instances at a place are related. -/
def Rel (p : Place) (x y : Elem) : Prop :=
  x.tag = y.tag ∧ (p.2.info.keyword = "leaf" ∨ p.2.info.keyword = "leaf-list" → face x = face y) ∧
  (p.2.info.keyword = "container" ∨ p.2.info.keyword = "list" → Explicit (places p.1 p.2.kids) x.kids y.kids)

/-- The instances at a place are related. -/
def TagRel (p : Place) (q : QName) (a b : List Elem) : Prop :=
  List.Forall₂ (Rel p) a b ∨
    (p.2.info.keyword = "leaf" ∧ a = [] ∧ ∃ y v, b = [y] ∧ y.tag = q ∧ y.text = some v ∧ p.2.info.defaults = [v])

theorem faces_texts {a b : List Elem} (h : a.map face = b.map face) : a.map Elem.text = b.map Elem.text := by
  have := congrArg (List.map Prod.snd) h
  simpa [List.map_map, Function.comp_def, face] using this

theorem forall₂_idx {α β : Type} {R : α → β → Prop} : ∀ {l : List α} {m : List β}, List.Forall₂ R l m ↔
    l.length = m.length ∧ ∀ (i : Nat) (x : α) (y : β), l[i]? = some x → m[i]? = some y → R x y := by
  intro l
  induction l with
  | nil =>
    intro m
    cases m with
    | nil => simp
    | cons y m => simp
  | cons x l ih =>
    intro m
    cases m with
    | nil => simp
    | cons y m =>
      rw [List.forall₂_cons, ih]
      constructor
      · rintro ⟨h1, h2, h3⟩
        refine ⟨by simp [h2], fun i a b ha hb => ?_⟩
        cases i with
        | zero => simp at ha hb; subst ha hb; exact h1
        | succ i => simp at ha hb; exact h3 i a b ha hb
      · rintro ⟨h1, h2⟩
        refine ⟨h2 0 x y rfl rfl, by simpa using h1, fun i a b ha hb => h2 (i + 1) a b (by simpa using ha) (by simpa using hb)⟩

theorem dataKind_cases {s : Stmt} (h : DataKind s) : s.info.keyword = "leaf" ∨ s.info.keyword = "leaf-list" ∨
    (s.info.keyword = "container" ∨ s.info.keyword = "list") := by
  unfold DataKind at h
  simp only [List.mem_cons, List.not_mem_nil, or_false] at h
  rcases h with h | h | h | h
  · exact .inr (.inr (.inl h))
  · exact .inl h
  · exact .inr (.inl h)
  · exact .inr (.inr (.inr h))

theorem texts_forall₂ {p : Place} {q : QName} {a b : List Elem} (ha : ∀ x ∈ a, x.tag = q) (hb : ∀ x ∈ b, x.tag = q)
    (hk : p.2.info.keyword = "leaf" ∨ p.2.info.keyword = "leaf-list") :
    a.map face = b.map face ↔ List.Forall₂ (Rel p) a b := by
  induction a generalizing b with
  | nil =>
    cases b with
    | nil => simp
    | cons y b => simp
  | cons x a ih =>
    cases b with
    | nil => simp
    | cons y b =>
      rw [List.map_cons, List.map_cons, List.cons.injEq, List.forall₂_cons,
        ih (fun z hz => ha z (by simp [hz])) (fun z hz => hb z (by simp [hz]))]
      refine and_congr_left fun _ => ⟨fun h => ⟨?_, fun _ => h, fun h' => ?_⟩, fun h => h.2.1 hk⟩
      · rw [ha x (by simp), hb y (by simp)]
      · exfalso
        rcases hk with hk | hk <;> rw [hk] at h' <;> revert h' <;> decide

theorem explicit_iff {pl : List Place} {m0 m : List Elem} : Explicit pl m0 m ↔
    ∀ p ∈ pl, DataKind p.2 → ∀ q, Named p.1 q p.2 → TagRel p q (tagged q m0) (tagged q m) := by
  have ht : ∀ {q : QName} {l : List Elem}, ∀ x ∈ tagged q l, x.tag = q := fun x hx => (mem_tagged.1 hx).2
  constructor
  · rintro ⟨leaf, leafList, inner, sub⟩ p hp hk q hq
    rcases dataKind_cases hk with h | h | h
    · rcases leaf p hp h q hq with h1 | ⟨h1, y, v, h2, h3⟩
      · exact .inl ((texts_forall₂ ht ht (.inl h)).1 h1)
      · exact .inr ⟨h, h1, y, v, h2, ht y (by rw [h2]; simp), h3⟩
    · exact .inl ((texts_forall₂ ht ht (.inr h)).1 (leafList p hp h q hq))
    · refine .inl (forall₂_idx.2 ⟨inner p hp h q hq, fun i x y hx hy => ⟨?_, fun h' => ?_, fun _ => sub p hp h q hq i x y hx hy⟩⟩)
      · rw [ht x (List.mem_of_getElem? hx), ht y (List.mem_of_getElem? hy)]
      · exfalso
        rcases h with h | h <;> rw [h] at h' <;> revert h' <;> decide
  · intro h
    have no : ∀ {p : Place} {q : QName} {a b : List Elem}, p.2.info.keyword ≠ "leaf" → TagRel p q a b → List.Forall₂ (Rel p) a b := by
      intro p q a b hn ht
      rcases ht with ht | ht
      · exact ht
      · exact absurd ht.1 hn
    refine ⟨fun p hp hk q hq => ?_, fun p hp hk q hq => ?_, fun p hp hk q hq => ?_, fun p hp hk q hq i x y hx hy => ?_⟩
    · rcases h p hp (by simp [DataKind, hk]) q hq with h1 | ⟨_, h1, y, v, h2, _, h3⟩
      · exact .inl ((texts_forall₂ ht ht (.inl hk)).2 h1)
      · exact .inr ⟨h1, y, v, h2, h3⟩
    · exact (texts_forall₂ ht ht (.inr hk)).2 (no (by rw [hk]; decide) (h p hp (by simp [DataKind, hk]) q hq))
    · exact (no (by rcases hk with hk | hk <;> rw [hk] <;> decide) (h p hp (by rcases hk with hk | hk <;> simp [DataKind, hk]) q hq)).length_eq
    · exact ((forall₂_idx.1 (no (by rcases hk with hk | hk <;> rw [hk] <;> decide)
        (h p hp (by rcases hk with hk | hk <;> simp [DataKind, hk]) q hq))).2 i x y hx hy).2.2 hk

theorem explicit_refl : ∀ (e : Elem) (pl : List Place), Explicit pl e.kids e.kids := by
  intro e
  induction e using Elem.ind with
  | h t n at' x ks ih =>
    intro pl
    generalize he : Elem.mk t n at' x ks = e at *
    have hks : e.kids = ks := by rw [← he]; rfl
    rw [← hks] at ih
    refine ⟨fun p _ _ q _ => .inl rfl, fun p _ _ q _ => rfl, fun p _ _ q _ => rfl, fun p _ _ q _ i x y hx hy => ?_⟩
    rw [hx] at hy
    cases hy
    exact ih x (mem_tagged.1 (List.mem_of_getElem? hx)).1 _

theorem explicit_rfl (l : List Elem) (pl : List Place) : Explicit pl l l := explicit_refl (.mk default default [] none l) pl

theorem rel_refl (p : Place) (x : Elem) : Rel p x x := ⟨rfl, fun _ => rfl, fun _ => explicit_refl x _⟩

/-! ## What identifies an instance is not changed -/

/-- The keys of a list have places of their own, and no defaults. -/
def KeysSet (p : Place) : Prop := ∀ q ∈ keyNames p, ∃ p' ∈ places p.1 p.2.kids, Named p'.1 q p'.2 ∧
  p'.2.info.keyword = "leaf" ∧ p'.2.info.defaults = []

theorem keysSet_of {d : Device} {rd : Bool} {sc : Scope} {pl : List Place} (hF : Field d rd sc pl) {p : Place} (hp : p ∈ pl) : KeysSet p := by
  intro q hq
  obtain ⟨c, hc, hck, hn⟩ := mem_keyNames.1 hq
  cases hF.proper p hp with
  | mk _ sub =>
    have h := (sub c hc).here'
    have hleaf := h.keyLeaf hck
    exact ⟨(p.1, c), List.mem_map.2 ⟨c, mem_visible hc (by rw [hleaf]; decide) (by rw [hleaf]; decide), rfl⟩, hn, hleaf,
      (h.keyPlain hck).2.1⟩

section
variable {p : Place} {x y o : Elem}

theorem Rel.keyTexts (hk : KeysSet p) (h : Rel p x y) (hl : p.2.info.keyword = "list") {q : QName} (hq : q ∈ keyNames p) :
    (tagged q x.kids).map Elem.text = (tagged q y.kids).map Elem.text := by
  obtain ⟨p', hp', hn, hleaf, hd⟩ := hk q hq
  cases h.2.2 (.inr hl) with
  | mk leaf _ _ _ =>
    rcases leaf p' hp' hleaf q hn with h | ⟨_, _, v, _, _, h⟩
    · exact faces_texts h
    · rw [hd] at h; cases h

theorem Rel.identity (hk : KeysSet p) (h : Rel p x y) : identity p x = identity p y := by
  rw [identity_eq]
  refine ⟨fun hl => (face_eq (h.2.1 (.inr hl))).2, fun hl => sameEntry_iff.2 fun q hq => h.keyTexts hk hl hq⟩

theorem Rel.about (hk : KeysSet p) (h : Rel p x y) : about p o x = about p o y := by
  unfold Compile.about
  rw [h.1, h.identity hk]

theorem Rel.anchored (hk : KeysSet p) (hkind : byUser p = true) (h : Rel p x y) : anchored p o x = anchored p o y := by
  unfold Compile.anchored
  rw [h.1]
  congr 1
  by_cases hl : p.2.info.keyword = "leaf-list"
  · rw [if_pos hl, if_pos hl, (face_eq (h.2.1 (.inr hl))).2]
  · rw [if_neg hl, if_neg hl]
    have hl' : p.2.info.keyword = "list" := by
      unfold byUser at hkind
      simp only [decide_eq_true_eq] at hkind
      exact hkind.1.resolve_right hl
    split
    · rw [Bool.eq_iff_iff, decide_eq_true_eq, decide_eq_true_eq]
      refine and_congr_left fun _ => ?_
      refine forall₂_congr fun z _ => exists_congr fun q => ?_
      constructor
      · rintro ⟨a, b, c⟩; exact ⟨a, b, by rw [← h.keyTexts hk hl' a]; exact c⟩
      · rintro ⟨a, b, c⟩; exact ⟨a, b, by rw [h.keyTexts hk hl' a]; exact c⟩
    · rfl

/-! ## The steps of the server -/

theorem forall₂_filter {R : Elem → Elem → Prop} {P : Elem → Bool} (hP : ∀ x y, R x y → P x = P y) {l m : List Elem}
    (h : List.Forall₂ R l m) : List.Forall₂ R (l.filter P) (m.filter P) := by
  induction h with
  | nil => exact .nil
  | @cons x y l m hxy _ ih =>
    rw [List.filter_cons, List.filter_cons, hP x y hxy]
    split
    · exact .cons hxy ih
    · exact ih

theorem forall₂_any {R : Elem → Elem → Prop} {P : Elem → Bool} (hP : ∀ x y, R x y → P x = P y) {l m : List Elem}
    (h : List.Forall₂ R l m) : l.any P = m.any P := by
  induction h with
  | nil => rfl
  | @cons x y l m hxy _ ih => rw [List.any_cons, List.any_cons, hP x y hxy, ih]

theorem forall₂_find {R : Elem → Elem → Prop} {P : Elem → Bool} (hP : ∀ x y, R x y → P x = P y) {l m : List Elem}
    (h : List.Forall₂ R l m) : (l.find? P = none ∧ m.find? P = none) ∨ ∃ x y, l.find? P = some x ∧ m.find? P = some y ∧ R x y := by
  induction h with
  | nil => exact .inl ⟨rfl, rfl⟩
  | @cons x y l m hxy _ ih =>
    rw [List.find?_cons, List.find?_cons, hP x y hxy]
    split
    · exact .inr ⟨x, y, rfl, rfl, hxy⟩
    · exact ih

theorem forall₂_putBefore {R : Elem → Elem → Prop} {P : Elem → Bool} (hP : ∀ x y, R x y → P x = P y) {e e' : Elem} (he : R e e')
    {l m : List Elem} (h : List.Forall₂ R l m) : ∀ {r : List Elem}, putBefore P e l = some r →
    ∃ r', putBefore P e' m = some r' ∧ List.Forall₂ R r r' := by
  induction h with
  | nil => intro r h; cases h
  | @cons x y l m hxy hlm ih =>
    intro r h
    rw [putBefore] at h ⊢
    rw [← hP x y hxy]
    split at h
    · rename_i hp; cases h
      rw [if_pos hp]; exact ⟨_, rfl, .cons he (.cons hxy hlm)⟩
    · rename_i hp
      rw [if_neg hp]
      obtain ⟨s, hs, rfl⟩ := Option.map_eq_some_iff.1 h
      obtain ⟨s', hs', hr⟩ := ih hs
      exact ⟨y :: s', by rw [hs']; rfl, .cons hxy hr⟩

theorem forall₂_putAfter {R : Elem → Elem → Prop} {P : Elem → Bool} (hP : ∀ x y, R x y → P x = P y) {e e' : Elem} (he : R e e')
    {l m : List Elem} (h : List.Forall₂ R l m) : ∀ {r : List Elem}, putAfter P e l = some r →
    ∃ r', putAfter P e' m = some r' ∧ List.Forall₂ R r r' := by
  induction h with
  | nil => intro r h; cases h
  | @cons x y l m hxy hlm ih =>
    intro r h
    rw [putAfter] at h ⊢
    rw [← hP x y hxy]
    split at h
    · rename_i hp; cases h
      rw [if_pos hp]; exact ⟨_, rfl, .cons hxy (.cons he hlm)⟩
    · rename_i hp
      rw [if_neg hp]
      obtain ⟨s, hs, rfl⟩ := Option.map_eq_some_iff.1 h
      obtain ⟨s', hs', hr⟩ := ih hs
      exact ⟨y :: s', by rw [hs']; rfl, .cons hxy hr⟩

theorem about_leaf (hl : p.2.info.keyword = "leaf") (h : x.tag = o.tag) : about p o x = true := by
  unfold Compile.about
  simp only [decide_eq_true_eq]
  refine ⟨h, ?_⟩
  rw [identity_eq, hl]
  exact ⟨fun h => absurd h (by decide), fun h => absurd h (by decide)⟩

theorem byUser_leaf (hl : p.2.info.keyword = "leaf") : byUser p = false := by
  unfold byUser
  rw [decide_eq_false_iff_not, hl]
  rintro ⟨h | h, _⟩ <;> revert h <;> decide

theorem put_rel (hk : KeysSet p) {e e' : Elem} (he : Rel p e e') {a b r : List Elem} (h : TagRel p o.tag a b)
    (hr : put p o e a = some r) : ∃ r', put p o e' b = some r' ∧ TagRel p o.tag r r' := by
  rcases h with h | ⟨hl, rfl, y, v, rfl, hy, _⟩
  · have hA : ∀ x y, Rel p x y → Compile.about p o x = Compile.about p o y := fun x y h => h.about hk
    have hN : ∀ x y, Rel p x y → (!Compile.about p o x) = !Compile.about p o y := fun x y h => by rw [hA x y h]
    unfold put at hr ⊢
    simp only at hr ⊢
    have hf := forall₂_filter (P := fun y => !Compile.about p o y) hN h
    rw [← forall₂_any hA h]
    by_cases hu : byUser p = true
    · have hB : ∀ x y, Rel p x y → Compile.anchored p o x = Compile.anchored p o y := fun x y h => h.anchored hk hu
      rw [if_pos hu] at hr ⊢
      cases hi : o.get .insert with
      | none =>
        rw [hi] at hr
        cases hr
        refine ⟨_, rfl, .inl ?_⟩
        split
        · rw [List.forall₂_map_left_iff, List.forall₂_map_right_iff]
          refine h.imp fun x y hxy => ?_
          rw [hA x y hxy]; split
          · exact he
          · exact hxy
        · exact List.rel_append h (.cons he .nil)
      | some w =>
        rw [hi] at hr
        cases w with
        | pred _ => cases hr
        | str i =>
          simp only at hr ⊢
          split at hr
          · rw [if_pos (by assumption)]; cases hr; exact ⟨_, rfl, .inl (.cons he hf)⟩
          rw [if_neg (by assumption)]
          split at hr
          · rw [if_pos (by assumption)]; cases hr; exact ⟨_, rfl, .inl (List.rel_append hf (.cons he .nil))⟩
          rw [if_neg (by assumption)]
          split at hr
          · rw [if_pos (by assumption)]
            obtain ⟨r', h1, h2⟩ := forall₂_putBefore hB he hf hr
            exact ⟨r', h1, .inl h2⟩
          rw [if_neg (by assumption)]
          split at hr
          · rw [if_pos (by assumption)]
            obtain ⟨r', h1, h2⟩ := forall₂_putAfter hB he hf hr
            exact ⟨r', h1, .inl h2⟩
          · cases hr
    · rw [if_neg hu] at hr ⊢
      cases hr
      refine ⟨_, rfl, .inl ?_⟩
      split
      · rw [List.forall₂_map_left_iff, List.forall₂_map_right_iff]
        refine h.imp fun x y hxy => ?_
        rw [hA x y hxy]; split
        · exact he
        · exact hxy
      · exact List.rel_append h (.cons he .nil)
  · unfold put at hr ⊢
    rw [byUser_leaf hl] at hr ⊢
    simp at hr
    subst hr
    refine ⟨[e'], by simp [about_leaf hl hy], .inl (.cons he .nil)⟩

theorem change_rel (hk : KeysSet p) (hkind : DataKind p.2) {inside : List Elem → Option (List Elem)} (hop : operation o ≠ "create")
    (hin : ∀ {a b s : List Elem}, Explicit (places p.1 p.2.kids) a b → inside a = some s →
      ∃ s', inside b = some s' ∧ Explicit (places p.1 p.2.kids) s s')
    {a b r : List Elem} (h : TagRel p o.tag a b) (hr : change p o inside a = some r) :
    ∃ r', change p o inside b = some r' ∧ TagRel p o.tag r r' := by
  have hA : ∀ x y, Rel p x y → Compile.about p o x = Compile.about p o y := fun x y h => h.about hk
  have hN : ∀ x y, Rel p x y → (!Compile.about p o x) = !Compile.about p o y := fun x y h => by rw [hA x y h]
  have hfil : TagRel p o.tag (a.filter fun y => !Compile.about p o y) (b.filter fun y => !Compile.about p o y) := by
    rcases h with h | ⟨hl, rfl, y, v, rfl, hy, _⟩
    · exact .inl (forall₂_filter (P := fun y => !Compile.about p o y) hN h)
    · left; simp [about_leaf hl hy]
  unfold change at hr ⊢
  simp only at hr ⊢
  split at hr
  · rw [if_pos (by assumption)]
    split at hr
    · rename_i hs
      cases hr
      rw [if_pos]
      · exact ⟨_, rfl, hfil⟩
      · rcases h with h | ⟨_, rfl, _⟩
        · rcases forall₂_find hA h with ⟨h1, _⟩ | ⟨x, y, _, h2, _⟩
          · rw [h1] at hs; cases hs
          · rw [h2]; rfl
        · simp at hs
    · cases hr
  rw [if_neg (by assumption)]
  split at hr
  · rw [if_pos (by assumption)]
    cases hr
    exact ⟨_, rfl, hfil⟩
  rw [if_neg (by assumption)]
  split at hr
  · rename_i hops
    have hops' : operation o = "merge" ∨ operation o = "replace" := by
      rcases hops with h | h | h
      · exact .inl h
      · exact .inr h
      · exact absurd h.1 hop
    rw [if_pos (by rcases hops' with h | h <;> simp [h])]
    split at hr
    · rw [if_pos (by assumption)]
      exact put_rel hk (rel_refl _ _) h hr
    · rename_i hleaf
      rw [if_neg hleaf]
      have h' : List.Forall₂ (Rel p) a b := by
        rcases h with h | h
        · exact h
        · exact absurd (.inl h.1) hleaf
      have hinner : p.2.info.keyword = "container" ∨ p.2.info.keyword = "list" := by
        rcases dataKind_cases hkind with h | h | h
        · exact absurd (.inl h) hleaf
        · exact absurd (.inr h) hleaf
        · exact h
      have fin : ∀ {A B : List Elem}, Explicit (places p.1 p.2.kids) A B →
          (match inside A with | none => none | some r => put p o (.mk o.tag o.nsmap [] none r) a) = some r →
          ∃ r', (match inside B with | none => none | some r => put p o (.mk o.tag o.nsmap [] none r) b) = some r' ∧
            TagRel p o.tag r r' := by
        intro A B hAB hr
        cases hi : inside A with
        | none => rw [hi] at hr; cases hr
        | some s =>
          rw [hi] at hr
          obtain ⟨s', h1, h2⟩ := hin hAB hi
          rw [h1]
          have he : Rel p (.mk o.tag o.nsmap [] none s) (.mk o.tag o.nsmap [] none s') :=
            ⟨rfl, fun _ => rfl, fun _ => h2⟩
          exact put_rel hk he h hr
      refine fin ?_ hr
      rcases forall₂_find hA h' with ⟨h1, h2⟩ | ⟨x, y, h1, h2, hxy⟩
      · rw [h1, h2]
        exact explicit_rfl _ _
      · rw [h1, h2]
        simp only
        split
        · exact hxy.2.2 hinner
        · exact explicit_rfl _ _
  · cases hr

/-! ## From one tag to all -/

theorem putBefore_none {P : Elem → Bool} {e : Elem} {l : List Elem} : putBefore P e l = none ↔ ∀ y ∈ l, P y = false := by
  induction l with
  | nil => simp [putBefore]
  | cons y l ih =>
    rw [putBefore]
    cases hp : P y with
    | true => simp [hp]
    | false => simp [hp, ih]

theorem putAfter_none {P : Elem → Bool} {e : Elem} {l : List Elem} : putAfter P e l = none ↔ ∀ y ∈ l, P y = false := by
  induction l with
  | nil => simp [putAfter]
  | cons y l ih =>
    rw [putAfter]
    cases hp : P y with
    | true => simp [hp]
    | false => simp [hp, ih]

theorem put_none {e : Elem} {l : List Elem} (h : put p o e (tagged o.tag l) = none) : put p o e l = none := by
  unfold put at h ⊢
  simp only [filter_tagged, any_tagged] at h
  simp only
  generalize (if byUser p = true then o.get .insert else none) = ins at *
  have hall : ∀ {m : List Elem}, (∀ y ∈ tagged o.tag m, Compile.anchored p o y = false) → ∀ y ∈ m, Compile.anchored p o y = false := by
    intro m hm y hy
    by_contra hb
    rw [Bool.not_eq_false] at hb
    rw [hm y (mem_tagged.2 ⟨hy, anchored_tag hb⟩)] at hb
    cases hb
  cases ins with
  | none => simp at h
  | some v =>
    cases v with
    | pred _ => rfl
    | str i =>
      simp only at h ⊢
      split at h
      · cases h
      rw [if_neg (by assumption)]
      split at h
      · cases h
      rw [if_neg (by assumption)]
      split at h
      · rw [if_pos (by assumption)]
        exact putBefore_none.2 (hall (putBefore_none.1 h))
      rw [if_neg (by assumption)]
      split at h
      · rw [if_pos (by assumption)]
        exact putAfter_none.2 (hall (putAfter_none.1 h))
      · rw [if_neg (by assumption)]

theorem change_none {inside : List Elem → Option (List Elem)} {l : List Elem} (h : change p o inside (tagged o.tag l) = none) :
    change p o inside l = none := by
  unfold change at h ⊢
  simp only [filter_tagged, find_tagged] at h
  simp only
  split at h
  · rw [if_pos (by assumption)]
    split at h
    · cases h
    · rw [if_neg (by assumption)]
  rw [if_neg (by assumption)]
  split at h
  · cases h
  rw [if_neg (by assumption)]
  split at h
  · rw [if_pos (by assumption)]
    split at h
    · rw [if_pos (by assumption)]
      exact put_none h
    · rw [if_neg (by assumption)]
      generalize (inside _) = r at *
      cases r with
      | none => rfl
      | some r => exact put_none h
  · rw [if_neg (by assumption)]

theorem change_back {inside : List Elem → Option (List Elem)} {l l2 : List Elem} (h : change p o inside l = some l2) :
    change p o inside (tagged o.tag l) = some (tagged o.tag l2) ∧ OnlyTag o.tag l l2 := by
  cases hc : change p o inside (tagged o.tag l) with
  | none => rw [change_none hc] at h; cases h
  | some l' =>
    obtain ⟨l3, h1, h2, h3⟩ := change_tagged hc
    rw [h] at h1
    cases h1
    exact ⟨by rw [h2], h3⟩

theorem change_explicit {d : Device} {rd : Bool} {sc : Scope} {pl : List Place} (hF : Field d rd sc pl) (hp : placeOf pl o.tag = some p)
    {inside : List Elem → Option (List Elem)} (hop : operation o ≠ "create")
    (hin : ∀ {a b s : List Elem}, Explicit (places p.1 p.2.kids) a b → inside a = some s →
      ∃ s', inside b = some s' ∧ Explicit (places p.1 p.2.kids) s s')
    {a b r : List Elem} (h : Explicit pl a b) (hr : change p o inside a = some r) :
    ∃ r', change p o inside b = some r' ∧ Explicit pl r r' := by
  obtain ⟨p1, p2, p3⟩ : p ∈ pl ∧ Named p.1 o.tag p.2 ∧ DataKind p.2 := by
    unfold placeOf at hp
    have h1 := List.find?_some hp
    simp only [decide_eq_true_eq] at h1
    exact ⟨List.mem_of_find?_eq_some hp, nameOf_named.1 h1.2, h1.1⟩
  obtain ⟨c1, c2⟩ := change_back hr
  have hx := explicit_iff.1 h
  obtain ⟨r1, d1, d2⟩ := change_rel (keysSet_of hF p1) p3 hop hin (hx p p1 p3 _ p2) c1
  obtain ⟨r', e1, e2, e3⟩ := change_tagged d1
  refine ⟨r', e1, explicit_iff.2 fun p' hp' hk' q hq => ?_⟩
  by_cases hqo : q = o.tag
  · subst hqo
    obtain rfl := hF.one p' hp' p p1 _ hq p2
    rw [e2]; exact d2
  · rw [c2 q hqo, e3 q hqo]
    exact hx p' hp' hk' q hq

end

/-- The operation is not `create`. -/
def NotCreate (a : Option AVal) : Prop := a ≠ some (.str "create")

theorem operation_notCreate {o : Elem} (h : OpsIn NotCreate o) : operation o ≠ "create" := by
  have := h.here'
  unfold NotCreate at this
  unfold operation
  split
  · decide
  · rename_i s hs
    rw [hs] at this
    exact fun h => this (by rw [h])
  · decide

mutual
/-- What is done to the one is done to the other. -/
theorem serve_explicit {d : Device} {rd : Bool} : ∀ (D : List Elem) {sc : Scope} {pl : List Place} {m0 m r0 : List Elem},
    Field d rd sc pl → (∀ o ∈ D, OpsIn NotCreate o) → Explicit pl m0 m → serve pl D m0 = some r0 →
    ∃ r, serve pl D m = some r ∧ Explicit pl r0 r
  | [], sc, pl, m0, m, r0, _, _, hm, h => by
    rw [serve] at h ⊢
    cases h
    exact ⟨m, rfl, hm⟩
  | o :: D, sc, pl, m0, m, r0, hF, hD, hm, h => by
    rw [serve] at h ⊢
    cases h1 : serveOne pl o m0 with
    | none => rw [h1] at h; cases h
    | some l =>
      rw [h1] at h
      obtain ⟨l', h2, h3⟩ := serveOne_explicit o hF (hD o (by simp)) hm h1
      rw [h2]
      exact serve_explicit D hF (fun o ho => hD o (by simp [ho])) h3 h
theorem serveOne_explicit {d : Device} {rd : Bool} : ∀ (o : Elem) {sc : Scope} {pl : List Place} {m0 m r0 : List Elem},
    Field d rd sc pl → OpsIn NotCreate o → Explicit pl m0 m → serveOne pl o m0 = some r0 →
    ∃ r, serveOne pl o m = some r ∧ Explicit pl r0 r
  | .mk t n a x ks, sc, pl, m0, m, r0, hF, ho, hm, h => by
    rw [serveOne] at h ⊢
    cases hp : placeOf pl t with
    | none => rw [hp] at h; cases h
    | some p =>
      rw [hp] at h
      simp only at h ⊢
      obtain ⟨p1, p2, p3⟩ : p ∈ pl ∧ Named p.1 t p.2 ∧ DataKind p.2 := by
        unfold placeOf at hp
        have h1 := List.find?_some hp
        simp only [decide_eq_true_eq] at h1
        exact ⟨List.mem_of_find?_eq_some hp, nameOf_named.1 h1.2, h1.1⟩
      obtain ⟨f, hf⟩ := hF.fact p1 p2 p3
      refine change_explicit (o := .mk t n a x ks) hF hp (operation_notCreate ho) (fun {A B s} hAB hs => ?_) hm h
      exact serve_explicit ks hf.field ho.sub' hAB hs
end

end NcDiff.Compile
