import Verif.Spec.Server
import Verif.Proof.Meaning
/-!
# The server: holding a configuration, and working tag by tag
-/

namespace NcDiff.Compile

section
variable {d : Device} {rd : Bool}

/-! ## Names and identities -/

theorem said_says {i : Info} {k v : String} : i.said k = some v ↔ i.Says k v := by
  rw [← searchOne_says, Info.said, Info.searchOne, Info.search]
  have : ∀ l : List (String × String), l.lookup k = ((l.filter fun p => p.1 = k).map Prod.snd).head? := by
    intro l
    induction l with
    | nil => rfl
    | cons x r ih =>
      obtain ⟨a, b⟩ := x
      rw [List.lookup_cons, List.filter_cons]
      by_cases h : a = k
      · subst h; simp
      · rw [if_neg (by simpa using h), ← ih]
        simp [show (k == a) = false by simpa using fun h' => h h'.symm]
  rw [this]

theorem nameOf_named {ns : List (String × String)} {s : Stmt} {q : QName} : nameOf ns s = some q ↔ Named ns q s := by
  unfold nameOf Named
  cases ns.lookup s.info.module with
  | none => simp
  | some u =>
    obtain ⟨a, b⟩ := q
    simp only [Option.map_some, Option.some.injEq, QName.mk.injEq]
    exact ⟨fun ⟨h1, h2⟩ => ⟨h1, h2.symm⟩, fun ⟨h1, h2⟩ => ⟨h1, h2.symm⟩⟩

theorem placeOf_eq {pl : List Place} (h : OnePlace pl) {p : Place} (hp : p ∈ pl) {q : QName} (hq : Named p.1 q p.2)
    (hk : DataKind p.2) : placeOf pl q = some p := by
  unfold placeOf
  cases hf : pl.find? (fun p => decide (p.2.info.keyword ∈ ["container", "leaf", "leaf-list", "list"] ∧ nameOf p.1 p.2 = some q)) with
  | none =>
    have := List.find?_eq_none.1 hf p hp
    exact absurd (by simpa using ⟨by simpa [DataKind] using hk, nameOf_named.2 hq⟩) this
  | some p' =>
    have h1 := List.find?_some hf
    have h2 := List.mem_of_find?_eq_some hf
    simp only [decide_eq_true_eq] at h1
    rw [h p' h2 p hp q (nameOf_named.1 h1.2) hq]

theorem mem_keyNames {p : Place} {q : QName} : q ∈ keyNames p ↔ ∃ c ∈ p.2.kids, c.info.isKey = true ∧ Named p.1 q c := by
  unfold keyNames
  simp only [List.mem_filterMap, List.mem_filter, nameOf_named]
  exact ⟨fun ⟨c, ⟨h1, h2⟩, h3⟩ => ⟨c, h1, h2, h3⟩, fun ⟨c, h1, h2, h3⟩ => ⟨c, ⟨h1, h2⟩, h3⟩⟩

theorem sameEntry_iff {p : Place} {x y : Elem} : SameEntry p x y ↔
    ∀ q ∈ keyNames p, (tagged q x.kids).map Elem.text = (tagged q y.kids).map Elem.text := by
  constructor
  · intro h q hq
    obtain ⟨c, h1, h2, h3⟩ := mem_keyNames.1 hq
    exact h c h1 h2 q h3
  · intro h c h1 h2 q h3
    exact h q (mem_keyNames.2 ⟨c, h1, h2, h3⟩)

theorem identity_eq {p : Place} {x y : Elem} : identity p x = identity p y ↔
    (p.2.info.keyword = "leaf-list" → x.text = y.text) ∧ (p.2.info.keyword = "list" → SameEntry p x y) := by
  unfold identity
  by_cases h1 : p.2.info.keyword = "leaf-list"
  · rw [if_pos h1, if_pos h1]
    refine ⟨fun h => ⟨fun _ => by simpa using h, fun h2 => ?_⟩, fun h => by rw [h.1 h1]⟩
    rw [h1] at h2; exact absurd h2 (by decide)
  · rw [if_neg h1, if_neg h1]
    by_cases h2 : p.2.info.keyword = "list"
    · rw [if_pos h2, if_pos h2, sameEntry_iff, List.map_inj_left]
      exact ⟨fun h => ⟨fun h3 => absurd h3 h1, fun _ => h⟩, fun h => h.2 h2⟩
    · rw [if_neg h2, if_neg h2]
      exact ⟨fun _ => ⟨fun h => absurd h h1, fun h => absurd h h2⟩, fun _ => rfl⟩

theorem PlaceFact.identity {sc : Scope} {p : Place} {q : QName} {f : Found} (h : PlaceFact d rd sc p q f) {x y : Elem}
    (hx : x.tag = q) (hy : y.tag = q) : SameInstance d sc x y ↔ identity p x = identity p y := by
  rw [h.same hx hy, identity_eq]

theorem identity_nodup {sc : Scope} {e : Elem} {p : Place} {q : QName} {f : Found} (h : PlaceFact d rd sc p q f)
    (hv : Valid d sc e) : ((tagged q e.kids).map (identity p)).Nodup := by
  rw [List.Nodup, List.pairwise_map]
  refine (hv.unique'.filter _).imp_of_mem fun {x y} hx hy hn he => hn ?_
  exact (h.identity (mem_tagged.1 hx).2 (mem_tagged.1 hy).2).2 he

/-! ## Holding -/

/-- Trees that are the same hold each other. -/
theorem holds_of_same : ∀ (a : Elem) {sc : Scope} {pl : List Place} {b : Elem}, Field d rd sc pl → Valid d sc a →
    Valid d sc b → Fits d pl a → Fits d pl b → SameConfig d sc a b → Holds pl a.kids b.kids := by
  intro a
  induction a using Elem.ind with
  | h t n at' x ks ih =>
    intro sc pl b hF hv hv' hfa hfb h
    generalize he : Elem.mk t n at' x ks = e at *
    have hks : e.kids = ks := by rw [← he]; rfl
    rw [← hks] at ih
    have hsame := h
    obtain ⟨h1, h2⟩ := h
    cases h1 with
    | mk tag value attrs kids sub order =>
    cases h2 with
    | mk tag2 value2 attrs2 kids2 sub2 order2 =>
    have left : ∀ {q x}, x ∈ tagged q e.kids → ∃ y ∈ tagged q b.kids, SameInstance d sc x y := by
      intro q x hx
      obtain ⟨x1, x2⟩ := mem_tagged.1 hx
      obtain ⟨y, hy, hs⟩ := kids x x1
      exact ⟨y, mem_tagged.2 ⟨hy, hs.1.symm.trans x2⟩, hs⟩
    have right : ∀ {q y}, y ∈ tagged q b.kids → ∃ x ∈ tagged q e.kids, SameInstance d sc x y := by
      intro q y hy
      obtain ⟨y1, y2⟩ := mem_tagged.1 hy
      obtain ⟨x, hx, hs⟩ := kids2 y y1
      exact ⟨x, mem_tagged.2 ⟨hx, hs.1.symm.trans y2⟩, hs.symm⟩
    have back : ∀ {p q f y}, PlaceFact d rd sc p q f → y ∈ tagged q b.kids →
        ¬ ∀ x ∈ tagged q e.kids, identity p x ≠ identity p y := by
      intro p q f y hf hy hno
      obtain ⟨x, hx, hs⟩ := right hy
      exact hno x hx ((hf.identity (mem_tagged.1 hx).2 (mem_tagged.1 hy).2).1 hs)
    refine ⟨fun p hp hk q hq => ?_, fun p hp hk q hq x hx => ?_, fun p hp hk q hq y hy hno => ?_,
      fun p hp hk q hq y hy hno => ?_, fun p hp hk hu q hq => ?_, fun p hp hk q hq x hx y hy => ?_,
      fun p hp hk q hq x hx y hy hxy => ?_⟩
    · obtain ⟨f, hf⟩ := hF.fact hp hq hk
      exact ⟨identity_nodup hf hv, identity_nodup hf hv'⟩
    · obtain ⟨f, hf⟩ := hF.fact hp hq hk
      obtain ⟨y, hy, hs⟩ := left hx
      exact ⟨y, hy, (hf.identity (mem_tagged.1 hx).2 (mem_tagged.1 hy).2).1 hs⟩
    · obtain ⟨f, hf⟩ := hF.fact hp hq hk
      exact absurd hno (back hf hy)
    · obtain ⟨f, hf⟩ := hF.fact hp hq hk
      exact absurd hno (back hf hy)
    · obtain ⟨f, hf⟩ := hF.fact hp hq (by rcases hk with hk | hk <;> simp [DataKind, hk])
      obtain ⟨a, hun⟩ := hf.understood
      have hall := ordered_same hv hv' hsame hf
        ⟨f, hf.lookup, hun.userOrdered.2 ⟨hk, hu⟩, hk.symm.imp hun.leafList.2 hun.list.2⟩
      have hin : ∀ x ∈ tagged q e.kids, x.tag = q := fun x hx => (mem_tagged.1 hx).2
      have hin' : ∀ x ∈ tagged q b.kids, x.tag = q := fun x hx => (mem_tagged.1 hx).2
      generalize tagged q e.kids = l, tagged q b.kids = m at hall hin hin'
      clear left right back
      induction hall with
      | nil => rfl
      | @cons x y _ _ hs _ ihl =>
        rw [List.map_cons, List.map_cons, ihl (fun x hx => hin x (by simp [hx])) (fun x hx => hin' x (by simp [hx])),
          (hf.identity (hin x (by simp)) (hin' y (by simp))).1 hs]
    · obtain ⟨f, hf⟩ := hF.fact hp hq (by simp [DataKind, hk])
      obtain ⟨a, hu⟩ := hf.understood
      obtain ⟨x1, x2⟩ := mem_tagged.1 hx
      obtain ⟨y1, y2⟩ := mem_tagged.1 hy
      have hs : SameInstance d sc x y := (hf.identity x2 y2).2 (by
        rw [identity_eq]; exact ⟨fun h => by rw [hk] at h; exact absurd h (by decide), fun h => by rw [hk] at h; exact absurd h (by decide)⟩)
      cases sub x x1 y y1 hs f (by rw [x2]; exact hf.lookup) with
      | mk _ v _ _ _ _ =>
        rw [parseTextAt_node, parseTextAt_node] at v
        exact (hf.value hk x y (x2.trans y2.symm) (hfa.value' x1 hp (by rw [x2]; exact hq) hk)
          (hfb.value' y1 hp (by rw [y2]; exact hq) hk)).1 v
    · obtain ⟨f, hf⟩ := hF.fact hp hq (by rcases hk with hk | hk <;> simp [DataKind, hk])
      obtain ⟨x1, rfl⟩ := mem_tagged.1 hx
      obtain ⟨y1, y2⟩ := mem_tagged.1 hy
      have hs : SameInstance d sc x y := (hf.identity rfl y2).2 hxy
      exact ih x x1 hf.field (hv.sub' x x1 f hf.lookup) (hv'.sub' y y1 f (by rw [y2]; exact hf.lookup))
        (hfa.sub'' x1 hp hq) (hfb.sub'' y1 hp (by rw [y2]; exact hq))
        ⟨sub x x1 y y1 hs f hf.lookup, sub2 y y1 x x1 hs.symm f (by rw [y2]; exact hf.lookup)⟩

theorem Holds.trans {pl : List Place} {a b : List Elem} (h : Holds pl a b) : ∀ {c : List Elem}, Holds pl b c → Holds pl a c := by
  induction h with
  | @mk pl a b once has more empty order value sub ihe ihs =>
    rintro c ⟨once', has', more', empty', order', value', sub'⟩
    have kind : ∀ {p : Place}, p.2.info.keyword = "container" ∨ p.2.info.keyword = "list" →
        p.2.info.keyword ∈ ["container", "leaf", "leaf-list", "list"] := by
      intro p h; rcases h with h | h <;> simp [h]
    refine ⟨fun p hp hk q hq => ⟨(once p hp hk q hq).1, (once' p hp hk q hq).2⟩, fun p hp hk q hq x hx => ?_,
      fun p hp hk q hq y hy hno => ?_, fun p hp hk q hq y hy hno => ?_,
      fun p hp hk hu q hq => (order p hp hk hu q hq).trans (order' p hp hk hu q hq),
      fun p hp hk q hq x hx y hy => ?_, fun p hp hk q hq x hx y hy hxy => ?_⟩
    · obtain ⟨z, hz, h1⟩ := has p hp hk q hq x hx
      obtain ⟨y, hy, h2⟩ := has' p hp hk q hq z hz
      exact ⟨y, hy, h1.trans h2⟩
    · by_cases hz : ∃ z ∈ tagged q b, identity p z = identity p y
      · obtain ⟨z, hz, h1⟩ := hz
        exact more p hp hk q hq z hz fun x hx h => hno x hx (h.trans h1)
      · exact more' p hp hk q hq y hy fun z hz' h => hz ⟨z, hz', h⟩
    · by_cases hz : ∃ z ∈ tagged q b, identity p z = identity p y
      · obtain ⟨z, hz, h1⟩ := hz
        have hno' : ∀ x ∈ tagged q a, identity p x ≠ identity p z := fun x hx h => hno x hx (h.trans h1)
        exact ihe p hp hk q hq z hz hno' (sub' p hp (Or.inl (more p hp hk q hq z hz hno').1) q hq z hz y hy h1)
      · exact empty' p hp hk q hq y hy fun z hz' h => hz ⟨z, hz', h⟩
    · obtain ⟨z, hz, _⟩ := has p hp (by simp [hk]) q hq x hx
      exact (value p hp hk q hq x hx z hz).trans (value' p hp hk q hq z hz y hy)
    · obtain ⟨z, hz, h1⟩ := has p hp (kind hk) q hq x hx
      exact ihs p hp hk q hq x hx z hz h1 (sub' p hp hk q hq z hz y hy (h1.symm.trans hxy))

/-- What a server holds means the same. -/
theorem Holds.meaning {pl : List Place} {a b : List Elem} (h : Holds pl a b) : SameMeaning pl a b := by
  induction h with
  | @mk pl a b once has more empty order value sub ihe ihs =>
    have none : ∀ {p : Place} {q : QName}, p ∈ pl → p.2.info.keyword ∈ ["container", "leaf", "leaf-list", "list"] →
        Named p.1 q p.2 → (p.2.info.keyword ≠ "container" ∨ ∃ v, p.2.info.Says "presence" v) →
        (tagged q a = [] ↔ tagged q b = []) := by
      intro p q hp hk hq hn
      constructor
      · intro h
        rw [List.eq_nil_iff_forall_not_mem]
        intro y hy
        obtain ⟨m1, m2⟩ := more p hp hk q hq y hy (by rw [h]; simp)
        rcases hn with hn | ⟨v, hn⟩
        · exact hn m1
        · exact m2 v hn
      · intro h
        rw [List.eq_nil_iff_forall_not_mem]
        intro x hx
        obtain ⟨y, hy, _⟩ := has p hp hk q hq x hx
        rw [h] at hy; cases hy
    have back : ∀ {p : Place} {q : QName} {y : Elem}, p ∈ pl → p.2.info.keyword ∈ ["container", "leaf", "leaf-list", "list"] →
        Named p.1 q p.2 → p.2.info.keyword ≠ "container" → y ∈ tagged q b → ∃ x ∈ tagged q a, identity p x = identity p y := by
      intro p q y hp hk hq hn hy
      by_contra hno
      exact hn (more p hp hk q hq y hy fun x hx h => hno ⟨x, hx, h⟩).1
    have one : ∀ {p : Place} {l : List Elem}, p.2.info.keyword = "container" → (l.map (identity p)).Nodup → ∀ {x}, x ∈ l → l = [x] := by
      intro p l hk hn x hx
      have hc : ∀ y, identity p y = [] := by
        intro y
        unfold identity
        rw [if_neg (by rw [hk]; decide), if_neg (by rw [hk]; decide)]
      cases l with
      | nil => cases hx
      | cons y r =>
        cases r with
        | nil => rw [List.mem_singleton.1 hx]
        | cons z r => simp [hc] at hn
    refine ⟨fun p hp hk q hq => ?_, fun p hp hk q hq => ?_, fun p hp hk hv q hq => none hp (by simp [hk]) hq (Or.inr hv),
      fun p hp hk q hq => ?_, fun p hp hk q hq => ?_, fun p hp hk q hq x hx y hy hxy =>
        ihs p hp (Or.inr hk) q hq x hx y hy (identity_eq.2 ⟨fun h => by rw [hk] at h; exact absurd h (by decide), fun _ => hxy⟩)⟩
    · have hn := none hp (by simp [hk]) hq (Or.inl (by rw [hk]; decide))
      cases h1 : tagged q a with
      | nil => rw [hn.1 h1]
      | cons x r =>
        cases h2 : tagged q b with
        | nil => rw [hn.2 h2] at h1; cases h1
        | cons y s =>
          simp only [leafValue]
          rw [value p hp hk q hq x (by rw [h1]; simp) y (by rw [h2]; simp)]
    · have hn := none hp (by simp [hk]) hq (Or.inl (by rw [hk]; decide))
      have txt : ∀ {x y}, identity p x = identity p y → x.text = y.text := fun h => (identity_eq.1 h).1 hk
      unfold listValues
      by_cases h0 : tagged q a = []
      · rw [if_pos h0, if_pos (hn.1 h0)]
        exact ⟨fun _ => Iff.rfl, fun _ => rfl⟩
      · rw [if_neg h0, if_neg fun h => h0 (hn.2 h)]
        refine ⟨fun v => ⟨fun hv => ?_, fun hv => ?_⟩, fun ho => ?_⟩
        · obtain ⟨x, hx, rfl⟩ := List.mem_map.1 hv
          obtain ⟨y, hy, hs⟩ := has p hp (by simp [hk]) q hq x hx
          rw [txt hs]
          exact List.mem_map_of_mem (f := fun k : Elem => k.text.getD "") hy
        · obtain ⟨y, hy, rfl⟩ := List.mem_map.1 hv
          obtain ⟨x, hx, hs⟩ := back hp (by simp [hk]) hq (by rw [hk]; decide) hy
          rw [← txt hs]
          exact List.mem_map_of_mem (f := fun k : Elem => k.text.getD "") hx
        · have := order p hp (Or.inr hk) ho q hq
          have h3 := congrArg (List.map fun u : List (List (Option String)) => ((u.headD []).headD Option.none).getD "") this
          rw [List.map_map, List.map_map] at h3
          have h4 : ((fun u : List (List (Option String)) => ((u.headD []).headD Option.none).getD "") ∘ identity p) = fun k : Elem => k.text.getD "" := by
            funext k
            simp [identity, hk]
          rw [h4] at h3
          exact h3
    · have hon := once p hp (by simp [hk]) q hq
      cases h2 : tagged q b with
      | nil =>
        have : tagged q a = [] := by
          rw [List.eq_nil_iff_forall_not_mem]
          intro x hx
          obtain ⟨y, hy, _⟩ := has p hp (by simp [hk]) q hq x hx
          rw [h2] at hy; cases hy
        rw [this]; exact sameMeaning_nil' _
      | cons y s =>
        have hy : y ∈ tagged q b := by rw [h2]; simp
        rw [← h2, one hk hon.2 hy]
        cases h1 : tagged q a with
        | nil => simpa [content] using ihe p hp (by simp [hk]) q hq y hy (by rw [h1]; simp)
        | cons x r =>
          have hx : x ∈ tagged q a := by rw [h1]; simp
          rw [← h1, one hk hon.1 hx]
          simpa [content] using ihs p hp (Or.inl hk) q hq x hx y hy (identity_eq.2
            ⟨fun h => by rw [hk] at h; exact absurd h (by decide), fun h => by rw [hk] at h; exact absurd h (by decide)⟩)
    · have ent : ∀ {x y}, identity p x = identity p y → SameEntry p x y := fun h => (identity_eq.1 h).2 hk
      refine ⟨fun x hx => ?_, fun y hy => ?_, fun ho => ?_⟩
      · obtain ⟨y, hy, hs⟩ := has p hp (by simp [hk]) q hq x hx
        exact ⟨y, hy, ent hs⟩
      · obtain ⟨x, hx, hs⟩ := back hp (by simp [hk]) hq (by rw [hk]; decide) hy
        exact ⟨x, hx, ent hs⟩
      · have := order p hp (Or.inl hk) ho q hq
        clear none back one
        generalize tagged q a = l, tagged q b = m at this
        induction l generalizing m with
        | nil =>
          rw [List.map_nil, eq_comm, List.map_eq_nil_iff] at this
          subst this; exact .nil
        | cons x r ihl =>
          cases m with
          | nil => simp at this
          | cons y s =>
            rw [List.map_cons, List.map_cons, List.cons.injEq] at this
            exact .cons (ent this.1) (ihl _ this.2)

/-! ## Tag by tag -/

theorem tagged_tagged (q : QName) (l : List Elem) : tagged q (tagged q l) = tagged q l := by
  unfold tagged; rw [List.filter_filter]; simp

theorem tagged_other {q q' : QName} (h : q' ≠ q) (l : List Elem) : tagged q' (tagged q l) = [] := by
  rw [List.eq_nil_iff_forall_not_mem]
  intro x hx
  exact h ((mem_tagged.1 hx).2.symm.trans (mem_tagged.1 (mem_tagged.1 hx).1).2)

theorem tagged_append (q : QName) (l m : List Elem) : tagged q (l ++ m) = tagged q l ++ tagged q m := by
  unfold tagged; rw [List.filter_append]

theorem tagged_cons_pos {q : QName} {x : Elem} (h : x.tag = q) (l : List Elem) : tagged q (x :: l) = x :: tagged q l := by
  unfold tagged; rw [List.filter_cons, if_pos (by simpa using h)]

theorem tagged_cons_neg {q : QName} {x : Elem} (h : x.tag ≠ q) (l : List Elem) : tagged q (x :: l) = tagged q l := by
  unfold tagged; rw [List.filter_cons, if_neg (by simpa using h)]

/-- The list `l'` comes from `l` by a change of the elements with one tag. -/
def OnlyTag (t : QName) (l l' : List Elem) : Prop := ∀ t', t' ≠ t → tagged t' l' = tagged t' l

theorem putAfter_tagged {P : Elem → Bool} {e : Elem} {t : QName} (hP : ∀ y, P y = true → y.tag = t) (he : e.tag = t) :
    ∀ {l l' : List Elem}, putAfter P e (tagged t l) = some l' → ∃ l2, putAfter P e l = some l2 ∧ tagged t l2 = l' ∧ OnlyTag t l l2 := by
  intro l
  induction l with
  | nil => intro l' h; simp [tagged, putAfter] at h
  | cons y r ih =>
    intro l' h
    by_cases hy : y.tag = t
    · rw [tagged_cons_pos hy, putAfter] at h
      rw [putAfter]
      by_cases hp : P y = true
      · rw [if_pos hp] at h ⊢
        cases h
        refine ⟨_, rfl, by rw [tagged_cons_pos hy, tagged_cons_pos he], fun t' ht' => ?_⟩
        rw [tagged_cons_neg (by rw [hy]; exact ht'.symm), tagged_cons_neg (by rw [he]; exact ht'.symm),
          tagged_cons_neg (by rw [hy]; exact ht'.symm)]
      · rw [if_neg hp] at h ⊢
        obtain ⟨m, hm, rfl⟩ := Option.map_eq_some_iff.1 h
        obtain ⟨l2, h1, h2, h3⟩ := ih hm
        refine ⟨y :: l2, by rw [h1]; rfl, by rw [tagged_cons_pos hy, h2], fun t' ht' => ?_⟩
        rw [tagged_cons_neg (by rw [hy]; exact ht'.symm), tagged_cons_neg (by rw [hy]; exact ht'.symm), h3 t' ht']
    · rw [tagged_cons_neg hy] at h
      obtain ⟨l2, h1, h2, h3⟩ := ih h
      rw [putAfter, if_neg fun h => hy (hP y h)]
      refine ⟨y :: l2, by rw [h1]; rfl, by rw [tagged_cons_neg hy, h2], fun t' ht' => ?_⟩
      by_cases hyt : y.tag = t'
      · rw [tagged_cons_pos hyt, tagged_cons_pos hyt, h3 t' ht']
      · rw [tagged_cons_neg hyt, tagged_cons_neg hyt, h3 t' ht']

theorem putBefore_tagged {P : Elem → Bool} {e : Elem} {t : QName} (hP : ∀ y, P y = true → y.tag = t) (he : e.tag = t) :
    ∀ {l l' : List Elem}, putBefore P e (tagged t l) = some l' → ∃ l2, putBefore P e l = some l2 ∧ tagged t l2 = l' ∧ OnlyTag t l l2 := by
  intro l
  induction l with
  | nil => intro l' h; simp [tagged, putBefore] at h
  | cons y r ih =>
    intro l' h
    by_cases hy : y.tag = t
    · rw [tagged_cons_pos hy, putBefore] at h
      rw [putBefore]
      by_cases hp : P y = true
      · rw [if_pos hp] at h ⊢
        cases h
        refine ⟨_, rfl, by rw [tagged_cons_pos he, tagged_cons_pos hy], fun t' ht' => ?_⟩
        rw [tagged_cons_neg (by rw [he]; exact ht'.symm)]
      · rw [if_neg hp] at h ⊢
        obtain ⟨m, hm, rfl⟩ := Option.map_eq_some_iff.1 h
        obtain ⟨l2, h1, h2, h3⟩ := ih hm
        refine ⟨y :: l2, by rw [h1]; rfl, by rw [tagged_cons_pos hy, h2], fun t' ht' => ?_⟩
        rw [tagged_cons_neg (by rw [hy]; exact ht'.symm), tagged_cons_neg (by rw [hy]; exact ht'.symm), h3 t' ht']
    · rw [tagged_cons_neg hy] at h
      obtain ⟨l2, h1, h2, h3⟩ := ih h
      rw [putBefore, if_neg fun h => hy (hP y h)]
      refine ⟨y :: l2, by rw [h1]; rfl, by rw [tagged_cons_neg hy, h2], fun t' ht' => ?_⟩
      by_cases hyt : y.tag = t'
      · rw [tagged_cons_pos hyt, tagged_cons_pos hyt, h3 t' ht']
      · rw [tagged_cons_neg hyt, tagged_cons_neg hyt, h3 t' ht']

theorem filter_tagged (P : Elem → Bool) (t : QName) (l : List Elem) : (tagged t l).filter P = tagged t (l.filter P) := by
  unfold tagged
  rw [List.filter_filter, List.filter_filter]
  congr 1; funext x; rw [Bool.and_comm]

theorem about_tag {p : Place} {o y : Elem} (h : about p o y = true) : y.tag = o.tag := by
  unfold about at h; simp only [decide_eq_true_eq] at h; exact h.1

theorem anchored_tag {p : Place} {o y : Elem} (h : anchored p o y = true) : y.tag = o.tag := by
  unfold anchored at h; simp only [Bool.and_eq_true, decide_eq_true_eq] at h; exact h.1

theorem others_only (p : Place) (o : Elem) (l : List Elem) : OnlyTag o.tag l (l.filter fun y => !about p o y) := by
  intro t' ht'
  rw [← filter_tagged, List.filter_eq_self]
  intro y hy
  simp only [Bool.not_eq_true']
  by_contra h
  exact ht' ((mem_tagged.1 hy).2.symm.trans (about_tag (by simpa using h)))

theorem OnlyTag.trans {t : QName} {a b c : List Elem} (h : OnlyTag t a b) (h' : OnlyTag t b c) : OnlyTag t a c :=
  fun t' ht' => (h' t' ht').trans (h t' ht')

theorem any_tagged (p : Place) (o : Elem) (l : List Elem) : (tagged o.tag l).any (about p o) = l.any (about p o) := by
  rw [Bool.eq_iff_iff, List.any_eq_true, List.any_eq_true]
  exact ⟨fun ⟨x, hx, h⟩ => ⟨x, (mem_tagged.1 hx).1, h⟩, fun ⟨x, hx, h⟩ => ⟨x, mem_tagged.2 ⟨hx, about_tag h⟩, h⟩⟩

theorem find_tagged (p : Place) (o : Elem) (l : List Elem) : (tagged o.tag l).find? (about p o) = l.find? (about p o) := by
  induction l with
  | nil => rfl
  | cons y r ih =>
    by_cases hy : y.tag = o.tag
    · rw [tagged_cons_pos hy, List.find?_cons, List.find?_cons, ih]
    · rw [tagged_cons_neg hy, List.find?_cons_of_neg, ih]
      exact fun h => hy (about_tag h)

theorem put_tagged {p : Place} {o e : Elem} (he : e.tag = o.tag) {l l' : List Elem}
    (h : put p o e (tagged o.tag l) = some l') : ∃ l2, put p o e l = some l2 ∧ tagged o.tag l2 = l' ∧ OnlyTag o.tag l l2 := by
  unfold put at h ⊢
  simp only [filter_tagged, any_tagged] at h
  simp only
  generalize (if byUser p = true then o.get .insert else none) = ins at *
  have hsame : ∀ y : Elem, (if about p o y = true then e else y).tag = y.tag := by
    intro y
    split
    · rename_i hy; rw [he, about_tag hy]
    · rfl
  cases ins with
  | none =>
    simp only at h ⊢
    cases h
    refine ⟨_, rfl, ?_, fun t' ht' => ?_⟩
    · split
      · unfold tagged
        rw [List.filter_map]
        refine congrArg (List.map _) (List.filter_congr fun y _ => ?_)
        simp only [Function.comp, hsame]
      · rw [tagged_append, tagged_cons_pos he]; rfl
    · split
      · unfold tagged
        rw [List.filter_map]
        have h1 : ∀ y ∈ l, ((fun k : Elem => decide (k.tag = t')) ∘ fun y => if about p o y = true then e else y) y = decide (y.tag = t') := by
          intro y _
          simp only [Function.comp, hsame]
        rw [List.filter_congr h1]
        conv_rhs => rw [← List.map_id (l.filter _)]
        refine List.map_congr_left fun y hy => ?_
        rw [if_neg]
        · rfl
        · intro ha
          have := (List.mem_filter.1 hy).2
          simp only [decide_eq_true_eq] at this
          exact ht' (this.symm.trans (about_tag ha))
      · rw [tagged_append, tagged_cons_neg (by rw [he]; exact ht'.symm)]; simp [tagged]
  | some v =>
    cases v with
    | pred _ => simp at h
    | str i =>
      simp only at h ⊢
      have hP : ∀ y, anchored p o y = true → y.tag = o.tag := fun _ => anchored_tag
      split at h
      · cases h
        rw [if_pos (by assumption)]
        refine ⟨_, rfl, by rw [tagged_cons_pos he], fun t' ht' => ?_⟩
        rw [tagged_cons_neg (by rw [he]; exact ht'.symm)]
        exact others_only p o l t' ht'
      rw [if_neg (by assumption)]
      split at h
      · cases h
        rw [if_pos (by assumption)]
        refine ⟨_, rfl, by rw [tagged_append, tagged_cons_pos he]; rfl, fun t' ht' => ?_⟩
        rw [tagged_append, tagged_cons_neg (by rw [he]; exact ht'.symm)]
        simpa [tagged] using others_only p o l t' ht'
      rw [if_neg (by assumption)]
      split at h
      · rw [if_pos (by assumption)]
        obtain ⟨l2, h1, h2, h3⟩ := putBefore_tagged hP he h
        exact ⟨l2, h1, h2, (others_only p o l).trans h3⟩
      rw [if_neg (by assumption)]
      split at h
      · rw [if_pos (by assumption)]
        obtain ⟨l2, h1, h2, h3⟩ := putAfter_tagged hP he h
        exact ⟨l2, h1, h2, (others_only p o l).trans h3⟩
      · cases h

theorem change_tagged {p : Place} {o : Elem} {inside : List Elem → Option (List Elem)} {l l' : List Elem}
    (h : change p o inside (tagged o.tag l) = some l') :
    ∃ l2, change p o inside l = some l2 ∧ tagged o.tag l2 = l' ∧ OnlyTag o.tag l l2 := by
  unfold change at h ⊢
  simp only [filter_tagged, find_tagged] at h
  simp only
  split at h
  · rw [if_pos (by assumption)]
    split at h
    · rw [if_pos (by assumption)]
      cases h
      exact ⟨_, rfl, rfl, others_only p o l⟩
    · cases h
  rw [if_neg (by assumption)]
  split at h
  · rw [if_pos (by assumption)]
    cases h
    exact ⟨_, rfl, rfl, others_only p o l⟩
  rw [if_neg (by assumption)]
  split at h
  · rw [if_pos (by assumption)]
    split at h
    · rw [if_pos (by assumption)]
      exact put_tagged (o := o) (e := .mk o.tag o.nsmap [] o.text []) rfl h
    · rw [if_neg (by assumption)]
      generalize (inside _) = r at *
      cases r with
      | none => cases h
      | some r => exact put_tagged (o := o) (e := .mk o.tag o.nsmap [] none r) rfl h
  · cases h

theorem serveOne_eq {pl : List Place} {o : Elem} {l : List Elem} {p : Place} (h : placeOf pl o.tag = some p) :
    serveOne pl o l = change p o (fun l' => serve (places p.1 p.2.kids) o.kids l') l := by
  cases o with
  | mk t n a x ks =>
    rw [serveOne]
    rw [Elem.tag_mk] at h
    rw [h]
    rfl

theorem serveOne_tagged {pl : List Place} {o : Elem} {l l' : List Elem} (h : serveOne pl o (tagged o.tag l) = some l') :
    ∃ l2, serveOne pl o l = some l2 ∧ tagged o.tag l2 = l' ∧ OnlyTag o.tag l l2 := by
  cases hp : placeOf pl o.tag with
  | none =>
    cases o
    rw [serveOne] at h
    rw [Elem.tag_mk] at hp
    rw [hp] at h
    cases h
  | some p =>
    rw [serveOne_eq hp] at h ⊢
    exact change_tagged h

/-- The server can be looked at for each tag separately. -/
theorem serve_tagged {pl : List Place} {D : List Elem} : ∀ {m : List Elem} {R : QName → List Elem},
    (∀ t, serve pl (tagged t D) (tagged t m) = some (R t)) → ∃ r, serve pl D m = some r ∧ ∀ t, tagged t r = R t := by
  induction D with
  | nil =>
    intro m R h
    refine ⟨m, by rw [serve], fun t => ?_⟩
    have := h t
    simp only [tagged, List.filter_nil] at this
    rw [serve] at this
    exact Option.some.inj this
  | cons o D ih =>
    intro m R h
    have h0 := h o.tag
    rw [tagged_cons_pos rfl, serve] at h0
    cases h1 : serveOne pl o (tagged o.tag m) with
    | none => rw [h1] at h0; cases h0
    | some l' =>
      rw [h1] at h0
      obtain ⟨l2, e1, e2, e3⟩ := serveOne_tagged h1
      rw [serve, e1]
      refine ih fun t => ?_
      by_cases ht : o.tag = t
      · subst ht; rw [e2]; exact h0
      · have := h t
        rw [tagged_cons_neg ht] at this
        rw [e3 t (Ne.symm ht)]
        exact this

end
end NcDiff.Compile
