import Verif.Spec.Cases
import Verif.Spec.Choice
import Verif.Proof.Server
import Verif.Proof.Choice
/-!
# Cases of choices: statements and schema nodes
-/

namespace NcDiff.Compile

section
variable {ns : List (String × String)}

theorem mem_dataNodes {q : QName} {pre : List Nat} {ic : Bool} {f : Found} : ∀ {ks : List SNode} {i : Nat},
    f ∈ dataNodes q pre ic i ks ↔ ∃ j n, ks[j]? = some n ∧ f ∈ dataNode q pre ic (i + j) n
  | [], i => by simp [dataNodes]
  | s :: r, i => by
    rw [dataNodes, List.mem_append, mem_dataNodes (ks := r)]
    constructor
    · rintro (h | ⟨j, n, h1, h2⟩)
      · exact ⟨0, s, rfl, h⟩
      · exact ⟨j + 1, n, by simpa using h1, by rw [← Nat.add_assoc, Nat.add_right_comm]; exact h2⟩
    · rintro ⟨j, n, h1, h2⟩
      cases j with
      | zero =>
        obtain rfl : s = n := by simpa using h1
        exact Or.inl h2
      | succ j => exact Or.inr ⟨j, n, by simpa using h1, by rw [Nat.add_right_comm, Nat.add_assoc]; exact h2⟩

theorem ofElems_get (es : List Elem) (j : Nat) : (ofElems es)[j]? = es[j]?.map SNode.ofElem := by
  induction es generalizing j with
  | nil => simp [ofElems]
  | cons e r ih =>
    rw [ofElems]
    cases j with
    | zero => rfl
    | succ j => simpa using ih j

theorem ofElem_kids (e : Elem) : (SNode.ofElem e).kids = ofElems e.kids := by cases e; rw [SNode.ofElem]; rfl

theorem dataNode_ofElem (q : QName) (pre : List Nat) (ic : Bool) (i : Nat) (e : Elem) :
    dataNode q pre ic i (SNode.ofElem e) =
      if (SNode.ofElem e).info.ntype = .choice then dataNodes q (i :: pre) false 0 (ofElems e.kids)
      else if (SNode.ofElem e).info.ntype = .case then dataNodes q (i :: pre) true 0 (ofElems e.kids)
      else if e.tag = q then [⟨SNode.ofElem e, (i :: pre).reverse, ic⟩] else [] := by
  cases e with
  | mk t n a x ks => rw [SNode.ofElem, dataNode]; rfl

theorem forall₂_get_right {α β : Type} {R : α → β → Prop} {l : List α} {es : List β} (h : List.Forall₂ R l es) : ∀ {j : Nat} {e : β},
    es[j]? = some e → ∃ s, l[j]? = some s ∧ R s e := by
  induction h with
  | nil => intro j e h; simp at h
  | @cons a b _ _ hab _ ih =>
    intro j e h
    cases j with
    | zero =>
      obtain rfl : b = e := by simpa using h
      exact ⟨a, rfl, hab⟩
    | succ j => simpa using ih (by simpa using h)

theorem forall₂_get_left {α β : Type} {R : α → β → Prop} {l : List α} {es : List β} (h : List.Forall₂ R l es) : ∀ {j : Nat} {s : α},
    l[j]? = some s → ∃ e, es[j]? = some e ∧ R s e := by
  induction h with
  | nil => intro j e h; simp at h
  | @cons a b _ _ hab _ ih =>
    intro j e h
    cases j with
    | zero =>
      obtain rfl : a = e := by simpa using h
      exact ⟨b, rfl, hab⟩
    | succ j => simpa using ih (by simpa using h)

/-- Where a node is, among statements and those in the cases of their choices. -/
inductive Spot (ns : List (String × String)) (l : List Stmt) (q : QName) : List Nat → Bool → Prop
  | direct {j : Nat} {s : Stmt} (hs : l[j]? = some s) (hc : s.info.keyword ≠ "choice") (hn : Named ns q s) : Spot ns l q [j] false
  | inner {j a b : Nat} {s c t : Stmt} (hs : l[j]? = some s) (hc : s.info.keyword = "choice") (ha : s.kids[a]? = some c)
      (hb : c.kids[b]? = some t) (hn : Named ns q t) : Spot ns l q [j, a, b] true

theorem Made.tag_iff {s : Stmt} {e : Elem} (h : Made ns s e) {q : QName} : e.tag = q ↔ Named ns q s :=
  ⟨fun he => he ▸ h.named, fun hn => named_inj h.named hn⟩

theorem Everywhere.kid {P : Stmt → Prop} {s k : Stmt} (h : Everywhere P s) (hk : k ∈ s.kids) : Everywhere P k := by
  cases h with
  | mk _ sub => exact sub k hk

/-- What holds of the statements below a node. -/
structure Kids (l : List Stmt) : Prop where
  noCase : ∀ s ∈ l, s.info.keyword ≠ "case"
  all : ∀ s ∈ l, Everywhere PlainChoice s

theorem Kids.case {l : List Stmt} (h : Kids l) {s c : Stmt} (hs : s ∈ l) (hc : s.info.keyword = "choice") (hk : c ∈ s.kids) :
    c.info.keyword = "case" := (h.all s hs).here'.cases hc c hk

theorem Kids.plain {l : List Stmt} (h : Kids l) {s c t : Stmt} (hs : s ∈ l) (hc : s.info.keyword = "choice") (hk : c ∈ s.kids)
    (ht : t ∈ c.kids) : t.info.keyword ≠ "choice" ∧ t.info.keyword ≠ "case" := by
  have h1 := h.case hs hc hk
  have h2 := ((h.all s hs).kid hk).here'
  exact ⟨h2.flat h1 t ht, h2.only (by rw [h1]; decide) t ht⟩

theorem kids_of {s : Stmt} (h : Everywhere PlainChoice s) (hc : s.info.keyword ≠ "choice") : Kids s.kids :=
  ⟨h.here'.only hc, fun _ hk => h.kid hk⟩

variable {l : List Stmt} {es : List Elem}

theorem spot_of_found (h : List.Forall₂ (Made ns) l es) (hk : Kids l) {q : QName} {f : Found}
    (hf : f ∈ dataNodes q [] false 0 (ofElems es)) : Spot ns l q f.path f.underCase := by
  obtain ⟨j, n, hn, hf⟩ := mem_dataNodes.1 hf
  rw [ofElems_get, Option.map_eq_some_iff] at hn
  obtain ⟨e, he, rfl⟩ := hn
  obtain ⟨s, hs, hm⟩ := forall₂_get_right h he
  obtain ⟨_, hu⟩ := hm.understood
  have hsl := List.mem_of_getElem? hs
  rw [dataNode_ofElem] at hf
  split at hf
  · rename_i hc
    have hc := hu.choice.1 hc
    obtain ⟨a, n, hn, hf⟩ := mem_dataNodes.1 hf
    rw [ofElems_get, Option.map_eq_some_iff] at hn
    obtain ⟨e1, he1, rfl⟩ := hn
    obtain ⟨c, hcc, hm1⟩ := forall₂_get_right hm.kids he1
    obtain ⟨_, hu1⟩ := hm1.understood
    have hck := List.mem_of_getElem? hcc
    have hcase := hk.case hsl hc hck
    rw [dataNode_ofElem, if_neg (fun h => by rw [hu1.choice.1 h] at hcase; revert hcase; decide), if_pos (hu1.case.2 hcase)] at hf
    obtain ⟨b, n, hn, hf⟩ := mem_dataNodes.1 hf
    rw [ofElems_get, Option.map_eq_some_iff] at hn
    obtain ⟨e2, he2, rfl⟩ := hn
    obtain ⟨t, ht, hm2⟩ := forall₂_get_right hm1.kids he2
    obtain ⟨_, hu2⟩ := hm2.understood
    obtain ⟨p1, p2⟩ := hk.plain hsl hc hck (List.mem_of_getElem? ht)
    rw [dataNode_ofElem, if_neg (fun h => p1 (hu2.choice.1 h)), if_neg (fun h => p2 (hu2.case.1 h))] at hf
    split at hf
    · rename_i hq
      obtain rfl := List.mem_singleton.1 hf
      simpa using Spot.inner (q := q) hs hc hcc ht (hm2.tag_iff.1 hq)
    · cases hf
  · rename_i hc
    rw [if_neg (fun h => hk.noCase s hsl (hu.case.1 h))] at hf
    split at hf
    · rename_i hq
      obtain rfl := List.mem_singleton.1 hf
      simpa using Spot.direct (q := q) hs (fun h => hc (hu.choice.2 h)) (hm.tag_iff.1 hq)
    · cases hf

theorem found_of_spot (h : List.Forall₂ (Made ns) l es) (hk : Kids l) {q : QName} {P : List Nat} {u : Bool} (hf : Spot ns l q P u) :
    ∃ f ∈ dataNodes q [] false 0 (ofElems es), f.path = P ∧ f.underCase = u := by
  cases hf with
  | @direct j s hs hc hn =>
    obtain ⟨e, he, hm⟩ := forall₂_get_left h hs
    obtain ⟨_, hu⟩ := hm.understood
    refine ⟨⟨SNode.ofElem e, [j], false⟩, mem_dataNodes.2 ⟨j, SNode.ofElem e, by rw [ofElems_get, he]; rfl, ?_⟩, rfl, rfl⟩
    rw [dataNode_ofElem, if_neg (fun h => hc (hu.choice.1 h)),
      if_neg (fun h => hk.noCase s (List.mem_of_getElem? hs) (hu.case.1 h)), if_pos (hm.tag_iff.2 hn)]
    simp
  | @inner j a b s c t hs hc ha hb hn =>
    obtain ⟨e, he, hm⟩ := forall₂_get_left h hs
    obtain ⟨e1, he1, hm1⟩ := forall₂_get_left hm.kids ha
    obtain ⟨e2, he2, hm2⟩ := forall₂_get_left hm1.kids hb
    obtain ⟨_, hu⟩ := hm.understood
    obtain ⟨_, hu1⟩ := hm1.understood
    obtain ⟨_, hu2⟩ := hm2.understood
    have hsl := List.mem_of_getElem? hs
    have hck := List.mem_of_getElem? ha
    have hcase := hk.case hsl hc hck
    obtain ⟨p1, p2⟩ := hk.plain hsl hc hck (List.mem_of_getElem? hb)
    refine ⟨⟨SNode.ofElem e2, [j, a, b], true⟩, mem_dataNodes.2 ⟨j, SNode.ofElem e, by rw [ofElems_get, he]; rfl, ?_⟩, rfl, rfl⟩
    rw [dataNode_ofElem, if_pos (hu.choice.2 hc)]
    refine mem_dataNodes.2 ⟨a, SNode.ofElem e1, by rw [ofElems_get, he1]; rfl, ?_⟩
    rw [dataNode_ofElem, if_neg (fun h => by rw [hu1.choice.1 h] at hcase; revert hcase; decide), if_pos (hu1.case.2 hcase)]
    refine mem_dataNodes.2 ⟨b, SNode.ofElem e2, by rw [ofElems_get, he2]; rfl, ?_⟩
    rw [dataNode_ofElem, if_neg (fun h => p1 (hu2.choice.1 h)), if_neg (fun h => p2 (hu2.case.1 h)), if_pos (hm2.tag_iff.2 hn)]
    simp

/-! ## Which nodes exclude each other -/

theorem parted_iff {q q' : QName} : ∀ {ks : List Stmt}, parted ns q q' ks = true ↔
    ∃ (a a' : Nat) (c c' : Stmt), ks[a]? = some c ∧ ks[a']? = some c' ∧ a ≠ a' ∧ offers ns q c = true ∧ offers ns q' c' = true
  | [] => by simp [parted]
  | x :: r => by
    rw [parted, Bool.or_eq_true, Bool.or_eq_true, Bool.and_eq_true, Bool.and_eq_true, List.any_eq_true, List.any_eq_true,
      parted_iff (ks := r)]
    constructor
    · rintro ((⟨h, c, hc, h'⟩ | ⟨h, c, hc, h'⟩) | ⟨a, a', c, c', h1, h2, h3, h4, h5⟩)
      · obtain ⟨a, ha⟩ := List.getElem?_of_mem hc
        exact ⟨0, a + 1, x, c, rfl, by simpa using ha, by omega, h, h'⟩
      · obtain ⟨a, ha⟩ := List.getElem?_of_mem hc
        exact ⟨a + 1, 0, c, x, by simpa using ha, rfl, by omega, h', h⟩
      · exact ⟨a + 1, a' + 1, c, c', by simpa using h1, by simpa using h2, by omega, h4, h5⟩
    · rintro ⟨a, a', c, c', h1, h2, h3, h4, h5⟩
      cases a with
      | zero =>
        obtain rfl : x = c := by simpa using h1
        cases a' with
        | zero => exact absurd rfl h3
        | succ a' => exact Or.inl (Or.inl ⟨h4, c', List.mem_of_getElem? (by simpa using h2), h5⟩)
      | succ a =>
        cases a' with
        | zero =>
          obtain rfl : x = c' := by simpa using h2
          exact Or.inl (Or.inr ⟨h5, c, List.mem_of_getElem? (by simpa using h1), h4⟩)
        | succ a' => exact Or.inr ⟨a, a', c, c', by simpa using h1, by simpa using h2, by omega, h4, h5⟩

theorem excludes_mem {q q' : QName} : ∀ {ks : List Stmt}, excludes ns q q' ks = true ↔ ∃ s ∈ ks, excludesOne ns q q' s = true
  | [] => by simp [excludes]
  | x :: r => by rw [excludes, Bool.or_eq_true, excludes_mem (ks := r)]; simp

theorem excludesOne_eq (q q' : QName) (s : Stmt) : excludesOne ns q q' s =
    if s.info.keyword = "choice" then parted ns q q' s.kids || excludes ns q q' s.kids
    else if s.info.keyword = "case" then excludes ns q q' s.kids else false := by
  cases s; rw [excludesOne]; rfl

theorem visibleOne_eq (s : Stmt) : visibleOne s =
    if s.info.keyword = "choice" ∨ s.info.keyword = "case" then visible s.kids else [s] := by
  cases s; rw [visibleOne]; rfl

theorem excludes_iff (hk : Kids l) {q q' : QName} : excludes ns q q' l = true ↔
    ∃ j a b a' b', Spot ns l q [j, a, b] true ∧ Spot ns l q' [j, a', b'] true ∧ a ≠ a' := by
  have hoff : ∀ {s c : Stmt} {q : QName}, s ∈ l → s.info.keyword = "choice" → c ∈ s.kids →
      (offers ns q c = true ↔ ∃ (b : Nat) (t : Stmt), c.kids[b]? = some t ∧ Named ns q t) := by
    intro s c q hs hc hck
    have hcase := hk.case hs hc hck
    have hv : visibleOne c = c.kids := by
      rw [visibleOne_eq, if_pos (Or.inr hcase)]
      exact visible_plain fun t ht => hk.plain hs hc hck ht
    unfold offers
    rw [hv, List.any_eq_true]
    constructor
    · rintro ⟨t, ht, hn⟩
      obtain ⟨b, hb⟩ := List.getElem?_of_mem ht
      exact ⟨b, t, hb, nameOf_named.1 (of_decide_eq_true hn)⟩
    · rintro ⟨b, t, hb, hn⟩
      exact ⟨t, List.mem_of_getElem? hb, decide_eq_true (nameOf_named.2 hn)⟩
  rw [excludes_mem]
  constructor
  · rintro ⟨s, hs, he⟩
    by_cases hc : s.info.keyword = "choice"
    · have hno : excludes ns q q' s.kids = false := by
        rw [Bool.eq_false_iff]
        intro h
        obtain ⟨c, hck, h⟩ := excludes_mem.1 h
        have hcase := hk.case hs hc hck
        have hin : excludes ns q q' c.kids = true := by
          rw [excludesOne_eq, if_neg (by rw [hcase]; decide), if_pos hcase] at h
          exact h
        obtain ⟨t, ht, h⟩ := excludes_mem.1 hin
        obtain ⟨p1, p2⟩ := hk.plain hs hc hck ht
        rw [excludesOne_eq, if_neg p1, if_neg p2] at h
        cases h
      have hp : parted ns q q' s.kids = true := by
        rw [excludesOne_eq, if_pos hc, Bool.or_eq_true, hno] at he
        rcases he with he | he
        · exact he
        · cases he
      obtain ⟨j, hj⟩ := List.getElem?_of_mem hs
      obtain ⟨a, a', c, c', h1, h2, h3, h4, h5⟩ := parted_iff.1 hp
      obtain ⟨b, t, hb, hn⟩ := (hoff hs hc (List.mem_of_getElem? h1)).1 h4
      obtain ⟨b', t', hb', hn'⟩ := (hoff hs hc (List.mem_of_getElem? h2)).1 h5
      exact ⟨j, a, b, a', b', .inner hj hc h1 hb hn, .inner hj hc h2 hb' hn', h3⟩
    · have := hk.noCase s hs
      rw [excludesOne_eq, if_neg hc, if_neg this] at he
      cases he
  · rintro ⟨j, a, b, a', b', h1, h2, hne⟩
    cases h1 with
    | @inner _ _ _ s c t hs hc ha hb hn =>
      cases h2 with
      | @inner _ _ _ s' c' t' hs' hc' ha' hb' hn' =>
        obtain rfl : s = s' := Option.some.inj (hs.symm.trans hs')
        have hsl := List.mem_of_getElem? hs
        refine ⟨s, hsl, ?_⟩
        have hp : parted ns q q' s.kids = true := parted_iff.2 ⟨a, a', c, c', ha, ha', hne,
          (hoff hsl hc (List.mem_of_getElem? ha)).2 ⟨b, t, hb, hn⟩, (hoff hsl hc (List.mem_of_getElem? ha')).2 ⟨b', t', hb', hn'⟩⟩
        rw [excludesOne_eq, if_pos hc, Bool.or_eq_true]
        exact Or.inl hp

/-! ## The same for schema nodes -/

variable {d : Device}

/-- Which schema nodes are apart is read from the tags. -/
structure Tells (d : Device) (sc : Scope) (ex : QName → QName → Bool) : Prop where
  apart : ∀ {q q' : QName} {f g : Found}, d.lookup sc q = .ok f → d.lookup sc q' = .ok g → apart d sc f g = ex q q'
  sameCase : ∀ {q q' : QName} {f g : Found}, d.lookup sc q = .ok f → d.lookup sc q' = .ok g → ex q q' = true → ¬ SameCase f g

theorem lookup_made {s : Stmt} {e : Elem} (hm : Made ns s e) (h2 : s.info.keyword ≠ "case") {q : QName} {f : Found}
    (hf : d.lookup (.node (SNode.ofElem e)) q = .ok f) : dataNodes q [] false 0 (ofElems e.kids) = [f] := by
  obtain ⟨_, hu⟩ := hm.understood
  have hcase : decide ((SNode.ofElem e).info.ntype = .case) = false := decide_eq_false fun h => h2 (hu.case.1 h)
  unfold Device.lookup at hf
  simp only [ofElem_kids, hcase] at hf
  split at hf
  · cases hf
  · rename_i g hg; cases hf; exact hg
  · cases hf

theorem spot_unique {s : Stmt} {e : Elem} (hm : Made ns s e) (hp : Everywhere PlainChoice s) (h1 : s.info.keyword ≠ "choice")
    (h2 : s.info.keyword ≠ "case") {q : QName} {f : Found} {P : List Nat} {u : Bool}
    (hf : d.lookup (.node (SNode.ofElem e)) q = .ok f) (hs : Spot ns s.kids q P u) : f.path = P ∧ f.underCase = u := by
  obtain ⟨g, hg, h⟩ := found_of_spot hm.kids (kids_of hp h1) hs
  rw [lookup_made hm h2 hf, List.mem_singleton] at hg
  exact hg ▸ h

/-- A node that is in no case excludes nothing. -/
theorem not_excluded {s : Stmt} {e : Elem} (hm : Made ns s e) (hp : Everywhere PlainChoice s) (h1 : s.info.keyword ≠ "choice")
    (h2 : s.info.keyword ≠ "case") {q : QName} {f : Found} (hf : d.lookup (.node (SNode.ofElem e)) q = .ok f) {c : Stmt}
    (hc : c ∈ s.kids) (hcc : c.info.keyword ≠ "choice") (hn : Named ns q c) (t : QName) : excludes ns t q s.kids = false := by
  rw [Bool.eq_false_iff]
  intro h
  obtain ⟨j, a, b, a', b', _, h4, _⟩ := (excludes_iff (kids_of hp h1)).1 h
  obtain ⟨i, hi⟩ := List.getElem?_of_mem hc
  have e1 := (spot_unique hm hp h1 h2 hf h4).1
  rw [(spot_unique hm hp h1 h2 hf (.direct hi hcc hn)).1] at e1
  simp at e1

theorem tells_node {s : Stmt} {e : Elem} (hm : Made ns s e) (hp : Everywhere PlainChoice s) (h1 : s.info.keyword ≠ "choice")
    (h2 : s.info.keyword ≠ "case") : Tells d (.node (SNode.ofElem e)) (fun q q' => excludes ns q q' s.kids) := by
  have hk := kids_of hp h1
  have hspot : ∀ {q : QName} {f : Found}, d.lookup (.node (SNode.ofElem e)) q = .ok f → Spot ns s.kids q f.path f.underCase :=
    fun hf => spot_of_found hm.kids hk (by rw [lookup_made hm h2 hf]; simp)
  have hsame : ∀ {q : QName} {f : Found} {P : List Nat} {u : Bool}, d.lookup (.node (SNode.ofElem e)) q = .ok f →
      Spot ns s.kids q P u → f.path = P ∧ f.underCase = u := fun hf hs => spot_unique hm hp h1 h2 hf hs
  have case1 : ∀ {j : Nat} {x : Stmt}, s.kids[j]? = some x → d.isCase (.node (SNode.ofElem e)) [j] = false := by
    intro j x hx
    obtain ⟨e1, he1, hm1⟩ := forall₂_get_left hm.kids hx
    obtain ⟨_, hu1⟩ := hm1.understood
    unfold Device.isCase
    simp only [nodeAt, ofElem_kids, ofElems_get, he1, Option.map_some]
    exact decide_eq_false fun h => hk.noCase x (List.mem_of_getElem? hx) (hu1.case.1 h)
  have case2 : ∀ {j a : Nat} {x c : Stmt}, s.kids[j]? = some x → x.kids[a]? = some c → x.info.keyword = "choice" →
      d.isCase (.node (SNode.ofElem e)) [j, a] = true := by
    intro j a x c hx hc hch
    obtain ⟨e1, he1, hm1⟩ := forall₂_get_left hm.kids hx
    obtain ⟨e2, he2, hm2⟩ := forall₂_get_left hm1.kids hc
    obtain ⟨_, hu2⟩ := hm2.understood
    unfold Device.isCase
    simp only [nodeAt, ofElem_kids, ofElems_get, he1, he2, Option.map_some, Option.bind_some]
    exact decide_eq_true (hu2.case.2 (hk.case (List.mem_of_getElem? hx) hch (List.mem_of_getElem? hc)))
  have case3 : ∀ {j a b : Nat} {x c t : Stmt}, s.kids[j]? = some x → x.kids[a]? = some c → c.kids[b]? = some t →
      x.info.keyword = "choice" → d.isCase (.node (SNode.ofElem e)) [j, a, b] = false := by
    intro j a b x c t hx hc ht hch
    obtain ⟨e1, he1, hm1⟩ := forall₂_get_left hm.kids hx
    obtain ⟨e2, he2, hm2⟩ := forall₂_get_left hm1.kids hc
    obtain ⟨e3, he3, hm3⟩ := forall₂_get_left hm2.kids ht
    obtain ⟨_, hu3⟩ := hm3.understood
    unfold Device.isCase
    simp only [nodeAt, ofElem_kids, ofElems_get, he1, he2, he3, Option.map_some, Option.bind_some]
    exact decide_eq_false fun h =>
      (hk.plain (List.mem_of_getElem? hx) hch (List.mem_of_getElem? hc) (List.mem_of_getElem? ht)).2 (hu3.case.1 h)
  have hap : ∀ {q q' : QName} {f g : Found}, d.lookup (.node (SNode.ofElem e)) q = .ok f →
      d.lookup (.node (SNode.ofElem e)) q' = .ok g →
      (apart d (.node (SNode.ofElem e)) f g = true ↔
        ∃ j a b a' b', Spot ns s.kids q [j, a, b] true ∧ Spot ns s.kids q' [j, a', b'] true ∧ a ≠ a') := by
    intro q q' f g hf hg
    constructor
    · intro h
      have sf := hspot hf
      have sg := hspot hg
      unfold NcDiff.apart at h
      generalize f.path = P at *
      generalize f.underCase = u at *
      generalize g.path = P' at *
      generalize g.underCase = u' at *
      cases sf with
      | @direct j x hs hc hn =>
        cases sg with
        | @direct j' x' hs' hc' hn' =>
          rw [partAt] at h
          split at h
          · simp [partAt] at h
          · simp [case1 hs] at h
        | @inner j' a' b' x' c' t' hs' hc' ha' hb' hn' =>
          rw [partAt] at h
          split at h
          · simp [partAt] at h
          · simp [case1 hs] at h
      | @inner j a b x c t hs hc ha hb hn =>
        cases sg with
        | @direct j' x' hs' hc' hn' =>
          rw [partAt] at h
          split at h
          · simp [partAt] at h
          · simp [case1 hs] at h
        | @inner j' a' b' x' c' t' hs' hc' ha' hb' hn' =>
          rw [partAt] at h
          split at h
          · rename_i he
            subst he
            rw [partAt] at h
            split at h
            · rename_i he
              subst he
              rw [partAt] at h
              split at h
              · simp [partAt] at h
              · simp [case3 hs ha hb hc] at h
            · rename_i hne
              exact ⟨j, a, b, a', b', .inner hs hc ha hb hn, .inner hs' hc' ha' hb' hn', hne⟩
          · simp [case1 hs] at h
    · rintro ⟨j, a, b, a', b', h1, h2, hne⟩
      unfold NcDiff.apart
      rw [(hsame hf h1).1, (hsame hg h2).1]
      cases h1 with
      | @inner _ _ _ x c t hs hc ha hb hn =>
        cases h2 with
        | @inner _ _ _ x' c' t' hs' hc' ha' hb' hn' =>
          rw [partAt, if_pos rfl, partAt, if_neg hne]
          simp only [List.nil_append, List.singleton_append]
          rw [case2 hs ha hc, case2 hs' ha' hc']
          rfl
  refine ⟨fun hf hg => ?_, fun hf hg he hsc => ?_⟩
  · rw [Bool.eq_iff_iff, hap hf hg, excludes_iff hk]
  · obtain ⟨j, a, b, a', b', h1, h2, hne⟩ := (excludes_iff hk).1 he
    obtain ⟨p1, u1⟩ := hsame hf h1
    obtain ⟨p2, u2⟩ := hsame hg h2
    have := hsc u1 u2 (by rw [p1, p2]; rfl)
    rw [p1, p2] at this
    exact hne (by simpa using this)

/-! ## The top -/

theorem top_path {h : Host} {mods : List Module} (hl : Loads h mods)
    (hc : ∀ m ∈ mods, ∀ s ∈ m.kids, s.info.keyword ≠ "choice" ∧ s.info.keyword ≠ "case") {q : QName} {f : Found}
    (hf : h.device.lookup .root q = .ok f) : ∃ i j, f.path = [i, j] ∧ h.device.isCase .root [i, j] = false := by
  unfold Device.lookup at hf
  simp only at hf
  split at hf
  · cases hf
  · rename_i n hn
    split at hf
    · cases hf
    · rename_i tree ht
      have hmem : f ∈ dataNodes q [h.device.models.findIdx (fun p => p.1 = n)] false 0 tree := by
        split at hf
        · cases hf
        · rename_i g hg; cases hf; rw [hg]; simp
        · cases hf
      have := ModelDiff.lookup_mem ht
      obtain ⟨p, hp, he⟩ := List.mem_map.1 this
      obtain ⟨x, hx, _, hcomp⟩ := mem_loaded (m := p.1) (t := p.2) hl hp
      obtain ⟨k, hk⟩ := models_findIdx ht
      cases he
      obtain ⟨j, nd, hnd, hmem⟩ := mem_dataNodes.1 hmem
      have hnd' := hnd
      rw [ofElems_get, Option.map_eq_some_iff] at hnd
      obtain ⟨e, he, rfl⟩ := hnd
      have hall : List.Forall₂ (Made x.ns) (ordered x.kids) p.2.kids := (compileTree_kids hcomp).imp fun _ _ h => ⟨_, h⟩
      obtain ⟨s, hs, hm⟩ := forall₂_get_right hall he
      obtain ⟨_, hu⟩ := hm.understood
      have hch := hc x hx s (mem_ordered.1 (List.mem_of_getElem? hs)).1
      have hno : (SNode.ofElem e).info.ntype ≠ .case := fun h => hch.2 (hu.case.1 h)
      rw [dataNode_ofElem, if_neg (fun h => hch.1 (hu.choice.1 h)), if_neg hno] at hmem
      split at hmem
      · obtain rfl := List.mem_singleton.1 hmem
        refine ⟨_, j, by simp; rfl, ?_⟩
        unfold Device.isCase
        simp only [hk, Option.bind_some, nodeAt, hnd']
        exact decide_eq_false hno
      · cases hmem

theorem tells_root {h : Host} {mods : List Module} (hl : Loads h mods)
    (hc : ∀ m ∈ mods, ∀ s ∈ m.kids, s.info.keyword ≠ "choice" ∧ s.info.keyword ≠ "case") : Tells h.device .root noRivals := by
  refine ⟨fun hf hg => ?_, fun _ _ he => by cases he⟩
  obtain ⟨i, j, p1, c1⟩ := top_path hl hc hf
  obtain ⟨i', j', p2, c2⟩ := top_path hl hc hg
  unfold NcDiff.apart noRivals
  rw [p1, p2, partAt]
  split
  · subst i'
    rw [partAt]
    split
    · simp [partAt]
    · simp [c1]
  · have : ∀ k, h.device.isCase .root [k] = false := by
      intro k
      unfold Device.isCase
      cases h.device.models[k]? <;> simp [nodeAt]
    simp [this]

end
end NcDiff.Compile
