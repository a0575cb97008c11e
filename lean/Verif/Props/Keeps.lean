import Verif.Proof.Keeps
import Verif.Props.Cases
import Verif.Props.Minimal
import Verif.Props.Prefer
/-!
# C79: a server keeps what the edit-config is not about
-/

namespace NcDiff
namespace Compile

/-- What C68 asks of two configs. -/
structure TwoDocuments (h : Host) (mods : List Module) (rd : Bool) (c1 c2 : Elem) : Prop where
  docs : ∃ x1 x2 l1 l2 v1 v2, Document h mods x1 l1 ∧ Document h mods x2 l2 ∧ (∀ k ∈ l1, ReadByLxml k) ∧ (∀ k ∈ l2, ReadByLxml k) ∧
    newConfig h.device x1 v1 rd = .ok c1 ∧ newConfig h.device x2 v2 rd = .ok c2 ∧ Spellable mods l1 l2

theorem two_anyOrder {h : Host} {mods : List Module} {rd : Bool} (hl : Loads h mods) (hp : ProperModules rd mods)
    (hc : ∀ m ∈ mods, ∀ s ∈ m.kids, Everywhere (Clear rd) s) {c1 c2 : Elem} (ht : TwoDocuments h mods rd c1 c2) :
    AnyOrder h.device c1 c2 ∧ Fits h.device (topPlaces mods) c1 ∧ Fits h.device (topPlaces mods) c2 := by
  obtain ⟨x1, x2, l1, l2, v1, v2, hx1, hx2, hr1, hr2, h1, h2, hw⟩ := ht.docs
  obtain ⟨a, ha, ⟨t1, q1, q1'⟩, ha1, ha2, _, _⟩ := C65_accepted h mods rd hl hp x1 l1 hx1 v1
  obtain ⟨b, hb, ⟨t2, q2, q2'⟩, hb1, hb2, hb3, hb4⟩ := C65_accepted h mods rd hl hp x2 l2 hx2 v2
  obtain rfl : a = c1 := Except.ok.inj (ha.symm.trans h1)
  obtain rfl : b = c2 := Except.ok.inj (hb.symm.trans h2)
  obtain ⟨s1, _, _, _, _⟩ := document_means hl hp (regular_of_clear hc) hx1 hr1 h1
  obtain ⟨s2, _, _, _, _⟩ := document_means hl hp (regular_of_clear hc) hx2 hr2 h2
  obtain ⟨us, w1, w2⟩ := hw
  exact ⟨⟨ha1, hb1, ha2, hb2, clear_matched a (clear_root hl hc) (field_root hl hp (regular_of_clear hc)) s2.fits
      (w1.declares_pruned q1 q1') (w2.within_pruned q2 q2'), hb3, hb4⟩, s1.fits, s2.fits⟩

/-- C79: a server with more models than the library has loaded, which holds the first config besides its other data,
accepts the edit-config of the delta; then it holds the second config, and has kept everything that the edit-config is not
about, at every level. -/
theorem C79_server (h : Host) (mods : List Module) (rd : Bool) (hl : Loads h mods) (hp : ProperModules rd mods)
    (hc : ∀ m ∈ mods, ∀ s ∈ m.kids, Everywhere (Clear rd) s) (c1 c2 : Elem) (ht : TwoDocuments h mods rd c1 c2)
    (opts : Opts) (hs : TopSafe opts mods) :
    ∃ δ x, newDelta h.device c1 c2 opts = .ok δ ∧ δ.nc h.device = .ok x ∧
      ∀ pl', Richer (topPlaces mods) pl' → ∀ m, Holds (topPlaces mods) c1.kids m →
        ∃ r, serve pl' x.kids m = some r ∧ Holds (topPlaces mods) c2.kids r ∧ Keeps noRivals (topPlaces mods) x.kids m r := by
  obtain ⟨hA, f1, f2⟩ := two_anyOrder hl hp hc ht
  obtain ⟨δ, x, e1, e2⟩ := sent_plain hl hp hc hA f1 f2 hs
  refine ⟨δ, x, e1.delta, e1.nc, fun pl' hR m hm => ?_⟩
  obtain ⟨r, r1, r2⟩ := e2 m hm
  refine ⟨r, serve_richer _ hR r1, r2, ?_⟩
  rw [← C70_without_choices mods (fun m hm s hs => everywhere_imp (fun _ h => h.noChoice) (hc m hm s hs)),
    ← serveCases_strip] at r1
  exact (serveCases_keeps e1.ready.sound hm.lone r2.lone r1).of_strip rfl

/-- C79, choices: the same for a server that removes the nodes of the other cases of a choice. -/
theorem C79_cases (h : Host) (mods : List Module) (rd : Bool) (hl : Loads h mods) (hp : ProperModules rd mods)
    (hc : ChoiceModules rd mods) (x1 x2 : Elem) (l1 l2 : List Elem) (hx1 : Document h mods x1 l1)
    (hx2 : Document h mods x2 l2) (hr1 : ∀ k ∈ l1, ReadByLxml k) (hr2 : ∀ k ∈ l2, ReadByLxml k) (o1 : OneCaseEach mods l1)
    (o2 : OneCaseEach mods l2) (v1 v2 : Bool) (c1 c2 : Elem) (h1 : newConfig h.device x1 v1 rd = .ok c1)
    (h2 : newConfig h.device x2 v2 rd = .ok c2) (opts : Opts) (hr : opts.diffType ≠ .replace) (hs : TopSafe opts mods)
    (hw : Spellable mods l1 l2) :
    ∃ δ x, newDelta h.device c1 c2 opts = .ok δ ∧ δ.nc h.device = .ok x ∧
      ∀ pl', Richer (topPlaces mods) pl' → ∀ m, Holds (topPlaces mods) c1.kids m →
        ∃ r, serveCases pl' noRivals x.kids m = some r ∧ Holds (topPlaces mods) c2.kids r ∧
          Keeps noRivals (topPlaces mods) x.kids m r := by
  obtain ⟨a, ha, ⟨t1, q1, q1'⟩, ha1, ha2, _, _⟩ := C65_accepted h mods rd hl hp x1 l1 hx1 v1
  obtain ⟨b, hb, ⟨t2, q2, q2'⟩, hb1, hb2, _, _⟩ := C65_accepted h mods rd hl hp x2 l2 hx2 v2
  obtain rfl : a = c1 := Except.ok.inj (ha.symm.trans h1)
  obtain rfl : b = c2 := Except.ok.inj (hb.symm.trans h2)
  obtain ⟨s1, _⟩ := document_means hl hp hc.regular hx1 hr1 h1
  obtain ⟨s2, _⟩ := document_means hl hp hc.regular hx2 hr2 h2
  obtain ⟨us, w1, w2⟩ := hw
  obtain ⟨δ, x, e1, e2⟩ := sent_cases hl hp (floor_root hl hp hc.regular hc.plain hc.top) ha1 hb1 ha2 hb2 s1.fits s2.fits
    (single_pruned q1' (single_pruned q1 o1)) (w1.declares_pruned q1 q1') (w2.within_pruned q2 q2')
    (single_pruned q2' (single_pruned q2 o2)) hr hs
  refine ⟨δ, x, e1.delta, e1.nc, fun pl' hR m hm => ?_⟩
  obtain ⟨r, r1, r2⟩ := e2 m hm
  refine ⟨r, serveCases_richer _ hR (fun _ _ _ _ => rfl) r1, r2, ?_⟩
  rw [← serveCases_strip] at r1
  exact (serveCases_keeps e1.ready.sound hm.lone r2.lone r1).of_strip rfl

/-- C79, unchanged parts: where the configs are the same, the server has exactly what it had, at every level: with all data
of other models in it, with defaults that are set explicitly, and so on.  What other models have inside changed nodes is
kept as well. -/
theorem C79_undisturbed (h : Host) (mods : List Module) (rd : Bool) (hl : Loads h mods) (hp : ProperModules rd mods)
    (hc : ∀ m ∈ mods, ∀ s ∈ m.kids, Everywhere (Clear rd) s) (c1 c2 : Elem) (ht : TwoDocuments h mods rd c1 c2)
    (opts : Opts) (hs : TopSafe opts mods) (ho : opts.replace = .merge) (hd : opts.diffType ≠ .replace) :
    ∃ δ x, newDelta h.device c1 c2 opts = .ok δ ∧ δ.nc h.device = .ok x ∧
      ∀ pl', Richer (topPlaces mods) pl' → ∀ m, Holds (topPlaces mods) c1.kids m →
        ∃ r, serve pl' x.kids m = some r ∧ Holds (topPlaces mods) c2.kids r ∧
          Undisturbed h.device .root (topPlaces mods) c1 c2 m r := by
  obtain ⟨hA, _, _⟩ := two_anyOrder hl hp hc ht
  obtain ⟨δ, x, e1, e2, e3⟩ := C79_server h mods rd hl hp hc c1 c2 ht opts hs
  obtain ⟨δ', x', e1', e2', e4⟩ := C78_only_changes h.device opts c1 c2 hA
  obtain rfl := Except.ok.inj (e1.symm.trans e1')
  obtain rfl := Except.ok.inj (e2.symm.trans e2')
  obtain ⟨δ', x', e1', e2', e5⟩ := C40_preferences h.device opts c1 c2 hA hd
  obtain rfl := Except.ok.inj (e1.symm.trans e1')
  obtain rfl := Except.ok.inj (e2.symm.trans e2')
  refine ⟨δ, x, e1, e2, fun pl' hR m hm => ?_⟩
  obtain ⟨r, r1, r2, r3⟩ := e3 pl' hR m hm
  refine ⟨r, r1, r2, undisturbed (fun h => h.elim (fun h => by rw [ho] at h; cases h) hd) ho e4 (.inl e5) r3 (fun _ _ => rfl) ?_
    (field_root hl hp (regular_of_clear hc)) hm.lone r2.lone⟩
  intro p hpm
  obtain ⟨m, hm, h⟩ := List.mem_flatMap.1 hpm
  obtain ⟨s, hs, rfl⟩ := List.mem_map.1 h
  exact everywhere_imp (fun _ h => h.noChoice) (hc m hm s hs)

/-- C79, history: a server with more models accepts one delta after another; in the end it holds the last config, and all
data of models that are not loaded is as it was, in the same order. -/
theorem C79_history (h : Host) (mods : List Module) (us : List String) (rd : Bool) (hl : Loads h mods) (hp : ProperModules rd mods)
    (hc : ∀ m ∈ mods, ∀ s ∈ m.kids, Everywhere (Clear rd) s) (pl' : List Place) (hR : Richer (topPlaces mods) pl') :
    ∀ (rest : List (Opts × Elem)) (c : Elem) (m : List Elem),
    OfDocument h mods us rd c → (∀ p ∈ rest, OfDocument h mods us rd p.2 ∧ TopSafe p.1 mods) → Holds (topPlaces mods) c.kids m →
    ∃ r, follow h.device pl' m c rest = some r ∧ Holds (topPlaces mods) ((rest.getLast?.map Prod.snd).getD c).kids r ∧
      (r.filter fun y => (placeOf (topPlaces mods) y.tag).isNone) = m.filter fun y => (placeOf (topPlaces mods) y.tag).isNone
  | [], c, m, _, _, hm => ⟨m, rfl, hm, rfl⟩
  | (o, c') :: rest, c, m, hd, hall, hm => by
    obtain ⟨hd', hs⟩ := hall (o, c') (by simp)
    have hd2 := hd'
    obtain ⟨x1, l1, v1, a1, a2, a0, a3⟩ := hd
    obtain ⟨x2, l2, v2, b1, b2, b0, b3⟩ := hd'
    obtain ⟨δ, x, e1, e2, e3⟩ := C79_server h mods rd hl hp hc c c'
      ⟨⟨x1, x2, l1, l2, v1, v2, a1, b1, a2, b2, a3, b3, a0.spellable b0⟩⟩ o hs
    obtain ⟨r, r1, r2, r3⟩ := e3 pl' hR m hm
    obtain ⟨s, s1, s2, s3⟩ := C79_history h mods us rd hl hp hc pl' hR rest c' r hd2 (fun p hp => hall p (by simp [hp])) r2
    refine ⟨s, ?_, ?_, s3.trans (r3.strangers fun _ _ => rfl)⟩
    · rw [follow, e1]
      simp only [bind, Except.bind, e2, r1]
      exact s1
    · cases rest with
      | nil => exact s2
      | cons y ys =>
        rw [List.getLast?_cons_cons]
        rw [List.getLast?_cons, Option.map_some, Option.getD_some] at s2 ⊢
        exact s2

theorem richer_refl : ∀ (n : Nat) {ns : List (String × String)} {l : List Stmt}, sizeOf l ≤ n → Richer (places ns l) (places ns l)
  | 0, ns, l, hn => by cases l <;> simp at hn
  | n + 1, ns, l, hn => by
    refine Richer.sub_places (fun _ _ h => h) fun t p hp => ?_
    obtain ⟨p1, _, _⟩ := placeOf_some hp
    obtain ⟨s, hs, rfl⟩ := List.mem_map.1 p1
    have h1 := visible_size _ (Nat.le_refl _) s hs
    have h2 : sizeOf s.kids < sizeOf s := by cases s; show sizeOf _ < _; simp [Stmt.kids]; omega
    exact richer_refl n (by show sizeOf s.kids ≤ n; omega)

/-- C79: the models of a server contain the loaded ones if the modules are among those of the server, and no two statements
at the top of the modules of the server have the same name. -/
theorem C79_modules (mods all : List Module) (hs : ∀ m ∈ mods, m ∈ all)
    (ho : ∀ p ∈ topPlaces all, ∀ p' ∈ topPlaces all, ∀ t, nameOf p.1 p.2 = some t → nameOf p'.1 p'.2 = some t → p = p') :
    Richer (topPlaces mods) (topPlaces all) := by
  refine Richer.sub_places (fun t p hp => ?_) fun t p hp => richer_refl _ (Nat.le_refl _)
  obtain ⟨p1, p2, p3⟩ := placeOf_some hp
  have hin : p ∈ topPlaces all := by
    obtain ⟨m, hm, h⟩ := List.mem_flatMap.1 p1
    exact List.mem_flatMap.2 ⟨m, hs m hm, h⟩
  have hn := nameOf_named.2 p2
  cases hq : placeOf (topPlaces all) t with
  | none =>
    unfold placeOf at hq
    rw [List.find?_eq_none] at hq
    exact absurd (decide_eq_true ⟨p3, hn⟩) (hq p hin)
  | some p' =>
    obtain ⟨p1', p2', _⟩ := placeOf_some hq
    rw [ho p hin p' p1' t hn (nameOf_named.2 p2')]

/-! ## Checks -/

/-- A check of `Richer` for statements without choices, down to a depth. -/
def richerB : Nat → List Place → List Place → Bool
  | 0, _, _ => false
  | n + 1, pl, pl' => pl.all fun p =>
    match nameOf p.1 p.2 with
    | none => true
    | some t => (placeOf pl t).isNone ||
      match placeOf pl' t with
      | none => false
      | some p' => decide (p'.2.info = p.2.info) && decide (keyNames p' = keyNames p) &&
          (p.2.kids.all fun c => decide (c.info.keyword ≠ "choice" ∧ c.info.keyword ≠ "case")) &&
          (p'.2.kids.all fun c => decide (c.info.keyword ≠ "choice" ∧ c.info.keyword ≠ "case")) &&
          richerB n (places p.1 p.2.kids) (places p'.1 p'.2.kids)

theorem richerB_sound : ∀ {n : Nat} {pl pl' : List Place}, richerB n pl pl' = true → Richer pl pl'
  | 0, _, _, h => by rw [richerB] at h; cases h
  | n + 1, pl, pl', h => by
    rw [richerB, List.all_eq_true] at h
    have key : ∀ t p, placeOf pl t = some p → ∃ p', placeOf pl' t = some p' ∧ p'.2.info = p.2.info ∧ keyNames p' = keyNames p ∧
        (∀ q q', rivals p' q q' = rivals p q q') ∧ Richer (places p.1 p.2.kids) (places p'.1 p'.2.kids) := by
      intro t p hp
      obtain ⟨p1, p2, _⟩ := placeOf_some hp
      have := h p p1
      rw [nameOf_named.2 p2] at this
      simp only [hp, Option.isNone_some, Bool.false_or] at this
      cases hp' : placeOf pl' t with
      | none => rw [hp'] at this; cases this
      | some p' =>
        rw [hp'] at this
        simp only [Bool.and_eq_true, decide_eq_true_eq, List.all_eq_true] at this
        obtain ⟨⟨⟨⟨h1, h2⟩, h3⟩, h4⟩, h5⟩ := this
        refine ⟨p', rfl, h1, h2, fun q q' => ?_, richerB_sound h5⟩
        unfold rivals
        rw [excludes_none h3, excludes_none h4]
    refine ⟨fun t p hp => ?_, fun t p p' hp hp' => ?_⟩
    · obtain ⟨p', h1, h2, h3, h4, _⟩ := key t p hp
      exact ⟨p', h1, h2, h3, fun q _ _ q' => h4 q q'⟩
    · obtain ⟨p'', h1, _, _, _, h5⟩ := key t p hp
      rw [h1] at hp'
      obtain rfl := Option.some.inj hp'
      exact h5

/-- A check of `Holds`, down to a depth. -/
def holdsB : Nat → List Place → List Elem → List Elem → Bool
  | 0, _, _, _ => false
  | n + 1, pl, a, m => pl.all fun p =>
    if p.2.info.keyword ∈ ["container", "leaf", "leaf-list", "list"] then
      match nameOf p.1 p.2 with
      | none => true
      | some q =>
        decide (((tagged q a).map (identity p)).Nodup ∧ ((tagged q m).map (identity p)).Nodup) &&
        ((tagged q a).all fun x => (tagged q m).any fun y => decide (identity p x = identity p y)) &&
        ((tagged q m).all fun y => ((tagged q a).any fun x => decide (identity p x = identity p y)) ||
          (decide (p.2.info.keyword = "container" ∧ p.2.info.said "presence" = none) && holdsB n (places p.1 p.2.kids) [] y.kids)) &&
        (!byUser p || decide ((tagged q a).map (identity p) = (tagged q m).map (identity p))) &&
        (decide (p.2.info.keyword ≠ "leaf") || (tagged q a).all fun x => (tagged q m).all fun y => decide (valueOf p.2 x = valueOf p.2 y)) &&
        (decide (¬ (p.2.info.keyword = "container" ∨ p.2.info.keyword = "list")) ||
          (tagged q a).all fun x => (tagged q m).all fun y => decide (identity p x ≠ identity p y) ||
            holdsB n (places p.1 p.2.kids) x.kids y.kids)
    else true

theorem holdsB_sound : ∀ {n : Nat} {pl : List Place} {a m : List Elem}, holdsB n pl a m = true → Holds pl a m
  | 0, _, _, _, h => by rw [holdsB] at h; cases h
  | n + 1, pl, a, m, h => by
    rw [holdsB, List.all_eq_true] at h
    have key : ∀ p ∈ pl, p.2.info.keyword ∈ ["container", "leaf", "leaf-list", "list"] → ∀ q, Named p.1 q p.2 →
        (((tagged q a).map (identity p)).Nodup ∧ ((tagged q m).map (identity p)).Nodup) ∧
        (∀ x ∈ tagged q a, ∃ y ∈ tagged q m, identity p x = identity p y) ∧
        (∀ y ∈ tagged q m, (∃ x ∈ tagged q a, identity p x = identity p y) ∨
          ((p.2.info.keyword = "container" ∧ p.2.info.said "presence" = none) ∧ Holds (places p.1 p.2.kids) [] y.kids)) ∧
        (byUser p = true → (tagged q a).map (identity p) = (tagged q m).map (identity p)) ∧
        (p.2.info.keyword = "leaf" → ∀ x ∈ tagged q a, ∀ y ∈ tagged q m, valueOf p.2 x = valueOf p.2 y) ∧
        (p.2.info.keyword = "container" ∨ p.2.info.keyword = "list" → ∀ x ∈ tagged q a, ∀ y ∈ tagged q m,
          identity p x = identity p y → Holds (places p.1 p.2.kids) x.kids y.kids) := by
      intro p hp hk q hq
      have := h p hp
      rw [if_pos hk, nameOf_named.2 hq] at this
      simp only [Bool.and_eq_true, Bool.or_eq_true, decide_eq_true_eq, List.all_eq_true, List.any_eq_true, Bool.not_eq_true'] at this
      obtain ⟨⟨⟨⟨⟨h1, h2⟩, h3⟩, h4⟩, h5⟩, h6⟩ := this
      refine ⟨h1, h2, fun y hy => (h3 y hy).imp id fun h => ⟨h.1, holdsB_sound h.2⟩, fun hu => ?_, fun hl => h5.resolve_left (fun h => h hl),
        fun hc x hx y hy hi => holdsB_sound (((h6.resolve_left fun h => h hc) x hx y hy).resolve_left fun h => h hi)⟩
      rcases h4 with h | h
      · rw [hu] at h; cases h
      · exact h
    have data : ∀ {p : Place}, p.2.info.keyword = "list" ∨ p.2.info.keyword = "leaf-list" →
        p.2.info.keyword ∈ ["container", "leaf", "leaf-list", "list"] := by
      rintro p (h | h) <;> rw [h] <;> decide
    have gone : ∀ {p : Place} {q : QName} {y : Elem}, (∀ x ∈ tagged q a, identity p x ≠ identity p y) →
        ¬ ∃ x ∈ tagged q a, identity p x = identity p y := fun h ⟨x, hx, he⟩ => h x hx he
    refine ⟨fun p hp hk q hq => (key p hp hk q hq).1, fun p hp hk q hq => (key p hp hk q hq).2.1, fun p hp hk q hq y hy hn => ?_,
      fun p hp hk q hq y hy hn => ?_, fun p hp hk hs q hq => ?_, fun p hp hk q hq => ?_, fun p hp hk q hq => ?_⟩
    · obtain ⟨⟨h1, h2⟩, _⟩ := ((key p hp hk q hq).2.2.1 y hy).resolve_left (gone hn)
      refine ⟨h1, fun v hv => ?_⟩
      rw [said_says.2 hv] at h2
      cases h2
    · exact (((key p hp hk q hq).2.2.1 y hy).resolve_left (gone hn)).2
    · exact (key p hp (data hk) q hq).2.2.2.1 (byUser_iff.2 ⟨hk, hs⟩)
    · exact (key p hp (by rw [hk]; decide) q hq).2.2.2.2.1 hk
    · exact (key p hp (by rcases hk with h | h <;> rw [h] <;> decide) q hq).2.2.2.2.2 hk

end Compile

namespace KeepsDemo

open Compile Demo YangDemo MeaningDemo ServerDemo

/-- A statement of a module that is not loaded. -/
def xt (keyword arg : String) (kids : List Stmt := []) (subs : List (String × String) := []) : Stmt :=
  .mk { keyword := keyword, arg := arg, module := "extra", modulePrefix := "x", config := true, isKey := false, subs := subs,
        type := if keyword = "leaf" then str else none } kids

def moreNs : List (String × String) := [("demo", u), ("extra", "urn:extra")]

/-- The module of the server: another one augments the container `top`, the entries of `item` and the container `np`. -/
def sstmts : List Stmt :=
  [ st "container" "top"
      [ st "list" "item" [st "leaf" "id" (type := str) (isKey := true), st "leaf" "val" [] [("default", "0")] (type := str),
            xt "leaf" "note"]
          [("key", "id"), ("ordered-by", "user")],
        xt "container" "stats" [xt "leaf" "n"],
        st "container" "np" [st "leaf" "w" [] [("default", "x")] (type := str), xt "leaf" "note"],
        st "container" "on" [] [("presence", "on")],
        st "leaf-list" "tags" [] [("default", "a"), ("default", "b")] (type := str) ] ]

/-- A container of yet another module. -/
def sysStmt : Stmt :=
  .mk { keyword := "container", arg := "sys", module := "other", modulePrefix := "o", config := true, isKey := false, subs := [],
        type := none } []

def smods : List Module := [⟨"other", "o", [("other", "urn:other")], [sysStmt]⟩, ⟨"demo", "d", moreNs, sstmts⟩]

theorem richer : Richer (topPlaces mmods) (topPlaces smods) := richerB_sound (n := 6) (by decide +kernel)

theorem two : TwoDocuments (hostOf mstmts) mmods true c1 c2 :=
  ⟨⟨_, _, _, _, true, true, doc1, doc2, lxmlKidsB_sound _ (by decide +kernel), lxmlKidsB_sound _ (by decide +kernel), conf1, conf2,
    spellable_of_plain mplain _ _⟩⟩

def ex (t : String) (ks : List Elem) : Elem := .mk ⟨"urn:extra", t⟩ [(none, "urn:extra")] [] none ks
def ext (t v : String) : Elem := .mk ⟨"urn:extra", t⟩ [(none, "urn:extra")] [] (some v) []
def sys : Elem := .mk ⟨"urn:other", "sys"⟩ [(none, "urn:other")] [] none []

/-- What the server has: the first config, and data of the other modules. -/
def held : List Elem := [sys, el "top" [it "1" [lf "val" "5", ext "note" "a"], it "2" [ext "note" "b"], ex "stats" [ext "n" "1"],
  it "3" [lf "val" "6", ext "note" "c"], el "on" [], lf "tags" "c"]]

/-- The hypotheses of C79 are met. -/
example : ∃ δ x, newDelta d c1 c2 = .ok δ ∧ δ.nc d = .ok x ∧ ∀ m, Holds pl c1.kids m →
    ∃ r, serve (topPlaces smods) x.kids m = some r ∧ Holds pl c2.kids r ∧ Undisturbed d .root pl c1 c2 m r := by
  obtain ⟨δ, x, h1, h2, h3⟩ := C79_undisturbed (hostOf mstmts) mmods true loads proper mclear c1 c2 two {}
    (Or.inr (Or.inr (by decide +kernel))) rfl (by decide)
  exact ⟨δ, x, h1, h2, h3 _ richer⟩

/-- The server holds the first config. -/
theorem held_holds : Holds pl c1.kids held := holdsB_sound (n := 6) (by decide +kernel)

/-- The notes, the statistics and the container of the other module are still there. -/
example : ∃ x, (newDelta d c1 c2 >>= fun δ => δ.nc d) = .ok x ∧ serve (topPlaces smods) x.kids held =
    some [sys, el "top" [it "3" [lf "val" "6", ext "note" "c"], it "2" [ext "note" "b", lf "val" "7"], it "4" [],
      it "1" [ext "note" "a"], ex "stats" [ext "n" "1"], el "np" [lf "w" "y"]]] :=
  ⟨(newDelta d c1 c2 >>= fun δ => δ.nc d).toOption.getD default, by decide +kernel, by decide +kernel⟩

/-- There and back again: the other container is still there. -/
example : ∃ r, follow d (topPlaces smods) held c1 [({}, c2), ({ create := .create }, c1)] = some r ∧ Holds pl c1.kids r ∧
    (r.filter fun y => (placeOf pl y.tag).isNone) = [sys] := by
  have h1 : OfDocument (hostOf mstmts) mmods [] true c1 :=
    ⟨_, _, true, doc1, lxmlKidsB_sound _ (by decide +kernel), spelled_of_plain mplain _ _, conf1⟩
  have h2 : OfDocument (hostOf mstmts) mmods [] true c2 :=
    ⟨_, _, true, doc2, lxmlKidsB_sound _ (by decide +kernel), spelled_of_plain mplain _ _, conf2⟩
  have ht : ∀ opts, TopSafe opts mmods := fun opts => Or.inr (Or.inr (by decide +kernel))
  obtain ⟨r, r1, r2, r3⟩ := C79_history (hostOf mstmts) mmods [] true loads proper mclear _ richer
    [({}, c2), ({ create := .create }, c1)] c1 held h1 (by
      intro p hp
      simp only [List.mem_cons, List.not_mem_nil, or_false] at hp
      rcases hp with rfl | rfl
      · exact ⟨h2, ht _⟩
      · exact ⟨h1, ht _⟩) held_holds
  exact ⟨r, r1, r2, r3.trans (by decide +kernel)⟩

/-- The hypotheses of the theorem about choices are met. -/
example : ∃ δ x, newDelta CasesDemo.d CasesDemo.c1 CasesDemo.c2 = .ok δ ∧ δ.nc CasesDemo.d = .ok x ∧
    ∀ pl', Richer CasesDemo.pl pl' → ∀ m, Holds CasesDemo.pl CasesDemo.c1.kids m →
      ∃ r, serveCases pl' noRivals x.kids m = some r ∧ Holds CasesDemo.pl CasesDemo.c2.kids r ∧
        Keeps noRivals CasesDemo.pl x.kids m r :=
  C79_cases (hostOf CasesDemo.cstmts) CasesDemo.cmods true CasesDemo.loads CasesDemo.proper CasesDemo.choices _ _ _ _
    CasesDemo.doc1 CasesDemo.doc2 (lxmlKidsB_sound _ (by decide +kernel)) (lxmlKidsB_sound _ (by decide +kernel)) CasesDemo.one1
    CasesDemo.one2 true true CasesDemo.c1 CasesDemo.c2 CasesDemo.conf1 CasesDemo.conf2 {} (by decide)
    (Or.inr (Or.inr (by decide +kernel))) (spellable_of_plain CasesDemo.cplain _ _)

/-- A server with one more module. -/
example : Richer CasesDemo.pl (topPlaces (⟨"other", "o", [("other", "urn:other")], [sysStmt]⟩ :: CasesDemo.cmods)) := by
  refine C79_modules _ _ (fun m hm => List.mem_cons_of_mem _ hm) ?_
  intro p hp p' hp' t h1 h2
  have e : topPlaces (⟨"other", "o", [("other", "urn:other")], [sysStmt]⟩ :: CasesDemo.cmods) =
      [([("other", "urn:other")], sysStmt), (modNs, CasesDemo.cstmts.head (by decide))] := rfl
  rw [e] at hp hp'
  simp only [List.mem_cons, List.not_mem_nil, or_false] at hp hp'
  have hne : nameOf [("other", "urn:other")] sysStmt ≠ nameOf modNs (CasesDemo.cstmts.head (by decide)) := by decide +kernel
  rcases hp with rfl | rfl <;> rcases hp' with rfl | rfl
  · rfl
  · exact absurd (h1.trans h2.symm) hne
  · exact absurd (h2.trans h1.symm) hne
  · rfl

/-- What a node that is deleted has of other models is deleted with it: C79 is about what the edit-config is not about. -/
example : ∃ x, (newDelta d c1 (noConfig.setKids [el "top" [it "2" [], it "3" [lf "val" "6"], el "on" [], lf "tags" "c"]]) >>=
      fun δ => δ.nc d) = .ok x ∧
    (serve (topPlaces smods) x.kids held).map (fun r => r.map fun t => t.kids.map fun k => (k.tag.name, k.kids.map Elem.text)) =
      some [[], [("item", [some "2", some "b"]), ("item", [some "3", some "6", some "c"]), ("stats", [some "1"]),
        ("on", []), ("tags", [])]] :=
  ⟨(newDelta d c1 (noConfig.setKids [el "top" [it "2" [], it "3" [lf "val" "6"], el "on" [], lf "tags" "c"]]) >>=
      fun δ => δ.nc d).toOption.getD default, by decide +kernel, by decide +kernel⟩

end KeepsDemo
end NcDiff
