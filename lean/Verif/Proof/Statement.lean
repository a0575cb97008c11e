import Verif.Spec.Statement
import Verif.Proof.XPathNode
import Verif.Proof.CompileTree
/-! # The statement of a node -/

namespace NcDiff.Statement

open Compile

/-! ## The newest revision -/

/-- The step of the loop. -/
def later (name : String) (latest : Option String) (e : (String × String) × Module) : Option String :=
  if e.1.1 = name then
    match latest with
    | none => some e.1.2
    | some l => if l < e.1.2 then some e.1.2 else some l
  else latest

theorem fold_before {name rev : String} : ∀ (a : Modules) (acc : Option String), (∀ l, acc = some l → l < rev) →
    (∀ e ∈ a, e.1.1 = name → e.1.2 < rev) → ∀ l, a.foldl (later name) acc = some l → l < rev
  | [], acc, h, _, l, hl => h l hl
  | e :: a, acc, h, ha, l, hl => by
    rw [List.foldl_cons] at hl
    refine fold_before a _ ?_ (fun x hx => ha x (.tail _ hx)) l hl
    intro l' hl'
    unfold later at hl'
    split at hl'
    · rename_i hn
      have := ha e (.head _) hn
      split at hl'
      · cases hl'; exact this
      · rename_i l0
        split at hl'
        · cases hl'; exact this
        · cases hl'; exact h _ rfl
    · exact h _ hl'

theorem fold_after {name rev : String} : ∀ (b : Modules), (∀ e ∈ b, e.1.1 = name → ¬ rev < e.1.2) →
    b.foldl (later name) (some rev) = some rev
  | [], _ => rfl
  | e :: b, h => by
    rw [List.foldl_cons]
    have : later name (some rev) e = some rev := by
      unfold later
      split
      · rename_i hn
        show (if rev < e.1.2 then _ else _) = _
        rw [if_neg (h e (.head _) hn)]
      · rfl
    rw [this]
    exact fold_after b fun x hx => h x (.tail _ hx)

theorem lookup_skip {α β : Type} [BEq α] [LawfulBEq α] {k : α} {v : β} : ∀ {a b : List (α × β)}, (∀ e ∈ a, e.1 ≠ k) →
    (a ++ (k, v) :: b).lookup k = some v
  | [], b, _ => by simp
  | (k', v') :: a, b, h => by
    have hb : (k == k') = false := by
      have := h _ (.head _)
      simpa using fun e => this e.symm
    rw [List.cons_append, List.lookup_cons, hb]
    exact lookup_skip fun e he => h e (.tail _ he)

theorem newest_eq {ms : Modules} {name : String} {m : Module} (h : Newest ms name m) :
    ∃ rev, latestRevision ms name = some rev ∧ ms.lookup (name, rev) = some m ∧ m.validated = true := by
  obtain ⟨a, b, rev, rfl, hv, ha, hb⟩ := h
  refine ⟨rev, ?_, ?_, hv⟩
  · show (a ++ ((name, rev), m) :: b).foldl (later name) none = some rev
    rw [List.foldl_append, List.foldl_cons]
    have h1 := fold_before a none (by simp) ha
    have : later name (a.foldl (later name) none) ((name, rev), m) = some rev := by
      generalize hf : a.foldl (later name) none = acc at h1
      unfold later
      rw [if_pos rfl]
      cases acc with
      | none => rfl
      | some l =>
        show (if l < rev then _ else _) = _
        rw [if_pos (h1 l rfl)]
    rw [this]
    exact fold_after b hb
  · refine lookup_skip fun e he hk => ?_
    have := ha e he (by rw [hk])
    rw [hk] at this
    exact absurd this (String.lt_irrefl _)

/-! ## Splitting -/

theorem splitOn_head {c : Char} {n y : List Char} (h : c ∉ n) :
    ∃ u v, splitOn c y = u :: v ∧ splitOn c (n ++ y) = (n ++ u) :: v := by
  induction n with
  | nil =>
    cases hs : splitOn c y with
    | nil => exact absurd hs (splitOn_ne y)
    | cons u v => exact ⟨u, v, rfl, hs⟩
  | cons x n ih =>
    rw [List.mem_cons, not_or] at h
    obtain ⟨u, v, h1, h2⟩ := ih h.2
    exact ⟨u, v, h1, by rw [List.cons_append, splitOn, if_neg (Ne.symm h.1), h2]; rfl⟩

theorem splitOn_bracket {c : Char} {n w : List Char} (h : c ∉ n) (hc : c ≠ '[') :
    ∃ u v, splitOn c (n ++ '[' :: w) = (n ++ '[' :: u) :: v := by
  obtain ⟨u, v, _, h2⟩ := splitOn_head (c := c) (n := n ++ ['[']) (y := w) (by simp [h, hc])
  exact ⟨u, v, by simpa using h2⟩

/-- A path of names. -/
def slashed (segs : List (List Char)) : List Char := segs.flatMap ('/' :: ·)

theorem splitOn_slashed : ∀ {segs : List (List Char)}, (∀ s ∈ segs, '/' ∉ s) → splitOn '/' (slashed segs) = [] :: segs
  | [], _ => rfl
  | s :: r, h => by
    have ih := splitOn_slashed (segs := r) fun x hx => h x (.tail _ hx)
    obtain ⟨u, v, h1, h2⟩ := splitOn_head (c := '/') (n := s) (y := slashed r) (h s (.head _))
    rw [ih] at h1
    cases h1
    show splitOn '/' ('/' :: (s ++ slashed r)) = _
    rw [splitOn, if_pos rfl, h2, List.append_nil]

/-! ## Names -/

theorem Ident.free {n : List Char} (h : Ident n) : '/' ∉ n ∧ ':' ∉ n ∧ '[' ∉ n := by
  refine ⟨?_, ?_, ?_⟩ <;> intro hm <;> rcases h.2 _ hm with h | h | h | h | h <;> revert h <;> decide

/-- What a path has for a tag. -/
def Seg (d : Device) (q : QName) (t : List Char) : Prop :=
  ∃ m ∈ d.namespaces, m.2.2 = q.ns ∧ Ident q.name.toList ∧ t = m.2.1.toList ++ ':' :: q.name.toList

theorem Seg.free {d : Device} (hi : ModuleIdents d) {q : QName} {t : List Char} (h : Seg d q t) : '/' ∉ t ∧ t ≠ [] := by
  obtain ⟨m, hm, _, hn, rfl⟩ := h
  have h1 := Ident.free (hi m hm).2
  have h2 := Ident.free hn
  refine ⟨?_, by simp⟩
  intro hx
  rcases List.mem_append.1 hx with hx | hx
  · exact h1.1 hx
  · rcases List.mem_cons.1 hx with hx | hx
    · exact absurd hx (by decide)
    · exact h2.1 hx

theorem Agree.down {d : Device} {ns : List (String × String)} {kids : List Stmt} (h : Agree d ns kids) {s : Stmt}
    (hs : s ∈ kids) : Agree d ns s.kids := by
  have hl : ∀ c x, Chain s.kids c → c.getLast? = some x → (s :: c).getLast? = some x := by
    intro c x hc hx
    cases c with
    | nil => cases hc
    | cons y c => rw [List.getLast?_cons_cons]; exact hx
  refine ⟨h.unique, h.idents, ?_, ?_, ?_, ?_⟩
  · exact fun c x hc hx => h.names _ _ (.more hs hc) (hl c x hc hx)
  · exact fun c x hc hx => h.known _ _ (.more hs hc) (hl c x hc hx)
  · exact h.below [s] s (.one hs) rfl
  · exact fun c x hc hx => h.below _ _ (.more hs hc) (hl c x hc hx)

theorem distinct_eq {ns : List (String × String)} : ∀ {l : List Stmt}, DistinctNames ns l → ∀ {a b : Stmt}, a ∈ l → b ∈ l →
    a.info.arg = b.info.arg → ns.lookup a.info.module = ns.lookup b.info.module → a = b := by
  intro l
  induction l with
  | nil => intro _ a b ha; cases ha
  | cons x l ih =>
    intro hd a b ha hb h1 h2
    obtain ⟨hx, hl⟩ := List.pairwise_cons.1 hd
    rcases List.mem_cons.1 ha with rfl | ha'
    · rcases List.mem_cons.1 hb with rfl | hb'
      · rfl
      · exact absurd ⟨h1, h2⟩ (hx b hb')
    · rcases List.mem_cons.1 hb with rfl | hb'
      · exact absurd ⟨h1.symm, h2.symm⟩ (hx a ha')
      · exact ih hl ha' hb' h1 h2

theorem prefix_row {d : Device} (hu : UniqueNamespaces d) {a b : Entry} (ha : a ∈ d.namespaces) (hb : b ∈ d.namespaces)
    (h : a.2.1 = b.2.1) : a = b :=
  List.inj_on_of_nodup_map (hu.unique .prefix) ha hb h

theorem url_row {d : Device} (hu : UniqueNamespaces d) {a b : Entry} (ha : a ∈ d.namespaces) (hb : b ∈ d.namespaces)
    (h : a.2.2 = b.2.2) : a = b :=
  List.inj_on_of_nodup_map (hu.unique .url) ha hb h

theorem getChild_iff {d : Device} {ns : List (String × String)} {kids : List Stmt} (h : Agree d ns kids) {rp : String}
    {q : QName} {t : List Char} (ht : Seg d q t) {s : Stmt} :
    getChild rp kids t = some s ↔ s ∈ kids ∧ Named ns q s := by
  obtain ⟨m, hm, hq, hn, rfl⟩ := ht
  have hc1 := (Ident.free (h.idents m hm).2).2.1
  have hc2 := (Ident.free hn).2.1
  have hsp : splitOn ':' (m.2.1.toList ++ ':' :: q.name.toList) = [m.2.1.toList, q.name.toList] := by
    rw [splitOn_append hc1, splitOn_plain hc2]
  have key : ∀ x ∈ kids, (x.info.arg.toList = q.name.toList ∧ x.info.modulePrefix.toList = m.2.1.toList) ↔
      Named ns q x := by
    intro x hx
    obtain ⟨e, he, hp, hl⟩ := h.known [x] x (.one hx) rfl
    constructor
    · rintro ⟨h1, h2⟩
      have h2 : x.info.modulePrefix = m.2.1 := String.toList_injective h2
      obtain rfl := prefix_row h.unique he hm (hp.trans h2)
      exact ⟨by rw [hl, hq], (String.toList_injective h1).symm⟩
    · rintro ⟨h1, h2⟩
      rw [hl] at h1
      obtain rfl := url_row h.unique he hm ((Option.some.inj h1).trans hq.symm)
      exact ⟨by rw [h2], by rw [hp]⟩
  unfold getChild
  rw [hsp]
  show kids.find? _ = some s ↔ _
  constructor
  · intro hf
    have h1 := List.mem_of_find?_eq_some hf
    have h2 := List.find?_some hf
    exact ⟨h1, (key s h1).1 (by simpa using h2)⟩
  · rintro ⟨h1, h2⟩
    cases hf : kids.find? fun c => decide (c.info.arg.toList = q.name.toList ∧ c.info.modulePrefix.toList = m.2.1.toList) with
    | none =>
      have := List.find?_eq_none.1 hf s h1
      exact absurd ((key s h1).2 h2) (by simpa using this)
    | some x =>
      have hx := List.mem_of_find?_eq_some hf
      have hx2 := (key x hx).1 (by simpa using List.find?_some hf)
      rw [distinct_eq h.top hx h1 (hx2.2.symm.trans h2.2) (hx2.1.trans h2.1.symm)]

theorem follow_iff {d : Device} {ns : List (String × String)} {rp : String} : ∀ {path : List QName} {segs : List (List Char)},
    List.Forall₂ (Seg d) path segs → ∀ {kids : List Stmt}, Agree d ns kids → ∀ {s : Stmt},
    follow rp kids segs = some s ↔ StatementAt ns kids path s := by
  intro path segs hs
  induction hs with
  | nil =>
    intro kids _ s
    constructor
    · intro h; cases h
    · rintro ⟨c, hc, _, hf⟩
      cases hf
      cases hc
  | @cons q t path segs ht hr ih =>
    intro kids ha s
    cases hr with
    | nil =>
      rw [follow, getChild_iff ha ht]
      constructor
      · rintro ⟨h1, h2⟩
        exact ⟨[s], .one h1, rfl, .cons h2 .nil⟩
      · rintro ⟨c, hc, hl, hf⟩
        cases hf with
        | cons hn hf =>
          cases hf
          cases hl
          cases hc with
          | one h => exact ⟨h, hn⟩
          | more _ h => cases h
    | @cons q' t' path segs ht' hr =>
      have ih := @ih
      rw [follow]
      swap
      · simp
      constructor
      · intro h
        split at h
        · cases h
        · rename_i x hx
          obtain ⟨h1, h2⟩ := (getChild_iff ha ht).1 hx
          obtain ⟨c, hc, hl, hf⟩ := (ih (ha.down h1)).1 h
          refine ⟨x :: c, .more h1 hc, ?_, .cons h2 hf⟩
          cases c with
          | nil => cases hc
          | cons y c => rw [List.getLast?_cons_cons]; exact hl
      · rintro ⟨c, hc, hl, hf⟩
        cases hf with
        | @cons _ x _ c hn hf =>
          cases hc with
          | one h => cases hf
          | more h hc =>
            rw [(getChild_iff (rp := rp) ha ht).2 ⟨h, hn⟩]
            refine (ih (ha.down h)).2 ⟨c, hc, ?_, hf⟩
            cases c with
            | nil => cases hc
            | cons y c => rw [List.getLast?_cons_cons] at hl; exact hl

theorem getChild_bad {d : Device} {ns : List (String × String)} {kids : List Stmt} (h : Agree d ns kids) {rp : String}
    {p n w : List Char} (hp : ':' ∉ p) (hn : ':' ∉ n) : getChild rp kids (p ++ ':' :: (n ++ '[' :: w)) = none := by
  obtain ⟨u, v, huv⟩ := splitOn_bracket (c := ':') (n := n) (w := w) hn (by decide)
  unfold getChild
  rw [splitOn_append hp, huv]
  show kids.find? _ = none
  rw [List.find?_eq_none]
  intro x hx hc
  have := (of_decide_eq_true hc).1
  have hid := (Ident.free (h.names [x] x (.one hx) rfl)).2.2
  rw [this] at hid
  exact hid (by simp)

theorem follow_bad {d : Device} {ns : List (String × String)} {rp : String} {p n w : List Char} (hp : ':' ∉ p) (hn : ':' ∉ n)
    {more : List (List Char)} : ∀ (path : List QName) (segs : List (List Char)), List.Forall₂ (Seg d) path segs →
    ∀ {kids : List Stmt}, Agree d ns kids →
    follow rp kids (segs ++ (p ++ ':' :: (n ++ '[' :: w)) :: more) = none := by
  intro path segs hs
  induction hs with
  | nil =>
    intro kids ha
    rw [List.nil_append]
    cases more with
    | nil => rw [follow]; exact getChild_bad ha hp hn
    | cons y r => rw [follow, getChild_bad ha hp hn]; simp
  | @cons q t path segs ht hr ih =>
    intro kids ha
    rw [List.cons_append, follow]
    · split
      · rfl
      · rename_i x hx
        exact ih (ha.down ((getChild_iff ha ht).1 hx).1)
    · cases segs <;> simp

/-! ## XPaths -/

theorem convert_seg {d : Device} (hu : UniqueNamespaces d) {dflt : Option Entry} (hd : ∀ e, dflt = some e → e ∈ d.namespaces)
    {q : QName} (hq : Ident q.name.toList ∧ ∃ m ∈ d.namespaces, m.2.2 = q.ns) :
    ∃ m ∈ d.namespaces, m.2.2 = q.ns ∧ convertTag d (writtenNs .url dflt) q.clark .lxmlEtree .lxmlXpath =
      .ok (writtenNs .url (some m), m.2.1.toList ++ ':' :: q.name.toList) := by
  obtain ⟨hn, m, hm, hq⟩ := hq
  refine ⟨m, hm, hq, ?_⟩
  rw [convertTag_clark hu .lxmlXpath hd hm hq hn]
  unfold written
  rw [if_neg (by simp [TagNotation.lxmlXpath])]
  simp [TagNotation.lxmlXpath, nsPart, writtenNs]

theorem schemaXpath_eq {d : Device} (hu : UniqueNamespaces d) : ∀ {path : List QName}, PathKnown d path →
    ∀ {dflt : Option Entry}, (∀ e, dflt = some e → e ∈ d.namespaces) →
    ∃ segs, schemaXpath d .lxmlXpath (writtenNs .url dflt) path = .ok (slashed segs) ∧ List.Forall₂ (Seg d) path segs
  | [], _, _, _ => ⟨[], rfl, .nil⟩
  | q :: r, hk, dflt, hd => by
    obtain ⟨m, hm, hq, hc⟩ := convert_seg hu hd (hk q (.head _))
    obtain ⟨segs, h1, h2⟩ := schemaXpath_eq hu (path := r) (fun x hx => hk x (.tail _ hx)) (dflt := some m)
      (fun e he => by cases he; exact hm)
    refine ⟨_ :: segs, ?_, .cons ⟨m, hm, hq, (hk q (.head _)).1, rfl⟩ h2⟩
    rw [schemaXpath, hc]
    show (schemaXpath d .lxmlXpath (writtenNs .url (some m)) r >>= _) = _
    rw [h1]
    rfl

theorem contextStatement_eq {ms : Modules} {name : String} {m : Module} (h : Newest ms name m) {x : List Char}
    {n : List Char} {r : List (List Char)} (hx : splitOn '/' x = [] :: n :: r) (hn : n ≠ []) :
    contextStatement ms name x = follow m.pfx m.kids (n :: r) := by
  obtain ⟨rev, h1, h2, h3⟩ := newest_eq h
  unfold contextStatement
  rw [h1]
  show (match ms.lookup (name, rev) with | none => _ | some m => _) = _
  rw [h2]
  show (if m.validated = true then _ else _) = _
  rw [if_pos h3, hx]
  cases n with
  | nil => exact absurd rfl hn
  | cons c n => rfl

theorem contextStatement_segs {ms : Modules} {name : String} {m : Module} (h : Newest ms name m) {d : Device}
    (hi : ModuleIdents d) {path : List QName} (hp : path ≠ []) {segs : List (List Char)}
    (hs : List.Forall₂ (Seg d) path segs) : contextStatement ms name (slashed segs) = follow m.pfx m.kids segs := by
  have hfree : ∀ s ∈ segs, '/' ∉ s ∧ s ≠ [] := by
    clear hp
    induction hs with
    | nil => intro s h; cases h
    | cons hq _ ih =>
      intro s h
      rcases List.mem_cons.1 h with rfl | h
      · exact hq.free hi
      · exact ih s h
  cases segs with
  | nil => cases hs; exact absurd rfl hp
  | cons n r =>
    exact contextStatement_eq h (splitOn_slashed fun s hs => (hfree s hs).1) (hfree n (.head _)).2

theorem keyPredicates_text {d : Device} {ty : TagNotation} {dflt : String} {node : Elem} : ∀ {keys : List QName} {ps : List Char},
    keyPredicates d ty dflt node keys = .ok ps →
    ((∃ q ∈ keys, ∃ x, node.find q = some x) → ∃ w, ps = '[' :: w) ∧ ((∀ q ∈ keys, node.find q = none) → ps = [])
  | [], ps, h => by
    cases h
    exact ⟨fun h => (by obtain ⟨q, hq, _⟩ := h; cases hq), fun _ => rfl⟩
  | k :: r, ps, h => by
    rw [keyPredicates] at h
    obtain ⟨id, _, h⟩ := bind_ok.1 h
    obtain ⟨rest, hrest, h⟩ := bind_ok.1 h
    obtain ⟨ih1, ih2⟩ := keyPredicates_text hrest
    cases hf : node.find k with
    | some c =>
      rw [hf] at h
      cases h
      exact ⟨fun _ => ⟨_, rfl⟩, fun h => by have := h k (.head _); rw [hf] at this; cases this⟩
    | none =>
      rw [hf] at h
      cases h
      refine ⟨?_, fun h => ih2 fun q hq => h q (.tail _ hq)⟩
      rintro ⟨q, hq, x, hx⟩
      rcases List.mem_cons.1 hq with rfl | hq
      · rw [hf] at hx; cases hx
      · exact ih1 ⟨q, hq, x, hx⟩

theorem convertNodes_eq {d : Device} (hu : UniqueNamespaces d) (hi : ModuleIdents d) :
    ∀ {pos : List Nat} {sc : Scope} {e : Elem} {x : List Char} {dflt : Option Entry},
    (∀ e, dflt = some e → e ∈ d.namespaces) → PathKnown d (tagsTo e pos) →
    convertNodes d .lxmlXpath false pos sc (writtenNs .url dflt) e = .ok x →
    (¬ EntryAbove d sc e pos → ∃ segs, x = slashed segs ∧ List.Forall₂ (Seg d) (tagsTo e pos) segs) ∧
    (EntryAbove d sc e pos → ∃ path segs p n w more, splitOn '/' x = [] :: (segs ++ (p ++ ':' :: (n ++ '[' :: w)) :: more) ∧
      List.Forall₂ (Seg d) path segs ∧ ':' ∉ p ∧ ':' ∉ n)
  | [], sc, e, x, dflt, _, _, h => by
    cases h
    exact ⟨fun _ => ⟨[], rfl, .nil⟩, fun h => by cases h⟩
  | i :: r, sc, e, x, dflt, hd, hk, h => by
    rw [convertNodes] at h
    cases hi' : e.kids[i]? with
    | none => rw [hi'] at h; cases h
    | some k =>
      rw [hi'] at h
      have htags : tagsTo e (i :: r) = k.tag :: tagsTo k r := by rw [tagsTo, hi']
      rw [htags] at hk ⊢
      obtain ⟨m, hm, hq, hc⟩ := convert_seg hu hd (hk _ (.head _))
      obtain ⟨p, hp, h⟩ := bind_ok.1 h
      rw [hc] at hp
      obtain rfl := Except.ok.inj hp
      obtain ⟨f, hf, h⟩ := bind_ok.1 h
      obtain ⟨ps, hps, h⟩ := bind_ok.1 h
      obtain ⟨rest, hrest, h⟩ := bind_ok.1 h
      obtain rfl := Except.ok.inj h
      obtain ⟨ih1, ih2⟩ := convertNodes_eq hu hi (dflt := some m) (fun e he => by cases he; exact hm)
        (fun y hy => hk y (.tail _ hy)) hrest
      have hseg : Seg d k.tag (m.2.1.toList ++ ':' :: k.tag.name.toList) := ⟨m, hm, hq, (hk _ (.head _)).1, rfl⟩
      have hfree := hseg.free hi
      -- the predicates
      have hpred : (∃ w, ps = '[' :: w ∧ EntryAbove d sc e (i :: r)) ∨
          (ps = [] ∧ (EntryAbove d sc e (i :: r) → EntryAbove d (.node f.node) k r)) := by
        unfold predicatesOf at hps
        have hinv : (r = [] ∨ (f.node.ntype ≠ .leafList ∧
            (f.node.ntype = .list → ∀ q ∈ f.node.keys, k.find q = none))) →
            EntryAbove d sc e (i :: r) → EntryAbove d (.node f.node) k r := by
          intro hno h
          cases h with
          | @entry _ _ _ _ k' f' q h1 h2 h3 h4 h5 h6 =>
            rw [hi'] at h1
            cases h1
            rw [hf] at h3
            cases h3
            rcases hno with hno | ⟨_, hno⟩
            · exact absurd hno h2
            · obtain ⟨y, hy⟩ := h6
              rw [hno h4 q h5] at hy
              cases hy
          | @value _ _ _ _ k' f' h1 h2 h3 h4 =>
            rw [hi'] at h1
            cases h1
            rw [hf] at h3
            cases h3
            rcases hno with hno | ⟨hno, _⟩
            · exact absurd hno h2
            · exact absurd h4 hno
          | @deeper _ _ _ _ k' f' h1 h3 h4 =>
            rw [hi'] at h1
            cases h1
            rw [hf] at h3
            cases h3
            exact h4
        cases r with
        | nil =>
          simp only [List.isEmpty_nil, Bool.not_false, Bool.and_self, Bool.not_true, Bool.false_eq_true, and_false,
            if_false] at hps
          cases hps
          exact Or.inr ⟨rfl, hinv (.inl rfl)⟩
        | cons j r =>
          have hw : (!((j :: r).isEmpty && !false)) = true := rfl
          rw [hw] at hps
          by_cases h1 : f.node.ntype = .leafList
          · rw [if_pos ⟨h1, rfl⟩] at hps
            cases hps
            exact Or.inl ⟨_, rfl, .value hi' (by simp) hf h1⟩
          · rw [if_neg (fun h => h1 h.1)] at hps
            by_cases h2 : f.node.ntype = .list
            · rw [if_pos ⟨h2, rfl⟩] at hps
              obtain ⟨k1, k2⟩ := keyPredicates_text hps
              by_cases h3 : ∃ q ∈ f.node.keys, ∃ y, k.find q = some y
              · obtain ⟨w, hw⟩ := k1 h3
                obtain ⟨q, hq, hy⟩ := h3
                exact Or.inl ⟨w, hw, .entry hi' (by simp) hf h2 hq hy⟩
              · have hno : ∀ q ∈ f.node.keys, k.find q = none := by
                  intro q hq
                  cases hy : k.find q with
                  | none => rfl
                  | some y => exact absurd ⟨q, hq, y, hy⟩ h3
                exact Or.inr ⟨k2 hno, hinv (.inr ⟨h1, fun _ => hno⟩)⟩
            · rw [if_neg (fun h => h2 h.1)] at hps
              cases hps
              exact Or.inr ⟨rfl, hinv (.inr ⟨h1, fun h => absurd h h2⟩)⟩
      rcases hpred with ⟨w, rfl, hab⟩ | ⟨rfl, hinv⟩
      · refine ⟨fun h => absurd hab h, fun _ => ?_⟩
        obtain ⟨u, v, huv⟩ := splitOn_bracket (c := '/') (n := m.2.1.toList ++ ':' :: k.tag.name.toList) (w := w ++ rest)
          hfree.1 (by decide)
        refine ⟨[], [], m.2.1.toList, k.tag.name.toList, u, v, ?_, .nil, (Ident.free (hi m hm).2).2.1,
          (Ident.free (hk _ (.head _)).1).2.1⟩
        show splitOn '/' ('/' :: (((m.2.1.toList ++ ':' :: k.tag.name.toList) ++ '[' :: w) ++ rest)) = _
        rw [splitOn, if_pos rfl, List.append_assoc, List.cons_append, huv]
        simp
      · constructor
        · intro hno
          obtain ⟨segs, hx, hs⟩ := ih1 fun h => hno (.deeper hi' hf h)
          refine ⟨_ :: segs, ?_, .cons hseg hs⟩
          rw [hx]
          simp [slashed]
        · intro hab
          obtain ⟨path, segs, p, n, w, more, h1, h2, h3, h4⟩ := ih2 (hinv hab)
          obtain ⟨u, v, hu1, hu2⟩ := splitOn_head (c := '/') (n := m.2.1.toList ++ ':' :: k.tag.name.toList) (y := rest) hfree.1
          rw [h1] at hu1
          cases hu1
          refine ⟨k.tag :: path, _ :: segs, p, n, w, more, ?_, .cons hseg h2, h3, h4⟩
          show splitOn '/' ('/' :: (((m.2.1.toList ++ ':' :: k.tag.name.toList) ++ []) ++ rest)) = _
          rw [List.append_nil, splitOn, if_pos rfl, hu2, List.append_nil]
          rfl

end NcDiff.Statement
