import Verif.Proof.XPath
import Verif.Proof.Laws
import Verif.Proof.At
/-! # The path of a node -/

namespace NcDiff

open XPath

/-! ## Names -/

theorem Ident.nodeName {n : List Char} (h : Ident n) : NodeName n := by
  obtain ⟨⟨c, r, rfl, _⟩, ha⟩ := h
  refine ⟨by simp, ?_, ?_, ?_⟩ <;> intro hm <;> rcases ha _ hm with h | h | h | h | h <;> revert h <;> decide

theorem Ident.chars {n : List Char} (h : Ident n) : ∀ c ∈ n, nameChar c = true := by
  intro c hc
  rcases h.2 c hc with h | h | h | h | h <;> simp [nameChar, nameStart, h]

theorem Ident.start {n : List Char} (h : Ident n) : ∃ c r, n = c :: r ∧ nameStart c = true := by
  obtain ⟨⟨c, r, rfl, hc⟩, _⟩ := h
  exact ⟨c, r, rfl, by rcases hc with h | h <;> simp [nameStart, h]⟩

theorem Ident.name {n : List Char} (h : Ident n) : Name n := ⟨h.start, h.chars⟩

/-- The notation is one of prefixes or module names, with colons. -/
theorem PathNotation.colon {ty : TagNotation} (h : PathNotation ty) : ty.style = .colon ∧ ty.field ≠ .url := by
  rcases h with rfl | rfl | rfl | rfl <;> exact ⟨rfl, by decide⟩

theorem ModuleIdents.field {d : Device} (h : ModuleIdents d) {ty : TagNotation} (ht : PathNotation ty)
    {m : Entry} (hm : m ∈ d.namespaces) : Ident (nsPart ty.field m).toList := by
  have hf := ht.colon.2
  cases e : ty.field with
  | name => exact (h m hm).1
  | «prefix» => exact (h m hm).2
  | url => exact absurd e hf

theorem written_name {d : Device} (hi : ModuleIdents d) {ty : TagNotation} (ht : PathNotation ty)
    {dflt : Option Entry} {m : Entry} (hm : m ∈ d.namespaces) {n : List Char} (hn : Ident n) :
    Name (written ty dflt m n) := by
  unfold written
  split
  · exact hn.name
  · rw [ht.colon.1]
    have hp := hi.field ht hm
    obtain ⟨c, r, hc, hs⟩ := hp.start
    refine ⟨⟨c, r ++ [':'] ++ n, by simp [hc], hs⟩, ?_⟩
    intro x hx
    simp only [List.append_assoc, List.mem_append, List.mem_singleton] at hx
    rcases hx with hx | rfl | hx
    · exact hp.chars x hx
    · decide
    · exact hn.chars x hx

theorem takeWhile_colon {p n : List Char} (hp : ':' ∉ p) :
    (p ++ ':' :: n).takeWhile (· ≠ ':') = p ∧ (p ++ ':' :: n).dropWhile (· ≠ ':') = ':' :: n := by
  induction p with
  | nil => simp
  | cons c p ih =>
    have hc : c ≠ ':' := fun e => hp (by simp [e])
    have := ih (fun h => hp (by simp [h]))
    simp only [List.cons_append, List.takeWhile_cons, List.dropWhile_cons, hc, ne_eq, not_false_eq_true,
      decide_true, if_true]
    exact ⟨by rw [this.1], this.2⟩

theorem dropWhile_none {n : List Char} (hn : ':' ∉ n) : n.dropWhile (· ≠ ':') = [] := by
  induction n with
  | nil => rfl
  | cons c n ih =>
    have hc : c ≠ ':' := fun e => hn (by simp [e])
    rw [List.dropWhile_cons, if_pos (by simpa using hc)]
    exact ih fun h => hn (by simp [h])

theorem table_lookup {d : Device} (hu : UniqueNamespaces d) (f : NsField) {m : Entry} (hm : m ∈ d.namespaces) :
    (d.namespaces.map fun e => (nsPart f e, e.2.2)).lookup (nsPart f m) = some m.2.2 := by
  have := lookup_of_nodup (q := (nsPart f m, m.2.2))
    (l := d.namespaces.map fun e => (nsPart f e, e.2.2)) (by
      rw [List.map_map]
      exact hu.unique f) (List.mem_map.mpr ⟨m, hm, rfl⟩)
  exact this

/-- A name that is written is read as the tag. -/
theorem read_written {d : Device} (hu : UniqueNamespaces d) (hi : ModuleIdents d) {ty : TagNotation}
    (ht : PathNotation ty) {dflt : Option Entry} {m : Entry} (hm : m ∈ d.namespaces) {n : String}
    (hn : Ident n.toList) :
    (readerOf d ty).tag (writtenNs .url dflt) (written ty dflt m n.toList) = some ⟨m.2.2, n⟩ := by
  unfold written
  split
  · rename_i h
    unfold Reader.tag splitName
    rw [dropWhile_none hn.nodeName.2.1]
    simp only [readerOf, h.1, ne_eq, not_false_eq_true, decide_true, if_true, h.2, writtenNs, nsPart]
    simp
  · rw [ht.colon.1]
    have hp := (hi.field ht hm).nodeName
    have e : (nsPart ty.field m).toList ++ [':'] ++ n.toList =
        (nsPart ty.field m).toList ++ ':' :: n.toList := by simp
    simp only [e]
    unfold Reader.tag splitName
    rw [(takeWhile_colon hp.2.1).2, (takeWhile_colon hp.2.1).1]
    simp only
    rw [if_neg (by
      rintro (h | h | h)
      · exact hp.1 h
      · exact hn.nodeName.1 h
      · exact hn.nodeName.2.1 h)]
    simp only [String.ofList_toList, readerOf]
    rw [table_lookup hu _ hm]
    rfl

theorem clark_written {d : Device} (hu : UniqueNamespaces d) {q : QName} {m : Entry} (hm : m ∈ d.namespaces)
    (hq : m.2.2 = q.ns) (dflt : Option Entry) :
    q.clark = written .lxmlEtree dflt m q.name.toList := by
  have hne : q.ns ≠ "" := hq ▸ hu.nonempty m hm .url
  unfold QName.clark written
  rw [if_neg hne, if_neg (by simp [TagNotation.lxmlEtree])]
  simp [TagNotation.lxmlEtree, Style.render, nsPart, hq]

/-- What a path writes for a tag. -/
theorem convertTag_clark {d : Device} (hu : UniqueNamespaces d) (ty : TagNotation) {dflt : Option Entry}
    (hd : ∀ e, dflt = some e → e ∈ d.namespaces) {q : QName} {m : Entry} (hm : m ∈ d.namespaces)
    (hq : m.2.2 = q.ns) (hn : Ident q.name.toList) :
    convertTag d (writtenNs .url dflt) q.clark .lxmlEtree ty = .ok (m.2.2, written ty dflt m q.name.toList) := by
  rw [clark_written hu hm hq dflt]
  exact convertTag_written (src := .lxmlEtree) hu (fun e he => .inl (hd e he)) (.inl hm) hn.nodeName

/-! ## Predicates -/

/-- The conditions hold at `y` exactly if `y` has, for every key, a child with the text. -/
def HasTexts (k y : Elem) (keys : List QName) : Prop :=
  ∀ q ∈ keys, ∃ c ∈ y.kids, c.tag = q ∧ ∃ t, keyTexts k q = [some t] ∧ c.itertext = t

theorem predicate_child (n : List Char) (t : String) :
    predicate n (some t) = condText (.child n t.toList) := rfl

theorem predicate_text (t : String) : predicate "text()".toList (some t) = condText (.text t.toList) := rfl

theorem keyPredicates_eq {d : Device} (hu : UniqueNamespaces d) (hi : ModuleIdents d) {ty : TagNotation}
    (ht : PathNotation ty) {m : Entry} (hm : m ∈ d.namespaces) {k : Elem} :
    ∀ {keys : List QName},
    (∀ q ∈ keys, Ident q.name.toList ∧ (∃ m ∈ d.namespaces, m.2.2 = q.ns) ∧
      ∃ c t, k.childrenWith q = [c] ∧ c.text = some t ∧ '"' ∉ t.toList) →
    ∃ cs rs, keyPredicates d ty m.2.2 k keys = .ok (predsText cs) ∧ (∀ c ∈ cs, CondOk c) ∧
      cs.mapM ((readerOf d ty).cond m.2.2) = some rs ∧
      ∀ y, (∀ c ∈ rs, Cond.holds y c = true) ↔ HasTexts k y keys
  | [], _ => ⟨[], [], rfl, by simp, rfl, by simp [HasTexts]⟩
  | q :: keys, h => by
    obtain ⟨hq, ⟨mq, hmq, hns⟩, c, t, hc, htx, hquo⟩ := h q (by simp)
    obtain ⟨cs, rs, h1, h2, h3, h4⟩ := keyPredicates_eq hu hi ht hm (k := k) (keys := keys)
      (fun q' hq' => h q' (List.mem_cons_of_mem _ hq'))
    refine ⟨.child (written ty (some m) mq q.name.toList) t.toList :: cs, .child q t.toList :: rs, ?_, ?_, ?_, ?_⟩
    · have hconv := convertTag_clark hu ty (dflt := some m) (by rintro e ⟨⟩; exact hm) hmq hns hq
      rw [keyPredicates]
      rw [show writtenNs .url (some m) = m.2.2 from rfl] at hconv
      rw [hconv, h1, find_childrenWith hc]
      simp only [bind, Except.bind, htx, predicate_child]
      rfl
    · intro c' hc'
      rcases List.mem_cons.mp hc' with rfl | hc'
      · exact ⟨written_name hi ht hmq hq, hquo⟩
      · exact h2 c' hc'
    · have hr := read_written hu hi ht (dflt := some m) hmq hq
      rw [show writtenNs .url (some m) = m.2.2 from rfl] at hr
      rw [List.mapM_cons, h3]
      simp only [Reader.cond, hr]
      rw [hns]
      rfl
    · intro y
      rw [List.forall_mem_cons, h4 y]
      unfold HasTexts
      rw [List.forall_mem_cons]
      refine and_congr_left fun _ => ?_
      have hkt : keyTexts k q = [some t] := by simp [keyTexts, hc, htx]
      simp only [Cond.holds, List.any_eq_true, decide_eq_true_eq, String.ofList_toList, hkt]
      constructor
      · rintro ⟨x, hx, h1, h2⟩
        exact ⟨x, hx, h1, t, rfl, h2⟩
      · rintro ⟨x, hx, h1, t', ht', h2⟩
        simp only [List.cons.injEq, Option.some.injEq, and_true] at ht'
        exact ⟨x, hx, h1, by rw [ht', h2]⟩

/-! ## One step -/

/-- The hypotheses at a level. -/
structure Lvl (d : Device) (sc : Scope) (e : Elem) : Prop where
  valid : Valid d sc e
  plain : PlainKeys d sc e
  names : Deep d (PathNames d) sc e
  quot : Deep d (Quotable d) sc e

theorem PlainKeys.keys' {d : Device} {sc : Scope} {e : Elem} (h : PlainKeys d sc e) :
    ∀ k ∈ e.kids, ∀ f, d.lookup sc k.tag = .ok f → f.node.ntype = .list →
        ∀ q ∈ f.node.keys, ∃ g, d.lookup (.node f.node) q = .ok g ∧
          g.node.ntype = .leaf ∧ g.node.info.datatype.plain := by cases h; assumption

theorem PlainKeys.kid {d : Device} {sc : Scope} {e : Elem} (h : PlainKeys d sc e) :
    ∀ k ∈ e.kids, ∀ f, d.lookup sc k.tag = .ok f → PlainKeys d (.node f.node) k := by cases h; assumption

theorem Lvl.sub {d : Device} {sc : Scope} {e : Elem} (h : Lvl d sc e) {k : Elem} (hk : k ∈ e.kids) {f : Found}
    (hf : d.lookup sc k.tag = .ok f) : Lvl d (.node f.node) k :=
  ⟨h.valid.sub' k hk f hf, h.plain.kid k hk f hf, h.names.sub' k hk f hf, h.quot.sub' k hk f hf⟩

/-- The key leaf of a list entry. -/
theorem Lvl.key {d : Device} {sc : Scope} {e : Elem} (h : Lvl d sc e) {k : Elem} (hk : k ∈ e.kids) {f : Found}
    (hf : d.lookup sc k.tag = .ok f) (hl : f.node.ntype = .list) {q : QName} (hq : q ∈ f.node.keys) :
    ∃ c t, k.childrenWith q = [c] ∧ c.text = some t ∧ '"' ∉ t.toList ∧ c.itertext = t ∧
      Ident q.name.toList ∧ ∃ m ∈ d.namespaces, m.2.2 = q.ns := by
  obtain ⟨f', hf', hok⟩ := h.valid.shape' k hk
  obtain rfl : f' = f := by rw [hf] at hf'; exact (Except.ok.inj hf').symm
  unfold KidOk at hok
  rw [hl] at hok
  obtain ⟨c, hc⟩ := hok.2.2.1 q hq
  obtain ⟨hck, hct⟩ := childrenWith_single hc
  obtain ⟨t, ht, hquo⟩ := (h.quot.here' k hk f' hf).2 hl q hq c (by rw [hc]; simp)
  have hsub := h.sub hk hf
  obtain ⟨g, hg, hgl, _⟩ := h.plain.keys' k hk f' hf hl q hq
  obtain ⟨g', hg', hgok⟩ := hsub.valid.shape' c hck
  obtain rfl : g' = g := by rw [hct, hg] at hg'; exact (Except.ok.inj hg').symm
  unfold KidOk at hgok
  rw [hgl] at hgok
  obtain ⟨hid, hm⟩ := hsub.names.here' c hck
  rw [hct] at hid hm
  refine ⟨c, t, hc, ht, hquo, ?_, hid, hm⟩
  obtain ⟨ct, cn, ca, cx, ck⟩ := c
  obtain rfl : ck = [] := hgok.1
  obtain rfl : cx = some t := ht
  simp [Elem.itertext, Elem.itertextList]

theorem index_eq {d : Device} {sc : Scope} {e : Elem} (h : Valid d sc e) {i j : Nat} {x y : Elem}
    (hx : e.kids[i]? = some x) (hy : e.kids[j]? = some y) (hs : SameInstance d sc x y) : i = j := by
  have hp := List.pairwise_iff_getElem.mp h.unique'
  obtain ⟨hi, rfl⟩ := List.getElem?_eq_some_iff.mp hx
  obtain ⟨hj, rfl⟩ := List.getElem?_eq_some_iff.mp hy
  rcases Nat.lt_trichotomy i j with hlt | heq | hlt
  · exact absurd hs (hp i j hi hj hlt)
  · exact heq
  · exact absurd hs.symm (hp j i hj hi hlt)

theorem mapM_single {α β : Type} (f : α → Option β) : ∀ (cs : List α) {rs : List β}, cs.mapM f = some rs →
    (cs.map ([·])).mapM (fun l => l.mapM f) = some (rs.map ([·]))
  | [], rs, h => by
    obtain rfl : rs = [] := by simpa using h.symm
    rfl
  | c :: cs, rs, h => by
    rw [List.mapM_cons] at h
    cases hc : f c with
    | none => rw [hc] at h; cases h
    | some r =>
      cases hr : cs.mapM f with
      | none => rw [hc, hr] at h; cases h
      | some rr =>
        rw [hc, hr] at h
        obtain rfl : r :: rr = rs := Option.some.inj h
        rw [List.map_cons, List.mapM_cons, mapM_single f cs hr, List.mapM_cons, hc]
        rfl

theorem selects_iff {t : QName} {rs : List (Cond QName)} {x : Elem} :
    LStep.selects ⟨t, rs.map ([·])⟩ x = true ↔ x.tag = t ∧ ∀ c ∈ rs, Cond.holds x c = true := by
  simp [LStep.selects]

/-- The predicates written for a child single it out among its siblings. -/
theorem step_instance {d : Device} (hu : UniqueNamespaces d) (hi : ModuleIdents d) {ty : TagNotation}
    (ht : PathNotation ty) {sc : Scope} {e : Elem} (h : Lvl d sc e) {i : Nat} {k : Elem}
    (hk : e.kids[i]? = some k) {f : Found} (hf : d.lookup sc k.tag = .ok f) {m : Entry} (hm : m ∈ d.namespaces)
    (hns : m.2.2 = k.tag.ns) :
    ∃ cs rs, predicatesOf d ty m.2.2 true f.node k = .ok (predsText cs) ∧ (∀ c ∈ cs, CondOk c) ∧
      cs.mapM ((readerOf d ty).cond m.2.2) = some rs ∧
      ∀ j x, e.kids[j]? = some x → (LStep.selects ⟨k.tag, rs.map ([·])⟩ x = true ↔ j = i) := by
  have hmem : k ∈ e.kids := List.mem_of_getElem? hk
  obtain ⟨f', hf', hok⟩ := h.valid.shape' k hmem
  obtain rfl : f' = f := by rw [hf] at hf'; exact (Except.ok.inj hf').symm
  unfold predicatesOf
  by_cases hll : f'.node.ntype = .leafList
  · rw [if_pos ⟨hll, rfl⟩]
    obtain ⟨hpl, t, htx, htn, hquo⟩ := (h.quot.here' k hmem f' hf).1 hll
    refine ⟨[.text t.toList], [.text t.toList], ?_, by simpa [CondOk] using hquo, rfl, ?_⟩
    · rw [htx, predicate_text]
      simp [predsText]
    · intro j x hx
      rw [selects_iff]
      have htl : t.toList ≠ [] := by simpa using htn
      simp only [List.mem_singleton, forall_eq, Cond.holds, String.ofList_toList, decide_eq_true_eq]
      constructor
      · rintro ⟨htag, hxt, _⟩
        refine index_eq h.valid hx hk ⟨htag, fun g hg => ?_⟩
        obtain rfl : g = f' := by rw [htag, hf] at hg; exact (Except.ok.inj hg).symm
        rw [hll]
        simp only [parseText, hxt, htx]
        cases hdt : g.node.info.datatype <;> rw [hdt] at hpl <;> first | rfl | exact hpl.elim
      · rintro rfl
        obtain rfl : k = x := by rw [hk] at hx; exact Option.some.inj hx
        exact ⟨rfl, htx, htl⟩
  · rw [if_neg (fun hc => hll hc.1)]
    by_cases hl : f'.node.ntype = .list
    · rw [if_pos ⟨hl, rfl⟩]
      obtain ⟨cs, rs, h1, h2, h3, h4⟩ := keyPredicates_eq hu hi ht hm (k := k) (keys := f'.node.keys)
        (fun q hq => by
          obtain ⟨c, t, hc, htx, hquo, _, hid, hm'⟩ := h.key hmem hf hl hq
          exact ⟨hid, hm', c, t, hc, htx, hquo⟩)
      refine ⟨cs, rs, h1, h2, h3, fun j x hx => ?_⟩
      rw [selects_iff, h4]
      constructor
      · rintro ⟨htag, hh⟩
        refine index_eq h.valid hx hk ⟨htag, fun g hg => ?_⟩
        obtain rfl : g = f' := by rw [htag, hf] at hg; exact (Except.ok.inj hg).symm
        rw [hl]
        intro q hq
        obtain ⟨c, hc, hcq, t, hkt, hit⟩ := hh q hq
        rw [hkt]
        obtain ⟨c', t', hc', htx', _, hit', _⟩ := h.key (List.mem_of_getElem? hx) hg hl hq
        have : c ∈ x.childrenWith q := by simp [Elem.childrenWith, hc, hcq]
        rw [hc', List.mem_singleton] at this
        subst this
        have e : t' = t := by rw [← hit', hit]
        simp [keyTexts, hc', htx', e]
      · rintro rfl
        obtain rfl : k = x := by rw [hk] at hx; exact Option.some.inj hx
        refine ⟨rfl, fun q hq => ?_⟩
        obtain ⟨c, t, hc, htx, _, hit, _⟩ := h.key hmem hf hl hq
        obtain ⟨hck, hct⟩ := childrenWith_single hc
        exact ⟨c, hck, hct, t, by simp [keyTexts, hc, htx], hit⟩
    · rw [if_neg (fun hc => hl hc.1)]
      refine ⟨[], [], rfl, by simp, rfl, fun j x hx => ?_⟩
      rw [selects_iff]
      simp only [List.not_mem_nil, false_imp_iff, implies_true, and_true]
      constructor
      · intro htag
        refine index_eq h.valid hx hk ⟨htag, fun g hg => ?_⟩
        obtain rfl : g = f' := by rw [htag, hf] at hg; exact (Except.ok.inj hg).symm
        cases hn : g.node.ntype <;> simp_all
      · rintro rfl
        obtain rfl : k = x := by rw [hk] at hx; exact Option.some.inj hx
        rfl

/-! ## The whole path -/

theorem reader_step {rd : Reader} {ns : String} {n : List Char} {cs : List (Cond (List Char))}
    {rs : List (Cond QName)} {t : QName} {r : List (LStep (List Char))} {rr : List (LStep QName)}
    (hn : rd.tag ns n = some t) (hc : cs.mapM (rd.cond t.ns) = some rs) (hr : rd.steps t.ns r = some rr) :
    rd.steps ns (mkStep n cs :: r) = some (⟨t, rs.map ([·])⟩ :: rr) := by
  rw [Reader.steps]
  simp only [mkStep, hn]
  rw [mapM_single _ cs hc, hr]

/-- The steps that a path consists of, and what they select. -/
theorem path_instance {d : Device} (hu : UniqueNamespaces d) (hi : ModuleIdents d) {ty : TagNotation}
    (ht : PathNotation ty) : ∀ (pos : List Nat) {sc : Scope} {e x : Elem} {dflt : Option Entry},
    (∀ m, dflt = some m → m ∈ d.namespaces) → Lvl d sc e → e.at? pos = some x →
    ∃ ss rr, convertNodes d ty true pos sc (writtenNs .url dflt) e = .ok (pathText ss) ∧ PathOk ss ∧
      (readerOf d ty).steps (writtenNs .url dflt) (ss.map fun s => mkStep s.1 s.2) = some rr ∧
      select rr e = [pos]
  | [], sc, e, x, dflt, _, _, _ => ⟨[], [], rfl, by simp [PathOk], rfl, rfl⟩
  | i :: r, sc, e, x, dflt, hd, h, hx => by
    rw [Elem.at?] at hx
    cases hk : e.kids[i]? with
    | none => rw [hk] at hx; cases hx
    | some k =>
      rw [hk] at hx
      have hmem : k ∈ e.kids := List.mem_of_getElem? hk
      obtain ⟨f, hf, _⟩ := h.valid.shape' k hmem
      obtain ⟨hid, m, hm, hns⟩ := h.names.here' k hmem
      obtain ⟨ss, rr, h1, h2, h3, h4⟩ := path_instance hu hi ht r (dflt := some m)
        (by rintro e ⟨⟩; exact hm) (h.sub hmem hf) hx
      obtain ⟨cs, rs, g1, g2, g3, g4⟩ := step_instance hu hi ht h hk hf hm hns
      have hconv := convertTag_clark hu ty hd hm hns hid
      have hread := read_written hu hi ht (dflt := dflt) hm hid
      have hq : (⟨m.2.2, k.tag.name⟩ : QName) = k.tag := by rw [hns]
      rw [hq] at hread
      rw [show writtenNs .url (some m) = m.2.2 from rfl] at h1 h3
      refine ⟨(written ty dflt m k.tag.name.toList, cs) :: ss, ⟨k.tag, rs.map ([·])⟩ :: rr, ?_, ?_, ?_, ?_⟩
      · rw [convertNodes, hk]
        simp only [hconv, hf, bind, Except.bind, Bool.not_true, Bool.and_false, Bool.not_false, g1, h1]
        rfl
      · intro s hs
        rcases List.mem_cons.mp hs with rfl | hs
        · exact ⟨written_name hi ht hm hid, g2⟩
        · exact h2 s hs
      · rw [List.map_cons]
        exact reader_step hread (hns ▸ g3) (hns ▸ h3)
      · rw [select_one hk g4, h4]
        rfl

/-- The same without predicates at the last step. -/
theorem path_siblings {d : Device} (hu : UniqueNamespaces d) (hi : ModuleIdents d) {ty : TagNotation}
    (ht : PathNotation ty) : ∀ (pre : List Nat) (i : Nat) {sc : Scope} {e x : Elem} {dflt : Option Entry},
    (∀ m, dflt = some m → m ∈ d.namespaces) → Lvl d sc e → e.at? (pre ++ [i]) = some x →
    ∃ ss rr, convertNodes d ty false (pre ++ [i]) sc (writtenNs .url dflt) e = .ok (pathText ss) ∧ PathOk ss ∧
      (readerOf d ty).steps (writtenNs .url dflt) (ss.map fun s => mkStep s.1 s.2) = some rr ∧
      ∀ p, p ∈ select rr e ↔ ∃ j y, p = pre ++ [j] ∧ e.at? p = some y ∧ y.tag = x.tag
  | [], i, sc, e, x, dflt, hd, h, hx => by
    have hx0 := hx
    rw [List.nil_append, Elem.at?] at hx
    cases hk : e.kids[i]? with
    | none => rw [hk] at hx; cases hx
    | some k =>
      rw [hk] at hx
      obtain rfl : k = x := Option.some.inj hx
      have hmem : k ∈ e.kids := List.mem_of_getElem? hk
      obtain ⟨f, hf, _⟩ := h.valid.shape' k hmem
      obtain ⟨hid, m, hm, hns⟩ := h.names.here' k hmem
      have hconv := convertTag_clark hu ty hd hm hns hid
      have hread := read_written hu hi ht (dflt := dflt) hm hid
      have hq : (⟨m.2.2, k.tag.name⟩ : QName) = k.tag := by rw [hns]
      rw [hq] at hread
      refine ⟨[(written ty dflt m k.tag.name.toList, [])], [⟨k.tag, []⟩], ?_, ?_, ?_, ?_⟩
      · rw [List.nil_append, convertNodes, hk]
        simp only [hconv, hf, bind, Except.bind, predicatesOf, convertNodes, List.isEmpty_nil, Bool.not_false,
          Bool.and_self, Bool.not_true, Bool.false_eq_true, and_false, if_false]
        rfl
      · intro s hs
        rw [List.mem_singleton] at hs
        subst hs
        exact ⟨written_name hi ht hm hid, by simp⟩
      · exact reader_step (rs := []) hread rfl rfl
      · intro p
        rw [select_tag]
        constructor
        · rintro ⟨j, y, hj, hy, rfl⟩
          exact ⟨j, y, rfl, by simp [Elem.at?, hj], hy⟩
        · rintro ⟨j, y, rfl, hj, hy⟩
          rw [List.nil_append, Elem.at?] at hj
          cases hj' : e.kids[j]? with
          | none => rw [hj'] at hj; cases hj
          | some y' =>
            rw [hj'] at hj
            obtain rfl : y' = y := Option.some.inj hj
            exact ⟨j, y', hj', hy, rfl⟩
  | i :: r, l, sc, e, x, dflt, hd, h, hx => by
    rw [List.cons_append, Elem.at?] at hx
    cases hk : e.kids[i]? with
    | none => rw [hk] at hx; cases hx
    | some k =>
      rw [hk] at hx
      have hmem : k ∈ e.kids := List.mem_of_getElem? hk
      obtain ⟨f, hf, _⟩ := h.valid.shape' k hmem
      obtain ⟨hid, m, hm, hns⟩ := h.names.here' k hmem
      obtain ⟨ss, rr, h1, h2, h3, h4⟩ := path_siblings hu hi ht r l (dflt := some m)
        (by rintro e ⟨⟩; exact hm) (h.sub hmem hf) hx
      obtain ⟨cs, rs, g1, g2, g3, g4⟩ := step_instance hu hi ht h hk hf hm hns
      have hconv := convertTag_clark hu ty hd hm hns hid
      have hread := read_written hu hi ht (dflt := dflt) hm hid
      have hq : (⟨m.2.2, k.tag.name⟩ : QName) = k.tag := by rw [hns]
      rw [hq] at hread
      rw [show writtenNs .url (some m) = m.2.2 from rfl] at h1 h3
      refine ⟨(written ty dflt m k.tag.name.toList, cs) :: ss, ⟨k.tag, rs.map ([·])⟩ :: rr, ?_, ?_, ?_, ?_⟩
      · rw [List.cons_append, convertNodes, hk]
        have hne : (r ++ [l]).isEmpty = false := by cases r <;> rfl
        simp only [hconv, hf, bind, Except.bind, hne, Bool.false_and, Bool.not_false, g1, h1]
        rfl
      · intro s hs
        rcases List.mem_cons.mp hs with rfl | hs
        · exact ⟨written_name hi ht hm hid, g2⟩
        · exact h2 s hs
      · rw [List.map_cons]
        exact reader_step hread (hns ▸ g3) (hns ▸ h3)
      · intro p
        rw [select_one hk g4, List.mem_map]
        constructor
        · rintro ⟨p', hp', rfl⟩
          obtain ⟨j, y, rfl, hy, htag⟩ := (h4 p').mp hp'
          exact ⟨j, y, rfl, by rw [Elem.at?, hk]; exact hy, htag⟩
        · rintro ⟨j, y, rfl, hy, htag⟩
          rw [List.cons_append, Elem.at?, hk] at hy
          exact ⟨r ++ [j], (h4 _).mpr ⟨j, y, rfl, hy, htag⟩, rfl⟩

end NcDiff
