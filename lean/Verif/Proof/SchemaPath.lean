import Verif.Spec.SchemaPath
import Verif.Proof.Statement
import Verif.Proof.SubParts
/-! # Paths of schema nodes -/

namespace NcDiff.Statement

open XPath

/-! ## Pieces -/

/-- Every slash of the text is in braces, and the last brace is closed. -/
def Closed : Bool → List Char → Prop
  | b, [] => b = false
  | b, c :: r => (c = '/' → b = true) ∧ Closed (c = '{' || (b && c ≠ '}')) r

theorem pieces_ne (b : Bool) (t : List Char) : pieces b t ≠ [] := by
  cases t with
  | nil => simp [pieces]
  | cons c r =>
    rw [pieces]
    split
    · simp
    · split <;> simp

theorem pieces_closed {t u : List Char} {v : List (List Char)} (ht : pieces false t = u :: v) : ∀ {s : List Char} {b : Bool},
    Closed b s → pieces b (s ++ t) = (s ++ u) :: v
  | [], b, h => by
    have : b = false := h
    subst this
    exact ht
  | c :: r, b, h => by
    rw [List.cons_append, pieces, if_neg (by
      rintro ⟨h1, h2⟩
      rw [h.1 h1] at h2
      cases h2), pieces_closed ht h.2]
    rfl

theorem pieces_slashed : ∀ {ts : List (List Char)}, (∀ s ∈ ts, Closed false s) → pieces false (slashed ts) = [] :: ts
  | [], _ => rfl
  | s :: r, h => by
    have ih := pieces_slashed (ts := r) fun x hx => h x (.tail _ hx)
    show pieces false ('/' :: (s ++ slashed r)) = _
    rw [pieces, if_pos ⟨rfl, rfl⟩, pieces_closed ih (h s (.head _)), List.append_nil]

theorem closed_free : ∀ {s : List Char}, '/' ∉ s → '{' ∉ s → Closed false s
  | [], _, _ => rfl
  | c :: r, h1, h2 => by
    rw [List.mem_cons, not_or] at h1 h2
    refine ⟨fun e => absurd e.symm h1.1, ?_⟩
    have : (decide (c = '{') || (false && decide (c ≠ '}'))) = false := by simp [Ne.symm h2.1]
    rw [this]
    exact closed_free h1.2 h2.2

theorem closed_inside {n : List Char} (hn : Closed false n) : ∀ {u : List Char}, '}' ∉ u → Closed true (u ++ '}' :: n)
  | [], _ => by
    refine ⟨fun _ => rfl, ?_⟩
    exact hn
  | c :: r, h => by
    rw [List.mem_cons, not_or] at h
    refine ⟨fun _ => rfl, ?_⟩
    have : (decide (c = '{') || (true && decide (c ≠ '}'))) = true := by simp [Ne.symm h.1]
    rw [this]
    exact closed_inside hn h.2

theorem Ident.closed {n : List Char} (h : Ident n) : Closed false n :=
  closed_free (Ident.free h).1 (Ident.nodeName h).2.2.2

theorem Closed.append {t : List Char} (ht : Closed false t) : ∀ {s : List Char} {b : Bool}, Closed b s → Closed b (s ++ t)
  | [], b, h => by
    have : b = false := h
    subst this
    exact ht
  | c :: r, b, h => ⟨h.1, Closed.append ht h.2⟩

/-! ## Notations -/

/-- A notation with colons. -/
def ColonNotation (ty : TagNotation) : Prop := ty = .ytool ∨ PathNotation ty

theorem Standard.cases {ty : TagNotation} (h : Standard ty) : ColonNotation ty ∨ ty = .lxmlEtree := by
  rcases h with rfl | rfl | rfl | rfl | rfl | rfl <;> simp [ColonNotation, PathNotation]

theorem written_ytool (dflt : Option Entry) (m : Entry) (n : List Char) : written .ytool dflt m n = written .xpath dflt m n := by
  simp [written, TagNotation.ytool, TagNotation.xpath]

theorem read_colon {d : Device} (hu : UniqueNamespaces d) (hi : ModuleIdents d) {ty : TagNotation}
    (ht : ColonNotation ty) {dflt : Option Entry} {m : Entry} (hm : m ∈ d.namespaces) {n : String}
    (hn : Ident n.toList) :
    (readerOf d ty).tag (writtenNs .url dflt) (written ty dflt m n.toList) = some ⟨m.2.2, n⟩ := by
  rcases ht with rfl | ht
  · rw [written_ytool]
    exact read_written hu hi (ty := .xpath) (.inl rfl) hm hn
  · exact read_written hu hi ht hm hn

theorem colon_closed {d : Device} (hi : ModuleIdents d) {ty : TagNotation} (ht : ColonNotation ty) {dflt : Option Entry}
    {m : Entry} (hm : m ∈ d.namespaces) {n : List Char} (hn : Ident n) : Closed false (written ty dflt m n) := by
  have key : ∀ {ty : TagNotation}, PathNotation ty → Closed false (written ty dflt m n) := by
    intro ty ht
    unfold written
    split
    · exact Ident.closed hn
    · rw [ht.colon.1]
      exact Closed.append (Ident.closed hn) (Closed.append (closed_free (by decide) (by decide)) (Ident.closed (hi.field ht hm)))
  rcases ht with rfl | ht
  · rw [written_ytool]
    exact key (ty := .xpath) (.inl rfl)
  · exact key ht

theorem readTag_written {d : Device} {urls : List (String × String)} (hu : UniqueNamespaces d) (hi : ModuleIdents d)
    (hb : ModelUrls d urls) {ty : TagNotation} (ht : Standard ty) {dflt : Option Entry} {m : Entry} (hm : m ∈ d.namespaces)
    {n : String} (hn : Ident n.toList) :
    readTag d ty (writtenNs .url dflt) (written ty dflt m n.toList) = some ⟨m.2.2, n⟩ ∧
      Closed false (written ty dflt m n.toList) := by
  rcases ht.cases with hc | rfl
  · refine ⟨?_, colon_closed hi hc hm hn⟩
    unfold readTag
    rw [show ty.style = .colon by
      rcases hc with rfl | hc
      · rfl
      · exact hc.colon.1]
    exact read_colon hu hi hc hm hn
  · have he : written .lxmlEtree dflt m n.toList = '{' :: (m.2.2.toList ++ '}' :: n.toList) := by
      simp [written, TagNotation.lxmlEtree, nsPart]
    have hfree := hb.braces m hm
    have htk : ∀ (u : List Char), '}' ∉ u → (u ++ '}' :: n.toList).takeWhile (· ≠ '}') = u ∧
        (u ++ '}' :: n.toList).dropWhile (· ≠ '}') = '}' :: n.toList := by
      intro u
      induction u with
      | nil => intro _; simp
      | cons c u ih =>
        intro h
        rw [List.mem_cons, not_or] at h
        have := ih h.2
        have hc : c ≠ '}' := Ne.symm h.1
        simp only [List.cons_append, List.takeWhile_cons, List.dropWhile_cons, hc, ne_eq, not_false_eq_true,
          decide_true, if_true]
        exact ⟨by rw [this.1], this.2⟩
    rw [he]
    refine ⟨?_, ?_⟩
    · show (match (m.2.2.toList ++ '}' :: n.toList).dropWhile (· ≠ '}') with
        | _ :: n' => some (⟨String.ofList ((m.2.2.toList ++ '}' :: n.toList).takeWhile (· ≠ '}')), String.ofList n'⟩ : QName)
        | [] => none) = _
      rw [(htk _ hfree).1, (htk _ hfree).2]
      simp
    · refine ⟨fun e => absurd e (by decide), ?_⟩
      exact closed_inside (Ident.closed hn) hfree

/-! ## Spelling -/

theorem schemaXpath_spelled {d : Device} (hu : UniqueNamespaces d) (ty : TagNotation) : ∀ {path : List QName}, PathKnown d path →
    ∀ {dflt : Option Entry}, (∀ e, dflt = some e → e ∈ d.namespaces) →
    ∃ ts, schemaXpath d ty (writtenNs .url dflt) path = .ok (slashed ts) ∧ Spelled d ty dflt path ts
  | [], _, _, _ => ⟨[], rfl, .nil⟩
  | q :: r, hk, dflt, hd => by
    obtain ⟨hn, m, hm, hq⟩ := hk q (.head _)
    have hc := convertTag_clark hu ty hd hm hq hn
    obtain ⟨ts, h1, h2⟩ := schemaXpath_spelled hu ty (path := r) (fun x hx => hk x (.tail _ hx)) (dflt := some m)
      (fun e he => by cases he; exact hm)
    refine ⟨_ :: ts, ?_, .cons hm hq h2⟩
    rw [schemaXpath, hc]
    show (schemaXpath d ty (writtenNs .url (some m)) r >>= _) = _
    rw [h1]
    simp [bind, Except.bind, pure, Except.pure, slashed]

theorem Spelled.read {d : Device} {urls : List (String × String)} (hu : UniqueNamespaces d) (hi : ModuleIdents d)
    (hb : ModelUrls d urls) {ty : TagNotation} (ht : Standard ty) {dflt : Option Entry} {path : List QName}
    {ts : List (List Char)} (h : Spelled d ty dflt path ts) : PathKnown d path →
    readTags d ty (writtenNs .url dflt) ts = some path ∧ ∀ s ∈ ts, Closed false s := by
  induction h with
  | nil => exact fun _ => ⟨rfl, by simp⟩
  | @cons dflt m q r ts hm hq _ ih =>
    intro hk
    obtain ⟨h1, h2⟩ := readTag_written hu hi hb ht (dflt := dflt) hm (hk q (.head _)).1
    obtain ⟨g1, g2⟩ := ih fun x hx => hk x (.tail _ hx)
    have e : (⟨m.2.2, q.name⟩ : QName) = q := by rw [hq]
    rw [e] at h1
    refine ⟨?_, ?_⟩
    · rw [readTags, h1]
      show (readTags d ty q.ns ts).map (q :: ·) = _
      rw [← hq]
      rw [show m.2.2 = writtenNs .url (some m) from rfl, g1]
      rfl
    · intro s hs
      rcases List.mem_cons.1 hs with rfl | hs
      · exact h2
      · exact g2 s hs

/-! ## Selection -/

theorem Spelled.steps {d : Device} (hu : UniqueNamespaces d) (hi : ModuleIdents d)
    {ty : TagNotation} (ht : PathNotation ty) {dflt : Option Entry} {path : List QName}
    {ts : List (List Char)} (h : Spelled d ty dflt path ts) : PathKnown d path →
    (readerOf d ty).steps (writtenNs .url dflt) ((ts.map fun t => (t, ([] : List (Cond (List Char))))).map fun s => mkStep s.1 s.2) =
      some (path.map fun q => ⟨q, []⟩) ∧ PathOk (ts.map fun t => (t, [])) := by
  induction h with
  | nil => exact fun _ => ⟨rfl, by simp [PathOk]⟩
  | @cons dflt m q r ts hm hq _ ih =>
    intro hk
    have hn := (hk q (.head _)).1
    have h1 := read_written hu hi ht (dflt := dflt) hm (n := q.name) hn
    obtain ⟨g1, g2⟩ := ih fun x hx => hk x (.tail _ hx)
    have e : (⟨m.2.2, q.name⟩ : QName) = q := by rw [hq]
    rw [e] at h1
    refine ⟨?_, ?_⟩
    · rw [List.map_cons, List.map_cons, List.map_cons]
      rw [show writtenNs .url (some m) = q.ns from hq] at g1
      have := reader_step (cs := []) (rs := []) h1 rfl g1
      exact this
    · intro s hs
      rcases List.mem_cons.1 hs with rfl | hs
      · exact ⟨written_name hi ht hm hn, by simp⟩
      · exact g2 s hs

theorem pathText_slashed : ∀ ts : List (List Char), pathText (ts.map fun t => (t, [])) = slashed ts
  | [] => rfl
  | t :: r => by
    rw [List.map_cons, pathText, pathText_slashed r]
    simp [slashed, predsText]

theorem mem_select_tags : ∀ {path : List QName} {e : Elem} {p : List Nat},
    p ∈ select (path.map fun q => ⟨q, []⟩) e ↔ (∃ x, e.at? p = some x) ∧ tagsTo e p = path
  | [], e, p => by
    rw [List.map_nil, select, List.mem_singleton]
    constructor
    · rintro rfl
      exact ⟨⟨e, rfl⟩, rfl⟩
    · rintro ⟨⟨x, hx⟩, hp⟩
      cases p with
      | nil => rfl
      | cons i r =>
        rw [Elem.at?] at hx
        rw [tagsTo] at hp
        cases hk : e.kids[i]? with
        | none => rw [hk] at hx; cases hx
        | some k => rw [hk] at hp; cases hp
  | q :: path, e, p => by
    simp only [List.map_cons, select, List.mem_flatMap, LStep.selects, List.all_nil, and_true, decide_eq_true_eq]
    constructor
    · rintro ⟨⟨x, j⟩, hx, hp⟩
      rw [List.mem_zipIdx_iff_getElem?] at hx
      by_cases ht : x.tag = q
      · simp only [ht, if_true, List.mem_map] at hp
        obtain ⟨p', hp', rfl⟩ := hp
        obtain ⟨h1, h2⟩ := mem_select_tags.1 hp'
        simp only [Elem.at?, tagsTo, hx]
        exact ⟨h1, by rw [h2, ht]⟩
      · simp [ht] at hp
    · rintro ⟨⟨x, hx⟩, hp⟩
      cases p with
      | nil => cases hp
      | cons i r =>
        rw [Elem.at?] at hx
        rw [tagsTo] at hp
        cases hk : e.kids[i]? with
        | none => rw [hk] at hx; cases hx
        | some k =>
          rw [hk] at hx hp
          simp only [List.cons.injEq] at hp
          refine ⟨(k, i), List.mem_zipIdx_iff_getElem?.mpr hk, ?_⟩
          simp only [hp.1, if_true, List.mem_map]
          exact ⟨r, mem_select_tags.2 ⟨⟨x, hx⟩, hp.2⟩, rfl⟩

theorem select_nodup : ∀ (ss : List (LStep QName)) (e : Elem), (select ss e).Nodup
  | [], _ => by simp [select]
  | s :: r, e => by
    rw [select, List.nodup_flatMap]
    refine ⟨?_, ?_⟩
    · intro p _
      split
      · exact (select_nodup r p.1).map (fun _ _ h => by simpa using h)
      · exact .nil
    · have hz : (e.kids.zipIdx).Pairwise (fun a b => a.2 ≠ b.2) := by
        have : ((e.kids.zipIdx).map Prod.snd).Nodup := by
          rw [List.zipIdx_map_snd]
          exact List.nodup_range'
        exact List.pairwise_map.1 this
      refine hz.imp ?_
      intro a b hab x hx hy
      dsimp only at hx hy
      have h1 : ∃ r, x = a.2 :: r := by
        split at hx
        · obtain ⟨y, _, rfl⟩ := List.mem_map.1 hx
          exact ⟨y, rfl⟩
        · cases hx
      have h2 : ∃ r, x = b.2 :: r := by
        split at hy
        · obtain ⟨y, _, rfl⟩ := List.mem_map.1 hy
          exact ⟨y, rfl⟩
        · cases hy
      obtain ⟨r1, rfl⟩ := h1
      obtain ⟨r2, h2⟩ := h2
      exact hab (List.cons.inj h2).1

/-- Positions with the same path of tags are the same, if siblings have different tags. -/
theorem tagsTo_inj : ∀ {p p' : List Nat} {t x y : Elem}, DistinctTags t → t.at? p = some x → t.at? p' = some y →
    tagsTo t p = tagsTo t p' → p = p'
  | [], [], _, _, _, _, _, _, _ => rfl
  | [], j :: r, t, x, y, _, _, hy, h => by
    rw [Elem.at?] at hy
    rw [tagsTo, tagsTo] at h
    cases hk : t.kids[j]? with
    | none => rw [hk] at hy; cases hy
    | some k => rw [hk] at h; cases h
  | i :: r, [], t, x, y, _, hx, _, h => by
    rw [Elem.at?] at hx
    rw [tagsTo, tagsTo] at h
    cases hk : t.kids[i]? with
    | none => rw [hk] at hx; cases hx
    | some k => rw [hk] at h; cases h
  | i :: r, j :: r', t, x, y, hd, hx, hy, h => by
    rw [Elem.at?] at hx hy
    rw [tagsTo, tagsTo] at h
    cases hk : t.kids[i]? with
    | none => rw [hk] at hx; cases hx
    | some k =>
      cases hk' : t.kids[j]? with
      | none => rw [hk'] at hy; cases hy
      | some k' =>
        rw [hk] at hx h
        rw [hk'] at hy h
        simp only [List.cons.injEq] at h
        have hn := hd [] t rfl
        have hij : i = j := by
          have a : (t.kids.map Elem.tag)[i]? = some k.tag := by simp [hk]
          have b : (t.kids.map Elem.tag)[j]? = some k.tag := by simp [hk', h.1]
          obtain ⟨hi, _⟩ := List.getElem?_eq_some_iff.1 a
          exact (List.getElem?_inj hi hn).1 (a.trans b.symm)
        subst hij
        obtain rfl : k = k' := Option.some.inj (hk.symm.trans hk')
        have hdk : DistinctTags k := fun p z hz => hd (i :: p) z (by rw [Elem.at?, hk]; exact hz)
        rw [tagsTo_inj hdk hx hy h.2]

/-! ## Schema nodes of config nodes -/

theorem dataNode_way {tag : QName} {f : Found} : ∀ (s : SNode) {pre ic i}, f ∈ dataNode tag pre ic i s →
    ∃ w, Way [s] w ∧ w.getLast? = some f.node ∧ w.filter isData = [f.node] ∧ f.node.tag = tag := by
  intro s
  induction s using SNode.rec
    (motive_2 := fun ks => ∀ {pre ic i}, f ∈ dataNodes tag pre ic i ks →
      ∃ w, Way ks w ∧ w.getLast? = some f.node ∧ w.filter isData = [f.node] ∧ f.node.tag = tag) with
  | mk info kids ih =>
    intro pre ic i h
    rw [dataNode] at h
    have inner : ∀ {pre ic i}, info.ntype = .choice ∨ info.ntype = .case → f ∈ dataNodes tag pre ic i kids →
        ∃ w, Way [.mk info kids] w ∧ w.getLast? = some f.node ∧ w.filter isData = [f.node] ∧ f.node.tag = tag := by
      intro pre ic i hc h
      obtain ⟨w, h1, h2, h3, h4⟩ := ih h
      refine ⟨.mk info kids :: w, .more (by simp) h1, ?_, ?_, h4⟩
      · cases w with
        | nil => cases h2
        | cons y w => rw [List.getLast?_cons_cons]; exact h2
      · rw [List.filter_cons_of_neg, h3]
        rcases hc with hc | hc <;> simp [isData, SNode.ntype, hc]
    split at h
    · rename_i hc
      exact inner (.inl hc) h
    · split at h
      · rename_i hc
        exact inner (.inr hc) h
      · split at h
        · rename_i hc1 hc2 ht
          rw [List.mem_singleton] at h
          subst h
          refine ⟨[.mk info kids], .one (by simp), rfl, ?_, ht⟩
          rw [List.filter_cons_of_pos]
          · rfl
          · simp [isData, SNode.ntype, hc1, hc2]
        · cases h
  | nil => rename_i h; simp [dataNodes] at h
  | cons s r ih1 ih2 =>
    rename_i h
    rw [dataNodes, List.mem_append] at h
    rcases h with h | h
    · obtain ⟨w, h1, h2⟩ := ih1 h
      refine ⟨w, ?_, h2⟩
      cases h1 with
      | one hm => simp at hm; subst hm; exact .one (by simp)
      | more hm hw => simp at hm; subst hm; exact .more (by simp) hw
    · obtain ⟨w, h1, h2⟩ := ih2 h
      refine ⟨w, ?_, h2⟩
      cases h1 with
      | one hm => exact .one (.tail _ hm)
      | more hm hw => exact .more (.tail _ hm) hw

theorem dataNodes_way {tag : QName} {f : Found} {ks : List SNode} {pre ic i} (h : f ∈ dataNodes tag pre ic i ks) :
    ∃ w, Way ks w ∧ w.getLast? = some f.node ∧ w.filter isData = [f.node] ∧ f.node.tag = tag := by
  induction ks generalizing i with
  | nil => simp [dataNodes] at h
  | cons s r ih =>
    rw [dataNodes, List.mem_append] at h
    rcases h with h | h
    · obtain ⟨w, h1, h2⟩ := dataNode_way s h
      refine ⟨w, ?_, h2⟩
      cases h1 with
      | one hm => simp at hm; subst hm; exact .one (by simp)
      | more hm hw => simp at hm; subst hm; exact .more (by simp) hw
    · obtain ⟨w, h1, h2⟩ := ih h
      refine ⟨w, ?_, h2⟩
      cases h1 with
      | one hm => exact .one (.tail _ hm)
      | more hm hw => exact .more (.tail _ hm) hw

theorem Way.append : ∀ {w ks w' : List SNode} {s : SNode}, Way ks w → w.getLast? = some s → Way s.kids w' → Way ks (w ++ w')
  | _, _, _, _, .one hm, hl, hw => by
    cases hl
    exact .more hm hw
  | _, _, _, s, .more (w := w) hm h, hl, hw => by
    refine .more hm (h.append (s := s) ?_ hw)
    cases w with
    | nil => cases h
    | cons y w => rw [List.getLast?_cons_cons] at hl; exact hl

theorem SchemaOf.way {d : Device} {sc : Scope} {e : Elem} {pos : List Nat} {s : SNode} (h : SchemaOf d sc e pos s) :
    ∀ n, sc = .node n → ∃ w, Way n.kids w ∧ w.getLast? = some s ∧ (w.filter isData).map SNode.tag = tagsTo e pos := by
  have look : ∀ {n : SNode} {t : QName} {f : Found}, d.lookup (.node n) t = .ok f →
      ∃ w, Way n.kids w ∧ w.getLast? = some f.node ∧ w.filter isData = [f.node] ∧ f.node.tag = t := by
    intro n t f hf
    have : f ∈ dataNodes t [] (n.info.ntype = .case) 0 n.kids := by
      unfold Device.lookup at hf
      simp only at hf
      split at hf
      · cases hf
      · rename_i g hg
        cases hf
        rw [hg]
        simp
      · cases hf
    exact dataNodes_way this
  induction h with
  | @last sc e i k f hk hf =>
    rintro n rfl
    obtain ⟨w, h1, h2, h3, h4⟩ := look hf
    exact ⟨w, h1, h2, by simp [h3, h4, tagsTo, hk]⟩
  | @more sc e i k f r s hk hf _ ih =>
    rintro n rfl
    obtain ⟨w, h1, h2, h3, h4⟩ := look hf
    obtain ⟨w', g1, g2, g3⟩ := ih f.node rfl
    refine ⟨w ++ w', h1.append h2 g1, ?_, ?_⟩
    · rw [List.getLast?_append, g2]; rfl
    · rw [List.filter_append, List.map_append, h3, g3]
      simp [tagsTo, hk, h4]

end NcDiff.Statement
