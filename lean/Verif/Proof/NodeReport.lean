import Verif.Spec.NodeReport
import Verif.Proof.ShowDiff
import Verif.Proof.ShowRead
import Verif.Proof.ModelDiff
import Verif.Proof.SchemaPath
/-!
# Comparing one node of two models: proofs
-/

namespace NcDiff.Report

open Show ModelDiff
open Statement (tagsTo mem_select_tags)

/-! ## Lines -/

theorem joined_cons {a : List Char} {r : List (List Char)} (h : r ≠ []) : joined (a :: r) = a ++ '\n' :: joined r := by
  cases r with
  | nil => exact absurd rfl h
  | cons b r => rw [joined]; simp

theorem joined_append : ∀ {a b : List (List Char)}, a ≠ [] → b ≠ [] → joined (a ++ b) = joined a ++ '\n' :: joined b
  | [], _, h, _ => absurd rfl h
  | [x], b, _, hb => by rw [List.singleton_append, joined_cons hb, joined]
  | x :: y :: r, b, _, hb => by
    rw [List.cons_append, joined_cons (by simp), joined_append (by simp) hb, joined_cons (a := x) (r := y :: r) (by simp)]
    simp

theorem nodeLines_ne (l : List Elem) : nodeLines l ≠ [] := by cases l <;> simp [nodeLines]

/-- The lines of the text. -/
def reportLines (xpath : List Char) (l1 l2 : List Elem) : List (List Char) :=
  [dashes 21 ++ " XPATH ".toList ++ dashes 21, '\'' :: (xpath ++ ['\'']), dashes 20 ++ " MODEL 1 ".toList ++ dashes 20] ++
    (nodeLines l1 ++ ([dashes 20 ++ " MODEL 2 ".toList ++ dashes 20] ++ (nodeLines l2 ++ [dashes 49, []])))

theorem report_lines (xpath : List Char) (l1 l2 : List Elem) : report xpath l1 l2 = joined (reportLines xpath l1 l2) := by
  have h1 := nodeLines_ne l1
  have h2 := nodeLines_ne l2
  unfold report reportLines printNode
  rw [joined_append (by simp) (by simp [h1]), joined_append h1 (by simp), joined_append (by simp) (by simp), joined_append h2 (by simp)]
  rw [joined_cons (by simp), joined_cons (by simp), joined_cons (by simp), joined_cons (by simp), joined_cons (by simp), joined_cons (by simp),
    joined_cons (a := dashes 21 ++ _ ++ _) (by simp), joined_cons (a := _ :: _) (by simp)]
  simp [joined]

theorem printValue_inj {a b : Option String} (h : printValue a = printValue b) : a = b := by
  cases a <;> cases b
  · rfl
  · simp only [printValue] at h
    exact absurd (congrArg List.head? h) (by simp)
  · simp only [printValue] at h
    exact absurd (congrArg List.head? h) (by simp)
  · simp only [printValue, List.cons.injEq, true_and, List.append_cancel_right_eq] at h
    rw [String.toList_inj.1 h]

/-- The lines of a node tell it. -/
theorem nodeLines_inj {l l' : List Elem} (h1 : ∀ e ∈ l.head?, OneLine e) (h2 : ∀ e ∈ l'.head?, OneLine e) :
    nodeLines l = nodeLines l' ↔ l.head?.map factsOf = l'.head?.map factsOf := by
  have split : ∀ {u v s t : List Char}, ' ' ∉ u → ' ' ∉ v → u ++ ' ' :: s = v ++ ' ' :: t → u = v ∧ s = t := by
    intro u
    induction u with
    | nil =>
      intro v s t _ hv h
      cases v with
      | nil => exact ⟨rfl, (List.cons.inj h).2⟩
      | cons c r =>
        rw [List.nil_append, List.cons_append] at h
        exact absurd (by rw [(List.cons.inj h).1]; simp) hv
    | cons c r ih =>
      intro v s t hu hv h
      cases v with
      | nil =>
        rw [List.nil_append, List.cons_append] at h
        exact absurd (by rw [(List.cons.inj h).1]; simp) hu
      | cons c' r' =>
        rw [List.cons_append, List.cons_append] at h
        obtain ⟨a1, a2⟩ := List.cons.inj h
        obtain ⟨b1, b2⟩ := ih (fun h => hu (by simp [h])) (fun h => hv (by simp [h])) a2
        exact ⟨by rw [a1, b1], b2⟩
  have rows : ∀ {a b : Attrs}, (∀ p ∈ a, ' ' ∉ (attrName p.1).toList) → (∀ p ∈ b, ' ' ∉ (attrName p.1).toList) →
      ((a.map fun p => "  ".toList ++ (attrName p.1).toList ++ " = ".toList ++ printValue (some (attrText p.2))) =
        (b.map fun p => "  ".toList ++ (attrName p.1).toList ++ " = ".toList ++ printValue (some (attrText p.2))) ↔
      (a.map fun p => (attrName p.1, attrText p.2)) = b.map fun p => (attrName p.1, attrText p.2)) := by
    intro a
    induction a with
    | nil => intro b _ _; cases b <;> simp
    | cons p a ih =>
      intro b ha hb
      cases b with
      | nil => simp
      | cons q b =>
        simp only [List.map_cons, List.cons.injEq]
        rw [ih (fun x hx => ha x (by simp [hx])) (fun x hx => hb x (by simp [hx]))]
        refine and_congr_left fun _ => ⟨fun h => ?_, fun h => ?_⟩
        · simp only [List.append_assoc, List.append_cancel_left_eq] at h
          obtain ⟨h1, h2⟩ := split (ha p (by simp)) (hb q (by simp)) h
          have := printValue_inj (List.append_cancel_left (as := "= ".toList) h2)
          rw [Prod.mk.injEq]
          exact ⟨String.toList_inj.1 h1, Option.some.inj this⟩
        · rw [Prod.mk.injEq] at h
          rw [h.1, h.2]
  cases l with
  | nil =>
    cases l' with
    | nil => simp
    | cons n' _ => simp [nodeLines]
  | cons n _ =>
    cases l' with
    | nil => simp [nodeLines]
    | cons n' _ =>
      have o := h1 n rfl
      have o' := h2 n' rfl
      simp only [nodeLines, List.head?_cons, Option.map_some, Option.some.injEq, List.cons_append, List.nil_append, List.cons.injEq,
        true_and, factsOf, Facts.mk.injEq]
      rw [rows (fun p hp => (o.attrs p hp).2.1) (fun p hp => (o'.attrs p hp).2.1)]
      refine and_congr ⟨fun h => ?_, fun h => by rw [h]⟩ (and_congr_left fun _ => ⟨fun h => ?_, fun h => by rw [h]⟩)
      · simpa using h
      · exact printValue_inj (List.append_cancel_left h)

theorem lines_free {l : List Elem} (h : ∀ e ∈ l.head?, OneLine e) : ∀ x ∈ nodeLines l, '\n' ∉ x := by
  cases l with
  | nil => simp [nodeLines]
  | cons n _ =>
    have o := h n rfl
    intro x hx
    have pv : ∀ {v : Option String}, (∀ t, v = some t → '\n' ∉ t.toList) → '\n' ∉ printValue v := by
      intro v hv
      cases v with
      | none => simp [printValue]
      | some t => simpa [printValue] using hv t rfl
    simp only [nodeLines, List.cons_append, List.nil_append, List.mem_cons, List.mem_map] at hx
    rcases hx with rfl | rfl | rfl | ⟨p, hp, rfl⟩
    · have := o.tag
      simpa using this
    · have := pv o.text
      simpa using this
    · simp
    · obtain ⟨a1, _, a3⟩ := o.attrs p hp
      have := pv (v := some (attrText p.2)) (by rintro t ⟨⟩; exact a3)
      simp [a1, this]

theorem sep_free {l : List Elem} : ∀ x ∈ nodeLines l, x.head? ≠ some '-' := by
  cases l with
  | nil => simp [nodeLines]
  | cons n _ =>
    intro x hx
    simp only [nodeLines, List.cons_append, List.nil_append, List.mem_cons, List.mem_map] at hx
    rcases hx with rfl | rfl | rfl | ⟨p, hp, rfl⟩ <;> simp

/-- Two lists that end where the first line with a dash is. -/
theorem blocks : ∀ {a b : List (List Char)} {s t : List Char} {u v : List (List Char)}, (∀ x ∈ a, x.head? ≠ some '-') →
    (∀ x ∈ b, x.head? ≠ some '-') → s.head? = some '-' → t.head? = some '-' → a ++ s :: u = b ++ t :: v → a = b ∧ u = v
  | [], [], _, _, _, _, _, _, _, _, h => ⟨rfl, (List.cons.inj h).2⟩
  | [], y :: b, s, t, u, v, _, hb, hs, _, h => absurd ((List.cons.inj h).1 ▸ hs) (hb y (by simp))
  | x :: a, [], s, t, u, v, ha, _, _, ht, h => absurd ((List.cons.inj h).1 ▸ ht) (ha x (by simp))
  | x :: a, y :: b, s, t, u, v, ha, hb, hs, ht, h => by
    obtain ⟨h1, h2⟩ := List.cons.inj h
    obtain ⟨g1, g2⟩ := blocks (fun x hx => ha x (by simp [hx])) (fun x hx => hb x (by simp [hx])) hs ht h2
    exact ⟨by rw [h1, g1], g2⟩

theorem report_inj {x x' : List Char} {l1 l2 l1' l2' : List Elem} (hx : '\n' ∉ x) (hx' : '\n' ∉ x')
    (h1 : ∀ e ∈ l1.head?, OneLine e) (h2 : ∀ e ∈ l2.head?, OneLine e) (h1' : ∀ e ∈ l1'.head?, OneLine e) (h2' : ∀ e ∈ l2'.head?, OneLine e) :
    report x l1 l2 = report x' l1' l2' ↔ x = x' ∧ l1.head?.map factsOf = l1'.head?.map factsOf ∧
      l2.head?.map factsOf = l2'.head?.map factsOf := by
  rw [report_lines, report_lines, ← nodeLines_inj h1 h1', ← nodeLines_inj h2 h2']
  have free : ∀ {x l1 l2}, '\n' ∉ x → (∀ e ∈ l1.head?, OneLine e) → (∀ e ∈ l2.head?, OneLine e) → ∀ y ∈ reportLines x l1 l2, '\n' ∉ y := by
    intro x l1 l2 hx h1 h2 y hy
    simp only [reportLines, List.mem_append, List.mem_cons, List.not_mem_nil, or_false] at hy
    rcases hy with (rfl | rfl | rfl) | hy | rfl | hy | rfl | rfl
    · decide
    · simpa using hx
    · decide
    · exact lines_free h1 y hy
    · decide
    · exact lines_free h2 y hy
    · decide
    · decide
  constructor
  · intro h
    have h := joined_inj (by simp [reportLines]) (by simp [reportLines]) (free hx h1 h2) (free hx' h1' h2') h
    simp only [reportLines, List.cons_append, List.nil_append, List.cons.injEq, true_and] at h
    obtain ⟨g1, g2⟩ := h
    obtain ⟨g3, g4⟩ := blocks sep_free sep_free (by decide) (by decide) g2
    obtain ⟨g5, _⟩ := blocks sep_free sep_free (by decide) (by decide) g4
    exact ⟨by simpa using g1, g3, g5⟩
  · rintro ⟨rfl, g1, g2⟩
    simp only [reportLines, g1, g2]

/-! ## Prefixes -/

/-- In the dictionary that is used, the prefixes of the second model count first. -/
theorem lookup_merged (m1 m2 : Show.Model) (hd : (m2.prefixes.map Prod.fst).Nodup) (q : String) :
    (mergedPrefixes m1 m2).lookup q = (m2.prefixes.lookup q).or (m1.prefixes.lookup q) := by
  unfold mergedPrefixes
  generalize m2.prefixes = l at hd
  generalize m1.prefixes = d
  induction l generalizing d with
  | nil => simp
  | cons e l ih =>
    obtain ⟨e1, e2⟩ := e
    rw [List.map_cons, List.nodup_cons] at hd
    rw [List.foldl_cons, ih hd.2, Show.lookup_dictSet, List.lookup]
    by_cases hq : q = e1
    · subst hq
      have : l.lookup q = none := by
        rw [List.lookup_eq_none_iff]
        intro p hp
        exact bne_iff_ne.2 fun h => hd.1 (List.mem_map.2 ⟨p, hp, h.symm⟩)
      simp [this]
    · have hb : (q == e1) = false := beq_eq_false_iff_ne.2 hq
      simp only [hb, if_neg hq]

theorem merged_urls {m1 m2 : Show.Model} (h1 : ∀ e ∈ m1.prefixes, e.2 ≠ none) (h2 : ∀ e ∈ m2.prefixes, e.2 ≠ none) :
    ∀ e ∈ mergedPrefixes m1 m2, e.2 ≠ none := by
  unfold mergedPrefixes
  generalize m2.prefixes = l at h2
  generalize m1.prefixes = d at h1
  induction l generalizing d with
  | nil => exact h1
  | cons p l ih =>
    refine ih (fun e he => h2 e (by simp [he])) _ (fun e he => ?_)
    rcases Show.dictSet_mem he with h | rfl
    · exact h1 e h
    · exact h2 p (by simp)

/-- The table that is searched. -/
theorem lookup_table {ps : List (String × Option String)} (h : ∀ e ∈ ps, e.2 ≠ none) (q : String) :
    (ps.filterMap fun p => p.2.map (p.1, ·)).lookup q = (ps.lookup q).join := by
  induction ps with
  | nil => rfl
  | cons p ps ih =>
    obtain ⟨p1, p2⟩ := p
    cases p2 with
    | none => exact absurd rfl (h (p1, none) (by simp))
    | some u =>
      rw [List.filterMap_cons]
      simp only [Option.map_some, List.lookup]
      by_cases hq : q = p1
      · subst hq; simp
      · have hb : (q == p1) = false := beq_eq_false_iff_ne.2 hq
        simp only [hb]
        exact ih fun e he => h e (by simp [he])

/-! ## Reading with more prefixes -/

theorem steps_more {rd rd' : XPath.Reader} (hi : rd.inherit = rd'.inherit) (hm : ∀ p u, rd.table.lookup p = some u → rd'.table.lookup p = some u) :
    ∀ (l : List (XPath.LStep (List Char))) (ns : String) {ss}, rd.steps ns l = some ss → rd'.steps ns l = some ss := by
  have tag : ∀ {ns n t}, rd.tag ns n = some t → rd'.tag ns n = some t := by
    intro ns n t h
    unfold XPath.Reader.tag at h ⊢
    split at h
    · cases h
    · rename_i p l hs
      cases hl : rd.table.lookup p with
      | none => rw [hl] at h; cases h
      | some u => rw [hl] at h; simp only [hs, hm p u hl]; exact h
    · rename_i l hs
      simp only [hs, ← hi]
      exact h
  have cond : ∀ {ns c t}, rd.cond ns c = some t → rd'.cond ns c = some t := by
    intro ns c t h
    cases c with
    | child n l =>
      simp only [XPath.Reader.cond] at h ⊢
      cases ht : rd.tag ns n with
      | none => rw [ht] at h; cases h
      | some u => rw [ht] at h; rw [tag ht]; exact h
    | text _ => exact h
    | literal _ => exact h
    | same _ _ => exact h
  have mapMore : ∀ {α β : Type} {f g : α → Option β}, (∀ a b, f a = some b → g a = some b) → ∀ (l : List α) {r}, l.mapM f = some r → l.mapM g = some r := by
    intro α β f g hfg l
    induction l with
    | nil => intro r h; exact h
    | cons a l ih =>
      intro r h
      rw [List.mapM_cons] at h ⊢
      cases ha : f a with
      | none => rw [ha] at h; cases h
      | some b =>
        rw [ha] at h
        cases hl : l.mapM f with
        | none => rw [hl] at h; cases h
        | some bs =>
          rw [hl] at h
          rw [hfg a b ha, ih hl]
          exact h
  intro l
  induction l with
  | nil => intro ns ss h; exact h
  | cons s r ih =>
    intro ns ss h
    rw [XPath.Reader.steps] at h ⊢
    cases ht : rd.tag ns s.name with
    | none => rw [ht] at h; cases h
    | some t =>
      rw [ht] at h
      rw [tag ht]
      simp only at h ⊢
      cases hp : s.preds.mapM (fun cs => cs.mapM (rd.cond t.ns)) with
      | none => rw [hp] at h; cases h
      | some ps =>
        cases hr : rd.steps t.ns r with
        | none => rw [hp, hr] at h; cases h
        | some rr =>
          rw [hp, hr] at h
          rw [mapMore (fun cs ds hc => mapMore (fun c d hd => cond hd) cs hc) s.preds hp, ih _ hr]
          exact h

theorem eval_more {rd rd' : XPath.Reader} (hi : rd.inherit = rd'.inherit) (hm : ∀ p u, rd.table.lookup p = some u → rd'.table.lookup p = some u)
    {t : Elem} {s : List Char} {l : List (List Nat)} (h : XPath.eval rd t s = some l) : XPath.eval rd' t s = some l := by
  unfold XPath.eval at h ⊢
  cases ht : XPath.tokens .between s with
  | none => rw [ht] at h; cases h
  | some ts =>
    rw [ht] at h
    simp only at h ⊢
    cases hp : XPath.parse ts with
    | none => rw [hp] at h; cases h
    | some ab =>
      obtain ⟨abs, ls⟩ := ab
      rw [hp] at h
      simp only at h ⊢
      cases hs : rd.steps "" ls with
      | none => rw [hs] at h; cases h
      | some ss =>
        rw [hs] at h
        rw [steps_more hi hm _ _ hs]
        exact h

/-! ## Nodes at paths -/

theorem at_iff : ∀ {path : List QName} {e n : Elem}, At e path n ↔ ∃ r, e.at? r = some n ∧ tagsTo e r = path ∧ r.length = path.length
  | [], e, n => by
    constructor
    · intro h; cases h; exact ⟨[], rfl, rfl, rfl⟩
    · rintro ⟨r, h1, _, h3⟩
      cases r with
      | nil => rw [Elem.at?] at h1; cases h1; exact .here
      | cons => simp at h3
  | q :: path, e, n => by
    constructor
    · intro h
      cases h with
      | @down _ k _ _ hk h =>
      obtain ⟨r, h1, h2, h3⟩ := at_iff.1 h
      obtain ⟨i, hi, rfl⟩ := List.getElem_of_mem hk
      refine ⟨i :: r, ?_, ?_, by simp [h3]⟩
      · rw [Elem.at?, List.getElem?_eq_getElem hi]; exact h1
      · rw [tagsTo, List.getElem?_eq_getElem hi]; simp only [h2]
    · rintro ⟨r, h1, h2, h3⟩
      cases r with
      | nil => simp at h3
      | cons i r =>
        rw [Elem.at?] at h1
        rw [tagsTo] at h2
        cases hk : e.kids[i]? with
        | none => rw [hk] at h1; cases h1
        | some k =>
          rw [hk] at h1 h2
          simp only [List.cons.injEq] at h2
          rw [← h2.1]
          exact .down (List.mem_of_getElem? hk) (at_iff.2 ⟨r, h1, h2.2, by simpa using h3⟩)

theorem tagsTo_length : ∀ {r : List Nat} {e n : Elem}, e.at? r = some n → (tagsTo e r).length = r.length
  | [], _, _, _ => rfl
  | i :: r, e, n, h => by
    rw [Elem.at?] at h
    rw [tagsTo]
    cases hk : e.kids[i]? with
    | none => rw [hk] at h; cases h
    | some k =>
      rw [hk] at h
      simp only [List.length_cons, tagsTo_length h]

/-- A step for each name. -/
abbrev written (l : List (String × String)) : List (List Char × List (XPath.Cond (List Char))) :=
  l.map fun p => (p.1.toList ++ ':' :: p.2.toList, ([] : List (XPath.Cond (List Char))))

/-- A path with known prefixes is read as the tags that it stands for. -/
theorem path_steps {ps : List (String × String)} {l : List (String × String)} {path : List QName}
    (hi : ∀ p ∈ l, Ident p.1.toList ∧ Ident p.2.toList)
    (h : List.Forall₂ (fun p q => ps.lookup p.1 = some q.ns ∧ p.2 = q.name) l path) : ∀ ns,
    XPath.Reader.steps ⟨ps, false⟩ ns ((written l).map fun s => XPath.mkStep s.1 s.2) = some (path.map fun q => ⟨q, []⟩) ∧
    XPath.PathOk (written l) := by
  induction h with
  | nil => intro ns; exact ⟨rfl, by simp [XPath.PathOk]⟩
  | @cons p q l path hpq _ ih =>
    intro ns
    obtain ⟨i1, i2⟩ := hi p (by simp)
    obtain ⟨g1, g2⟩ := ih (fun p hp => hi p (by simp [hp])) q.ns
    have ht : XPath.Reader.tag ⟨ps, false⟩ ns (p.1.toList ++ ':' :: p.2.toList) = some q := by
      unfold XPath.Reader.tag XPath.splitName
      have hp := i1.nodeName
      rw [(takeWhile_colon hp.2.1).2, (takeWhile_colon hp.2.1).1]
      simp only
      rw [if_neg (by
        rintro (h | h | h)
        · exact hp.1 h
        · exact i2.nodeName.1 h
        · exact i2.nodeName.2.1 h)]
      simp only [String.ofList_toList, hpq.1, hpq.2, Option.map_some]
    refine ⟨?_, ?_⟩
    · rw [written, List.map_cons, List.map_cons, List.map_cons]
      exact reader_step (cs := []) (rs := []) ht rfl g1
    · intro s hs
      rcases List.mem_cons.1 hs with rfl | hs
      · obtain ⟨c, r, hc, hs⟩ := i1.start
        refine ⟨⟨⟨c, r ++ ':' :: p.2.toList, by simp [hc], hs⟩, ?_⟩, by simp⟩
        intro x hx
        rcases List.mem_append.1 hx with hx | hx
        · exact i1.chars x hx
        · rcases List.mem_cons.1 hx with rfl | hx
          · decide
          · exact i2.chars x hx
      · exact g2 s hs

theorem pathText_written (l : List (String × String)) :
    l.flatMap (fun p => '/' :: (p.1.toList ++ ':' :: p.2.toList)) = XPath.pathText (written l) := by
  induction l with
  | nil => rfl
  | cons p l ih =>
    rw [List.flatMap_cons, ih]
    show _ = XPath.pathText ((_, []) :: written l)
    rw [XPath.pathText]
    simp [XPath.predsText]

theorem eval_path {ps : List (String × String)} {t : Elem} {l : List (String × String)} {path : List QName}
    (hi : ∀ p ∈ l, Ident p.1.toList ∧ Ident p.2.toList)
    (h : List.Forall₂ (fun p q => ps.lookup p.1 = some q.ns ∧ p.2 = q.name) l path) :
    XPath.eval ⟨ps, false⟩ t (pathOf l) = some ((XPath.select (path.map fun q => ⟨q, []⟩) t).map (0 :: ·)) := by
  obtain ⟨g1, g2⟩ := path_steps hi h ""
  rw [pathOf, pathText_written, XPath.eval_eq, XPath.parse_relative g2]
  simp only [Option.bind_some, g1, Option.map_some]
  rfl

/-- The first node that is found is the one at the path. -/
theorem first_at {t : Elem} (ht : SchemaTree t) {path : List QName} (n : Elem) :
    ((((XPath.select (path.map fun q => ⟨q, []⟩) t).map (0 :: ·)).filterMap (XPath.document t).at?).head? = some n ↔ At t path n) := by
  have hmem : ∀ n, n ∈ ((XPath.select (path.map fun q => ⟨q, []⟩) t).map (0 :: ·)).filterMap (XPath.document t).at? ↔ At t path n := by
    intro n
    rw [List.mem_filterMap, at_iff]
    constructor
    · rintro ⟨r, hr, hn⟩
      obtain ⟨r', hr', rfl⟩ := List.mem_map.1 hr
      obtain ⟨⟨x, hx⟩, h2⟩ := mem_select_tags.1 hr'
      refine ⟨r', hn, h2, ?_⟩
      rw [← h2, tagsTo_length hx]
    · rintro ⟨r, h1, h2, _⟩
      exact ⟨0 :: r, List.mem_map.2 ⟨r, mem_select_tags.2 ⟨⟨n, h1⟩, h2⟩, rfl⟩, h1⟩
  constructor
  · intro h
    exact (hmem n).1 (List.mem_of_mem_head? h)
  · intro h
    have hin := (hmem n).2 h
    cases hl : ((XPath.select (path.map fun q => ⟨q, []⟩) t).map (0 :: ·)).filterMap (XPath.document t).at? with
    | nil => rw [hl] at hin; cases hin
    | cons a r =>
      have ha : At t path a := (hmem a).1 (by rw [hl]; simp)
      rw [List.head?_cons, ht.at_unique ha h]

end NcDiff.Report
