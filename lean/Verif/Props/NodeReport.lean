import Verif.Proof.NodeReport
import Verif.Props.ModelDiff
/-!
# C85: comparing one node of two models
-/

namespace NcDiff.Report

open ModelDiff

/-- In a dictionary, what is looked up is what it has. -/
theorem lookup_of_mem {l : List (String × Option String)} (h : (l.map Prod.fst).Nodup) {p : String} {u : Option String} :
    l.lookup p = some u ↔ (p, u) ∈ l := by
  induction l with
  | nil => simp
  | cons e l ih =>
    obtain ⟨e1, e2⟩ := e
    rw [List.map_cons, List.nodup_cons] at h
    rw [List.lookup, List.mem_cons]
    by_cases hp : p = e1
    · subst hp
      simp only [BEq.rfl, Option.some.injEq, Prod.mk.injEq, true_and]
      exact ⟨fun h => .inl h.symm, fun h' => h'.elim (·.symm) fun h' => absurd (List.mem_map.2 ⟨_, h', rfl⟩) h.1⟩
    · have hb : (p == e1) = false := beq_eq_false_iff_ne.2 hp
      simp only [hb, Prod.mk.injEq, hp, false_and, false_or]
      exact ih h.2

theorem lookup_none {l : List (String × Option String)} {p : String} : l.lookup p = none ↔ p ∉ l.map Prod.fst := by
  rw [List.lookup_eq_none_iff]
  constructor
  · intro h hp
    obtain ⟨e, he, rfl⟩ := List.mem_map.1 hp
    exact bne_iff_ne.1 (h e he) rfl
  · intro h e he
    exact bne_iff_ne.2 fun hp => h (List.mem_map.2 ⟨e, he, hp.symm⟩)

theorem stands {m1 m2 : Show.Model} (h1 : Prefixed m1) (h2 : Prefixed m2) {p u : String} (h : StandsFor m1 m2 p u) :
    ((mergedPrefixes m1 m2).filterMap fun p => p.2.map (p.1, ·)).lookup p = some u := by
  rw [lookup_table (merged_urls h1.urls h2.urls), lookup_merged m1 m2 h2.dict]
  rcases h with h | ⟨h, hn⟩
  · rw [(lookup_of_mem h2.dict).2 h]; rfl
  · rw [lookup_none.2 hn, (lookup_of_mem h1.dict).2 h]; rfl

theorem engine_ok {ps : List (String × Option String)} (h : ∀ e ∈ ps, e.2 ≠ none) (t : Elem) (s : List Char) :
    pathEngine t ps s = match XPath.eval ⟨ps.filterMap fun p => p.2.map (p.1, ·), false⟩ t s with
      | none => .error .syntaxError
      | some l => .ok (l.filterMap (XPath.document t).at?) := by
  have hn : ¬ ps.any (fun p => p.2.isNone) = true := by
    intro ha
    obtain ⟨e, he, hn⟩ := List.any_eq_true.1 ha
    exact h e he (Option.isNone_iff_eq_none.1 hn)
  unfold pathEngine
  rw [if_neg hn]
  rfl

theorem engine_path {m1 m2 : Show.Model} (h1 : Prefixed m1) (h2 : Prefixed m2) {l : List (String × String)}
    (hl : ∀ p ∈ l, Ident p.1.toList ∧ Ident p.2.toList) {path : List QName} (hp : Means m1 m2 l path) {t : Elem} (ht : SchemaTree t) :
    ∃ r, pathEngine t (mergedPrefixes m1 m2) (pathOf l) = .ok r ∧ ∀ n, r.head? = some n ↔ At t path n := by
  have e := eval_path (t := t) hl (List.Forall₂.imp (fun _ _ h => ⟨stands h1 h2 h.1, h.2⟩) hp)
  rw [engine_ok (merged_urls h1.urls h2.urls), e]
  exact ⟨_, rfl, fun n => first_at ht n⟩

theorem report_head {x : List Char} {l1 l2 : List Elem} : report x l1 l2 = report x l1.head?.toList l2.head?.toList := by
  have : ∀ l : List Elem, printNode l = printNode l.head?.toList := by
    intro l
    cases l <;> rfl
  unfold report
  rw [this l1, this l2]

/-- `compare` shows, for each model, the node that it has at the path, or that it has none. -/
theorem C85_shows_nodes {m1 m2 : Show.Model} (h1 : Prefixed m1) (h2 : Prefixed m2) (t1 : SchemaTree m1.tree) (t2 : SchemaTree m2.tree)
    {l : List (String × String)} (hl : ∀ p ∈ l, Ident p.1.toList ∧ Ident p.2.toList) {path : List QName} (hp : Means m1 m2 l path) :
    ∃ n1 n2 : Option Elem, compare pathEngine m1 m2 (pathOf l) = .ok (report (pathOf l) n1.toList n2.toList) ∧
      (∀ n, n1 = some n ↔ At m1.tree path n) ∧ ∀ n, n2 = some n ↔ At m2.tree path n := by
  obtain ⟨r1, e1, g1⟩ := engine_path h1 h2 hl hp t1
  obtain ⟨r2, e2, g2⟩ := engine_path h1 h2 hl hp t2
  refine ⟨r1.head?, r2.head?, ?_, g1, g2⟩
  unfold compare
  simp only [e1, e2]
  rw [← report_head]
  rfl

/-- The text that is printed tells which expression was given, whether each model has a node there, and the tag, the text and
the attributes of the node, in their order. -/
theorem C85_tells {x x' : List Char} {n1 n2 n1' n2' : Option Elem} (hx : '\n' ∉ x) (hx' : '\n' ∉ x') (h1 : ∀ e, n1 = some e → OneLine e)
    (h2 : ∀ e, n2 = some e → OneLine e) (h1' : ∀ e, n1' = some e → OneLine e) (h2' : ∀ e, n2' = some e → OneLine e) :
    report x n1.toList n2.toList = report x' n1'.toList n2'.toList ↔
      x = x' ∧ n1.map factsOf = n1'.map factsOf ∧ n2.map factsOf = n2'.map factsOf := by
  have hd : ∀ n : Option Elem, n.toList.head? = n := by intro n; cases n <;> rfl
  have := report_inj (l1 := n1.toList) (l2 := n2.toList) (l1' := n1'.toList) (l2' := n2'.toList) hx hx'
    (by rw [hd]; exact h1) (by rw [hd]; exact h2) (by rw [hd]; exact h1') (by rw [hd]; exact h2')
  rwa [hd, hd, hd, hd] at this

/-- The parts for the two models, which stand at fixed places in the text, are the same text iff the nodes have the same tag, text
and attributes, or both are missing. -/
theorem C85_same_parts (x : List Char) (n1 n2 : Option Elem) (h1 : ∀ e, n1 = some e → OneLine e) (h2 : ∀ e, n2 = some e → OneLine e) :
    ∃ p1 p2 : List Char, report x n1.toList n2.toList =
      "--------------------- XPATH ---------------------\n'".toList ++ x ++
      "'\n-------------------- MODEL 1 --------------------\n".toList ++ p1 ++
      "\n-------------------- MODEL 2 --------------------\n".toList ++ p2 ++
      "\n-------------------------------------------------\n".toList ∧
      (p1 = p2 ↔ n1.map factsOf = n2.map factsOf) := by
  have hd : ∀ n : Option Elem, n.toList.head? = n := by intro n; cases n <;> rfl
  refine ⟨printNode n1.toList, printNode n2.toList, ?_, ?_⟩
  · unfold report
    rw [joined_cons (by simp), joined_cons (by simp), joined_cons (by simp), joined_cons (by simp), joined_cons (by simp),
      joined_cons (by simp), joined_cons (by simp)]
    simp [Show.joined, dashes, List.replicate]
  · have k := nodeLines_inj (l := n1.toList) (l' := n2.toList) (by rw [hd]; exact h1) (by rw [hd]; exact h2)
    rw [hd, hd] at k
    rw [← k]
    refine ⟨fun h => ?_, fun h => by unfold printNode; rw [h]⟩
    exact Show.joined_inj (nodeLines_ne _) (nodeLines_ne _) (lines_free (by rw [hd]; exact h1)) (lines_free (by rw [hd]; exact h2)) h

/-- An expression that can be evaluated with the prefixes of the second model selects the same nodes in `compare`; so does one for
the first model, if no prefix has different URLs. -/
theorem C85_own_prefixes {m1 m2 : Show.Model} (h1 : Prefixed m1) (h2 : Prefixed m2) (hc : NoClash m1 m2) {x : List Char} {l1 l2 : List Elem}
    (e1 : pathEngine m1.tree m1.prefixes x = .ok l1) (e2 : pathEngine m2.tree m2.prefixes x = .ok l2) :
    compare pathEngine m1 m2 x = .ok (report x l1.head?.toList l2.head?.toList) := by
  have more : ∀ {ps : List (String × Option String)} {t l}, (∀ e ∈ ps, e.2 ≠ none) →
      (∀ p u, ps.lookup p = some u → (mergedPrefixes m1 m2).lookup p = some u) → pathEngine t ps x = .ok l →
      pathEngine t (mergedPrefixes m1 m2) x = .ok l := by
    intro ps t l hu hm h
    rw [engine_ok hu] at h
    rw [engine_ok (merged_urls h1.urls h2.urls)]
    cases he : XPath.eval ⟨ps.filterMap fun p => p.2.map (p.1, ·), false⟩ t x with
    | none => rw [he] at h; cases h
    | some r =>
      rw [he] at h
      rw [eval_more (rd := ⟨ps.filterMap fun p => p.2.map (p.1, ·), false⟩) (rd' := ⟨(mergedPrefixes m1 m2).filterMap fun p => p.2.map (p.1, ·), false⟩) rfl (fun p u hp => ?_) he]
      · exact h
      · simp only [lookup_table hu, lookup_table (merged_urls h1.urls h2.urls)] at hp ⊢
        cases hq : ps.lookup p with
        | none => rw [hq] at hp; cases hp
        | some w => rw [hm p w hq, ← hq]; exact hp
  have g2 := more h2.urls (fun p u hp => by rw [lookup_merged m1 m2 h2.dict, hp]; rfl) e2
  have g1 := more h1.urls (fun p u hp => by
    rw [lookup_merged m1 m2 h2.dict, hp]
    cases hq : m2.prefixes.lookup p with
    | none => rfl
    | some w => rw [hc p u w ((lookup_of_mem h1.dict).1 hp) ((lookup_of_mem h2.dict).1 hq)]; rfl) e1
  unfold compare
  simp only [g1, g2]
  rw [← report_head]
  rfl

end NcDiff.Report

namespace NcDiff.Report85

open Report ModelDiff ModelDiff.Demo

def one : Show.Model := ⟨m1, [("m", some "urn:m"), ("t", some "urn:t")], "m", some "urn:m"⟩
def two : Show.Model := ⟨m2, [("m", some "urn:m"), ("u", some "urn:u")], "m", some "urn:m"⟩

theorem prefixed : Prefixed one ∧ Prefixed two := ⟨⟨by decide, by decide⟩, ⟨by decide, by decide⟩⟩

theorem idents : ∀ p ∈ [("m", "top"), ("m", "a")], Ident (p : String × String).1.toList ∧ Ident p.2.toList := by
  have id : ∀ {c : Char} {r : List Char}, (c.isAlpha = true ∨ c = '_') →
      (∀ x ∈ c :: r, x.isAlpha = true ∨ x.isDigit = true ∨ x = '_' ∨ x = '-' ∨ x = '.') → Ident (c :: r) := fun h h' => ⟨⟨_, _, rfl, h⟩, h'⟩
  intro p hp
  rcases List.mem_cons.1 hp with rfl | hp
  · exact ⟨id (by decide) (by decide), id (by decide) (by decide)⟩
  · rcases List.mem_cons.1 hp with rfl | hp
    · exact ⟨id (by decide) (by decide), id (by decide) (by decide)⟩
    · cases hp

/-- A leaf that has another type in the second version: the hypotheses are met. -/
example : ∃ n1 n2 : Option Elem, compare pathEngine one two (pathOf [("m", "top"), ("m", "a")]) =
      .ok (report (pathOf [("m", "top"), ("m", "a")]) n1.toList n2.toList) ∧
    (∀ n, n1 = some n ↔ At m1 [q "top", q "a"] n) ∧ ∀ n, n2 = some n ↔ At m2 [q "top", q "a"] n :=
  C85_shows_nodes prefixed.1 prefixed.2 trees_ok.1.schema trees_ok.2.1.schema idents
    (.cons ⟨.inl (by decide), rfl⟩ (.cons ⟨.inl (by decide), rfl⟩ .nil))

/-- The text. -/
theorem text : compare pathEngine one two "./m:top/m:a".toList = .ok (
    "--------------------- XPATH ---------------------\n'./m:top/m:a'\n" ++
    "-------------------- MODEL 1 --------------------\ntag: '{urn:m}a'\ntext: None\nattributes:\n  type = 'leaf'\n  datatype = 'string'\n" ++
    "-------------------- MODEL 2 --------------------\ntag: '{urn:m}a'\ntext: None\nattributes:\n  type = 'leaf'\n  datatype = 'int8'\n" ++
    "-------------------------------------------------\n").toList := by decide +kernel

/-- A leaf that the second version does not have. -/
example : compare pathEngine one two "./m:top/m:b".toList = .ok (
    "--------------------- XPATH ---------------------\n'./m:top/m:b'\n" ++
    "-------------------- MODEL 1 --------------------\ntag: '{urn:m}b'\ntext: None\nattributes:\n  type = 'leaf'\n  datatype = 'string'\n" ++
    "-------------------- MODEL 2 --------------------\nNone\n" ++
    "-------------------------------------------------\n").toList := by decide +kernel

/-- The leaf fits on lines. -/
theorem oneLine : OneLine (.mk (q "a") [] [(.other "type", .str "leaf")] none []) := ⟨by decide, by simp [Elem.text], by decide +kernel⟩

/-- The hypotheses of `C85_same_parts` are met. -/
example := C85_same_parts "./m:top/m:a".toList (some (.mk (q "a") [] [(.other "type", .str "leaf")] none [])) none
  (by rintro _ ⟨⟩; exact oneLine) (by rintro _ ⟨⟩)

/-- A text that says `None` is not the same as no text. -/
example : report ['.'] [.mk (q "a") [] [] none []] [] ≠ report ['.'] [.mk (q "a") [] [] (some "None") []] [] := by
  intro h
  have := (C85_tells (n1 := some (.mk (q "a") [] [] none [])) (n2 := none) (n1' := some (.mk (q "a") [] [] (some "None") [])) (n2' := none)
    (by decide) (by decide) (by rintro _ ⟨⟩; exact ⟨by decide, by decide, by decide⟩) (by rintro _ ⟨⟩)
    (by rintro _ ⟨⟩; exact ⟨by decide, by rintro _ ⟨⟩; decide, by decide⟩) (by rintro _ ⟨⟩)).1 h
  exact absurd (congrArg (Option.map Facts.text) this.2.1) (by decide)

/-- A first model that uses the prefix for another namespace. -/
def other : Show.Model := ⟨.mk ⟨"", "m"⟩ [] [] none [.mk ⟨"urn:old", "top"⟩ [] [(.other "type", .str "container")] none []],
  [("m", some "urn:old")], "m", some "urn:old"⟩

/-- The conditions on prefixes are needed: the first model has a node for the expression, with its own prefixes, and `compare` says
that it has none. -/
theorem C85_clash_hides_node : Prefixed other ∧ Prefixed two ∧ ¬ NoClash other two ∧
    (pathEngine other.tree other.prefixes "./m:top".toList).toOption.any (fun l => l.length = 1) = true ∧
    compare pathEngine other two "./m:top".toList = .ok (
      "--------------------- XPATH ---------------------\n'./m:top'\n" ++
      "-------------------- MODEL 1 --------------------\nNone\n" ++
      "-------------------- MODEL 2 --------------------\ntag: '{urn:m}top'\ntext: None\nattributes:\n  type = 'container'\n" ++
      "-------------------------------------------------\n").toList := by
  refine ⟨⟨by decide, by decide⟩, prefixed.2, fun h => ?_, by decide +kernel, by decide +kernel⟩
  exact absurd (h "m" (some "urn:old") (some "urn:m") (by decide) (by decide)) (by decide)

/-- The hypotheses of `C85_own_prefixes` are met. -/
example : ∃ l1 l2, compare pathEngine one two "./m:top/m:a".toList = .ok (report "./m:top/m:a".toList (l1 : List Elem).head?.toList (l2 : List Elem).head?.toList) := by
  have hc : NoClash one two := by
    intro p u v h1 h2
    simp [one, two] at h1 h2
    rcases h1 with ⟨rfl, rfl⟩ | ⟨rfl, rfl⟩ <;> rcases h2 with ⟨h, rfl⟩ | ⟨h, rfl⟩ <;> first | rfl | exact absurd h (by decide)
  have b1 : (pathEngine one.tree one.prefixes "./m:top/m:a".toList).toBool = true := by decide +kernel
  have b2 : (pathEngine two.tree two.prefixes "./m:top/m:a".toList).toBool = true := by decide +kernel
  cases e1 : pathEngine one.tree one.prefixes "./m:top/m:a".toList with
  | error _ => rw [e1] at b1; cases b1
  | ok l1 =>
    cases e2 : pathEngine two.tree two.prefixes "./m:top/m:a".toList with
    | error _ => rw [e2] at b2; cases b2
    | ok l2 => exact ⟨l1, l2, C85_own_prefixes prefixed.1 prefixed.2 hc e1 e2⟩

end NcDiff.Report85
