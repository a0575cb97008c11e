import Verif.Proof.Compile
import Mathlib.Data.List.Nodup
/-!
# Attributes of compiled schema nodes
-/

namespace NcDiff.Compile

open NcDiff.ModelDiff (At SchemaTree)

/-! ## Substatements -/

theorem searchOne_says {i : Info} {k v : String} : i.searchOne k = some v ↔ i.Says k v := by
  rw [Info.searchOne, Info.search, Info.Says]
  generalize i.subs = l
  induction l with
  | nil => simp
  | cons p l ih =>
    obtain ⟨k', v'⟩ := p
    by_cases h : k' = k
    · subst h
      simp only [List.filter_cons, decide_true, if_true, List.map_cons, List.head?_cons, Option.some.injEq]
      constructor
      · rintro rfl
        exact ⟨[], l, rfl, by simp⟩
      · rintro ⟨a, b, he, hn⟩
        cases a with
        | nil => simpa using (congrArg (fun l => l.head?.map Prod.snd) he)
        | cons x a =>
          simp only [List.cons_append, List.cons.injEq] at he
          exact absurd (he.1 ▸ .head _) (hn v')
    · simp only [List.filter_cons, h, decide_false, Bool.false_eq_true, if_false, ih]
      constructor
      · rintro ⟨a, b, rfl, hn⟩
        refine ⟨(k', v') :: a, b, rfl, fun w hw => ?_⟩
        rcases List.mem_cons.1 hw with e | hw
        · exact h (congrArg Prod.fst e).symm
        · exact hn w hw
      · rintro ⟨a, b, he, hn⟩
        cases a with
        | nil =>
          simp only [List.nil_append, List.cons.injEq, Prod.mk.injEq] at he
          exact absurd he.1.1 h
        | cons x a =>
          simp only [List.cons_append, List.cons.injEq] at he
          exact ⟨a, b, he.2, fun w hw => hn w (.tail _ hw)⟩

theorem search_defaults {i : Info} : i.search "default" = i.defaults := by
  rw [Info.search, Info.defaults]
  generalize i.subs = l
  induction l with
  | nil => rfl
  | cons p l ih =>
    by_cases h : p.1 = "default" <;> simp [h, ih]

theorem defaults_nil {i : Info} : i.defaults = [] ↔ ∀ v, ("default", v) ∉ i.subs := by
  rw [Info.defaults, List.filterMap_eq_nil_iff]
  constructor
  · intro h v hv
    simpa using h _ hv
  · rintro h ⟨k, v⟩ hp
    by_cases hk : k = "default"
    · subst hk; exact absurd hp (h v)
    · simp [hk]

/-! ## Look-ups -/

/-- A string attribute in a list of attributes. -/
def look (a : Attrs) (n : AName) : Option String :=
  match a.lookup n with
  | some (.str s) => some s
  | _ => none

theorem strAttr_mk {t n a x k m} : strAttr (.mk t n a x k) m = look a m := rfl

theorem look_cons {n m : AName} {s : String} {a : Attrs} :
    look ((n, .str s) :: a) m = if m = n then some s else look a m := by
  simp only [look, List.lookup_cons]
  by_cases h : m = n
  · subst h; simp
  · have : (m == n) = false := by simpa using h
    simp [this, h]

theorem look_nil {m : AName} : look [] m = none := rfl

theorem look_attrIf {c : Bool} {n m : AName} {v : String} {a : Attrs} :
    look (attrIf c n v ++ a) m = if c = true ∧ m = n then some v else look a m := by
  cases c
  · simp [attrIf]
  · simp [attrIf, look_cons]

theorem look_optAttr {n m : AName} {v : Option String} {a : Attrs} :
    look (optAttr n v ++ a) m = if m = n then (match v with | some s => some s | none => look a m) else look a m := by
  cases v
  · simp [optAttr]
  · simp [optAttr, look_cons]

/-- The attributes that a leaf has for its type. -/
theorem look_datatype {i : Info} {dt : Attrs} (h : datatypeAttrs i = .ok dt) :
    (∀ m a, m ≠ .other "datatype" → m ≠ .other "values" → m ≠ .other "unionmembertypes" →
      look (dt ++ a) m = look a m) ∧
    (∀ a, look (dt ++ a) (.other "datatype") =
      match i.type with
      | none => look a (.other "datatype")
      | some t => (datatypeText i.modulePrefix t).toOption) := by
  rw [datatypeAttrs] at h
  cases ht : i.type with
  | none =>
    rw [ht] at h
    obtain rfl : [] = dt := Except.ok.inj h
    exact ⟨fun _ _ _ _ _ => rfl, fun _ => rfl⟩
  | some t =>
    rw [ht] at h
    obtain ⟨d, hd, h⟩ := bind_ok.1 h
    obtain rfl := (Except.ok.inj h)
    refine ⟨fun m a h1 h2 h3 => ?_, fun a => ?_⟩
    · simp only [List.append_assoc, List.cons_append, List.nil_append, look_cons, look_attrIf, h1, h2, h3]
      simp
    · simp only [List.append_assoc, List.cons_append, List.nil_append, look_cons, if_true, hd]
      rfl

/-- The attributes by keyword. -/
theorem kind_cases {i : Info} {k : Attrs} (h : kindAttrs i = .ok k) :
    (i.keyword = "list" ∧ k = optAttr .key (i.searchOne "key") ++
      attrIf (i.searchOne "ordered-by" = some "user") (.other "ordered-by") "user") ∨
    (i.keyword = "container" ∧ k = attrIf (i.searchOne "presence").isSome (.other "presence") "true") ∨
    (i.keyword = "choice" ∧ k = attrIf (i.searchOne "mandatory" = some "true") (.other "mandatory") "true" ++
      attrIf (i.search "case" ≠ []) (.other "values") (joinWith "|" (i.search "case"))) ∨
    (i.LeafLike ∧ ∃ dt, datatypeAttrs i = .ok dt ∧
      k = dt ++ attrIf (i.searchOne "mandatory" = some "true" || i.isKey) (.other "mandatory") "true" ++
      attrIf i.isKey (.other "is_key") "true" ++
      attrIf (i.keyword = "leaf-list" && i.searchOne "ordered-by" = some "user") (.other "ordered-by") "user") ∨
    (i.keyword ≠ "list" ∧ i.keyword ≠ "container" ∧ i.keyword ≠ "choice" ∧ ¬ i.LeafLike ∧ k = []) := by
  unfold kindAttrs at h
  split at h
  · exact .inl ⟨‹_›, (Except.ok.inj h).symm⟩
  · split at h
    · exact .inr (.inl ⟨‹_›, (Except.ok.inj h).symm⟩)
    · split at h
      · exact .inr (.inr (.inl ⟨‹_›, (Except.ok.inj h).symm⟩))
      · split at h
        · obtain ⟨dt, hd, h⟩ := bind_ok.1 h
          exact .inr (.inr (.inr (.inl ⟨‹_›, dt, hd, (Except.ok.inj h).symm⟩)))
        · exact .inr (.inr (.inr (.inr ⟨‹_›, ‹_›, ‹_›, ‹_›, (Except.ok.inj h).symm⟩)))

theorem attrs_eq {mode i a} (h : attrsOf mode i = .ok a) : ∃ k, kindAttrs i = .ok k ∧
    a = (.other "access", .str (accessOf mode i)) :: (.other "type", .str i.keyword) ::
    (attrIf (i.searchOne "status" = some "deprecated" || i.searchOne "status" = some "obsolete") (.other "status")
      ((i.searchOne "status").getD "") ++
    (attrIf (i.search "default" ≠ []) (.other "default") (joinWith "," (i.search "default")) ++ (k ++
    (attrIf (featureNames i ≠ []) (.other "if-feature") (joinWith " " (featureNames i)) ++ [])))) := by
  obtain ⟨k, hk, h⟩ := bind_ok.1 h
  refine ⟨k, hk, ?_⟩
  rw [← Except.ok.inj h]
  simp

/-- What the attributes say. -/
theorem attrs_look {mode i a} (h : attrsOf mode i = .ok a) :
    look a (.other "access") = some (accessOf mode i) ∧
    look a (.other "type") = some i.keyword ∧
    (∀ v, look a (.other "status") = some v ↔ (v = "deprecated" ∨ v = "obsolete") ∧ i.Says "status" v) ∧
    look a (.other "default") = (if i.defaults = [] then none else some (joinWith "," i.defaults)) ∧
    look a .key = (if i.keyword = "list" then i.searchOne "key" else none) ∧
    (look a (.other "ordered-by") = some "user" ↔
      (i.keyword = "list" ∨ i.keyword = "leaf-list") ∧ i.Says "ordered-by" "user") ∧
    (look a (.other "presence") = some "true" ↔ i.keyword = "container" ∧ ∃ v, i.Says "presence" v) ∧
    ((look a (.other "is_key")).isSome ↔ i.LeafLike ∧ i.isKey = true) ∧
    (look a (.other "mandatory") = some "true" ↔
      (i.LeafLike ∨ i.keyword = "choice") ∧ i.Says "mandatory" "true" ∨ i.LeafLike ∧ i.isKey = true) ∧
    look a (.other "datatype") =
      (match i.type with
       | none => none
       | some t => if i.keyword = "leaf" ∨ i.keyword = "leaf-list" then (datatypeText i.modulePrefix t).toOption
          else none) ∧
    look a (.other "if-feature") =
      (if featureNames i = [] then none else some (joinWith " " (featureNames i))) := by
  obtain ⟨k, hk, rfl⟩ := attrs_eq h
  simp only [← searchOne_says, ← search_defaults, ← Option.isSome_iff_exists]
  have hst : ∀ v, (if (decide (i.searchOne "status" = some "deprecated") ||
        decide (i.searchOne "status" = some "obsolete")) = true then some ((i.searchOne "status").getD "") else none) =
        some v ↔ (v = "deprecated" ∨ v = "obsolete") ∧ i.searchOne "status" = some v := by
    intro v
    cases hs : i.searchOne "status" with
    | none => simp
    | some w =>
      simp only [Option.some.injEq, Option.getD_some, Bool.or_eq_true, decide_eq_true_eq]
      constructor
      · intro h
        split at h
        · cases h; exact ⟨‹_›, rfl⟩
        · cases h
      · rintro ⟨h, rfl⟩
        rw [if_pos h]
  rcases kind_cases hk with ⟨hw, rfl⟩ | ⟨hw, rfl⟩ | ⟨hw, rfl⟩ | ⟨hw, dt, hd, rfl⟩ | ⟨h1, h2, h3, h4, rfl⟩
  · simp only [List.append_assoc, look_cons, look_attrIf, look_optAttr, look_nil, Info.LeafLike, hw]
    refine ⟨by simp, by simp, by simpa using hst, by simp, ?_, ?_, by simp, by simp, by simp, ?_, by simp⟩
    · cases i.searchOne "key" <;> simp
    · simp
    · cases i.type <;> simp
  · simp only [List.append_assoc, look_cons, look_attrIf, look_optAttr, look_nil, Info.LeafLike, hw]
    refine ⟨by simp, by simp, by simpa using hst, by simp, by simp, by simp, ?_, by simp, by simp, ?_, by simp⟩
    · cases i.searchOne "presence" <;> simp
    · cases i.type <;> simp
  · simp only [List.append_assoc, look_cons, look_attrIf, look_optAttr, look_nil, Info.LeafLike, hw]
    refine ⟨by simp, by simp, by simpa using hst, by simp, by simp, by simp, by simp, by simp, by simp, ?_, by simp⟩
    cases i.type <;> simp
  · obtain ⟨hn, hdt⟩ := look_datatype hd
    have hl : i.keyword ≠ "list" ∧ i.keyword ≠ "container" ∧ i.keyword ≠ "choice" := by
      rcases hw with h | h <;> rw [h] <;> decide
    have hw' : i.keyword = "leaf" ∨ i.keyword = "leaf-list" := hw
    simp only [List.append_assoc, look_cons, look_attrIf, look_nil, hl, hw, hdt,
      hn .key _ (by decide) (by decide) (by decide), hn (.other "access") _ (by decide) (by decide) (by decide),
      hn (.other "status") _ (by decide) (by decide) (by decide),
      hn (.other "default") _ (by decide) (by decide) (by decide),
      hn (.other "ordered-by") _ (by decide) (by decide) (by decide),
      hn (.other "presence") _ (by decide) (by decide) (by decide),
      hn (.other "is_key") _ (by decide) (by decide) (by decide),
      hn (.other "mandatory") _ (by decide) (by decide) (by decide),
      hn (.other "if-feature") _ (by decide) (by decide) (by decide)]
    refine ⟨by simp, by simp, by simpa using hst, by simp, by simp, by simp, by simp, by simp, ?_, ?_, by simp⟩
    · cases i.isKey <;> simp
    · cases i.type <;> simp [hw']
  · have hl : i.keyword ≠ "leaf" ∧ i.keyword ≠ "leaf-list" := ⟨fun h => h4 (.inl h), fun h => h4 (.inr h)⟩
    simp only [List.nil_append, look_cons, look_attrIf, look_nil, h1, h2, h3, h4]
    refine ⟨by simp, by simp, by simpa using hst, by simp, by simp, by simp [hl], by simp, by simp, by simp, ?_, by simp⟩
    cases i.type <;> simp [hl]

/-- The attributes on values. -/
theorem attrs_values {mode i a} (h : attrsOf mode i = .ok a) :
    (∀ t, i.LeafLike → i.type = some t → look a (.other "values") = (if t.values = "" then none else some t.values) ∧
      look a (.other "unionmembertypes") = if t.arg = "union" then some (joinWith "|" t.members) else none) ∧
    (i.keyword = "choice" → look a (.other "values") =
      if i.search "case" = [] then none else some (joinWith "|" (i.search "case"))) := by
  obtain ⟨k, hk, rfl⟩ := attrs_eq h
  rcases kind_cases hk with ⟨hw, rfl⟩ | ⟨hw, rfl⟩ | ⟨hw, rfl⟩ | ⟨hw, dt, hd, rfl⟩ | ⟨h1, h2, h3, h4, rfl⟩
  · simp [Info.LeafLike, hw]
  · simp [Info.LeafLike, hw]
  · refine ⟨by simp [Info.LeafLike, hw], fun _ => ?_⟩
    simp only [List.append_assoc, look_cons, look_attrIf, look_nil]
    by_cases hc : i.search "case" = [] <;> simp [hc]
  · refine ⟨fun t _ ht => ?_, fun hc => by rcases hw with h | h <;> rw [h] at hc <;> exact absurd hc (by decide)⟩
    rw [datatypeAttrs, ht] at hd
    obtain ⟨d, _, hd⟩ := bind_ok.1 hd
    obtain rfl := (Except.ok.inj hd)
    simp only [List.append_assoc, List.cons_append, List.nil_append, look_cons, look_attrIf, look_nil]
    constructor
    · by_cases hv : t.values = "" <;> simp [hv]
    · by_cases hv : t.arg = "union" <;> simp [hv]
  · exact ⟨fun t hl => absurd hl h4, fun hc => absurd hc h3⟩

theorem mem_search {i : Info} {k v : String} : v ∈ i.search k ↔ (k, v) ∈ i.subs := by
  rw [Info.search, List.mem_map]
  constructor
  · rintro ⟨⟨k', v'⟩, h, rfl⟩
    obtain ⟨h1, h2⟩ := List.mem_filter.1 h
    rw [← of_decide_eq_true h2]
    exact h1
  · intro h
    exact ⟨(k, v), List.mem_filter.2 ⟨h, by simp⟩, rfl⟩

theorem mem_features {i : Info} {f : String} :
    f ∈ featureNames i ↔ ("if-feature", f) ∈ i.subs ∨ f ∈ i.augmented := by
  rw [featureNames, List.mem_append, List.mem_filter, mem_search]
  simp only [List.contains_eq_mem, Bool.not_eq_true', decide_eq_false_iff_not, mem_search]
  tauto

theorem nodup_features {i : Info} (h : (i.subs.filter fun p => p.1 = "if-feature").Nodup) (ha : i.augmented.Nodup) :
    (featureNames i).Nodup := by
  rw [featureNames, List.nodup_append]
  refine ⟨?_, ha.filter _, ?_⟩
  · rw [Info.search]
    refine List.Nodup.map_on ?_ h
    rintro ⟨k, v⟩ hx ⟨k', v'⟩ hy e
    have h1 := of_decide_eq_true (List.mem_filter.1 hx).2
    have h2 := of_decide_eq_true (List.mem_filter.1 hy).2
    dsimp only at h1 h2 e
    rw [h1, h2, e]
  · rintro a ha b hb rfl
    have := (List.mem_filter.1 hb).2
    simp [ha] at this

/-! ## Attributes are dictionaries -/

theorem keys_attrIf {c n v} : ((attrIf c n v).map Prod.fst).Sublist [n] := by
  cases c <;> simp [attrIf]

theorem keys_optAttr {n v} : ((optAttr n v).map Prod.fst).Sublist [n] := by
  cases v <;> simp [optAttr]

theorem keys_datatype {i : Info} {dt : Attrs} (h : datatypeAttrs i = .ok dt) :
    (dt.map Prod.fst).Sublist ([.other "datatype"] ++ [.other "values"] ++ [.other "unionmembertypes"]) := by
  rw [datatypeAttrs] at h
  cases ht : i.type with
  | none =>
    rw [ht] at h
    obtain rfl : [] = dt := Except.ok.inj h
    simp
  | some t =>
    rw [ht] at h
    obtain ⟨d, hd, h⟩ := bind_ok.1 h
    obtain rfl := (Except.ok.inj h)
    simp only [List.map_append]
    exact ((List.Sublist.refl _).append keys_attrIf).append keys_attrIf

theorem attrs_nodup {mode i a} (h : attrsOf mode i = .ok a) : (a.map Prod.fst).Nodup := by
  obtain ⟨k, hk, rfl⟩ := attrs_eq h
  have key : ∀ l : List AName, (k.map Prod.fst).Sublist l →
      ([AName.other "access"] ++ ([AName.other "type"] ++ ([AName.other "status"] ++ ([AName.other "default"] ++ (l ++
        [AName.other "if-feature"]))))).Nodup → (((AName.other "access", AVal.str (accessOf mode i)) ::
        (.other "type", .str i.keyword) ::
    (attrIf (i.searchOne "status" = some "deprecated" || i.searchOne "status" = some "obsolete") (.other "status")
      ((i.searchOne "status").getD "") ++
    (attrIf (i.search "default" ≠ []) (.other "default") (joinWith "," (i.search "default")) ++ (k ++
    (attrIf (featureNames i ≠ []) (.other "if-feature") (joinWith " " (featureNames i)) ++ []))))).map
      Prod.fst).Nodup := by
    intro l hl hn
    refine List.Nodup.sublist ?_ hn
    simp only [List.map_cons, List.map_append, List.map_nil, List.append_nil, List.cons_append, List.nil_append]
    exact ((keys_attrIf.append (keys_attrIf.append (hl.append keys_attrIf))).cons₂ _).cons₂ _
  rcases kind_cases hk with ⟨_, rfl⟩ | ⟨_, rfl⟩ | ⟨_, rfl⟩ | ⟨_, dt, hd, rfl⟩ | ⟨_, _, _, _, rfl⟩
  · refine key ([.key] ++ [.other "ordered-by"]) ?_ (by decide)
    rw [List.map_append]
    exact keys_optAttr.append keys_attrIf
  · exact key [.other "presence"] keys_attrIf (by decide)
  · refine key ([.other "mandatory"] ++ [.other "values"]) ?_ (by decide)
    rw [List.map_append]
    exact keys_attrIf.append keys_attrIf
  · refine key ([.other "datatype"] ++ [.other "values"] ++ [.other "unionmembertypes"] ++ [.other "mandatory"] ++
      [.other "is_key"] ++ [.other "ordered-by"]) ?_ (by decide)
    simp only [List.map_append]
    exact (((keys_datatype hd).append keys_attrIf).append keys_attrIf).append keys_attrIf
  · exact key [] (by simp) (by decide)

end NcDiff.Compile
