import Verif.Proof.CompileTree
import Verif.Props.Compat
/-!
# C46 and C47: compiled schema trees, filters of requests
-/

namespace NcDiff

namespace Compile

open NcDiff.ModelDiff (At SchemaTree)

theorem describes {ns mode s e} (h : depict ns mode s = .ok e) : Describes ns s e := by
  obtain ⟨u, a, sub, hu, ha, hs, rfl⟩ := depict_ok.1 h
  obtain ⟨_, ht, hst, hdf, hkey, hord, hpr, hik, hmd, hdt, hft⟩ := attrs_look ha
  have hid : ∀ x, x = DType.identityref ∨ x = DType.instanceId →
      (dtypeOf (strAttr (.mk ⟨u, s.info.arg⟩ [] a none sub) (.other "datatype")) = x ↔
        s.info.LeafLike ∧ ∃ t, s.info.type = some t ∧
          ∃ d, datatypeText s.info.modulePrefix t = .ok d ∧ dtypeOf (some d) = x) := by
    intro x hx
    have hx0 : dtypeOf none ≠ x := by rcases hx with rfl | rfl <;> decide
    rw [strAttr_mk, hdt]
    cases hty : s.info.type with
    | none => simpa using hx0
    | some t =>
      dsimp only
      by_cases hl : s.info.LeafLike
      · rw [if_pos (show s.info.keyword = "leaf" ∨ s.info.keyword = "leaf-list" from hl)]
        obtain ⟨d, hd⟩ := datatypeText_ok.2 (attrsOf_ok.1 ⟨a, ha⟩ t hl hty)
        rw [hd]
        constructor
        · intro h
          exact ⟨hl, t, rfl, d, hd, h⟩
        · rintro ⟨_, t', e, d', hd', h⟩
          cases e
          rw [hd] at hd'
          cases hd'
          exact h
      · rw [if_neg (show ¬ (s.info.keyword = "leaf" ∨ s.info.keyword = "leaf-list") from hl)]
        exact ⟨fun h => absurd h hx0, fun h => absurd h.1 hl⟩
  have hok : s.info.LeafLike → ∀ t, s.info.type = some t → ∃ d, datatypeText s.info.modulePrefix t = .ok d :=
    fun hl t hty => datatypeText_ok.2 (attrsOf_ok.1 ⟨a, ha⟩ t hl hty)
  refine ⟨⟨hu, rfl⟩, ?_, ht, hst, ?_, ?_, hord, hpr, hik, hmd, ?_, ?_, ?_, ?_,
    ⟨featureNames s.info, hft, fun _ => mem_features, nodup_features⟩, ?_, ?_, ?_, ?_⟩
  · have := depictKids_ok.1 hs
    exact List.Forall₂.flip (this.imp fun _ _ h => named_of_depict h)
  · rw [strAttr_mk, hdf, ← defaults_nil]
    by_cases h : s.info.defaults = [] <;> simp [h]
  · intro v
    rw [strAttr_mk, hkey, ← searchOne_says]
    by_cases h : s.info.keyword = "list" <;> simp [h]
  · intro v hv
    rw [strAttr_mk, hdf, hv]
    rfl
  · intro w hw
    rw [strAttr_mk, hdf] at hw
    split at hw
    · cases hw
    · rename_i hne
      obtain rfl := Option.some.inj hw
      exact defaults_read hne
  · rw [hid _ (.inl rfl)]
    constructor
    · rintro ⟨hl, t, hty, d, hd, hx⟩
      exact ⟨hl, t, hty, (dtype_text hd).1.1 hx⟩
    · rintro ⟨hl, t, hty, hx⟩
      obtain ⟨d, hd⟩ := hok hl t hty
      exact ⟨hl, t, hty, d, hd, (dtype_text hd).1.2 hx⟩
  · rw [hid _ (.inr rfl)]
    constructor
    · rintro ⟨hl, t, hty, d, hd, hx⟩
      exact ⟨hl, t, hty, (dtype_text hd).2.1 hx⟩
    · rintro ⟨hl, t, hty, hx⟩
      obtain ⟨d, hd⟩ := hok hl t hty
      exact ⟨hl, t, hty, d, hd, (dtype_text hd).2.2 hx⟩
  · intro t p hl hty hta htp hn
    obtain ⟨w, h1, h2⟩ := leafref_text (pfx := s.info.modulePrefix) hta htp hn
    refine ⟨w, ?_, h2⟩
    rw [strAttr_mk, hdt, hty]
    dsimp only
    rw [if_pos (show s.info.keyword = "leaf" ∨ s.info.keyword = "leaf-list" from hl), h1]
    rfl
  · exact fun t hl hty => ((attrs_values ha).1 t hl hty).1
  · exact fun t hl hty => ((attrs_values ha).1 t hl hty).2
  · exact ⟨s.info.search "case", fun hc => ⟨fun _ => mem_search, (attrs_values ha).2 hc⟩⟩

theorem ntypeOf_iff {k : String} :
    (ntypeOf (some k) = .leaf ↔ k = "leaf") ∧ (ntypeOf (some k) = .leafList ↔ k = "leaf-list") ∧
    (ntypeOf (some k) = .container ↔ k = "container") ∧ (ntypeOf (some k) = .list ↔ k = "list") ∧
    (ntypeOf (some k) = .choice ↔ k = "choice") ∧ (ntypeOf (some k) = .case ↔ k = "case") := by
  by_cases h1 : k = "leaf"
  · subst h1; decide
  by_cases h2 : k = "leaf-list"
  · subst h2; decide
  by_cases h3 : k = "container"
  · subst h3; decide
  by_cases h4 : k = "list"
  · subst h4; decide
  by_cases h5 : k = "choice"
  · subst h5; decide
  by_cases h6 : k = "case"
  · subst h6; decide
  have : ntypeOf (some k) = .other := by
    unfold ntypeOf
    split <;> rename_i h <;> first | (exact absurd (Option.some.inj h) (by assumption)) | rfl
  rw [this]
  simp [h1, h2, h3, h4, h5, h6]

theorem understood {ns s e a} (h : Describes ns s e) (ha : strAttr e (.other "access") = some a) :
    Understood ns s a (infoOf e) := by
  have hk := @ntypeOf_iff s.info.keyword
  have hst : ∀ v, strAttr e (.other "status") = some v ↔ (v = "deprecated" ∨ v = "obsolete") ∧ s.info.Says "status" v :=
    h.status
  refine ⟨h.tag, ?_, ?_, ?_, ?_, ?_, ?_, ?_, ?_, h.isKey, ?_, ?_, h.single, ?_, h.several, h.identity, h.instance_, ?_,
    ?_, ?_⟩
  · rw [infoOf]; dsimp only; rw [h.type]; exact hk.1
  · rw [infoOf]; dsimp only; rw [h.type]; exact hk.2.1
  · rw [infoOf]; dsimp only; rw [h.type]; exact hk.2.2.1
  · rw [infoOf]; dsimp only; rw [h.type]; exact hk.2.2.2.1
  · rw [infoOf]; dsimp only; rw [h.type]; exact hk.2.2.2.2.1
  · rw [infoOf]; dsimp only; rw [h.type]; exact hk.2.2.2.2.2
  · rw [← h.ordered]; simp [infoOf]
  · rw [← h.presence]; simp [infoOf]
  · intro v l hl hv hs
    rw [infoOf]
    dsimp only
    rw [(h.key v).2 ⟨hl, hv⟩]
    exact keyNamesOf_spelled hs
  · intro hn
    have : strAttr e .key = none := by
      cases hx : strAttr e .key with
      | none => rfl
      | some v =>
        obtain ⟨h1, h2⟩ := (h.key v).1 hx
        rcases hn with hn | hn
        · exact absurd h1 hn
        · exact absurd h2 (hn v)
    rw [infoOf]
    dsimp only
    rw [this]
  · rw [defaults_nil]; exact h.dflt
  · rw [infoOf]
    dsimp only
    rw [ha]
    simp
  · have h1 := hst "obsolete"
    rw [infoOf]
    dsimp only
    constructor
    · intro hx
      split at hx
      · exact (h1.1 ‹_›).2
      · split at hx <;> cases hx
    · intro hx
      rw [if_pos (h1.2 ⟨.inr rfl, hx⟩)]
  · have h1 := hst "deprecated"
    rw [infoOf]
    dsimp only
    constructor
    · intro hx
      split at hx
      · cases hx
      · split at hx
        · exact (h1.1 ‹_›).2
        · cases hx
    · intro hx
      have h2 := h1.2 ⟨.inl rfl, hx⟩
      rw [h2]
      decide

theorem access_of_depict {ns mode s e} (h : depict ns mode s = .ok e) :
    strAttr e (.other "access") = some (accessOf mode s.info) := by
  obtain ⟨u, a, sub, hu, ha, hs, rfl⟩ := depict_ok.1 h
  exact (attrs_look ha).1

/-- C46: a module can be compiled if and only if it is not a submodule, the namespace of each statement is known, and
each leaf of type `identityref` has a base. -/
theorem C46_total {ns name pfx kids} : (∃ t, compileTree ns name pfx kids = .ok t) ↔
    (∃ p, pfx = some p) ∧ ∀ c s, TreeChain kids c → c.getLast? = some s → Compilable ns s := by
  constructor
  · rintro ⟨t, h⟩
    refine ⟨by obtain ⟨p, _, _, _, hp, _⟩ := compileTree_ok.1 h; exact ⟨p, hp⟩, ?_⟩
    rintro c s hc hs
    obtain ⟨_, s0, r, rfl, _⟩ := id hc
    obtain ⟨_, n, _, _, hd⟩ := tree_up h hc
    rw [endOf_eq, List.getLast?_eq_some_getLast (by simp)] at *
    cases hs
    exact compilable_of_depict hd
  · rintro ⟨⟨p, rfl⟩, h⟩
    have key : ∀ mode, ∀ s ∈ kids, InTree s → ∃ e, depict ns mode s = .ok e := by
      intro mode s hs hi
      refine depict_total s mode fun c hc => h (s :: c) _ ⟨?_, s, c, rfl, hi⟩ ?_
      · rcases hc with rfl | hc
        · exact .one hs
        · exact .more hs hc
      · rw [endOf_eq, List.getLast?_eq_some_getLast (by simp)]
    obtain ⟨a, ha⟩ := depictTop_total (ns := ns) (mode := none)
      (kids.filter fun k => dataKeywords.contains k.info.keyword) fun s hs =>
        key _ s (List.mem_filter.1 hs).1 (inTree_iff.2 (.inl (List.mem_filter.1 hs).2))
    obtain ⟨b, hb⟩ := depictTop_total (ns := ns) (mode := some "rpc")
      (kids.filter fun k => k.info.keyword = "rpc") fun s hs =>
        key _ s (List.mem_filter.1 hs).1
          (inTree_iff.2 (.inr (.inl (of_decide_eq_true (List.mem_filter.1 hs).2))))
    obtain ⟨c, hc⟩ := depictTop_total (ns := ns) (mode := some "notification")
      (kids.filter fun k => k.info.keyword = "notification") fun s hs =>
        key _ s (List.mem_filter.1 hs).1
          (inTree_iff.2 (.inr (.inr (of_decide_eq_true (List.mem_filter.1 hs).2))))
    exact ⟨_, compileTree_ok.2 ⟨p, a, b, c, rfl, depictTop_ok.1 ha, depictTop_ok.1 hb, depictTop_ok.1 hc, rfl⟩⟩

/-- C46: each node of the compiled tree stands for a statement, found along statements with the names of its path; its
attributes describe this statement, and its access is the one that the chain of statements gives. -/
theorem C46_nodes {ns name pfx kids t path e} (h : compileTree ns name pfx kids = .ok t) (hp : path ≠ [])
    (he : At t path e) : ∃ c s, TreeChain kids c ∧ c.getLast? = some s ∧ List.Forall₂ (Named ns) path c ∧
      Describes ns s e ∧ (Operations kids → strAttr e (.other "access") = some (chainAccess c)) := by
  obtain ⟨s, c, hc, hq, hd⟩ := tree_down h hp he
  refine ⟨s :: c, endOf s c, hc, ?_, hq, describes hd, fun ho => ?_⟩
  · rw [endOf_eq, List.getLast?_eq_some_getLast (by simp)]
  · rw [access_of_depict hd, access_chain ho hc.1]

/-- C46: no statement is lost. -/
theorem C46_all {ns name pfx kids t c s} (h : compileTree ns name pfx kids = .ok t) (hc : TreeChain kids c)
    (hs : c.getLast? = some s) : ∃ path e, At t path e ∧ List.Forall₂ (Named ns) path c ∧ Describes ns s e ∧
      (Operations kids → strAttr e (.other "access") = some (chainAccess c)) := by
  obtain ⟨_, s0, r, rfl, _⟩ := id hc
  obtain ⟨path, n, hn, hq, hd⟩ := tree_up h hc
  have : endOf s0 r = s := by
    rw [List.getLast?_eq_some_getLast (by simp)] at hs
    rw [endOf_eq]
    exact Option.some.inj hs
  refine ⟨path, n, hn, hq, this ▸ describes hd, fun ho => ?_⟩
  rw [access_of_depict hd, access_chain ho hc.1]

/-- C46: what the library takes from a node of the compiled tree is what the statement says. -/
theorem C46_read {ns name pfx kids t path e} (h : compileTree ns name pfx kids = .ok t) (ho : Operations kids)
    (hp : path ≠ []) (he : At t path e) : ∃ c s, TreeChain kids c ∧ c.getLast? = some s ∧
      List.Forall₂ (Named ns) path c ∧ Understood ns s (chainAccess c) (SNode.ofElem e).info := by
  obtain ⟨c, s, hc, hs, hq, hd, ha⟩ := C46_nodes h hp he
  refine ⟨c, s, hc, hs, hq, ?_⟩
  have : (SNode.ofElem e).info = infoOf e := by cases e; rfl
  rw [this]
  exact understood hd (ha ho)

/-- C46: the roots are the data definitions of the module, then its operations, then its notifications, each in the
order of the module. -/
theorem C46_order {ns name pfx kids t} (h : compileTree ns name pfx kids = .ok t) :
    t.tag = ⟨"", name⟩ ∧ ∃ a b c, t.kids = a ++ b ++ c ∧
      List.Forall₂ (fun s e => Named ns (Elem.tag e) s) (kids.filter fun s => s.info.keyword ∈ dataKeywords) a ∧
      List.Forall₂ (fun s e => Named ns (Elem.tag e) s) (kids.filter fun s => s.info.keyword = "rpc") b ∧
      List.Forall₂ (fun s e => Named ns (Elem.tag e) s) (kids.filter fun s => s.info.keyword = "notification") c := by
  obtain ⟨p, a, b, c, _, ha, hb, hc, rfl⟩ := compileTree_ok.1 h
  refine ⟨rfl, a, b, c, rfl, ?_, hb.imp fun _ _ h => named_of_depict h, hc.imp fun _ _ h => named_of_depict h⟩
  have := ha.imp fun _ _ h => named_of_depict h
  simpa only [List.contains_eq_mem] using this

/-- C46: if siblings have different names, the compiled tree is a schema tree in the sense of C33 and C45. -/
theorem C46_schema {ns name pfx kids t} (h : compileTree ns name pfx kids = .ok t) (h0 : DistinctNames ns kids)
    (h1 : ∀ c s, TreeChain kids c → c.getLast? = some s → DistinctNames ns s.kids) : SchemaTree t := by
  have hnode : ∀ path n, path ≠ [] → At t path n → ∃ c s, TreeChain kids c ∧ c.getLast? = some s ∧
      ∃ mode, depict ns mode s = .ok n := by
    intro path n hp hn
    obtain ⟨s, c, hc, _, hd⟩ := tree_down h hp hn
    exact ⟨s :: c, endOf s c, hc, by rw [endOf_eq, List.getLast?_eq_some_getLast (by simp)], _, hd⟩
  refine ⟨fun path n hn => ?_, fun path n hp hn => ?_, fun path n hn => ?_⟩
  · by_cases hp : path = []
    · subst hp
      cases hn
      exact nodup_tags ((compileTree_kids h).imp fun _ _ h => named_of_depict h) (distinct_ordered h0)
    · obtain ⟨c, s, hc, hs, mode, hd⟩ := hnode path n hp hn
      obtain ⟨u, a, sub, hu, ha, hsub, rfl⟩ := depict_ok.1 hd
      exact nodup_tags ((depictKids_ok.1 hsub).imp fun _ _ h => named_of_depict h) (h1 c s hc hs)
  · obtain ⟨c, s, hc, hs, mode, hd⟩ := hnode path n hp hn
    have := (describes hd).type
    rw [strAttr] at this
    split at this
    · exact ⟨_, ‹_›⟩
    · cases this
  · by_cases hp : path = []
    · subst hp
      cases hn
      obtain ⟨p, a, b, c, _, _, _, _, rfl⟩ := compileTree_ok.1 h
      show ([AName.other "type", AName.other "prefix"]).Nodup
      decide
    · obtain ⟨c, s, hc, hs, mode, hd⟩ := hnode path n hp hn
      obtain ⟨u, a, sub, hu, ha, hsub, rfl⟩ := depict_ok.1 hd
      exact attrs_nodup ha

/-- C46: a device whose models are compiled is well loaded. -/
theorem C46_loaded {h : Host} (hn : (h.models.map Prod.fst).Nodup)
    (hc : ∀ m t, (m, t) ∈ h.models → ∃ ns pfx kids, compileTree ns m pfx kids = .ok t ∧ DistinctNames ns kids ∧
      ∀ c s, TreeChain kids c → c.getLast? = some s → DistinctNames ns s.kids) : WellLoaded h := by
  refine ⟨hn, fun m t hm => ?_, fun m t hm => ?_⟩
  · obtain ⟨ns, pfx, kids, h, _⟩ := hc m t hm
    exact (C46_order h).1
  · obtain ⟨ns, pfx, kids, h, h0, h1⟩ := hc m t hm
    exact C46_schema h h0 h1

/-! ## C47 -/

theorem missing_iff {h : Host} {ms : List String} :
    ms.any (fun m => (h.models.lookup m).isNone) = true ↔ ∃ m ∈ ms, ¬ HasModel h m := by
  rw [List.any_eq_true]
  constructor
  · rintro ⟨m, hm, hn⟩
    refine ⟨m, hm, ?_⟩
    rintro ⟨t, ht⟩
    have : ∀ l : List (String × Elem), (m, t) ∈ l → (l.lookup m).isNone = false := by
      intro l
      induction l with
      | nil => intro h; cases h
      | cons p l ih =>
        intro hl
        rw [List.lookup_cons]
        by_cases e : m = p.1
        · simp [e]
        · rw [show (m == p.1) = false by simpa using e]
          rcases List.mem_cons.1 hl with e' | hl
          · exact absurd (congrArg Prod.fst e') e
          · exact ih hl
    rw [this _ ht] at hn
    cases hn
  · rintro ⟨m, hm, hn⟩
    refine ⟨m, hm, ?_⟩
    cases hl : h.models.lookup m with
    | none => rfl
    | some t => exact absurd ⟨t, lookup_mem hl⟩ hn

/-- C47: the filter of a request for models has exactly their roots with the right access, each once. -/
theorem C47_filter {h : Host} (hw : WellLoaded h) (ho : OwnRoots h) {r : Request} {ms : List String}
    {roots : List QName} (hf : requestFilter h r ms = .ok roots) :
    roots.Nodup ∧ roots ≠ [] ∧ (∀ m ∈ ms, HasModel h m) ∧
      ∀ x, x ∈ roots ↔ AskedFor h ms (accessFor r) x := by
  obtain ⟨res, h1, h2, h3⟩ := pickRoots_asked hw ho r ms
  rw [requestFilter] at hf
  split at hf
  · cases hf
  · rename_i hm
    rw [missing_iff] at hm
    rw [h1] at hf
    change (if res.isEmpty = true then _ else _) = _ at hf
    split at hf
    · cases hf
    · rename_i he
      obtain rfl := Except.ok.inj hf
      exact ⟨h2, by simpa using he, fun m hms => by by_contra hc; exact hm ⟨m, hms, hc⟩, h3⟩

/-- C47: a request fails only with `ModelMissing`, if a model is not loaded, or with `ValueError`, if the models have no
root with the right access. -/
theorem C47_errors {h : Host} (hw : WellLoaded h) (ho : OwnRoots h) {r : Request} {ms : List String} {x : Err} :
    requestFilter h r ms = .error x ↔
      (x = .modelMissing ∧ ∃ m ∈ ms, ¬ HasModel h m) ∨
      (x = .valueError ∧ (∀ m ∈ ms, HasModel h m) ∧ ∀ q, ¬ AskedFor h ms (accessFor r) q) := by
  obtain ⟨res, h1, h2, h3⟩ := pickRoots_asked hw ho r ms
  rw [requestFilter]
  by_cases hm : ∃ m ∈ ms, ¬ HasModel h m
  · rw [if_pos (missing_iff.2 hm)]
    constructor
    · intro e
      cases e
      exact .inl ⟨rfl, hm⟩
    · rintro (⟨rfl, _⟩ | ⟨_, hall, _⟩)
      · rfl
      · obtain ⟨m, h1, h2⟩ := hm
        exact absurd (hall m h1) h2
  · rw [if_neg (fun h => hm (missing_iff.1 h)), h1]
    change (if res.isEmpty = true then _ else _) = _ ↔ _
    have hall : ∀ m ∈ ms, HasModel h m := fun m hms => by by_contra hc; exact hm ⟨m, hms, hc⟩
    cases res with
    | nil =>
      constructor
      · intro e
        cases e
        exact .inr ⟨rfl, hall, fun q hq => by cases (h3 q).2 hq⟩
      · rintro (⟨_, hx⟩ | ⟨rfl, _⟩)
        · exact absurd hx hm
        · rfl
    | cons q l =>
      constructor
      · intro e; cases e
      · rintro (⟨_, hx⟩ | ⟨_, _, hx⟩)
        · exact absurd hx hm
        · exact absurd ((h3 q).1 (.head _)) (hx q)

end Compile

namespace Demo

open Compile

/-- A statement of the module `demo`. -/
def st (keyword arg : String) (kids : List Stmt := []) (subs : List (String × String) := [])
    (type : Option TypeStmt := none) (config : Bool := true) (isKey : Bool := false) : Stmt :=
  .mk { keyword := keyword, arg := arg, module := "demo", modulePrefix := "d", config := config, isKey := isKey,
        subs := subs, type := type } kids

/-- The namespaces of the modules. -/
def modNs : List (String × String) := [("demo", u)]

/-- A module with data, an operation and a notification. -/
def stmts : List Stmt :=
  [ st "notification" "event" [st "leaf" "level" (type := some { arg := "string" }) (config := false)] (config := false),
    st "container" "top"
      [ st "list" "item"
          [st "leaf" "name" (type := some { arg := "string" }) (isKey := true),
           st "leaf" "kind" (type := some { arg := "identityref", base := some "base" })] [("key", "name")],
        st "leaf-list" "tags" [] [("default", "a,b")] (type := some { arg := "string" }) ],
    st "rpc" "reset"
      [st "input" "input" [st "leaf" "delay" [] [("default", "5")] (type := some { arg := "int8" })],
       st "output" "output" [st "leaf" "done" (type := some { arg := "string" })]] ]

/-- Its compiled tree. -/
def tree : Elem := (compileTree modNs "demo" (some "d") stmts).toOption.getD default

/-- A device with this module. -/
def compiled : Host :=
  { id := 1, namespaces := [("demo", "d", u)], loadable := ["demo"], models := [("demo", tree)] }

mutual
/-- All statements of a tree satisfy a condition. -/
def allIn (P : Stmt → Bool) : Stmt → Bool
  | .mk i ks => P (.mk i ks) && allBelow P ks
/-- See `allIn`. -/
def allBelow (P : Stmt → Bool) : List Stmt → Bool
  | [] => true
  | k :: r => allIn P k && allBelow P r
end

theorem allIn_of_mem {P : Stmt → Bool} : ∀ {l : List Stmt} {s : Stmt}, allBelow P l = true → s ∈ l →
    P s = true ∧ allBelow P s.kids = true
  | k :: r, s, h, hs => by
    rw [allBelow, Bool.and_eq_true] at h
    rcases List.mem_cons.1 hs with rfl | hs
    · obtain ⟨i, ks⟩ := s
      have := h.1
      rw [allIn, Bool.and_eq_true] at this
      exact this
    · exact allIn_of_mem h.2 hs

theorem allBelow_chain {P : Stmt → Bool} {l c : List Stmt} (hc : Chain l c) (h : allBelow P l = true) :
    ∀ s ∈ c, P s = true := by
  induction hc with
  | one hs =>
    intro s h'
    rw [List.mem_singleton.1 h']
    exact (allIn_of_mem h hs).1
  | more hs _ ih =>
    intro s h'
    rcases List.mem_cons.1 h' with rfl | h'
    · exact (allIn_of_mem h hs).1
    · exact ih (allIn_of_mem h hs).2 s h'

theorem stmts_operations : Operations stmts := by
  refine ⟨fun s c hc t ht => ?_, by decide +kernel⟩
  have hall : ∀ s ∈ stmts, allBelow (fun s => s.info.keyword ≠ "rpc" ∧ s.info.keyword ≠ "notification") s.kids = true := by
    decide +kernel
  cases hc with
  | one => cases ht
  | more hs hc => exact of_decide_eq_true (allBelow_chain hc (hall s hs) t ht)

/-- The statements meet the hypotheses of `C46_schema`. -/
theorem stmts_distinct : DistinctNames modNs stmts ∧
    ∀ c s, TreeChain stmts c → c.getLast? = some s → DistinctNames modNs s.kids := by
  refine ⟨by unfold DistinctNames; decide +kernel, fun c s hc hs => ?_⟩
  have := allBelow_chain (P := fun s => decide (s.kids.Pairwise fun a b =>
    ¬ (a.info.arg = b.info.arg ∧ modNs.lookup a.info.module = modNs.lookup b.info.module))) hc.1 (by decide +kernel) s
    (List.mem_of_getLast? hs)
  exact @of_decide_eq_true _ (inferInstanceAs (Decidable (List.Pairwise _ _))) this

example : ModelDiff.SchemaTree tree :=
  C46_schema (show compileTree modNs "demo" (some "d") stmts = .ok tree by decide +kernel) stmts_distinct.1
    stmts_distinct.2

/-- The access to the leaf `done` of the output of the operation, from `C46_nodes`. -/
example : ∃ e, ModelDiff.At tree [q "reset", q "output", q "done"] e ∧
    strAttr e (.other "access") = some "read-only" ∧ Operations stmts := by
  obtain ⟨a, ha⟩ : ∃ a, a ∈ tree.kids ∧ a.tag = q "reset" ∧ ∃ b ∈ a.kids, b.tag = q "output" ∧ ∃ c ∈ b.kids,
      c.tag = q "done" ∧ strAttr c (.other "access") = some "read-only" := by decide +kernel
  obtain ⟨ha, hat, b, hb, hbt, c, hc, hct, hac⟩ := ha
  refine ⟨c, ?_, hac, stmts_operations⟩
  rw [← hat, ← hbt, ← hct]
  exact .down ha (.down hb (.down hc .here))

/-- The module can be compiled, and gives a well loaded device: the hypotheses of C46 and C47 hold. -/
example : compileTree modNs "demo" (some "d") stmts = .ok tree ∧ WellLoaded compiled ∧ OwnRoots compiled :=
  ⟨by decide +kernel, (hostB_sound (by decide +kernel)).1, (hostB_sound (by decide +kernel)).2⟩

/-- C47: a notification is put into the filter of `get`, though no reply to `get` can contain it; an operation is
not. -/
theorem C47_notification : WellLoaded compiled ∧ OwnRoots compiled ∧
    requestFilter compiled .get ["demo"] = .ok [q "top", q "event"] ∧
    requestFilter compiled .getConfig ["demo"] = .ok [q "top"] :=
  ⟨(hostB_sound (by decide +kernel)).1, (hostB_sound (by decide +kernel)).2, by decide +kernel, by decide +kernel⟩

/-- The same statements in a module with another name. -/
def tree2 : Elem := (compileTree modNs "demo2" (some "d") stmts).toOption.getD default

/-- A device with both. -/
def shared : Host := { compiled with models := [("demo", tree), ("demo2", tree2)] }

/-- C47: if two models have a root in common, only the model that was loaded last has it: the request for the other
model fails. -/
theorem C47_shared_root : WellLoaded shared ∧ HasModel shared "demo" ∧
    AskedFor shared ["demo"] ["read-write"] (q "top") ∧
    requestFilter shared .getConfig ["demo"] = .error .valueError := by
  refine ⟨C46_loaded (by decide +kernel) fun m t hm => ?_, ⟨tree, .head _⟩,
    ⟨"demo", by decide, tree, .head _, by decide +kernel⟩, by decide +kernel⟩
  rcases List.mem_cons.1 hm with e | hm
  · cases e
    exact ⟨modNs, some "d", stmts, by decide +kernel, stmts_distinct⟩
  · cases List.mem_singleton.1 hm
    exact ⟨modNs, some "d", stmts, by decide +kernel, stmts_distinct⟩

/-- A module with one leaf of a type. -/
def leafOf (t : TypeStmt) : Host :=
  { compiled with models :=
      [("demo", (compileTree modNs "demo" (some "d")
        [st "container" "top" [st "leaf" "kind" (type := some t)]]).toOption.getD default)] }

/-- A config with an identity, written with a prefix. -/
def kindCfg (p : String) : Elem := cfg [el "top" [.mk (q "kind") [(none, u), (some p, u)] [] (some (p ++ ":x")) []]]

/-- C46: the same identity with two prefixes is equal for a leaf of type `identityref`, but not for a leaf of a type
that is defined as `identityref`: only the name of the type is kept. -/
theorem C46_typedef :
    hostEq (leafOf { arg := "identityref", base := some "b" }) (kindCfg "p")
      (leafOf { arg := "identityref", base := some "b" }) (kindCfg "r") = .ok true ∧
    hostEq (leafOf { arg := "kind-ref" }) (kindCfg "p") (leafOf { arg := "kind-ref" }) (kindCfg "r") = .ok false :=
  ⟨by decide +kernel, by decide +kernel⟩

/-- C46: a default value with a comma is read as two values, so a leaf-list with the two values `a` and `b` is taken for
the default value `a,b` and removed. -/
theorem C46_comma : ∃ c c', newConfig compiled.device c = .ok c' ∧ c'.kids = [] ∧
    c = cfg [el "top" [lf "tags" "a", lf "tags" "b"]] :=
  ⟨_, cfg [], by decide +kernel, rfl, rfl⟩

/-- C46: two leafrefs that refer to nodes of different modules get the same type, since a name without a prefix is taken
for one of the module before it. -/
theorem C46_leafref_clash : ∃ p1 p2, p1 ≠ p2 ∧
    datatypeText "a" { arg := "leafref", path := some p1 } = datatypeText "a" { arg := "leafref", path := some p2 } ∧
    p1 = "/b:x/y" ∧ p2 = "/b:x/b:y" :=
  ⟨_, _, by decide, by decide +kernel, rfl, rfl⟩

/-- A device with a list that has two keys, separated as given. -/
def twoKeys (sep : String) : Host :=
  { compiled with models :=
      [("demo", (compileTree modNs "demo" (some "d")
        [st "container" "top" [st "list" "item"
          [st "leaf" "name" (type := some { arg := "string" }) (isKey := true),
           st "leaf" "kind" (type := some { arg := "string" }) (isKey := true)]
          [("key", "name" ++ sep ++ "kind")]]]).toOption.getD default)] }

/-- An entry of the list. -/
def entry2 (a b : String) : Elem := el "item" [lf "name" a, lf "kind" b]

/-- C46: key names that are separated by a line break, which YANG allows, are not found, so the list has no keys:
adding an entry overwrites another one.  With a space between the names both entries are kept. -/
theorem C46_line_break :
    (∃ r, hostAdd (twoKeys " ") (cfg [el "top" [entry2 "a" "b"]]) (twoKeys " ") (cfg [el "top" [entry2 "x" "c"]]) =
      .ok r ∧ r.kids.map (fun k => k.kids.map fun i => i.kids.map Elem.text) =
        [[[some "a", some "b"], [some "x", some "c"]]]) ∧
    (∃ r, hostAdd (twoKeys "\n") (cfg [el "top" [entry2 "a" "b"]]) (twoKeys "\n") (cfg [el "top" [entry2 "x" "c"]]) =
      .ok r ∧ r.kids.map (fun k => k.kids.map fun i => i.kids.map Elem.text) = [[[some "x", some "c"]]]) := by
  have h1 : ((hostAdd (twoKeys " ") (cfg [el "top" [entry2 "a" "b"]]) (twoKeys " ")
      (cfg [el "top" [entry2 "x" "c"]])).toOption.map fun r =>
        r.kids.map fun k => k.kids.map fun i => i.kids.map Elem.text) =
        some [[[some "a", some "b"], [some "x", some "c"]]] := by decide +kernel
  have h2 : ((hostAdd (twoKeys "\n") (cfg [el "top" [entry2 "a" "b"]]) (twoKeys "\n")
      (cfg [el "top" [entry2 "x" "c"]])).toOption.map fun r =>
        r.kids.map fun k => k.kids.map fun i => i.kids.map Elem.text) = some [[[some "x", some "c"]]] := by
    decide +kernel
  constructor
  · cases hr : hostAdd (twoKeys " ") (cfg [el "top" [entry2 "a" "b"]]) (twoKeys " ")
        (cfg [el "top" [entry2 "x" "c"]]) with
    | error x => rw [hr] at h1; cases h1
    | ok r => rw [hr] at h1; exact ⟨r, rfl, Option.some.inj h1⟩
  · cases hr : hostAdd (twoKeys "\n") (cfg [el "top" [entry2 "a" "b"]]) (twoKeys "\n")
        (cfg [el "top" [entry2 "x" "c"]]) with
    | error x => rw [hr] at h2; cases h2
    | ok r => rw [hr] at h2; exact ⟨r, rfl, Option.some.inj h2⟩

end Demo

end NcDiff
