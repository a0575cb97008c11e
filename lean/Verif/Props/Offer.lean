import Verif.Proof.Offer
import Verif.Props.ModelDiff
/-!
# C52: which models a device offers, and which namespaces it has
-/

namespace NcDiff.Offer

open ModelDiff (At)

/-- C52: with NETCONF monitoring, `models_loadable` has the identifiers of the schemas in the reply, sorted. -/
theorem C52_monitoring {caps : List String} (hc : Advertised caps ncm) {answer library : Option Reply} {root : Elem}
    (h : Good answer Schema root) : NamesOf (loadable caps answer library) fun x => Schema root (some x) := by
  obtain ⟨rfl, hn⟩ := h
  obtain ⟨l, h1, h2⟩ := source_good (path := monitoringPath) hc hn
  unfold loadable
  rw [h1]
  exact h2

/-- C52: if monitoring is not there or does not work, and there is no library, `models_loadable` has the `module` parameters of
the capabilities, sorted.  A parameter ends at the first character that is no letter, digit or hyphen. -/
theorem C52_capabilities {caps : List String} {answer library : Option Reply}
    (h : ¬ Advertised caps ncm ∨ answer = none ∨ ∃ r, answer = some ⟨false, r⟩)
    (hl : ¬ Advertised caps yangLib10 ∨ library = none ∨ ∃ r, library = some ⟨false, r⟩) :
    NamesOf (loadable caps answer library) fun x => ∃ c ∈ caps, ModuleParameter c.toList x.toList := by
  unfold loadable
  rw [source_none h, source_none hl]
  exact fromCapabilities_names caps

/-- C52: a good reply of the YANG library without elements in the namespace that the code looks for gives no models at all,
and none can be loaded. -/
theorem C52_library {caps : List String} {answer : Option Reply} {root : Elem}
    (h : ¬ Advertised caps ncm ∨ answer = none ∨ ∃ r, answer = some ⟨false, r⟩) (hc : Advertised caps yangLib10)
    (hr : ∀ path n, At root path n → n.tag.ns ≠ yangLib) :
    loadable caps answer (some ⟨true, root⟩) = [] ∧ ∀ (s : Session), s.caps = caps → s.loadable = none →
      ∀ name compiled, (loadModel s answer (some ⟨true, root⟩) name compiled).1 = .error .valueError := by
  have hq : ∀ x, ¬ TextAt root libraryPath x := by
    rintro x ⟨q, p, he, -, n, hn, -⟩
    have hp : p = [⟨nc, "data"⟩, ⟨yangLib, "modules-state"⟩, ⟨yangLib, "module"⟩, ⟨yangLib, "name"⟩] := (List.cons.inj he).2.symm
    subst hp
    obtain ⟨k, hk, rfl', hn⟩ := ModelDiff.at_cons.1 hn
    obtain ⟨k2, hk2, ht2, _⟩ := ModelDiff.at_cons.1 hn
    exact hr _ k2 (.down hk (.down hk2 .here)) (by rw [ht2])
  have h0 : loadable caps answer (some ⟨true, root⟩) = [] := by
    obtain ⟨l, h1, r, h2, -, h3⟩ := source_good (path := libraryPath) hc (hq none)
    unfold loadable
    rw [source_none h, h1, h2]
    cases r with
    | nil => rfl
    | cons x r => exact absurd ((h3 x).1 (.head _)) (hq _)
  refine ⟨h0, fun s hs hl name compiled => ?_⟩
  subst hs
  have : (readLoadable s answer (some ⟨true, root⟩)).1 = [] := by
    unfold readLoadable
    rw [hl]
    exact h0
  unfold loadModel
  dsimp only
  rw [this, if_neg (by simp)]

/-- C52: `models_loadable` never changes once it has been read, whatever the device answers later, and no more requests are
sent. -/
theorem C52_remembered (s : Session) (m l : Option Reply) (h : List Event) (m' l' : Option Reply) :
    (readLoadable (after (readLoadable s m l).2 h) m' l').1 = (readLoadable s m l).1 ∧
    (readLoadable (after (readLoadable s m l).2 h) m' l').2.sent = (readLoadable s m l).2.sent := by
  obtain ⟨h1, h2⟩ := after_loadable h (readLoadable_sets s m l)
  rw [readLoadable_some h1]
  exact ⟨rfl, h2⟩

/-- C52: `load_model` succeeds exactly if the name is in `models_loadable`, `scan_models` has been called and the module
compiles; otherwise it raises `ValueError` or what the compiler raises, and nothing is loaded.  `models_loaded` has, sorted,
the models loaded before and the new one. -/
theorem C52_load (s : Session) (m l : Option Reply) (name : String) (compiled : Except Err String) :
    ((∃ n, (loadModel s m l name compiled).1 = .ok n) ↔ some name ∈ (readLoadable s m l).1 ∧ s.compiler ≠ none ∧
      ∃ n, compiled = .ok n) ∧
    (∀ e, (loadModel s m l name compiled).1 = .error e → (e = .valueError ∨ compiled = .error e) ∧
      (loadModel s m l name compiled).2.models = s.models) ∧
    ∀ n, (loadModel s m l name compiled).1 = .ok n → compiled = .ok n ∧
      Ascending (modelsLoaded (loadModel s m l name compiled).2) ∧
      ∀ x, x ∈ modelsLoaded (loadModel s m l name compiled).2 ↔ x = n ∨ x ∈ modelsLoaded s := by
  obtain ⟨h1, -, h3, -⟩ := readLoadable_other s m l
  unfold loadModel
  dsimp only
  by_cases hn : some name ∈ (readLoadable s m l).1
  · rw [if_pos hn]
    cases hc : s.compiler with
    | none =>
      rw [hc] at h1
      rw [h1]
      exact ⟨⟨fun ⟨n, h⟩ => (by cases h), fun ⟨_, h, _⟩ => absurd rfl h⟩, fun e h => ⟨.inl (Except.error.inj h).symm, h3⟩,
        fun n h => (by cases h)⟩
    | some d =>
      rw [hc] at h1
      rw [h1]
      cases compiled with
      | error e =>
        exact ⟨⟨fun ⟨n, h⟩ => (by cases h), fun ⟨_, _, n, h⟩ => (by cases h)⟩,
          fun e' h => ⟨.inr (by rw [← Except.error.inj h]), h3⟩, fun n h => (by cases h)⟩
      | ok n =>
        refine ⟨⟨fun _ => ⟨hn, by simp, n, rfl⟩, fun _ => ⟨n, rfl⟩⟩, fun e h => (by cases h), ?_⟩
        intro n' h
        cases h
        refine ⟨rfl, sortTexts_ascending _, fun x => ?_⟩
        show x ∈ sortTexts (if n ∈ (readLoadable s m l).2.models then (readLoadable s m l).2.models
          else (readLoadable s m l).2.models ++ [n]) ↔ x = n ∨ x ∈ sortTexts s.models
        rw [sortTexts_mem, sortTexts_mem, h3]
        split
        · rename_i hin
          exact ⟨.inr, fun h => h.elim (fun h => h ▸ hin) id⟩
        · rw [List.mem_append, List.mem_singleton]
          exact or_comm
  · rw [if_neg hn]
    exact ⟨⟨fun ⟨n, h⟩ => (by cases h), fun ⟨h, _⟩ => absurd h hn⟩, fun e h => ⟨.inl (Except.error.inj h).symm, h3⟩,
      fun n h => (by cases h)⟩

/-- C52: `namespaces` has a row for every module with a prefix, in the order of the modules. -/
theorem C52_rows (d : Elem) : List.Forall₂ Row (d.kids.filter hasPrefix) (namespaceRows d) := rows_eq d

/-- C52: `namespaces` raises `ValueError` as long as `scan_models` has not been called.  The first time it can be read, its rows
are those of the last scan. -/
theorem C52_namespaces (caps : List String) (h : List Event) (hn : ∀ a b, h = a ++ .namespaces :: b → lastScan a = none) :
    (readNamespaces (after { caps := caps } h)).1 =
      match lastScan h with
      | none => .error .valueError
      | some d => .ok (namespaceRows d) := by
  have h1 := after_compiler h { caps := caps }
  have h2 : (after { caps := caps } h).namespaces = none :=
    after_unread h rfl fun a b he => (after_compiler a { caps := caps }).trans (hn a b he)
  unfold readNamespaces
  change (after { caps := caps } h).compiler = lastScan h at h1
  rw [h1]
  cases lastScan h with
  | none => rfl
  | some d =>
    dsimp only
    rw [h2]

/-- C52: from then on the rows stay as they are, even if `scan_models` is called again. -/
theorem C52_namespaces_kept (s : Session) (rows : List (Option String × String × Option String))
    (h0 : (readNamespaces s).1 = .ok rows) (h : List Event) :
    (readNamespaces (after (readNamespaces s).2 h)).1 = .ok rows := by
  have hf : Fixed (readNamespaces s).2 rows := by
    unfold readNamespaces at h0 ⊢
    split at h0
    · cases h0
    · rename_i d hd
      split at h0
      · rename_i l hl
        cases h0
        dsimp only
        exact ⟨hl, d, hd⟩
      · rename_i hl
        cases h0
        exact ⟨rfl, d, hd⟩
  obtain ⟨h1, d, h2⟩ := after_fixed h hf
  unfold readNamespaces at h1 h2 ⊢
  rw [h2, h1]

/-- C52: names with a dot are cut. -/
theorem Demo.C52_truncated (m l : Option Reply) : loadable ["urn:x?module=my.mod&revision=2020-01-01"] m l = [some "my"] := by
  unfold loadable
  rw [source_none (.inl (by rw [← supports_iff]; decide +kernel)), source_none (.inl (by rw [← supports_iff]; decide +kernel))]
  decide +kernel

namespace Demo

/-- What a server answers for NETCONF monitoring. -/
def schemas : Elem :=
  .mk ⟨nc, "rpc-reply"⟩ [] [] none [.mk ⟨nc, "data"⟩ [] [] none [.mk ⟨ncm, "netconf-state"⟩ [] [] none
    [.mk ⟨ncm, "schemas"⟩ [] [] none
      [.mk ⟨ncm, "schema"⟩ [] [] none [.mk ⟨ncm, "identifier"⟩ [] [] (some "b") [], .mk ⟨ncm, "version"⟩ [] [] (some "1") []],
       .mk ⟨ncm, "schema"⟩ [] [] none [.mk ⟨ncm, "identifier"⟩ [] [] (some "a") []]]]]]

/-- What a server answers for the YANG library. -/
def library : Elem :=
  .mk ⟨nc, "rpc-reply"⟩ [] [] none [.mk ⟨nc, "data"⟩ [] [] none
    [.mk ⟨"urn:ietf:params:xml:ns:yang:ietf-yang-library", "modules-state"⟩ [] [] none
      [.mk ⟨"urn:ietf:params:xml:ns:yang:ietf-yang-library", "module"⟩ [] [] none
        [.mk ⟨"urn:ietf:params:xml:ns:yang:ietf-yang-library", "name"⟩ [] [] (some "a") []]]]]

/-- The modules of a folder: a module with a prefix and a submodule. -/
def folder : Elem :=
  .mk ⟨"", "modules"⟩ [] [] none
    [.mk ⟨"", "module"⟩ [] [(.other "id", .str "a"), (.other "prefix", .str "pa")] none [.mk ⟨"", "namespace"⟩ [] [] (some "urn:a") []],
     .mk ⟨"", "module"⟩ [] [(.other "id", .str "s")] none [],
     .mk ⟨"", "module"⟩ [] [(.other "id", .str "b"), (.other "prefix", .str "pb")] none []]

/-- No element of a tree but the root is in the namespace. -/
theorem foreign {root : Elem} {ns : String} (h : ModelDiff.Demo.okTree (fun e => e.tag.ns ≠ ns) root = true) (h0 : root.tag.ns ≠ ns) :
    ∀ path n, At root path n → n.tag.ns ≠ ns := by
  intro path n hn
  by_cases hp : path = []
  · subst hp
    rw [ModelDiff.at_nil.1 hn]
    exact h0
  · simpa using (ModelDiff.Demo.okTree_at h hn).2 hp

theorem schemas_good : Good (some ⟨true, schemas⟩) Schema schemas := by
  refine ⟨rfl, ?_⟩
  intro h
  have := (query_text (path := monitoringPath) (root := schemas) (x := none)).2 h
  revert this
  decide +kernel

/-- The hypotheses of `C52_monitoring` hold for a real reply. -/
example : loadable ["urn:b?module=c", "urn:ietf:params:xml:ns:yang:ietf-netconf-monitoring?module=d"] (some ⟨true, schemas⟩) none =
    [some "a", some "b"] ∧ Advertised ["urn:b?module=c", "urn:ietf:params:xml:ns:yang:ietf-netconf-monitoring?module=d"] ncm ∧
    Good (some ⟨true, schemas⟩) Schema schemas := by
  refine ⟨by decide +kernel, supports_iff.1 (by decide +kernel), schemas_good⟩

/-- The hypotheses of `C52_capabilities`. -/
example : loadable ["urn:b?module=c&revision=2020-01-01", "urn:x", "urn:ietf:params:xml:ns:yang:ietf-netconf-monitoring?module=a-1"]
    none none = [some "a-1", some "c"] := by decide +kernel

/-- C52: a library that has the module `a` gives no models. -/
theorem C52_library_empty : LibraryModule library (some "a") ∧ loadable [yangLib10] none (some ⟨true, library⟩) = [] := by
  refine ⟨(query_text (path := [⟨nc, "rpc-reply"⟩, ⟨nc, "data"⟩,
    ⟨"urn:ietf:params:xml:ns:yang:ietf-yang-library", "modules-state"⟩,
    ⟨"urn:ietf:params:xml:ns:yang:ietf-yang-library", "module"⟩,
    ⟨"urn:ietf:params:xml:ns:yang:ietf-yang-library", "name"⟩])).1 (by decide +kernel), ?_⟩
  exact (C52_library (.inr (.inl rfl)) (supports_iff.1 (by decide +kernel))
    (foreign (by decide +kernel) (by decide +kernel))).1

/-- A history: load before and after a scan, read the namespaces, scan again. -/
example : (readNamespaces (after { caps := ["urn:a?module=a"] } [.namespaces, .load none none "a" (.ok "a"), .scan folder])).1 =
    .ok [(some "a", "pa", some "urn:a"), (some "b", "pb", none)] ∧
    (loadModel (after { caps := ["urn:a?module=a"] } [.load none none "a" (.ok "a"), .scan folder]) none none "a" (.ok "a")).1 =
      .ok "a" := by decide +kernel

/-- The hypotheses of `C52_namespaces` allow that history. -/
example : ∀ a b, [Event.namespaces, .load none none "a" (.ok "a"), .scan folder] = a ++ .namespaces :: b → lastScan a = none := by
  intro a b h
  match a with
  | [] => rfl
  | [_] => cases h
  | [_, _] => cases h
  | _ :: _ :: [_] => cases h
  | _ :: _ :: _ :: _ :: _ => cases h

end Demo

end NcDiff.Offer
