import Verif.Spec.Send
import Verif.Proof.Tree
/-!
# Property C49: what `edit_config` sends
-/

namespace NcDiff.Send

/-! ## Copies -/

theorem scope_own {own outer : NsMap} {p : Option String} {u : String} (h : own.lookup p = some u) :
    (scope own outer).lookup p = some u := by
  unfold scope
  rw [List.lookup_append, h]
  rfl

theorem recreateKids_eq (outer : NsMap) : ∀ ks, recreateKids outer ks = ks.map (recreate outer)
  | [] => rfl
  | e :: r => by rw [recreateKids, recreateKids_eq outer r]; rfl

theorem recreate_copy : ∀ (e : Elem) (outer : NsMap), Copy e (recreate outer e) := by
  intro e
  induction e using Elem.ind with
  | h t n a x ks ih =>
    intro outer
    rw [recreate, recreateKids_eq]
    refine .mk (fun p u h => scope_own h) (by simp) ?_
    intro i k k' hk hk'
    rw [List.getElem?_map, hk] at hk'
    obtain rfl := Option.some.inj hk'
    exact ih k (List.mem_of_getElem? hk) _

theorem Copy.trans {a b c : Elem} (h1 : Copy a b) (h2 : Copy b c) : Copy a c := by
  induction h1 generalizing c with
  | @mk t n n' at' x ks ks' hn hl _ ih =>
    cases h2 with
    | @mk _ _ n'' _ _ _ ks'' hn' hl' hk' =>
      refine .mk (fun p u h => hn' p u (hn p u h)) (hl.trans hl') ?_
      intro i k k'' h h''
      have : i < ks'.length := by
        have := (List.getElem?_eq_some_iff.1 h).1
        omega
      exact ih i k ks'[i] h (List.getElem?_eq_getElem this) (hk' i _ k'' (List.getElem?_eq_getElem this) h'')

/-- C49, in the other direction: a prefix that is in scope of an element of the copy is declared in the
original, or comes from the element it was appended to. -/
theorem scope_origin {own outer : NsMap} {p : Option String} {u : String}
    (h : (scope own outer).lookup p = some u) : own.lookup p = some u ∨ (own.lookup p = none ∧ outer.lookup p = some u) := by
  unfold scope at h
  rw [List.lookup_append] at h
  cases ho : own.lookup p with
  | some v => rw [ho] at h; exact Or.inl h
  | none =>
    refine Or.inr ⟨rfl, ?_⟩
    rw [ho, Option.none_or] at h
    clear ho
    induction outer with
    | nil => simp at h
    | cons a r ih =>
      obtain ⟨q, v⟩ := a
      by_cases hf : (own.lookup q).isNone = true
      · rw [List.filter_cons_of_pos (by simpa using hf)] at h
        by_cases hq : p = q
        · subst hq; simpa using h
        · have hb : (p == q) = false := by simpa using hq
          rw [List.lookup_cons, hb] at h
          rw [List.lookup_cons, hb]
          exact ih h
      · rw [List.filter_cons_of_neg (by simpa using hf)] at h
        by_cases hq : p = q
        · subst hq
          exfalso
          have := List.lookup_eq_some_iff.1 h
          obtain ⟨l1, l2, e, _⟩ := this
          have hm : (p, u) ∈ r.filter (fun p => (own.lookup p.1).isNone) := by rw [e]; simp
          exact hf (List.mem_filter.1 hm).2
        · have hb : (p == q) = false := by simpa using hq
          rw [List.lookup_cons, hb]
          exact ih h

/-! ## The call -/

theorem hasScheme_iff : ∀ l : List Char, hasScheme l = true ↔ "://".toList <:+: l
  | [] => by
    constructor
    · intro h; cases h
    · intro h; have := h.length_le; exact absurd this (by decide)
  | c :: r => by
    rw [hasScheme, Bool.or_eq_true, hasScheme_iff r, List.infix_cons_iff, List.isPrefixOf_iff_prefix]

theorem bind_iff {α β : Type} {x : Except Fault α} {g : α → Except Fault β} {b : β} :
    (x >>= g) = .ok b ↔ ∃ a, x = .ok a ∧ g a = .ok b := by
  cases x with
  | error e => simp [bind, Except.bind]
  | ok a => simp [bind, Except.bind]

theorem require_ok {has : String → Bool} {s : String} : require has s = .ok () ↔ has s = true := by
  unfold require
  split <;> simp_all

theorem targetElem_ok {has : String → Bool} {ns : NsMap} {t : String} {e : Elem} :
    targetElem has ns t = .ok e ↔ ("://".toList <:+: t.toList → has ":url" = true) ∧
      e = .mk (nc "target") ns [] none
        [if hasScheme t.toList then .mk (nc "url") ns [] (some t) [] else .mk (nc t) ns [] none []] := by
  unfold targetElem
  rw [← hasScheme_iff]
  cases hs : hasScheme t.toList with
  | false =>
    simp only [Bool.false_eq_true, if_false, false_implies, true_and]
    exact ⟨fun h => (Except.ok.inj h).symm, fun h => by rw [h]; rfl⟩
  | true =>
    simp only [if_true, true_implies]
    cases hh : has ":url" with
    | false => simp [require, hh, bind, Except.bind]
    | true =>
      simp only [require, hh, if_true, true_and]
      exact ⟨fun h => (Except.ok.inj h).symm, fun h => by rw [h]; rfl⟩

theorem checkOptions_ok {has : String → Bool} {c : Call} : checkOptions has c = .ok () ↔
    (c.errorOption = some "rollback-on-error" → has ":rollback-on-error" = true) ∧
    (c.testOption ≠ none → has ":validate" = true) := by
  unfold checkOptions
  by_cases h1 : c.errorOption = some "rollback-on-error"
  · cases hr : has ":rollback-on-error" with
    | false => simp [h1, require, hr, bind, Except.bind]
    | true =>
      cases h2 : c.testOption with
      | none => simp [h1, require, hr, bind, Except.bind, pure, Except.pure]
      | some x =>
        cases hv : has ":validate" <;>
          simp [h1, require, hr, hv, bind, Except.bind]
  · cases h2 : c.testOption with
    | none => simp [h1, pure, Except.pure, bind, Except.bind]
    | some x =>
      cases hv : has ":validate" <;>
        simp [h1, require, hv, bind, Except.bind, pure, Except.pure]

theorem validated_ok {g : Given} {e : Elem} : validated g = .ok e ↔ g = .elem e ∧ IsConfig e := by
  cases g with
  | config x => simp [validated]
  | delta x => simp [validated]
  | elem x =>
    simp only [validated]
    split
    · rename_i h
      constructor
      · intro hx
        obtain rfl := Except.ok.inj hx
        exact ⟨rfl, h⟩
      · rintro ⟨hx, _⟩
        cases hx
        rfl
    · rename_i h
      constructor
      · intro hx; cases hx
      · rintro ⟨hx, hc⟩
        cases hx
        exact absurd hc h

theorem content_iff {has : String → Bool} {c : Call} {e : Elem} :
    bindArg (prepare has c).config (prepare has c).kwConfig none = .ok (.elem e) ↔ Content c e := by
  have e1 : (prepare has c).config = c.config.map unwrap := rfl
  have e2 : (prepare has c).kwConfig = c.kwConfig := rfl
  rw [e1, e2]
  constructor
  · intro h
    cases hc : c.config with
    | none =>
      cases hk : c.kwConfig with
      | none => rw [hc, hk] at h; cases h
      | some g =>
        rw [hc, hk] at h
        obtain rfl := Except.ok.inj h
        exact .keyword hc hk
    | some g =>
      cases hk : c.kwConfig with
      | some g' => rw [hc, hk] at h; cases h
      | none =>
        rw [hc, hk] at h
        have h : unwrap g = .elem e := Except.ok.inj h
        cases g with
        | config x => cases h; exact .config hc hk
        | delta x => cases h
        | elem x => cases h; exact .element hc hk
  · intro h
    cases h with
    | config h1 h2 => rw [h1, h2]; rfl
    | element h1 h2 => rw [h1, h2]; rfl
    | keyword h1 h2 => rw [h1, h2]; rfl

theorem target_iff {has : String → Bool} {c : Call} {t : String} :
    bindArg (prepare has c).target (prepare has c).kwTarget (some "candidate") = .ok t ↔
    TargetOnce has c ∧ t = datastore (has candidateCap) (has runningCap) (c.target.or c.kwTarget) := by
  have e1 : (prepare has c).target = c.target := rfl
  have e2 : (prepare has c).kwTarget = if c.kwTarget.isNone ∧ has candidateCap = false ∧ has runningCap = true
    then some "running" else c.kwTarget := rfl
  rw [e1, e2]
  unfold TargetOnce
  show _ ↔ (_ ∨ (_ ∧ (has candidateCap = true ∨ has runningCap = false))) ∧ _
  have hok : ∀ a b : String, (Except.ok a : Except Fault String) = .ok b ↔ b = a :=
    fun a b => ⟨fun h => (Except.ok.inj h).symm, fun h => by rw [h]⟩
  generalize has candidateCap = h1
  generalize has runningCap = h2
  cases ht : c.target with
  | none =>
    cases hk : c.kwTarget with
    | none =>
      cases h1 <;> cases h2 <;> simp only [Option.isNone_none, if_true, if_false, bindArg, hok, datastore,
        Option.or_none, true_or, true_and, false_and, Bool.not_false, Bool.not_true, Bool.and_true, Bool.and_false, and_self,
        Bool.false_eq_true, and_false, reduceCtorEq]
    | some k => simp only [Option.isNone_some, Bool.false_eq_true, false_and, if_false, bindArg, hok, datastore,
        Option.none_or, true_or, true_and]
  | some x =>
    cases hk : c.kwTarget with
    | none =>
      cases h1 <;> cases h2 <;> simp only [Option.isNone_none, if_true, if_false, bindArg, hok, datastore,
        Option.or_none, or_true, true_or, true_and, and_self, false_or, or_false, false_and,
        Bool.false_eq_true, and_false, reduceCtorEq]
    | some k => simp only [Option.isNone_some, Bool.false_eq_true, false_and, if_false, bindArg,
        reduceCtorEq, or_false, false_or]

theorem content_ok {ns : NsMap} {f : String} {g : Given} {es : List Elem} (hf : f = "xml") :
    content ns f g = .ok es ↔ ∃ e, g = .elem e ∧ IsConfig e ∧ es = [recreate ns e] := by
  unfold content
  rw [if_pos hf]
  constructor
  · intro h
    split at h
    · rename_i e he
      obtain ⟨h1, h2⟩ := validated_ok.1 he
      exact ⟨e, h1, h2, (Except.ok.inj h).symm⟩
    · cases h
  · rintro ⟨e, rfl, h2, rfl⟩
    rw [validated_ok.2 ⟨rfl, h2⟩]

/-- The message for a config and a datastore. -/
theorem editConfig_ok {has : String → Bool} {ns outer : NsMap} {id : String} {c : Call} {m : Elem}
    (hf : c.format = "xml") : editConfig has ns outer id c = .ok m ↔ ∃ e, Content c e ∧ IsConfig e ∧ TargetOnce has c ∧
      Capable has c (datastore (has candidateCap) (has runningCap) (c.target.or c.kwTarget)) ∧
      m = wrap outer id (.mk (nc "edit-config") ns [] none
        (.mk (nc "target") ns [] none
          [if hasScheme (datastore (has candidateCap) (has runningCap) (c.target.or c.kwTarget)).toList
            then .mk (nc "url") ns [] (some (datastore (has candidateCap) (has runningCap) (c.target.or c.kwTarget))) []
            else .mk (nc (datastore (has candidateCap) (has runningCap) (c.target.or c.kwTarget))) ns [] none []] ::
        (option ns "error-option" c.errorOption ++ option ns "test-option" c.testOption ++
          option ns "default-operation" c.defaultOperation ++ [recreate ns e]))) := by
  unfold editConfig request
  constructor
  · intro h
    obtain ⟨x, hx, h⟩ := bind_iff.1 h
    obtain ⟨g, hg, hx⟩ := bind_iff.1 hx
    obtain ⟨t, ht, hx⟩ := bind_iff.1 hx
    obtain ⟨te, hte, hx⟩ := bind_iff.1 hx
    obtain ⟨u, hu, hx⟩ := bind_iff.1 hx
    obtain ⟨es, he, hx⟩ := bind_iff.1 hx
    obtain rfl := Except.ok.inj hx
    obtain rfl := Except.ok.inj h
    obtain ⟨e, rfl, hcfg, rfl⟩ := (content_ok hf).1 he
    obtain ⟨honce, rfl⟩ := target_iff.1 ht
    obtain ⟨hurl, rfl⟩ := targetElem_ok.1 hte
    obtain ⟨ho1, ho2⟩ := checkOptions_ok.1 hu
    exact ⟨e, content_iff.1 hg, hcfg, honce, ⟨hurl, ho1, ho2⟩, rfl⟩
  · rintro ⟨e, hc, hcfg, honce, ⟨hurl, ho1, ho2⟩, rfl⟩
    refine bind_iff.2 ⟨_, bind_iff.2 ⟨_, content_iff.2 hc, bind_iff.2 ⟨_, target_iff.2 ⟨honce, rfl⟩,
      bind_iff.2 ⟨_, targetElem_ok.2 ⟨hurl, rfl⟩, bind_iff.2 ⟨(), checkOptions_ok.2 ⟨ho1, ho2⟩,
        bind_iff.2 ⟨[recreate ns e], (content_ok hf).2 ⟨e, rfl, hcfg, rfl⟩, rfl⟩⟩⟩⟩⟩, rfl⟩

/-! ## C49 -/

/-- C49: `edit_config` sends a message if and only if the config is given once, as a `Config` by
position or as an element, and is a config; the target is given at most once; and the device has the
capabilities for the options. -/
theorem C49_accepted (has : String → Bool) (ns outer : NsMap) (id : String) (c : Call)
    (hf : c.format = "xml") :
    (∃ m, editConfig has ns outer id c = .ok m) ↔ (∃ e, Content c e ∧ IsConfig e) ∧ TargetOnce has c ∧
      Capable has c (datastore (has "urn:ietf:params:netconf:capability:candidate:1.0")
        (has "urn:ietf:params:netconf:capability:writable-running:1.0") (c.target.or c.kwTarget)) := by
  constructor
  · rintro ⟨m, h⟩
    obtain ⟨e, h1, h2, h3, h4, _⟩ := (editConfig_ok hf).1 h
    exact ⟨⟨e, h1, h2⟩, h3, h4⟩
  · rintro ⟨⟨e, h1, h2⟩, h3, h4⟩
    exact ⟨_, (editConfig_ok hf).2 ⟨e, h1, h2, h3, h4, rfl⟩⟩

/-- C49: the message has one operation, an edit-config; its first child is the target with the
datastore, its last child is a copy of the config: the same nodes in the same order with the same
attributes and texts, in which every declared prefix has the same meaning. -/
theorem C49_sent {has : String → Bool} {ns outer : NsMap} {id : String} {c : Call} {m : Elem}
    (hf : c.format = "xml") (h : editConfig has ns outer id c = .ok m) : ∃ e op target store options sent, Content c e ∧
    m.tag = nc "rpc" ∧ m.attrs = [(.other "message-id", .str id)] ∧ m.kids = [op] ∧
    op.tag = nc "edit-config" ∧ op.attrs = [] ∧ op.kids = target :: (options ++ [sent]) ∧ Copy e sent ∧
    target.tag = nc "target" ∧ target.kids = [store] ∧
    (store.tag = nc (datastore (has "urn:ietf:params:netconf:capability:candidate:1.0")
        (has "urn:ietf:params:netconf:capability:writable-running:1.0") (c.target.or c.kwTarget)) ∨
      "://".toList <:+: (datastore (has "urn:ietf:params:netconf:capability:candidate:1.0")
        (has "urn:ietf:params:netconf:capability:writable-running:1.0") (c.target.or c.kwTarget)).toList ∧
      store.tag = nc "url" ∧
      store.text = some (datastore (has "urn:ietf:params:netconf:capability:candidate:1.0")
        (has "urn:ietf:params:netconf:capability:writable-running:1.0") (c.target.or c.kwTarget))) ∧
    options.map (fun o => (o.tag, o.text)) =
      (c.errorOption.toList.map fun s => (nc "error-option", some s)) ++
      (c.testOption.toList.map fun s => (nc "test-option", some s)) ++
      (c.defaultOperation.toList.map fun s => (nc "default-operation", some s)) := by
  obtain ⟨e, hc, _, _, _, rfl⟩ := (editConfig_ok hf).1 h
  simp only [wrap, recreate, recreateKids_eq, List.map_cons, List.map_append, List.map_nil]
  refine ⟨e, _, _, _, List.map (recreate (scope ns outer)) (option ns "error-option" c.errorOption) ++
    List.map (recreate (scope ns outer)) (option ns "test-option" c.testOption) ++
    List.map (recreate (scope ns outer)) (option ns "default-operation" c.defaultOperation),
    recreate (scope ns outer) (recreate ns e), hc, rfl, rfl, rfl, rfl, rfl, rfl,
    (recreate_copy e ns).trans (recreate_copy _ _), rfl, rfl, ?_, ?_⟩
  · split
    · rename_i hs
      exact Or.inr ⟨(hasScheme_iff _).1 hs, rfl, rfl⟩
    · exact Or.inl rfl
  · cases c.errorOption <;> cases c.testOption <;> cases c.defaultOperation <;> rfl

/-- C49, prefixes: what is in scope of the copy of an element is declared in the original or, if the
original does not declare the prefix, in what it is appended to. -/
theorem C49_scope (outer : NsMap) (e : Elem) (p : Option String) :
    (recreate outer e).nsmap.lookup p = (e.nsmap.lookup p).or (outer.lookup p) := by
  obtain ⟨t, n, a, x, ks⟩ := e
  rw [recreate]
  show (scope n outer).lookup p = (n.lookup p).or (outer.lookup p)
  cases h : (scope n outer).lookup p with
  | some u =>
    rcases scope_origin h with h1 | ⟨h1, h2⟩
    · rw [h1]; rfl
    · rw [h1, h2]; rfl
  | none =>
    cases h1 : n.lookup p with
    | some u => rw [scope_own h1] at h; cases h
    | none =>
      rw [Option.none_or]
      cases h2 : outer.lookup p with
      | none => rfl
      | some u =>
        exfalso
        unfold scope at h
        rw [List.lookup_append, h1, Option.none_or] at h
        obtain ⟨l1, l2, e, _⟩ := List.lookup_eq_some_iff.1 h2
        have hm : (p, u) ∈ outer.filter (fun p => (n.lookup p.1).isNone) := by
          refine List.mem_filter.2 ⟨by rw [e]; simp, by rw [h1]; rfl⟩
        have := List.lookup_eq_none_iff.1 h _ hm
        simp at this

/-- C49: with a format other than `xml` and `text` (for example a datastore that is given as the second
positional argument), a message without config is sent. -/
theorem C49_other_format {has : String → Bool} {ns outer : NsMap} {id : String} {c : Call} {m : Elem}
    (hf : c.format ≠ "xml") (h : editConfig has ns outer id c = .ok m) : ∃ op target options,
    m.kids = [op] ∧ op.kids = target :: options ∧ target.tag = nc "target" ∧
    ∀ o ∈ options, o.tag ∈ [nc "error-option", nc "test-option", nc "default-operation"] := by
  unfold editConfig request at h
  obtain ⟨x, hx, h⟩ := bind_iff.1 h
  obtain ⟨g, hg, hx⟩ := bind_iff.1 hx
  obtain ⟨t, ht, hx⟩ := bind_iff.1 hx
  obtain ⟨te, hte, hx⟩ := bind_iff.1 hx
  obtain ⟨u, hu, hx⟩ := bind_iff.1 hx
  obtain ⟨es, he, hx⟩ := bind_iff.1 hx
  obtain rfl := Except.ok.inj hx
  obtain rfl := Except.ok.inj h
  obtain ⟨_, rfl⟩ := targetElem_ok.1 hte
  have he : content ns c.format g = .ok es := he
  unfold content at he
  rw [if_neg hf] at he
  split at he
  · cases he
  · obtain rfl := Except.ok.inj he
    simp only [wrap, recreate, recreateKids_eq, List.map_cons, List.map_append, List.map_nil, List.append_nil]
    refine ⟨_, _, _, rfl, rfl, rfl, ?_⟩
    show ∀ o ∈ List.map (recreate (scope ns outer)) (option ns "error-option" c.errorOption) ++
      List.map (recreate (scope ns outer)) (option ns "test-option" c.testOption) ++
      List.map (recreate (scope ns outer)) (option ns "default-operation" c.defaultOperation), _
    intro o ho
    rcases List.mem_append.1 ho with ho | ho
    · rcases List.mem_append.1 ho with ho | ho
      · cases h1 : c.errorOption with
        | none => rw [h1] at ho; cases ho
        | some s => rw [h1] at ho; simp [option, recreate] at ho; rw [ho]; simp
      · cases h1 : c.testOption with
        | none => rw [h1] at ho; cases ho
        | some s => rw [h1] at ho; simp [option, recreate] at ho; rw [ho]; simp
    · cases h1 : c.defaultOperation with
      | none => rw [h1] at ho; cases ho
      | some s => rw [h1] at ho; simp [option, recreate] at ho; rw [ho]; simp

/-! ## Concrete cases -/

namespace Demo

/-- Prefixes of ncclient: the netconf namespace is the default one. -/
def pfx : NsMap := [(none, ncUrl)]

/-- A config with an identityref. -/
def cfg : Elem := .mk (nc "config") [(some "nc", ncUrl)] [] none
  [.mk ⟨"urn:a", "a"⟩ [(some "nc", ncUrl), (none, "urn:a")] [] none
    [.mk ⟨"urn:a", "kind"⟩ [(some "nc", ncUrl), (none, "urn:a"), (some "id", "urn:id")] [(.operation, .str "create")] (some "id:x") []]]

/-- A device that has the running datastore only. -/
def running (s : String) : Bool := s = runningCap || s = ":validate"
/-- A device with a candidate. -/
def both (s : String) : Bool := s = runningCap || s = candidateCap

example : ∃ m, editConfig running [] pfx "1" { config := some (.config cfg), testOption := some "set" } = .ok m := by
  refine (C49_accepted _ _ _ _ _ rfl).2 ⟨⟨cfg, .config rfl rfl, Or.inr rfl⟩, Or.inl rfl, ?_, ?_, ?_⟩
  · intro h; rw [← hasScheme_iff] at h; exact absurd h (by decide)
  · intro h; cases h
  · intro _; decide

example : ((editConfig running [] pfx "1" { config := some (.config cfg) }).toOption.map fun m =>
    m.kids.flatMap (fun op => op.kids.flatMap (fun t => t.kids.map Elem.tag))) =
    some [nc "running", ⟨"urn:a", "a"⟩] := by decide +kernel

example : ((editConfig both [] pfx "1" { config := some (.config cfg) }).toOption.map fun m =>
    m.kids.flatMap (fun op => op.kids.flatMap (fun t => t.kids.map Elem.tag))) =
    some [nc "candidate", ⟨"urn:a", "a"⟩] := by decide +kernel

/-- C49: a `ConfigDelta` cannot be given by position, as the documentation does; only its `nc` can. -/
theorem C49_delta_object (has : String → Bool) (ns outer : NsMap) (id : String) (e : Elem) (t : String) :
    (∀ m, editConfig has ns outer id { config := some (.delta e), kwTarget := some t } ≠ .ok m) ∧
    ∃ m, editConfig both [] pfx "1" { config := some (.elem cfg), kwTarget := some "running" } = .ok m := by
  constructor
  · intro m h
    obtain ⟨⟨x, hx, _⟩, _⟩ := (C49_accepted _ _ _ _ _ rfl).1 ⟨m, h⟩
    cases hx with
    | config h _ => cases h
    | element h _ => cases h
    | keyword h _ => cases h
  · refine (C49_accepted _ _ _ _ _ rfl).2 ⟨⟨cfg, .element rfl rfl, Or.inr rfl⟩, Or.inl rfl, ?_, ?_, ?_⟩
    · intro h; rw [← hasScheme_iff] at h; exact absurd h (by decide)
    · intro h; cases h
    · intro h; exact absurd rfl h

/-- C49: `edit_config(config, 'running')` sends an edit-config without config. -/
theorem C49_second_argument :
    ((editConfig both [] pfx "1" { config := some (.config cfg), format := "running" }).toOption.map fun m =>
      m.kids.flatMap (fun op => op.kids.map (fun e => e.tag.name))) = some ["target"] := by
  decide +kernel

/-- C49: a target by position fails on a device that has the running datastore but no candidate, while
it works on other devices and by keyword. -/
theorem C49_positional_target :
    editConfig running [] pfx "1" { config := some (.config cfg), target := some "running" } = .error .typeError ∧
    (editConfig both [] pfx "1" { config := some (.config cfg), target := some "running" }).isOk = true ∧
    (editConfig running [] pfx "1" { config := some (.config cfg), kwTarget := some "running" }).isOk = true := by
  decide +kernel

/-- C49: the options are not in the order of the netconf schema (RFC 6241: target, default-operation,
test-option, error-option, config). -/
theorem C49_option_order : ((editConfig (fun _ => true) [] pfx "1" { config := some (.config cfg), errorOption := some "stop-on-error", testOption := some "set", defaultOperation := some "none" }).toOption.map fun m =>
    m.kids.flatMap (fun op => op.kids.map (fun e => e.tag.name))) =
    some ["target", "error-option", "test-option", "default-operation", "config"] := by
  decide +kernel

/-- C49: a value without prefix where no default namespace is declared gets the default namespace of
the message. -/
theorem C49_unprefixed : (recreate pfx cfg).nsmap.lookup none = some ncUrl ∧ cfg.nsmap.lookup none = none := by
  decide +kernel

end Demo

end NcDiff.Send
