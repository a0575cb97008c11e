import Verif.Proof.Statement
import Verif.Props.Compile
import Verif.Props.XPath
/-!
# Property C50: the statement of a node
-/

namespace NcDiff

namespace Statement

open Compile ModelDiff

theorem chain_known {d : Device} {ns : List (String × String)} : ∀ {path : List QName} {c : List Stmt},
    List.Forall₂ (Named ns) path c → ∀ {kids : List Stmt}, Agree d ns kids → Chain kids c → PathKnown d path := by
  intro path c h
  induction h with
  | nil => intro kids _ hc; cases hc
  | @cons q s path c hn hr ih =>
    intro kids ha hc
    have hs : s ∈ kids := by cases hc <;> assumption
    intro x hx
    rcases List.mem_cons.1 hx with rfl | hx
    · obtain ⟨e, he, _, hl⟩ := ha.known [s] s (.one hs) rfl
      refine ⟨hn.2 ▸ ha.names [s] s (.one hs) rfl, e, he, ?_⟩
      rw [hn.1] at hl
      exact (Option.some.inj hl).symm
    · cases hc with
      | one _ => cases hr; cases hx
      | more _ hc => exact ih (ha.down hs) hc x hx

/-- The statement at a path is the only one. -/
theorem statement_unique {d : Device} {ns : List (String × String)} : ∀ {path : List QName} {kids : List Stmt},
    Agree d ns kids → ∀ {a b : Stmt}, StatementAt ns kids path a → StatementAt ns kids path b → a = b
  | [], _, _, _, _, ⟨c, hc, _, hf⟩, _ => by cases hf; cases hc
  | q :: path, kids, ha, a, b, ⟨c, hc, hl, hf⟩, ⟨c', hc', hl', hf'⟩ => by
    cases hf with
    | @cons _ s _ c hn hf =>
      cases hf' with
      | @cons _ s' _ c' hn' hf' =>
        have hs : s ∈ kids := by cases hc <;> assumption
        have hs' : s' ∈ kids := by cases hc' <;> assumption
        obtain rfl := distinct_eq ha.top hs hs' (hn.2.symm.trans hn'.2) (hn.1.trans hn'.1.symm)
        cases hc with
        | one _ =>
          cases hf
          cases hf'
          cases hl
          cases hl'
          rfl
        | more _ hc =>
          cases hc' with
          | one _ => cases hf'; cases hf; cases hc
          | more _ hc' =>
            refine statement_unique (ha.down hs) ⟨c, hc, ?_, hf⟩ ⟨c', hc', ?_, hf'⟩
            · cases c with
              | nil => cases hc
              | cons y c => rw [List.getLast?_cons_cons] at hl; exact hl
            · cases c' with
              | nil => cases hc'
              | cons y c => rw [List.getLast?_cons_cons] at hl'; exact hl'

/-- The statement that is found for a path of tags is the one at this path, if there is one. -/
theorem C50_path {d : Device} {ns : List (String × String)} {ms : Modules} {name : String} {m : Module}
    (ha : Agree d ns m.kids) (hm : Newest ms name m) {q : QName} {r : List QName} (hk : PathKnown d (q :: r))
    (hr : d.roots.lookup q = some name) :
    ∃ o, ofSchemaNode d ms (q :: r) = .ok o ∧ ∀ s, o = some s ↔ StatementAt ns m.kids (q :: r) s := by
  obtain ⟨segs, h1, h2⟩ := schemaXpath_eq ha.unique hk (dflt := none) (by simp)
  refine ⟨follow m.pfx m.kids segs, ?_, fun s => follow_iff h2 ha⟩
  have hn : modelName d (q :: r) = .ok name := by simp only [modelName, hr]
  unfold ofSchemaNode
  rw [hn]
  show (schemaXpath d .lxmlXpath (writtenNs .url none) (q :: r) >>= _) = _
  rw [h1]
  show Except.ok _ = _
  rw [contextStatement_segs hm ha.idents (by simp) h2]

/-- **C50, schema nodes.**  `get_statement` of a node of a compiled model returns the statement that the node was compiled
from. -/
theorem C50_schema {d : Device} {ns : List (String × String)} {ms : Modules} {name : String} {m : Module}
    (ha : Agree d ns m.kids) (hm : Newest ms name m) {pfx : Option String} {t : Elem}
    (ht : compileTree ns name pfx m.kids = .ok t) {q : QName} {r : List QName} {e : Elem} (he : At t (q :: r) e)
    (hr : d.roots.lookup q = some name) :
    ∃ s, ofSchemaNode d ms (q :: r) = .ok (some s) ∧ Describes ns s e ∧ StatementAt ns m.kids (q :: r) s ∧
      ∀ s', StatementAt ns m.kids (q :: r) s' → s' = s := by
  obtain ⟨c, s, hc, hs, hq, hd, _⟩ := C46_nodes ht (by simp) he
  have hst : StatementAt ns m.kids (q :: r) s := ⟨c, hc.1, hs, hq⟩
  obtain ⟨o, ho, hi⟩ := C50_path ha hm (chain_known hq ha hc.1) hr
  refine ⟨s, ?_, hd, hst, fun s' hs' => statement_unique ha hs' hst⟩
  rw [ho, (hi s).2 hst]

/-- **C50, config nodes.**  `get_statement` of a config node without list entries above it returns the statement at the
path of its tags, and `None` if there is none. -/
theorem C50_config {d : Device} {ns : List (String × String)} {ms : Modules} {name : String} {m : Module}
    (ha : Agree d ns m.kids) (hm : Newest ms name m) {cfg : Elem} {pos : List Nat} (hk : PathKnown d (tagsTo cfg pos))
    (hr : ∀ q ∈ (tagsTo cfg pos).head?, d.roots.lookup q = some name) (hno : ¬ EntryAbove d .root cfg pos)
    {o : Option Stmt} (h : ofConfigNode d ms cfg pos = .ok o) :
    ∀ s, o = some s ↔ StatementAt ns m.kids (tagsTo cfg pos) s := by
  unfold ofConfigNode at h
  obtain ⟨n, hn, h⟩ := bind_ok.1 h
  obtain ⟨x, hx, h⟩ := bind_ok.1 h
  obtain rfl := Except.ok.inj h
  have hne : tagsTo cfg pos ≠ [] := by
    intro h0
    rw [h0] at hn
    cases hn
  have hname : n = name := by
    revert hn hr
    cases tagsTo cfg pos with
    | nil => intro _ hn; cases hn
    | cons q r =>
      intro hr hn
      simp only [modelName, hr q rfl] at hn
      exact (Except.ok.inj hn).symm
  subst hname
  unfold getXpath at hx
  split at hx
  · cases hx
  · obtain ⟨segs, rfl, hs⟩ := (convertNodes_eq ha.unique ha.idents (dflt := none) (by simp) hk hx).1 hno
    intro s
    rw [contextStatement_segs hm ha.idents hne hs]
    exact follow_iff hs ha

/-- **C50, below list entries.**  `get_statement` of a config node below a list entry returns `None`. -/
theorem C50_below {d : Device} {ns : List (String × String)} {ms : Modules} {name : String} {m : Module}
    (ha : Agree d ns m.kids) (hm : Newest ms name m) {cfg : Elem} {pos : List Nat} (hk : PathKnown d (tagsTo cfg pos))
    (hr : ∀ q ∈ (tagsTo cfg pos).head?, d.roots.lookup q = some name) (hab : EntryAbove d .root cfg pos)
    {o : Option Stmt} (h : ofConfigNode d ms cfg pos = .ok o) : o = none := by
  unfold ofConfigNode at h
  obtain ⟨n, hn, h⟩ := bind_ok.1 h
  obtain ⟨x, hx, h⟩ := bind_ok.1 h
  obtain rfl := Except.ok.inj h
  have hname : n = name := by
    revert hn hr
    cases tagsTo cfg pos with
    | nil => intro _ hn; cases hn
    | cons q r =>
      intro hr hn
      simp only [modelName, hr q rfl] at hn
      exact (Except.ok.inj hn).symm
  subst hname
  unfold getXpath at hx
  split at hx
  · cases hx
  · obtain ⟨path, segs, p, n, w, more, h1, h2, h3, h4⟩ :=
      (convertNodes_eq ha.unique ha.idents (dflt := none) (by simp) hk hx).2 hab
    have hb := follow_bad (rp := m.pfx) h3 h4 path segs h2 ha (w := w) (more := more)
    cases segs with
    | nil =>
      rw [contextStatement_eq hm h1 (by simp)]
      exact hb
    | cons t segs =>
      have ht : t ≠ [] := by
        cases h2 with
        | cons h _ => exact (h.free ha.idents).2
      rw [contextStatement_eq hm h1 ht]
      exact hb

theorem lookup_split {α β : Type} [BEq α] [LawfulBEq α] {k : α} {v : β} {l : List (α × β)} :
    l.lookup k = some v ↔ ∃ a b, l = a ++ (k, v) :: b ∧ ∀ e ∈ a, e.1 ≠ k := by
  rw [List.lookup_eq_some_iff]
  constructor
  · rintro ⟨a, b, h, hn⟩
    exact ⟨a, b, h, fun e he hk => by simpa [hk] using hn e he⟩
  · rintro ⟨a, b, h, hn⟩
    exact ⟨a, b, h, fun e he => by simpa using fun hk => hn e he hk.symm⟩

theorem roots_lookup {q : QName} : ∀ {l : List (String × Elem)} {m : String},
    (l.flatMap fun m => m.2.kids.map fun k => (k.tag, m.1)).lookup q = some m ↔
      ∃ a t b, l = a ++ (m, t) :: b ∧ HasRoot q (m, t) ∧ ∀ e ∈ a, ¬ HasRoot q e
  | [], m => by simp
  | (n, t) :: l, m => by
    rw [List.flatMap_cons, List.lookup_append]
    cases hl : (t.kids.map fun k => (k.tag, n)).lookup q with
    | some x =>
      obtain ⟨a, b, h, _⟩ := lookup_split.1 hl
      have hx : (q, x) ∈ t.kids.map fun k => (k.tag, n) := by rw [h]; simp
      obtain ⟨k, hk, he⟩ := List.mem_map.1 hx
      cases he
      have hh : HasRoot k.tag (n, t) := ⟨k, hk, rfl⟩
      constructor
      · intro h
        cases Option.some.inj h
        exact ⟨[], t, l, rfl, hh, by simp⟩
      · rintro ⟨a, t', b, h, _, hn⟩
        cases a with
        | nil => cases h; rfl
        | cons e a => cases h; exact absurd hh (hn _ (.head _))
    | none =>
      have hh : ¬ HasRoot q (n, t) := by
        rintro ⟨k, hk, rfl⟩
        have := List.lookup_eq_none_iff.1 hl (k.tag, n) (List.mem_map_of_mem hk)
        simp at this
      rw [Option.none_or, roots_lookup]
      constructor
      · rintro ⟨a, t', b, rfl, h, hn⟩
        refine ⟨(n, t) :: a, t', b, rfl, h, fun e he => ?_⟩
        rcases List.mem_cons.1 he with rfl | he
        · exact hh
        · exact hn e he
      · rintro ⟨a, t', b, h, h', hn⟩
        cases a with
        | nil => cases h; exact absurd h' hh
        | cons e a => cases h; exact ⟨a, t', b, rfl, h', fun e he => hn e (.tail _ he)⟩

/-- **C50, models.**  `get_model_name` names the model that was loaded last among those that have the root of the node; it
fails with `ModelMissing` exactly if there is none. -/
theorem C50_model_name {h : Host} {q : QName} {r : List QName} :
    (modelName h.device (q :: r) = .error .modelMissing ↔ ∀ e ∈ h.models, ¬ HasRoot q e) ∧
    ∀ m, modelName h.device (q :: r) = .ok m ↔
      ∃ a t b, h.models = a ++ (m, t) :: b ∧ HasRoot q (m, t) ∧ ∀ e ∈ b, ¬ HasRoot q e := by
  have key : ∀ m, h.device.roots.lookup q = some m ↔
      ∃ a t b, h.models = a ++ (m, t) :: b ∧ HasRoot q (m, t) ∧ ∀ e ∈ b, ¬ HasRoot q e := by
    intro m
    rw [Host.device, roots_lookup]
    constructor
    · rintro ⟨a, t, b, hl, h1, h2⟩
      refine ⟨b.reverse, t, a.reverse, ?_, h1, fun e he => h2 e (List.mem_reverse.1 he)⟩
      rw [← List.reverse_reverse h.models, hl]
      simp
    · rintro ⟨a, t, b, hl, h1, h2⟩
      exact ⟨b.reverse, t, a.reverse, by rw [hl]; simp, h1, fun e he => h2 e (List.mem_reverse.1 he)⟩
  simp only [modelName]
  cases hl : h.device.roots.lookup q with
  | none =>
    rw [hl] at key
    refine ⟨⟨fun _ e he hr => ?_, fun _ => rfl⟩, fun m => ⟨fun hm => (by cases hm), fun hm => ?_⟩⟩
    · have h0 : h.device.roots.lookup q = none := hl
      obtain ⟨k, hk, rfl⟩ := hr
      have := List.lookup_eq_none_iff.1 h0 (k.tag, e.1) (by
        simp only [Host.device, List.mem_flatMap, List.mem_reverse, List.mem_map]
        exact ⟨e, he, k, hk, rfl⟩)
      simp at this
    · cases (key m).2 hm
  | some n =>
    rw [hl] at key
    refine ⟨⟨fun h => (by cases h), fun hno => ?_⟩, fun m => ?_⟩
    · obtain ⟨a, t, b, e, h1, _⟩ := (key n).1 rfl
      exact absurd h1 (hno _ (by rw [e]; simp))
    · rw [← key]
      exact ⟨fun h => congrArg some (Except.ok.inj h), fun h => congrArg Except.ok (Option.some.inj h)⟩

end Statement

namespace Demo

open Compile Statement

/-- A module with a list and a choice. -/
def stmtsS : List Stmt :=
  [ st "container" "top"
      [ st "list" "item"
          [st "leaf" "name" (type := some { arg := "string" }) (isKey := true),
           st "leaf" "val" (type := some { arg := "string" })] [("key", "name")],
        st "container" "in" [st "leaf" "a" (type := some { arg := "string" })],
        st "choice" "how" [st "case" "one" [st "leaf" "b" (type := some { arg := "string" })]] ] ]

/-- Its compiled tree. -/
def treeS : Elem := (compileTree modNs "demo" (some "d") stmtsS).toOption.getD default

/-- A device with this module. -/
def hostS : Host :=
  { id := 1, namespaces := [("demo", "d", u)], loadable := ["demo"], models := [("demo", treeS)] }

/-- The modules of the compiler: two revisions. -/
def modulesS : Modules :=
  [(("demo", "2020-01-01"), ⟨"d", true, stmtsS⟩), (("demo", "2019-01-01"), ⟨"d", false, []⟩)]

theorem newestS : Newest modulesS "demo" ⟨"d", true, stmtsS⟩ :=
  ⟨[], [_], "2020-01-01", rfl, rfl, by simp, by simp⟩

theorem agreeS : Agree hostS.device modNs stmtsS := by
  have hall : ∀ c s, Chain stmtsS c → c.getLast? = some s →
      (identB s.info.arg.toList && s.info.modulePrefix == "d" && s.info.module == "demo" &&
        decide (s.kids.Pairwise fun a b =>
          ¬ (a.info.arg = b.info.arg ∧ modNs.lookup a.info.module = modNs.lookup b.info.module))) = true :=
    fun c s hc hs => allBelow_chain (P := fun s => (identB s.info.arg.toList && s.info.modulePrefix == "d" &&
        s.info.module == "demo" && decide (s.kids.Pairwise fun a b =>
          ¬ (a.info.arg = b.info.arg ∧ modNs.lookup a.info.module = modNs.lookup b.info.module)))) hc (by decide +kernel) s
      (List.mem_of_getLast? hs)
  refine ⟨⟨by intro f; cases f <;> decide, ?_, by decide⟩, ?_, ?_, ?_, by unfold DistinctNames; decide +kernel, ?_⟩
  · intro e he f
    cases List.mem_singleton.1 he
    cases f <;> decide
  · intro e he
    cases List.mem_singleton.1 he
    exact ⟨identB_sound (by decide +kernel), identB_sound (by decide +kernel)⟩
  · intro c s hc hs
    have := hall c s hc hs
    simp only [Bool.and_eq_true] at this
    exact identB_sound this.1.1.1
  · intro c s hc hs
    have := hall c s hc hs
    simp only [Bool.and_eq_true, beq_iff_eq] at this
    refine ⟨("demo", "d", u), .head _, this.1.1.2.symm, ?_⟩
    rw [this.1.2]
    decide
  · intro c s hc hs
    have := hall c s hc hs
    simp only [Bool.and_eq_true] at this
    unfold DistinctNames
    exact of_decide_eq_true this.2

/-- Of two models with the same root the one that was loaded last is named. -/
example : modelName ({ hostS with models := [("demo", treeS), ("other", treeS)] } : Host).device [q "top", q "in"] =
    .ok "other" := by decide +kernel

/-- `C50_schema` for a leaf in a case. -/
example : ∃ e, ModelDiff.At treeS [q "top", q "how", q "one", q "b"] e ∧
    ∃ s, ofSchemaNode hostS.device modulesS [q "top", q "how", q "one", q "b"] = .ok (some s) ∧ Describes modNs s e := by
  obtain ⟨a, ha, hat, b, hb, hbt, c, hc, hct, e, he, het⟩ : ∃ a ∈ treeS.kids, a.tag = q "top" ∧ ∃ b ∈ a.kids, b.tag = q "how" ∧
      ∃ c ∈ b.kids, c.tag = q "one" ∧ ∃ e ∈ c.kids, e.tag = q "b" := by decide +kernel
  have hp : ModelDiff.At treeS [q "top", q "how", q "one", q "b"] e := by
    rw [← hat, ← hbt, ← hct, ← het]
    exact .down ha (.down hb (.down hc (.down he .here)))
  obtain ⟨s, h1, h2, _⟩ := C50_schema (m := ⟨"d", true, stmtsS⟩) agreeS newestS
    (show compileTree modNs "demo" (some "d") stmtsS = .ok treeS by decide +kernel) hp (by decide +kernel)
  exact ⟨e, hp, s, h1, h2⟩

/-- A config of this module. -/
def cfgS : Elem := cfg [el "top" [el "item" [lf "name" "x", lf "val" "1"], el "in" [lf "a" "1"], lf "b" "2"]]

/-- The keyword and the argument of the statement. -/
def shown (r : Except Err (Option Stmt)) : Option (Option (String × String)) :=
  r.toOption.map fun o => o.map fun s => (s.info.keyword, s.info.arg)

/-- **C50.**  The statement is found for a list entry and for a leaf in a container, but not for a leaf of the list entry
and not for a leaf of a choice. -/
theorem C50_not_found : validConfigB hostS.device cfgS = true ∧
    shown (ofConfigNode hostS.device modulesS cfgS [0, 0]) = some (some ("list", "item")) ∧
    shown (ofConfigNode hostS.device modulesS cfgS [0, 1, 0]) = some (some ("leaf", "a")) ∧
    shown (ofConfigNode hostS.device modulesS cfgS [0, 0, 1]) = some none ∧
    shown (ofConfigNode hostS.device modulesS cfgS [0, 2]) = some none := by
  decide +kernel

/-- The hypotheses of `C50_config` and `C50_below` hold for two of these nodes. -/
example : EntryAbove hostS.device .root cfgS [0, 0, 1] ∧ PathKnown hostS.device (tagsTo cfgS [0, 0, 1]) ∧
    PathKnown hostS.device (tagsTo cfgS [0, 1, 0]) ∧ ¬ EntryAbove hostS.device .root cfgS [0, 1, 0] := by
  have hkn : ∀ l : List QName, (∀ q ∈ l, identB q.name.toList = true ∧ u = q.ns) → PathKnown hostS.device l :=
    fun l h q hq => ⟨identB_sound (h q hq).1, _, .head _, (h q hq).2⟩
  refine ⟨?_, hkn _ (by decide +kernel), hkn _ (by decide +kernel), ?_⟩
  · refine .deeper (k := el "top" [el "item" [lf "name" "x", lf "val" "1"], el "in" [lf "a" "1"], lf "b" "2"]) rfl
      (show hostS.device.lookup .root _ = .ok _ from rfl) ?_
    exact .entry (k := el "item" [lf "name" "x", lf "val" "1"]) (q := q "name") rfl (by simp) rfl (by decide +kernel)
      (by decide +kernel) ⟨lf "name" "x", rfl⟩
  · intro h
    cases h with
    | entry h1 _ h2 h3 =>
      cases h1
      exact absurd (congrArg (fun r => r.toOption.map fun f => f.node.ntype) h2) (by simp only [Except.toOption, Option.map, h3]; decide +kernel)
    | value h1 _ h2 h3 =>
      cases h1
      exact absurd (congrArg (fun r => r.toOption.map fun f => f.node.ntype) h2) (by simp only [Except.toOption, Option.map, h3]; decide +kernel)
    | deeper h1 h2 h =>
      cases h1
      have h2 := (Except.ok.inj (h2.symm.trans (show hostS.device.lookup .root (q "top") = .ok _ from rfl)))
      subst h2
      cases h with
      | entry h1 _ h4 h3 =>
        cases h1
        exact absurd (congrArg (fun r => r.toOption.map fun f => f.node.ntype) h4) (by simp only [Except.toOption, Option.map, h3]; decide +kernel)
      | value h1 _ h4 h3 =>
        cases h1
        exact absurd (congrArg (fun r => r.toOption.map fun f => f.node.ntype) h4) (by simp only [Except.toOption, Option.map, h3]; decide +kernel)
      | deeper h1 h4 h =>
        cases h1
        cases h with
        | entry _ h => exact absurd rfl h
        | value _ h => exact absurd rfl h
        | deeper _ _ h => cases h

end Demo

end NcDiff
