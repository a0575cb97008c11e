import Verif.Proof.ShowDiff
import Verif.Props.ModelDiff
/-!
# C51: printed models and printed differences of models
-/

namespace NcDiff.Show

open ModelDiff

/-- C51: a tree is taken as a model exactly if all its `namespace` children have a prefix and its own prefix is one of
them.  The model then maps a prefix to the text of the last child with this prefix, and its tree has all other children. -/
theorem C51_model (t : Elem) :
    ((∃ m, ofTree t = .ok m) ↔ (∀ k ∈ t.kids, k.tag = ⟨"", "namespace"⟩ → ∃ p, strAttr k (.other "prefix") = some p) ∧
      ∃ p, strAttr t (.other "prefix") = some p ∧ ∃ k ∈ t.kids, declares p k = true) ∧
    ∀ m, ofTree t = .ok m →
      m.tree.tag = t.tag ∧ m.tree.kids = t.kids.filter (fun k => k.tag ≠ ⟨"", "namespace"⟩) ∧
      strAttr t (.other "prefix") = some m.pfx ∧ m.prefixes.lookup m.pfx = some m.url ∧
      ∀ p, m.prefixes.lookup p = (t.kids.filter (declares p)).getLast?.map Elem.text := by
  have hl : ∀ {rows}, namespaceRows (t.childrenWith ⟨"", "namespace"⟩) = .ok rows → ∀ p,
      (dictOf rows).lookup p = (t.kids.filter (declares p)).getLast?.map Elem.text := by
    intro rows hr p
    have := (namespaceRows_eq hr).2 p
    rw [show t.childrenWith ⟨"", "namespace"⟩ = t.kids.filter (fun k => k.tag = ⟨"", "namespace"⟩) by cases t; rfl,
      declares_filter] at this
    rw [lookup_dictOf, this, List.getLast?_map, Option.map_map]
    rfl
  have hmem : ∀ k, k ∈ t.childrenWith ⟨"", "namespace"⟩ ↔ k ∈ t.kids ∧ k.tag = ⟨"", "namespace"⟩ := by
    intro k
    rw [show t.childrenWith ⟨"", "namespace"⟩ = t.kids.filter (fun k => k.tag = ⟨"", "namespace"⟩) by cases t; rfl]
    simp
  constructor
  · constructor
    · rintro ⟨m, h⟩
      unfold ofTree at h
      obtain ⟨rows, hr, h⟩ := bind_ok.1 h
      refine ⟨fun k hk ht => (namespaceRows_eq hr).1 k ((hmem k).2 ⟨hk, ht⟩), ?_⟩
      split at h
      · cases h
      · rename_i p hp
        refine ⟨p, hp, ?_⟩
        split at h
        · cases h
        · rename_i u hu
          rw [hl hr] at hu
          obtain ⟨k, hk, _⟩ := Option.map_eq_some_iff.1 hu
          have := List.mem_filter.1 (List.mem_of_getLast? hk)
          exact ⟨k, this.1, this.2⟩
    · rintro ⟨h1, p, hp, k, hk, hd⟩
      obtain ⟨rows, hr⟩ := namespaceRows_ok fun c hc => h1 c ((hmem c).1 hc).1 ((hmem c).1 hc).2
      have hf : k ∈ t.kids.filter (declares p) := List.mem_filter.2 ⟨hk, hd⟩
      have hu := hl hr p
      cases hg : (t.kids.filter (declares p)).getLast? with
      | none => rw [List.getLast?_eq_none_iff] at hg; rw [hg] at hf; cases hf
      | some x =>
        rw [hg] at hu
        have hu' : (dictOf rows).lookup p = some x.text := hu
        unfold ofTree
        rw [hr]
        simp only [bind, Except.bind, hp]
        rw [hu']
        exact ⟨_, rfl⟩
  · intro m h
    unfold ofTree at h
    obtain ⟨rows, hr, h⟩ := bind_ok.1 h
    split at h
    · cases h
    · rename_i p hp
      split at h
      · cases h
      · rename_i u hu
        obtain rfl := Except.ok.inj h
        exact ⟨rfl, rfl, hp, hu, hl hr⟩

/-- C51: `str(model)` returns exactly if every node has a type and is in a namespace that the model declares. -/
theorem C51_prints (m : Model) : (∃ s, m.str = .ok s) ↔
    ∀ path e, path ≠ [] → At m.tree path e → (∃ t, strAttr e (.other "type") = some t) ∧ KnownNs m e.tag.ns := by
  unfold Model.str
  rw [emitTree_ok]
  constructor
  · intro h path e hp he
    exact nameStr_ok.1 (h path e hp he)
  · intro h path e hp he
    exact nameStr_ok.2 (h path e hp he)

/-- C51: the text of a model is a drawing of its tree: data nodes, then operations, then notifications, each node on a line
of its own, in the order of the tree and below its parent.  Each line tells the access, name, mark, key, type and feature of
the node, and the types of siblings are in one column. -/
theorem C51_drawn {t : Elem} {m : Model} (hm : ofTree t = .ok m) (hp : PlainPrefixes m) (hr : AllReadable m.tree) {s : List Char}
    (h : m.str = .ok s) : ∃ col d r o, s = joined (page m.tree.tag.clark d r o) ∧
      Forest (Tells m) col (dataNodes m.tree.kids) d ∧ Forest (Tells m) col (rpcNodes m.tree.kids) r ∧
      Forest (Tells m) col (noteNodes m.tree.kids) o :=
  emitTree_drawn Readable (fun _ _ _ he hr hl => (label_tells (ofTree_made hm) hp he hr hl).1) hr h

/-- C51: models with the same text are the same as far as the text goes: same name, and the same nodes in the same order,
with the same access, names, marks, keys, types and features. -/
theorem C51_same_text {t1 t2 : Elem} {m1 m2 : Model} (hm1 : ofTree t1 = .ok m1) (hm2 : ofTree t2 = .ok m2)
    (hp1 : PlainPrefixes m1) (hp2 : PlainPrefixes m2) (hr1 : AllReadable m1.tree) (hr2 : AllReadable m2.tree)
    (hn1 : '\n' ∉ m1.tree.tag.clark) (hn2 : '\n' ∉ m2.tree.tag.clark)
    {s : List Char} (h1 : m1.str = .ok s) (h2 : m2.str = .ok s) : m1.tree.tag.clark = m2.tree.tag.clark ∧
      TwinsAll (SameShown m1 m2) (dataNodes m1.tree.kids) (dataNodes m2.tree.kids) ∧
      TwinsAll (SameShown m1 m2) (rpcNodes m1.tree.kids) (rpcNodes m2.tree.kids) ∧
      TwinsAll (SameShown m1 m2) (noteNodes m1.tree.kids) (noteNodes m2.tree.kids) := by
  have key : ∀ {t : Elem} {m : Model}, ofTree t = .ok m → PlainPrefixes m → AllReadable m.tree → m.str = .ok s →
      ∃ col d r o, s = joined (page m.tree.tag.clark d r o) ∧
        Forest (fun c e l => Tells m c e l ∧ '\n' ∉ l) col (dataNodes m.tree.kids) d ∧
        Forest (fun c e l => Tells m c e l ∧ '\n' ∉ l) col (rpcNodes m.tree.kids) r ∧
        Forest (fun c e l => Tells m c e l ∧ '\n' ∉ l) col (noteNodes m.tree.kids) o :=
    fun hm hp hr h => emitTree_drawn Readable (fun _ _ _ he hr hl => label_tells (ofTree_made hm) hp he hr hl) hr h
  obtain ⟨c, d, r, o, rfl, hd, hr, ho⟩ := key hm1 hp1 hr1 h1
  obtain ⟨c', d', r', o', hs, hd', hr', ho'⟩ := key hm2 hp2 hr2 h2
  have hpage := joined_inj (by simp [page]) (by simp [page])
    (page_lines (fun _ _ _ h => h.2) hd hr ho hn1) (page_lines (fun _ _ _ h => h.2) hd' hr' ho' hn2) hs
  obtain ⟨e1, e2, e3, e4⟩ := page_inj hpage
  subst e2 e3 e4
  have hS : ∀ c c' e f l, (Tells m1 c e l ∧ '\n' ∉ l) → (Tells m2 c' f l ∧ '\n' ∉ l) → SameShown m1 m2 e f :=
    fun _ _ _ _ _ h h' => sameShown_of h.1 h'.1
  exact ⟨e1, twinsAll_of hS hd hd', twinsAll_of hS hr hr', twinsAll_of hS ho ho'⟩

/-- C51: nodes with different tags have different names in the text, and `prefix_to_url` gives the tag of a name. -/
theorem C51_names {t : Elem} {m : Model} (hm : ofTree t = .ok m) (hp : PlainPrefixes m) {q : QName} (hq : Ident q.name.toList)
    {n : List Char} (h : NameShown m q n) : prefixToUrl m n = .ok ('{' :: q.ns.toList ++ '}' :: q.name.toList) ∧
      ∀ q', Ident q'.name.toList → NameShown m q' n → q' = q :=
  ⟨prefixToUrl_shown (ofTree_made hm) hp hq h, fun _ hq' h' => nameShown_inj (ofTree_made hm) hp hq' hq h' h⟩

/-- C51: if both models can be printed, so can their difference, and the properties `added`, `deleted` and `modified`. -/
theorem C51_diff_prints {m1 m2 : Model} (h1 : SchemaTree m1.tree) (h2 : SchemaTree m2.tree) (hs1 : ∃ s, m1.str = .ok s)
    (hs2 : ∃ s, m2.str = .ok s) {d : Elem} (h : modelDiff m1.tree m2.tree = .ok d) :
    (∃ s, emitTree (diffPrinter m1 m2) d = .ok s) ∧
      ∀ msg v, view msg d = some v → ∃ s, emitTree (diffPrinter m1 m2) v = .ok s := by
  rw [C51_prints] at hs1 hs2
  have hname : ∀ path e, path ≠ [] → At d path e → ∃ n, (diffPrinter m1 m2).name e = .ok n := by
    intro path e hp he
    obtain ⟨n0, msg, ht, ha, ho⟩ := origin_of_at hp h1 h2 (isDiff_of h1 h2 h) he
    have hty := origin_attr ha (k := .other "type") (by decide)
    show ∃ n, (if strAttr e (.other "diff") = some "added" then nameStr m2 e else nameStr m1 e) = .ok n
    rw [origin_diff ha]
    rcases ho with ⟨rfl, hb⟩ | ⟨rfl, hb⟩ | ⟨hm, hb, n1, hb1, ht1⟩
    · rw [if_pos (by decide), nameStr_ok, hty, ht]
      exact hs2 path n0 hp hb
    · rw [if_neg (by decide), nameStr_ok, hty, ht]
      exact hs1 path n0 hp hb
    · rw [if_neg (by rcases hm with rfl | rfl <;> decide), nameStr_ok, hty, ht]
      exact ⟨(hs2 path n0 hp hb).1, ht1 ▸ (hs1 path n1 hp hb1).2⟩
  refine ⟨emitTree_ok.2 hname, fun msg v hv => emitTree_ok.2 ?_⟩
  intro path e hp he
  have hv' : v = trim msg d := by
    rw [view] at hv
    split at hv <;> cases hv
    rfl
  subst hv'
  obtain ⟨n0, h0, ht, ha⟩ := at_trim he
  obtain ⟨n, hn⟩ := hname path n0 hp h0
  have hattr : ∀ k, strAttr e k = strAttr n0 k := fun k => strAttr_congr (by unfold Elem.get; rw [ha])
  have hok : ∀ m : Model, (∃ n, nameStr m n0 = .ok n) → ∃ n, nameStr m e = .ok n := by
    intro m
    rw [nameStr_ok, nameStr_ok, hattr, ht]
    exact id
  change (if strAttr n0 (.other "diff") = some "added" then nameStr m2 n0 else nameStr m1 n0) = _ at hn
  show ∃ n, (if strAttr e (.other "diff") = some "added" then nameStr m2 e else nameStr m1 e) = .ok n
  rw [hattr]
  split at hn
  · rename_i hd
    rw [if_pos hd]
    exact hok m2 ⟨n, hn⟩
  · rename_i hd
    rw [if_neg hd]
    exact hok m1 ⟨n, hn⟩

/-- C51: the text of a difference is a drawing of its tree: each line tells the access, name, mark and key of the node as in a
model, and its mark: `added` for a node that only the second model has (named with the prefixes of the second model),
`deleted` or `modified`. -/
theorem C51_diff {t1 t2 : Elem} {m1 m2 : Model} (hm1 : ofTree t1 = .ok m1) (hm2 : ofTree t2 = .ok m2)
    (hp1 : PlainPrefixes m1) (hp2 : PlainPrefixes m2) (hr1 : AllReadable m1.tree) (hr2 : AllReadable m2.tree)
    (h1 : SchemaTree m1.tree) (h2 : SchemaTree m2.tree) {d : Elem} (h : modelDiff m1.tree m2.tree = .ok d) :
    (∀ s, emitTree (diffPrinter m1 m2) d = .ok s → ∃ col x r o, s = joined (page d.tag.clark x r o) ∧
      Forest (TellsDiff m1 m2) col (dataNodes d.kids) x ∧ Forest (TellsDiff m1 m2) col (rpcNodes d.kids) r ∧
      Forest (TellsDiff m1 m2) col (noteNodes d.kids) o) ∧
    ∀ msg v, view msg d = some v → ∀ s, emitTree (diffPrinter m1 m2) v = .ok s → ∃ col x r o,
      s = joined (page v.tag.clark x r o) ∧
      Forest (TellsDiff m1 m2) col (dataNodes v.kids) x ∧ Forest (TellsDiff m1 m2) col (rpcNodes v.kids) r ∧
      Forest (TellsDiff m1 m2) col (noteNodes v.kids) o := by
  have hread : AllReadable d := by
    intro path e hp he
    obtain ⟨n0, msg, ht, ha, ho⟩ := origin_of_at hp h1 h2 (isDiff_of h1 h2 h) he
    rcases ho with ⟨rfl, hb⟩ | ⟨rfl, hb⟩ | ⟨hm, hb, _⟩
    · exact readable_origin ht ha (by decide) (hr2 path n0 hp hb)
    · exact readable_origin ht ha (by decide) (hr1 path n0 hp hb)
    · exact readable_origin ht ha (by rcases hm with rfl | rfl <;> decide) (hr2 path n0 hp hb)
  have key : ∀ {t : Elem}, AllReadable t → ∀ s, emitTree (diffPrinter m1 m2) t = .ok s → ∃ col x r o,
      s = joined (page t.tag.clark x r o) ∧ Forest (TellsDiff m1 m2) col (dataNodes t.kids) x ∧
      Forest (TellsDiff m1 m2) col (rpcNodes t.kids) r ∧ Forest (TellsDiff m1 m2) col (noteNodes t.kids) o :=
    fun hr s hs => emitTree_drawn Readable
      (fun _ _ _ he hr hl => (label_tells_diff (ofTree_made hm1) hp1 (ofTree_made hm2) hp2 he hr hl).1) hr hs
  refine ⟨key hread, fun msg v hv => key ?_⟩
  have hv' : v = trim msg d := by
    rw [view] at hv
    split at hv <;> cases hv
    rfl
  subst hv'
  intro path e hp he
  obtain ⟨n0, h0, ht, ha⟩ := at_trim he
  have hattr : ∀ k, strAttr e k = strAttr n0 k := fun k => strAttr_congr (by unfold Elem.get; rw [ha])
  have := hread path n0 hp h0
  exact ⟨ht ▸ this.ident, ht ▸ this.ns, by rw [hattr]; exact this.key, by rw [hattr]; exact this.type,
    by rw [hattr]; exact this.diff, by rw [hattr]; exact this.feature⟩

/-! ## Concrete models -/

namespace Demo

/-- A declared namespace. -/
def row (p u : String) : Elem := .mk ⟨"", "namespace"⟩ [] [(.other "prefix", .str p)] (some u) []

/-- A node. -/
def nd (ns name type : String) (more : Attrs := []) (ks : List Elem := []) : Elem :=
  .mk ⟨ns, name⟩ [] ((.other "type", .str type) :: more) none ks

def rw : AName × AVal := (.other "access", .str "read-write")
def dt (d : String) : AName × AVal := (.other "datatype", .str d)

/-- A module with an augmented node, an operation and a notification. -/
def tr : Elem := .mk ⟨"", "box"⟩ [] [(.other "type", .str "module"), (.other "prefix", .str "b")] none
  [ row "b" "urn:b", row "x" "urn:x",
    nd "urn:b" "event" "notification" [] [nd "urn:b" "level" "leaf" [dt "string"]],
    nd "urn:b" "top" "container" [rw]
      [ nd "urn:b" "item" "list" [rw, (.key, .str "name")]
          [ nd "urn:b" "name" "leaf" [rw, dt "string", (.other "mandatory", .str "true")],
            nd "urn:x" "speed" "leaf" [rw, dt "uint32", (.other "if-feature", .str "fast")] ],
        nd "urn:b" "how" "choice" [rw] [nd "urn:b" "one" "case" [] [nd "urn:b" "tags" "leaf-list" [rw, dt "string"]]] ],
    nd "urn:b" "reset" "rpc" [] [nd "urn:b" "input" "input" [] [nd "urn:b" "body" "anyxml" []]] ]

def box : Model := (ofTree tr).toOption.getD ⟨default, [], "", none⟩

theorem box_eq : ofTree tr = .ok box := by decide +kernel

/-- Its text. -/
def boxText : List Char := joined (List.map String.toList
  [ "module: box",
    "    +--rw top",
    "       +--rw item* [name]",
    "       |  +--rw name        string",
    "       |  +--rw x:speed?    uint32 {fast}?",
    "       +--rw (how)?",
    "          +--:(one)",
    "             +--rw tags*    string",
    "",
    "  rpcs:",
    "    +---x reset",
    "       +-- input",
    "          +-- body?   <anyxml>",
    "",
    "  notifications:",
    "    +---n event",
    "       +-- level?     string" ])

theorem box_str : box.str = .ok boxText := by decide +kernel

/-- The hypotheses of the theorems, as a check. -/
def identB (n : List Char) : Bool :=
  (match n with
    | c :: _ => c.isAlpha || c = '_'
    | [] => false) && n.all fun c => c.isAlpha || c.isDigit || c = '_' || c = '-' || c = '.'

theorem ident_of {n : List Char} (h : identB n = true) : Ident n := by
  unfold identB at h
  rw [Bool.and_eq_true] at h
  obtain ⟨h1, h2⟩ := h
  refine ⟨?_, ?_⟩
  · cases n with
    | nil => cases h1
    | cons c r => exact ⟨c, r, rfl, by simpa using h1⟩
  · intro c hc
    have := List.all_eq_true.1 h2 c hc
    simpa [or_assoc] using this

def solidB (c : Char) (v : List Char) : Bool :=
  v ≠ [] ∧ v.head? ≠ some ' ' ∧ v.getLast? ≠ some ' ' ∧ '\n' ∉ v ∧ c ∉ v

def readableB (e : Elem) : Bool :=
  identB e.tag.name.toList && decide (e.tag.ns ≠ "") &&
  (strAttr e .key).all (fun k => decide (']' ∉ k.toList ∧ '\n' ∉ k.toList)) &&
  (strAttr e (.other "datatype")).all (fun v => solidB '{' v.toList) &&
  (strAttr e (.other "diff")).all (fun v => solidB '{' v.toList) &&
  (strAttr e (.other "if-feature")).all (fun f => decide ('}' ∉ f.toList ∧ '\n' ∉ f.toList))

theorem readable_of {e : Elem} (h : readableB e = true) : Readable e := by
  unfold readableB at h
  simp only [Bool.and_eq_true, Option.all_eq_true, decide_eq_true_eq] at h
  obtain ⟨⟨⟨⟨⟨h1, h2⟩, h3⟩, h4⟩, h5⟩, h6⟩ := h
  have solid : ∀ {v : String}, solidB '{' v.toList = true → Solid '{' v.toList := fun h => by simpa only [solidB, Solid, decide_eq_true_eq] using h
  exact ⟨ident_of h1, h2, h3, fun v hv => solid (h4 v hv), fun v hv => solid (h5 v hv), h6⟩

theorem allReadable_of {t : Elem} (h : ModelDiff.Demo.okTree readableB t = true) : AllReadable t := by
  intro path e hp he
  exact readable_of ((ModelDiff.Demo.okTree_at h he).2 hp)

theorem box_ok : PlainPrefixes box ∧ AllReadable box.tree ∧ SchemaTree box.tree := by
  refine ⟨⟨?_, by decide +kernel⟩, allReadable_of (by decide +kernel), ?_⟩
  · have : ∀ e ∈ box.prefixes, identB e.1.toList = true := by decide +kernel
    exact fun p u h => ident_of (this (p, u) h)
  · exact (ModelDiff.Demo.schemaTree_of (f := ModelDiff.Demo.okNode) (by decide +kernel) (fun _ h => h) (by decide +kernel)).1

/-- `C51_drawn` on this model. -/
example : ∃ col d r o, boxText = joined (page box.tree.tag.clark d r o) ∧
    Forest (Tells box) col (dataNodes box.tree.kids) d ∧ Forest (Tells box) col (rpcNodes box.tree.kids) r ∧
    Forest (Tells box) col (noteNodes box.tree.kids) o :=
  C51_drawn box_eq box_ok.1 box_ok.2.1 box_str

/-- What a line tells. -/
example : read "rw x:speed?    uint32 {fast}?".toList =
    ⟨"rw".toList, false, "x:speed".toList, some '?', none, some "uint32".toList, some "fast".toList⟩ := by decide +kernel

/-- `C51_names` for a node of another module. -/
example : NameShown box ⟨"urn:x", "speed"⟩ "x:speed".toList :=
  ⟨"x", by decide +kernel, .inr ⟨by decide +kernel, by decide +kernel⟩⟩

example : prefixToUrl box "x:speed".toList = .ok "{urn:x}speed".toList := by decide +kernel

/-- `C51_same_text`: a model in which the operation comes first has the same text. -/
def tr' : Elem := .mk tr.tag tr.nsmap tr.attrs tr.text (tr.kids.drop 4 ++ tr.kids.take 4)
def box' : Model := (ofTree tr').toOption.getD ⟨default, [], "", none⟩

theorem box'_str : ofTree tr' = .ok box' ∧ box'.str = .ok boxText := ⟨by decide +kernel, by decide +kernel⟩

theorem box'_ok : PlainPrefixes box' ∧ AllReadable box'.tree := by
  refine ⟨⟨?_, by decide +kernel⟩, allReadable_of (by decide +kernel)⟩
  have : ∀ e ∈ box'.prefixes, identB e.1.toList = true := by decide +kernel
  exact fun p u h => ident_of (this (p, u) h)

example : TwinsAll (SameShown box box') (dataNodes box.tree.kids) (dataNodes box'.tree.kids) :=
  (C51_same_text box_eq box'_str.1 box_ok.1 box'_ok.1 box_ok.2.1 box'_ok.2 (by decide +kernel) (by decide +kernel) box_str
    box'_str.2).2.1

/-- A newer version, with a node from a module that the first version does not know. -/
def tr2 : Elem := .mk ⟨"", "box"⟩ [] [(.other "type", .str "module"), (.other "prefix", .str "b")] none
  [ row "b" "urn:b", row "y" "urn:y",
    nd "urn:b" "top" "container" [rw]
      [ nd "urn:b" "item" "list" [rw, (.key, .str "name")]
          [ nd "urn:b" "name" "leaf" [rw, dt "int8", (.other "mandatory", .str "true")],
            nd "urn:y" "color" "leaf" [rw, dt "string"] ],
        nd "urn:b" "how" "choice" [rw] [nd "urn:b" "one" "case" [] [nd "urn:b" "tags" "leaf-list" [rw, dt "string"]]] ] ]

def box2 : Model := (ofTree tr2).toOption.getD ⟨default, [], "", none⟩
theorem box2_eq : ofTree tr2 = .ok box2 := by decide +kernel

theorem box2_ok : PlainPrefixes box2 ∧ AllReadable box2.tree ∧ SchemaTree box2.tree := by
  refine ⟨⟨?_, by decide +kernel⟩, allReadable_of (by decide +kernel), ?_⟩
  · have : ∀ e ∈ box2.prefixes, identB e.1.toList = true := by decide +kernel
    exact fun p u h => ident_of (this (p, u) h)
  · exact (ModelDiff.Demo.schemaTree_of (f := ModelDiff.Demo.okNode) (by decide +kernel) (fun _ h => h) (by decide +kernel)).1

def change : Elem := (modelDiff box.tree box2.tree).toOption.getD default
theorem change_eq : modelDiff box.tree box2.tree = .ok change := by decide +kernel

/-- The text of the difference. -/
def changeText : List Char := joined (List.map String.toList
  [ "module: box",
    "    +--rw top",
    "       +--rw item* [name]",
    "          +--rw name        modified",
    "          +--rw y:color?    added",
    "          +--rw x:speed?    deleted",
    "",
    "  rpcs:",
    "    +---x reset    deleted",
    "       +-- input   deleted",
    "          +-- body?   deleted",
    "",
    "  notifications:",
    "    +---n event    deleted",
    "       +-- level?     deleted" ])

theorem change_str : emitTree (diffPrinter box box2) change = .ok changeText := by decide +kernel

/-- `C51_diff_prints` and `C51_diff` on this difference. -/
example : ∃ s, emitTree (diffPrinter box box2) change = .ok s :=
  (C51_diff_prints box_ok.2.2 box2_ok.2.2 ⟨_, box_str⟩
    ((C51_prints box2).2 fun path e hp he => by
      have h : ModelDiff.Demo.okTree (fun e => (strAttr e (.other "type")).isSome &&
          (e.tag.ns = "urn:b" || e.tag.ns = "urn:y")) box2.tree = true := by decide +kernel
      have := (ModelDiff.Demo.okTree_at h he).2 hp
      simp only [Bool.and_eq_true, Option.isSome_iff_exists, Bool.or_eq_true, decide_eq_true_eq] at this
      refine ⟨this.1, .inr ?_⟩
      rcases this.2 with h | h <;> rw [h]
      · exact ⟨"b", by decide +kernel⟩
      · exact ⟨"y", by decide +kernel⟩) change_eq).1

example : ∃ col x r o, changeText = joined (page change.tag.clark x r o) ∧
    Forest (TellsDiff box box2) col (dataNodes change.kids) x ∧ Forest (TellsDiff box box2) col (rpcNodes change.kids) r ∧
    Forest (TellsDiff box box2) col (noteNodes change.kids) o :=
  (C51_diff box_eq box2_eq box_ok.1 box2_ok.1 box_ok.2.1 box2_ok.2.1 box_ok.2.2 box2_ok.2.2 change_eq).1 _ change_str

/-- The prefix of a module is put into a regular expression without quoting it.  If it has a dot, the prefix of another
module may be taken for it, so that two nodes have the same text. -/
theorem C51_dotted_prefix : ∃ t m, ofTree t = .ok m ∧ ∃ a b, a ∈ m.tree.kids ∧ b ∈ m.tree.kids ∧ a.tag ≠ b.tag ∧
    m.str = .ok "module: box\n    +--rw one\n    +--rw one".toList ∧ nameStr m a = nameStr m b := by
  refine ⟨.mk ⟨"", "box"⟩ [] [(.other "type", .str "module"), (.other "prefix", .str "a.b")] none
    [row "a.b" "urn:own", row "axb" "urn:other", nd "urn:own" "one" "container" [rw], nd "urn:other" "one" "container" [rw]],
    _, rfl, nd "urn:own" "one" "container" [rw], nd "urn:other" "one" "container" [rw], ?_, ?_, ?_, ?_, ?_⟩ <;> decide +kernel

end Demo

end NcDiff.Show
