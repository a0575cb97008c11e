import Verif.Proof.SchemaPath
import Verif.Props.Tags
import Verif.Spec.Demo
/-!
# Property C77: paths of schema nodes
-/

namespace NcDiff

namespace Statement

open XPath

/-- The model of a path can be named in the notation of YTool: its root belongs to a loaded model. -/
def Rooted (d : Device) (urls : List (String × String)) (ty : TagNotation) (path : List QName) : Prop :=
  ty = .ytool → ∃ q r m u, path = q :: r ∧ d.roots.lookup q = some m ∧ urls.lookup m = some u

/-- **C77, what is written.**  In every notation `get_xpath` of a schema node returns a slash and a name for every node on
the way, each with its module exactly if the notation always has it or the module is not that of the node above; in the
notation of YTool the name of the model comes first, and its module counts as the one above the first node. -/
theorem C77_spelled {d : Device} {urls : List (String × String)} (hu : UniqueNamespaces d) (hb : ModelUrls d urls)
    {ty : TagNotation} {path : List QName} (hk : PathKnown d path) (hr : Rooted d urls ty path) :
    (ty ≠ .ytool → ∃ ts, plainPath d urls ty path = .ok (slashed ts) ∧ Spelled d ty none path ts) ∧
    (ty = .ytool → ∃ q e ts, path.head? = some q ∧ e ∈ d.namespaces ∧ d.roots.lookup q = some e.1 ∧
      urls.lookup e.1 = some e.2.2 ∧ plainPath d urls ty path = .ok (e.1.toList ++ slashed ts) ∧
      Spelled d ty (some e) path ts) := by
  constructor
  · intro hn
    obtain ⟨ts, h1, h2⟩ := schemaXpath_spelled hu ty hk (dflt := none) (by simp)
    exact ⟨ts, by rw [plainPath, if_neg hn]; exact h1, h2⟩
  · intro hy
    obtain ⟨q, r, m, u, rfl, hq, hu'⟩ := hr hy
    obtain ⟨e, he, rfl, rfl⟩ := hb.known m u hu'
    obtain ⟨ts, h1, h2⟩ := schemaXpath_spelled hu ty hk (dflt := some e) (by rintro x ⟨⟩; exact he)
    refine ⟨q, e, ts, rfl, he, hq, hu', ?_, h2⟩
    have hm : modelName d (q :: r) = .ok e.1 := by simp only [modelName, hq]
    have hn : modelNs d urls (q :: r) = .ok e.2.2 := by
      unfold modelNs
      rw [hm]
      show (match urls.lookup e.1 with | some u => Except.ok u | none => Except.error Err.keyError) = _
      rw [hu']
    rw [plainPath, if_pos hy, hm, hn]
    show (schemaXpath d ty (writtenNs .url (some e)) (q :: r) >>= _) = _
    rw [h1]
    rfl

/-- **C77, reading.**  In every notation `get_xpath` of a schema node returns a text, and the text can be read: it stands
for the path of the node. -/
theorem C77_reads {d : Device} {urls : List (String × String)} (hu : UniqueNamespaces d) (hi : ModuleIdents d)
    (hb : ModelUrls d urls) {ty : TagNotation} (ht : Standard ty) {path : List QName} (hk : PathKnown d path)
    (hr : Rooted d urls ty path) :
    ∃ t, plainPath d urls ty path = .ok t ∧ readPath d urls ty t = some path := by
  by_cases hy : ty = .ytool
  · obtain ⟨q, e, ts, _, he, _, hl, h1, h2⟩ := (C77_spelled hu hb hk hr).2 hy
    obtain ⟨g1, g2⟩ := h2.read hu hi hb ht hk
    refine ⟨_, h1, ?_⟩
    unfold readPath
    rw [pieces_closed (pieces_slashed g2) (Ident.closed (hi e he).1)]
    simp only [hy, if_true, List.append_nil, String.ofList_toList, hl]
    rw [← hy]
    exact g1
  · obtain ⟨ts, h1, h2⟩ := (C77_spelled hu hb hk hr).1 hy
    obtain ⟨g1, g2⟩ := h2.read hu hi hb ht hk
    refine ⟨_, h1, ?_⟩
    unfold readPath
    rw [pieces_slashed g2]
    simp only [hy, if_true, if_false]
    exact g1

/-- **C77.**  Two schema nodes with the same text have the same path. -/
theorem C77_same_path {d : Device} {urls : List (String × String)} (hu : UniqueNamespaces d) (hi : ModuleIdents d)
    (hb : ModelUrls d urls) {ty : TagNotation} (ht : Standard ty) {p p' : List QName} (hk : PathKnown d p)
    (hk' : PathKnown d p') (hr : Rooted d urls ty p) (hr' : Rooted d urls ty p')
    (h : plainPath d urls ty p = plainPath d urls ty p') : p = p' := by
  obtain ⟨t, h1, h2⟩ := C77_reads hu hi hb ht hk hr
  obtain ⟨t', h1', h2'⟩ := C77_reads hu hi hb ht hk' hr'
  rw [h, h1'] at h1
  obtain rfl := Except.ok.inj h1
  exact Option.some.inj (h2.symm.trans h2')

/-- **C77, one node.**  In the trees of the loaded models, each with different tags among siblings, two nodes below roots
that the device attributes to their models have the same text only if they are the same node of the same model. -/
theorem C77_same_node {d : Device} {urls : List (String × String)} (hu : UniqueNamespaces d) (hi : ModuleIdents d)
    (hb : ModelUrls d urls) {ty : TagNotation} (ht : Standard ty) {trees : List (String × Elem)}
    (hd : ∀ m t, trees.lookup m = some t → DistinctTags t) {m m' : String} {t t' x x' : Elem} {p p' : List Nat}
    (hm : trees.lookup m = some t) (hm' : trees.lookup m' = some t') (hx : t.at? p = some x) (hx' : t'.at? p' = some x')
    (hroot : ∃ q ∈ (tagsTo t p).head?, d.roots.lookup q = some m)
    (hroot' : ∃ q ∈ (tagsTo t' p').head?, d.roots.lookup q = some m')
    (hk : PathKnown d (tagsTo t p)) (hk' : PathKnown d (tagsTo t' p'))
    (hr : Rooted d urls ty (tagsTo t p)) (hr' : Rooted d urls ty (tagsTo t' p'))
    (h : plainPath d urls ty (tagsTo t p) = plainPath d urls ty (tagsTo t' p')) : m = m' ∧ p = p' := by
  have he := C77_same_path hu hi hb ht hk hk' hr hr' h
  obtain ⟨q, hq, hl⟩ := hroot
  obtain ⟨q', hq', hl'⟩ := hroot'
  rw [he] at hq
  obtain rfl : q = q' := Option.some.inj (hq.symm.trans hq')
  obtain rfl := Option.some.inj (hl.symm.trans hl')
  obtain rfl := Option.some.inj (hm.symm.trans hm')
  exact ⟨rfl, tagsTo_inj (hd _ _ hm) hx hx' he⟩

/-- **C77, XPath.**  The text of a schema node in one of the four path notations, read as a path from the root of a tree,
selects the nodes with the path of tags; if siblings have different tags, this is the node alone. -/
theorem C77_selects {d : Device} {urls : List (String × String)} (hu : UniqueNamespaces d) (hi : ModuleIdents d)
    {ty : TagNotation} (ht : PathNotation ty) {t x : Elem} {p : List Nat} (hx : t.at? p = some x)
    (hk : PathKnown d (tagsTo t p)) :
    ∃ s sel, plainPath d urls ty (tagsTo t p) = .ok s ∧ eval (readerOf d ty) t ('.' :: s) = some sel ∧
      (∀ r, r ∈ sel ↔ ∃ r', r = 0 :: r' ∧ (∃ y, t.at? r' = some y) ∧ tagsTo t r' = tagsTo t p) ∧
      (DistinctTags t → sel = [0 :: p]) := by
  have hy : ty ≠ .ytool := by rcases ht with rfl | rfl | rfl | rfl <;> decide
  obtain ⟨ts, h1, h2⟩ := schemaXpath_spelled hu ty hk (dflt := none) (by simp)
  obtain ⟨g1, g2⟩ := h2.steps hu hi ht hk
  have hmem : ∀ r, r ∈ (select ((tagsTo t p).map fun q => ⟨q, []⟩) t).map (0 :: ·) ↔
      ∃ r', r = 0 :: r' ∧ (∃ y, t.at? r' = some y) ∧ tagsTo t r' = tagsTo t p := by
    intro r
    rw [List.mem_map]
    constructor
    · rintro ⟨r', hr, rfl⟩
      exact ⟨r', rfl, mem_select_tags.1 hr⟩
    · rintro ⟨r', rfl, hr⟩
      exact ⟨r', mem_select_tags.2 hr, rfl⟩
  refine ⟨slashed ts, (select ((tagsTo t p).map fun q => ⟨q, []⟩) t).map (0 :: ·),
    by rw [plainPath, if_neg hy]; exact h1, ?_, hmem, ?_⟩
  · rw [← pathText_slashed, eval_eq, parse_relative g2]
    rw [show writtenNs .url none = "" from rfl] at g1
    simp only [Option.bind_some, g1, Option.map_some]
    rfl
  · intro hd
    have hn : ((select ((tagsTo t p).map fun q => ⟨q, []⟩) t).map (0 :: ·)).Nodup :=
      (select_nodup _ _).map (fun _ _ h => by simpa using h)
    refine List.perm_singleton.1 ((List.perm_ext_iff_of_nodup hn (List.nodup_singleton _)).2 fun r => ?_)
    rw [hmem, List.mem_singleton]
    constructor
    · rintro ⟨r', rfl, ⟨y, hy⟩, he⟩
      rw [tagsTo_inj hd hy hx he]
    · rintro rfl
      exact ⟨p, rfl, ⟨x, hx⟩, rfl⟩

/-- **C77, refusal.**  In the notation of YTool the call fails with ModelMissing below a root of no loaded model, for schema
nodes and config nodes, and for a config root. -/
theorem C77_missing {d : Device} (urls : List (String × String)) {q : QName} (r : List QName) (h : d.roots.lookup q = none) :
    plainPath d urls .ytool (q :: r) = .error .modelMissing ∧
      (∀ cfg pos, pos ≠ [] → tagsTo cfg pos = q :: r → configYtool d urls cfg pos = .error .modelMissing) ∧
      ∀ cfg, configYtool d urls cfg [] = .error .modelMissing := by
  have h1 : plainPath d urls .ytool (q :: r) = .error .modelMissing := by
    rw [plainPath, if_pos rfl]
    have : modelName d (q :: r) = .error .modelMissing := by simp only [modelName, h]
    rw [this]
    rfl
  exact ⟨h1, fun cfg pos hp ht => by rw [configYtool, if_neg hp, ht]; exact h1, fun _ => rfl⟩

/-- **C77, refusal.**  A node whose namespace is unknown, or below such a node, has no path in the other notations: the
call fails with ValueError. -/
theorem C77_unknown {d : Device} (hu : UniqueNamespaces d) (urls : List (String × String)) {ty : TagNotation}
    (hy : ty ≠ .ytool) {pre : List QName} (hk : PathKnown d pre) {q : QName} (r : List QName) (hq : q.ns ≠ "")
    (hn : NodeName q.name.toList) (hd : ∀ e ∈ d.namespaces, e.2.2 ≠ q.ns) (hs : ∀ e ∈ specialEntries, e.2.2 ≠ q.ns) :
    plainPath d urls ty (pre ++ q :: r) = .error .valueError := by
  rw [plainPath, if_neg hy]
  have key : ∀ (pre : List QName), PathKnown d pre → ∀ {dflt : Option Entry}, (∀ e, dflt = some e → e ∈ d.namespaces) →
      schemaXpath d ty (writtenNs .url dflt) (pre ++ q :: r) = .error .valueError := by
    intro pre
    induction pre with
    | nil =>
      intro _ dflt _
      have := (C26_unknown_raises .lxmlEtree ty (writtenNs .url dflt) hq hn hd hs).1
      rw [List.nil_append, schemaXpath, QName.clark, if_neg hq]
      rw [show TagNotation.lxmlEtree.style = .brace from rfl] at this
      rw [this]
      rfl
    | cons a pre ih =>
      intro hk dflt hdf
      obtain ⟨hna, m, hm, hma⟩ := hk a (.head _)
      rw [List.cons_append, schemaXpath, convertTag_clark hu ty hdf hm hma hna]
      show (schemaXpath d ty (writtenNs .url (some m)) (pre ++ q :: r) >>= _) = _
      rw [ih (fun x hx => hk x (.tail _ hx)) (by rintro e ⟨⟩; exact hm)]
      rfl
  exact key pre hk (dflt := none) (by simp)

/-- **C77, config nodes.**  A config node has a schema node in the model that the device attributes its root to, and its
text in the notation of YTool is that of the way to the schema node without the choices and cases on it. -/
theorem C77_config {d : Device} (urls : List (String × String)) {cfg : Elem} {pos : List Nat} {s : SNode}
    (h : SchemaOf d .root cfg pos s) :
    ∃ q m tree w, (tagsTo cfg pos).head? = some q ∧ d.roots.lookup q = some m ∧ d.models.lookup m = some tree ∧
      Way tree w ∧ w.getLast? = some s ∧
      configYtool d urls cfg pos = plainPath d urls .ytool ((w.filter isData).map SNode.tag) := by
  have look : ∀ {t : QName} {f : Found}, d.lookup .root t = .ok f → ∃ m tree, d.roots.lookup t = some m ∧
      d.models.lookup m = some tree ∧
      ∃ w, Way tree w ∧ w.getLast? = some f.node ∧ w.filter isData = [f.node] ∧ f.node.tag = t := by
    intro t f hf
    unfold Device.lookup at hf
    simp only at hf
    split at hf
    · cases hf
    · rename_i m hm
      split at hf
      · cases hf
      · rename_i tree htree
        refine ⟨m, tree, hm, htree, ?_⟩
        split at hf
        · cases hf
        · rename_i g hg
          cases hf
          refine dataNodes_way (f := f) (tag := t) (ks := tree) (pre := [d.models.findIdx (fun p => p.1 = m)]) (ic := false)
            (i := 0) ?_
          rw [hg]
          simp
        · cases hf
  cases h with
  | @last _ _ i k f hk hf =>
    obtain ⟨m, tree, hm, ht, w, h1, h2, h3, h4⟩ := look hf
    refine ⟨k.tag, m, tree, w, by simp [tagsTo, hk], hm, ht, h1, h2, ?_⟩
    rw [configYtool, if_neg (by simp), h3]
    simp [tagsTo, hk, h4]
  | @more _ _ i k f r _ hk hf hr =>
    obtain ⟨m, tree, hm, ht, w, h1, h2, h3, h4⟩ := look hf
    obtain ⟨w', g1, g2, g3⟩ := hr.way f.node rfl
    refine ⟨k.tag, m, tree, w ++ w', by simp [tagsTo, hk], hm, ht, h1.append h2 g1, ?_, ?_⟩
    · rw [List.getLast?_append, g2]; rfl
    · rw [configYtool, if_neg (by simp), List.filter_append, List.map_append, h3, g3]
      simp [tagsTo, hk, h4]

end Statement

namespace SchemaPathDemo

open Statement

/-- The namespaces of two modules, the second of which augments the first. -/
def ifU : String := "http://openconfig.net/yang/interfaces"
def ethU : String := "http://openconfig.net/yang/interfaces/ethernet"
def i (n : String) : QName := ⟨ifU, n⟩
def e (n : String) : QName := ⟨ethU, n⟩

def sleaf (q : QName) : SNode := .mk { tag := q, ntype := .leaf } []

def tree : SNode :=
  .mk { tag := i "interfaces", ntype := .container }
    [.mk { tag := i "interface", ntype := .container }
      [.mk { tag := e "ethernet", ntype := .container }
        [.mk { tag := e "config", ntype := .container } [sleaf (e "port-speed")]],
       .mk { tag := i "kind", ntype := .choice } [.mk { tag := i "physical", ntype := .case } [sleaf (i "slot")]]]]

def dev : Device :=
  { namespaces := [("openconfig-interfaces", "oc-if", ifU), ("openconfig-if-ethernet", "oc-eth", ethU)]
    roots := [(i "interfaces", "openconfig-interfaces")]
    models := [("openconfig-interfaces", [tree])] }

def urls : List (String × String) := [("openconfig-interfaces", ifU)]

def speed : List QName := [i "interfaces", i "interface", e "ethernet", e "config", e "port-speed"]
def slot : List QName := [i "interfaces", i "interface", i "kind", i "physical", i "slot"]

def el (q : QName) (ks : List Elem) : Elem := .mk q [] [] none ks

/-- The tree of the model as XML. -/
def xml : Elem :=
  el ⟨"", "openconfig-interfaces"⟩ [el (i "interfaces") [el (i "interface")
    [el (e "ethernet") [el (e "config") [el (e "port-speed") []]],
     el (i "kind") [el (i "physical") [el (i "slot") []]]]]]

/-- A config. -/
def cfg : Elem := el ⟨"urn:ietf:params:xml:ns:netconf:base:1.0", "config"⟩ [el (i "interfaces") [el (i "interface") [el (i "slot") []]]]

theorem unique : UniqueNamespaces dev := ⟨by intro f; cases f <;> decide +kernel, by
    intro e he f
    cases f <;> revert e he <;> decide +kernel, by decide +kernel⟩

theorem idents : ModuleIdents dev := by
  intro e he
  simp only [dev, List.mem_cons, List.not_mem_nil, or_false] at he
  rcases he with rfl | rfl
  · exact ⟨⟨⟨'o', "penconfig-interfaces".toList, by decide +kernel, .inl (by decide)⟩, by decide +kernel⟩,
      ⟨⟨'o', "c-if".toList, by decide +kernel, .inl (by decide)⟩, by decide +kernel⟩⟩
  · exact ⟨⟨⟨'o', "penconfig-if-ethernet".toList, by decide +kernel, .inl (by decide)⟩, by decide +kernel⟩,
      ⟨⟨'o', "c-eth".toList, by decide +kernel, .inl (by decide)⟩, by decide +kernel⟩⟩

theorem modelUrls : ModelUrls dev urls := by
  refine ⟨?_, by decide +kernel⟩
  intro m u h
  simp only [urls, List.lookup] at h
  split at h
  · rename_i hm
    rw [beq_iff_eq] at hm
    subst hm
    cases h
    exact ⟨("openconfig-interfaces", "oc-if", ifU), by simp [dev], rfl, rfl⟩
  · cases h

theorem ident_of {n : List Char} (h : n.head?.any (fun c => c.isAlpha || c == '_') = true)
    (ha : n.all (fun c => c.isAlpha || c.isDigit || c == '_' || c == '-' || c == '.') = true) : Ident n := by
  cases n with
  | nil => cases h
  | cons c r =>
    refine ⟨⟨c, r, rfl, by simpa using h⟩, ?_⟩
    intro x hx
    have := List.all_eq_true.1 ha x hx
    simpa [or_assoc] using this

theorem known_of {path : List QName} (h : path.all (fun q =>
    q.name.toList.head?.any (fun c => c.isAlpha || c == '_') &&
    q.name.toList.all (fun c => c.isAlpha || c.isDigit || c == '_' || c == '-' || c == '.') &&
    (q.ns == ifU || q.ns == ethU)) = true) : PathKnown dev path := by
  intro q hq
  have := List.all_eq_true.1 h q hq
  simp only [Bool.and_eq_true, Bool.or_eq_true, beq_iff_eq] at this
  refine ⟨ident_of (by simpa using this.1.1) (by simpa [or_assoc] using this.1.2), ?_⟩
  rcases this.2 with h | h
  · exact ⟨("openconfig-interfaces", "oc-if", ifU), by simp [dev], h.symm⟩
  · exact ⟨("openconfig-if-ethernet", "oc-eth", ethU), by simp [dev], h.symm⟩

theorem rooted (ty : TagNotation) {path : List QName} (h : path.head? = some (i "interfaces")) : Rooted dev urls ty path := by
  intro _
  cases path with
  | nil => cases h
  | cons q r =>
    cases h
    exact ⟨_, r, "openconfig-interfaces", ifU, rfl, by decide +kernel, by decide +kernel⟩

/-- The hypotheses of C77_spelled, C77_reads and C77_same_path are met, in every notation. -/
example : ∃ ty, Standard ty ∧ UniqueNamespaces dev ∧ ModuleIdents dev ∧ ModelUrls dev urls ∧ PathKnown dev speed ∧
    PathKnown dev slot ∧ Rooted dev urls ty speed ∧ Rooted dev urls ty slot :=
  ⟨.ytool, .inl rfl, unique, idents, modelUrls, known_of (by decide +kernel), known_of (by decide +kernel),
    rooted _ rfl, rooted _ rfl⟩

/-- What the code returns in four notations. -/
example : plainPath dev urls .xpath speed = .ok "/oc-if:interfaces/interface/oc-eth:ethernet/config/port-speed".toList ∧
    plainPath dev urls .lxmlXpath speed =
      .ok "/oc-if:interfaces/oc-if:interface/oc-eth:ethernet/oc-eth:config/oc-eth:port-speed".toList ∧
    plainPath dev urls .jsonName (speed.take 3) =
      .ok "/openconfig-interfaces:interfaces/interface/openconfig-if-ethernet:ethernet".toList ∧
    plainPath dev urls .lxmlEtree (speed.take 1) = .ok "/{http://openconfig.net/yang/interfaces}interfaces".toList := by
  decide +kernel

/-- **C77, not what is documented.**  The documentation of `get_xpath` (`src/ncdiff/composer.py` lines 186-191) has
`openconfig-interfaces/interfaces/interface/oc-eth:ethernet/oc-eth:config/oc-eth:port-speed` for this node, with the prefix
at every node of another module than the model; the code leaves it out below a node of the same module. -/
theorem C77_false_documented :
    plainPath dev urls .ytool speed =
        .ok "openconfig-interfaces/interfaces/interface/oc-eth:ethernet/config/port-speed".toList ∧
      plainPath dev urls .ytool speed ≠
        .ok "openconfig-interfaces/interfaces/interface/oc-eth:ethernet/oc-eth:config/oc-eth:port-speed".toList := by
  decide +kernel

/-- **C77, choices.**  The path of a config node below a choice is not that of its schema node. -/
theorem C77_false_choice :
    SchemaOf dev .root cfg [0, 0, 0] (sleaf (i "slot")) ∧
      configYtool dev urls cfg [0, 0, 0] = .ok "openconfig-interfaces/interfaces/interface/slot".toList ∧
      plainPath dev urls .ytool slot = .ok "openconfig-interfaces/interfaces/interface/kind/physical/slot".toList := by
  refine ⟨?_, by decide +kernel, by decide +kernel⟩
  refine .more (f := ⟨tree, [0, 0], false⟩) rfl rfl ?_
  refine .more (k := el (i "interface") [el (i "slot") []]) rfl rfl ?_
  exact .last (k := el (i "slot") []) (f := ⟨sleaf (i "slot"), [1, 0, 0], true⟩) rfl rfl

theorem distinct : DistinctTags xml := by
  have leafy : ∀ q p x, (el q []).at? p = some x → (x.kids.map Elem.tag).Nodup := by
    intro q p x h
    cases p with
    | nil => cases h; exact .nil
    | cons a r => simp [Elem.at?, el, Elem.kids] at h
  have deep : ∀ q ks, ((ks.map Elem.tag).Nodup) → (∀ k ∈ ks, ∀ p x, k.at? p = some x → (x.kids.map Elem.tag).Nodup) →
      ∀ p x, (el q ks).at? p = some x → (x.kids.map Elem.tag).Nodup := by
    intro q ks hn hk p x h
    cases p with
    | nil => cases h; exact hn
    | cons a r =>
      rw [Elem.at?] at h
      cases hg : (el q ks).kids[a]? with
      | none => rw [hg] at h; cases h
      | some k => rw [hg] at h; exact hk k (List.mem_of_getElem? hg) r x h
  refine deep _ _ (by decide +kernel) ?_
  simp only [List.mem_cons, List.not_mem_nil, or_false, forall_eq]
  refine deep _ _ (by decide +kernel) ?_
  simp only [List.mem_cons, List.not_mem_nil, or_false, forall_eq]
  refine deep _ _ (by decide +kernel) ?_
  simp only [List.mem_cons, List.not_mem_nil, or_false, forall_eq_or_imp, forall_eq]
  refine ⟨deep _ _ (by decide +kernel) ?_, deep _ _ (by decide +kernel) ?_⟩
  · simp only [List.mem_cons, List.not_mem_nil, or_false, forall_eq]
    refine deep _ _ (by decide +kernel) ?_
    simp only [List.mem_cons, List.not_mem_nil, or_false, forall_eq]
    exact leafy _
  · simp only [List.mem_cons, List.not_mem_nil, or_false, forall_eq]
    refine deep _ _ (by decide +kernel) ?_
    simp only [List.mem_cons, List.not_mem_nil, or_false, forall_eq]
    exact leafy _

/-- The hypotheses of C77_same_node and C77_selects are met. -/
example : (∀ m t, [("openconfig-interfaces", xml)].lookup m = some t → DistinctTags t) ∧
    xml.at? [0, 0, 0, 0, 0] = some (el (e "port-speed") []) ∧ tagsTo xml [0, 0, 0, 0, 0] = speed ∧
    (∃ q ∈ speed.head?, dev.roots.lookup q = some "openconfig-interfaces") ∧ PathKnown dev speed := by
  refine ⟨?_, by decide +kernel, by decide +kernel, ⟨i "interfaces", rfl, by decide +kernel⟩, known_of (by decide +kernel)⟩
  intro m t h
  simp only [List.lookup] at h
  split at h
  · cases h; exact distinct
  · cases h

/-- The hypotheses of C77_missing and C77_unknown are met. -/
example : dev.roots.lookup (e "ethernet") = none ∧ PathKnown dev [i "interfaces"] ∧
    NodeName "x".toList ∧ (∀ en ∈ dev.namespaces, en.2.2 ≠ "urn:unknown") ∧ ∀ en ∈ specialEntries, en.2.2 ≠ "urn:unknown" :=
  ⟨by decide +kernel, known_of (by decide +kernel), ⟨by decide +kernel, by decide +kernel, by decide +kernel, by decide +kernel⟩,
    by decide +kernel, by decide +kernel⟩

end SchemaPathDemo
end NcDiff
