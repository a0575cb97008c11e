import Verif.Proof.XPathNode
import Verif.Spec.Check
import Verif.Spec.Demo
/-!
# Property C44

`get_xpath` of a node of a config.
-/

namespace NcDiff

open XPath

theorem Referable.lvl {d : Device} {cfg : Elem} (h : Referable d cfg) : Lvl d .root cfg :=
  ⟨h.valid.valid, h.plain, h.names, h.quotable⟩

/-- **C44.**  The path of a node, read from the config root, selects this node and no other. -/
theorem C44_selects_node {d : Device} {cfg : Elem} (h : Referable d cfg) {ty : TagNotation}
    (ht : PathNotation ty) {pos : List Nat} {x : Elem} (hne : pos ≠ []) (hx : cfg.at? pos = some x) :
    ∃ path, getXpath d ty true cfg pos = .ok path ∧
      eval (readerOf d ty) cfg ('.' :: path) = some [0 :: pos] := by
  obtain ⟨ss, rr, h1, h2, h3, h4⟩ := path_instance h.namespaces h.idents ht pos (dflt := none)
    (by simp) h.lvl hx
  refine ⟨pathText ss, by rw [getXpath, if_neg hne]; exact h1, ?_⟩
  rw [eval_eq, parse_relative h2]
  rw [show writtenNs .url none = "" from rfl] at h3
  simp [h3, h4]

/-- **C44.**  With `instance=False` it selects the node and the siblings with the same tag. -/
theorem C44_selects_siblings {d : Device} {cfg : Elem} (h : Referable d cfg) {ty : TagNotation}
    (ht : PathNotation ty) {pre : List Nat} {i : Nat} {x : Elem} (hx : cfg.at? (pre ++ [i]) = some x) :
    ∃ path sel, getXpath d ty false cfg (pre ++ [i]) = .ok path ∧
      eval (readerOf d ty) cfg ('.' :: path) = some sel ∧
      ∀ p, p ∈ sel ↔ ∃ j y, p = 0 :: (pre ++ [j]) ∧ cfg.at? (pre ++ [j]) = some y ∧ y.tag = x.tag := by
  obtain ⟨ss, rr, h1, h2, h3, h4⟩ := path_siblings h.namespaces h.idents ht pre i (dflt := none)
    (by simp) h.lvl hx
  refine ⟨pathText ss, (select rr cfg).map (0 :: ·), by rw [getXpath, if_neg (by simp)]; exact h1, ?_, ?_⟩
  · rw [eval_eq, parse_relative h2]
    rw [show writtenNs .url none = "" from rfl] at h3
    simp [h3]
  · intro p
    rw [List.mem_map]
    constructor
    · rintro ⟨p', hp', rfl⟩
      obtain ⟨j, y, rfl, hy, htag⟩ := (h4 p').mp hp'
      exact ⟨j, y, rfl, hy, htag⟩
    · rintro ⟨j, y, rfl, hy, htag⟩
      exact ⟨pre ++ [j], (h4 _).mpr ⟨j, y, rfl, hy, htag⟩, rfl⟩

/-- **C44.**  `config.xpath('/nc:config' + get_xpath(node, type=Tag.LXML_XPATH))` is the list of that
node alone, if the device has a module with prefix `nc` for the namespace of the config root. -/
theorem C44_config_xpath {d : Device} {cfg : Elem} (h : Referable d cfg) {nc : Entry}
    (hnc : nc ∈ d.namespaces) (hp : nc.2.1 = "nc") (hroot : cfg.tag = ⟨nc.2.2, "config"⟩)
    {pos : List Nat} {x : Elem} (hne : pos ≠ []) (hx : cfg.at? pos = some x) :
    ∃ path, getXpath d .lxmlXpath true cfg pos = .ok path ∧
      eval ⟨xpathNamespaces d, false⟩ cfg ("/nc:config".toList ++ path) = some [0 :: pos] := by
  have ht : PathNotation .lxmlXpath := .inr (.inl rfl)
  obtain ⟨ss, rr, h1, h2, h3, h4⟩ := path_instance h.namespaces h.idents ht pos (dflt := none)
    (by simp) h.lvl hx
  refine ⟨pathText ss, by rw [getXpath, if_neg hne]; exact h1, ?_⟩
  have hrd : (⟨xpathNamespaces d, false⟩ : Reader) = readerOf d .lxmlXpath := by
    unfold readerOf xpathNamespaces dictOf
    rw [dictOf_nodup (by
      rw [List.nil_append, List.map_map]
      exact h.namespaces.unique .prefix)]
    rfl
  rw [hrd]
  have hid : Ident "config".toList := by
    refine ⟨⟨'c', "onfig".toList, by decide, .inl (by decide)⟩, by decide⟩
  have hw : "nc:config".toList = written .lxmlXpath none nc "config".toList := by
    simp [written, TagNotation.lxmlXpath, nsPart, hp]
  have hPath : PathOk (("nc:config".toList, []) :: ss) := by
    intro s hs
    rcases List.mem_cons.mp hs with rfl | hs
    · refine ⟨?_, by simp⟩
      show Name "nc:config".toList
      rw [hw]
      exact written_name h.idents ht hnc hid
    · exact h2 s hs
  have htext : "/nc:config".toList ++ pathText ss = pathText (("nc:config".toList, []) :: ss) := by
    simp [pathText, predsText]
  have hsteps : ∀ ns, (readerOf d .lxmlXpath).steps ns (ss.map fun s => mkStep s.1 s.2) =
      (readerOf d .lxmlXpath).steps "" (ss.map fun s => mkStep s.1 s.2) := by
    intro ns
    cases ss with
    | nil => rfl
    | cons s ss =>
      have ht : (readerOf d .lxmlXpath).tag ns s.1 = (readerOf d .lxmlXpath).tag "" s.1 := by
        unfold Reader.tag
        rfl
      simp only [List.map_cons, Reader.steps, mkStep, ht]
  have hread := read_written h.namespaces h.idents ht (dflt := none) hnc (n := "config") hid
  rw [← hw] at hread
  have hr := reader_step (cs := []) (rs := []) hread rfl ((hsteps _).trans h3)
  rw [show writtenNs .url none = "" from rfl] at hr
  rw [htext, eval_eq, parse_absolute hPath, Option.bind_some, List.map_cons]
  simp only [hr, Option.map_some, if_true]
  congr 1
  rw [select_one (i := 0) (k := cfg) rfl, h4]
  · rfl
  · intro j y hy
    cases j with
    | zero =>
      obtain rfl : cfg = y := Option.some.inj hy
      simp [LStep.selects, hroot]
    | succ j => cases hy

/-- **C44.**  The root of a config has no path: the call fails. -/
theorem C44_root (d : Device) (cfg : Elem) (ty : TagNotation) (inst : Bool) :
    ∃ err, getXpath d ty inst cfg [] = .error err :=
  ⟨_, rfl⟩

/-- **C44.**  Different nodes have different paths. -/
theorem C44_distinct {d : Device} {cfg : Elem} (h : Referable d cfg) {ty : TagNotation}
    (ht : PathNotation ty) {p q : List Nat} {x y : Elem} (hp : p ≠ []) (hq : q ≠ [])
    (hx : cfg.at? p = some x) (hy : cfg.at? q = some y)
    (he : getXpath d ty true cfg p = getXpath d ty true cfg q) : p = q := by
  obtain ⟨path, h1, h2⟩ := C44_selects_node h ht hp hx
  obtain ⟨path', h1', h2'⟩ := C44_selects_node h ht hq hy
  rw [he, h1'] at h1
  obtain rfl : path' = path := Except.ok.inj h1
  rw [h2] at h2'
  simpa using h2'

/-! ## Examples -/

namespace Demo

/-- Executable `Ident`. -/
def identB (n : List Char) : Bool :=
  (match n with
  | [] => false
  | c :: _ => c.isAlpha || c == '_') &&
    n.all fun c => c.isAlpha || c.isDigit || c == '_' || c == '-' || c == '.'

theorem identB_sound {n : List Char} (h : identB n = true) : Ident n := by
  cases n with
  | nil => simp [identB] at h
  | cons c r =>
    simp only [identB, Bool.and_eq_true, Bool.or_eq_true, beq_iff_eq, List.all_eq_true] at h
    refine ⟨⟨c, r, rfl, h.1⟩, fun x hx => ?_⟩
    rcases h.2 x hx with (((h | h) | h) | h) | h
    · exact .inl h
    · exact .inr (.inl h)
    · exact .inr (.inr (.inl h))
    · exact .inr (.inr (.inr (.inl h)))
    · exact .inr (.inr (.inr (.inr h)))

def namesB (d : Device) (_ : Scope) (e : Elem) : Bool :=
  e.kids.all fun k => identB k.tag.name.toList && d.namespaces.any fun m => m.2.2 = k.tag.ns

theorem namesB_sound {d : Device} (sc : Scope) (e : Elem) (h : namesB d sc e = true) : PathNames d sc e := by
  intro k hk
  simp only [namesB, List.all_eq_true, Bool.and_eq_true, List.any_eq_true, decide_eq_true_eq] at h
  exact ⟨identB_sound (h k hk).1, (h k hk).2⟩

def quotesB (t : Option String) (empty : Bool) : Bool :=
  match t with
  | none => false
  | some t => (empty || t ≠ "") && !t.toList.contains '"'

def quotableB (d : Device) (sc : Scope) (e : Elem) : Bool :=
  e.kids.all fun k =>
    match d.lookup sc k.tag with
    | .error _ => true
    | .ok f =>
      (f.node.ntype ≠ .leafList || (decide f.node.info.datatype.plain && quotesB k.text false)) &&
      (f.node.ntype ≠ .list || f.node.keys.all fun q => (k.childrenWith q).all fun c => quotesB c.text true)

theorem quotableB_sound {d : Device} (sc : Scope) (e : Elem) (h : quotableB d sc e = true) :
    Quotable d sc e := by
  intro k hk f hf
  simp only [quotableB, List.all_eq_true] at h
  have h := h k hk
  rw [hf] at h
  simp only [Bool.and_eq_true, Bool.or_eq_true, decide_eq_true_eq, List.all_eq_true] at h
  have hq : ∀ {t : Option String} {b : Bool}, quotesB t b = true →
      ∃ s, t = some s ∧ (b = true ∨ s ≠ "") ∧ '"' ∉ s.toList := by
    intro t b ht
    cases t with
    | none => cases ht
    | some s =>
      simp only [quotesB, Bool.and_eq_true, Bool.or_eq_true, decide_eq_true_eq, Bool.not_eq_true',
        List.contains_eq_mem, decide_eq_false_iff_not] at ht
      exact ⟨s, rfl, ht⟩
  refine ⟨fun hl => ?_, fun hl q hqm c hc => ?_⟩
  · obtain ⟨hp, hx⟩ := h.1.resolve_left (by simp [hl])
    obtain ⟨s, hs, hne, hquo⟩ := hq hx
    exact ⟨hp, s, hs, hne.resolve_left (by simp), hquo⟩
  · obtain ⟨s, hs, _, hquo⟩ := hq (h.2.resolve_left (by simp [hl]) q hqm c hc)
    exact ⟨s, hs, hquo⟩

/-- A leaf that another module adds to the list. -/
def extra : QName := ⟨"urn:aug", "extra"⟩

/-- A part of the demo model, with the additional leaf. -/
def topX : SNode :=
  .mk { tag := q "top", ntype := .container }
    [ leafS "a",
      .mk { tag := q "item", ntype := .list, keyNames := ["name"] }
        [leafS "name" (isKey := true), leafS "val", .mk { tag := extra, ntype := .leaf } []],
      .mk { tag := q "dns", ntype := .leafList, userOrdered := true } [],
      .mk { tag := q "tagl", ntype := .leafList } [] ]

/-- A device with these modules, and with one for the namespace of the config root. -/
def devX : Device :=
  { namespaces := [("demo", "d", u), ("demo-aug", "aug", "urn:aug"), ("ietf-netconf", "nc", cfgTag.ns)],
    roots := [(q "top", "demo")], models := [("demo", [topX])] }

theorem devX_unique : UniqueNamespaces devX where
  unique := by intro f; cases f <;> decide
  nonempty := by
    intro e he f
    simp only [devX, List.mem_cons, List.not_mem_nil, or_false] at he
    rcases he with rfl | rfl | rfl <;> cases f <;> decide
  special := by decide

theorem devX_idents : ModuleIdents devX := by
  intro e he
  simp only [devX, List.mem_cons, List.not_mem_nil, or_false] at he
  rcases he with rfl | rfl | rfl <;> exact ⟨identB_sound (by decide +kernel), identB_sound (by decide +kernel)⟩

theorem referable {c : Elem} (hv : validConfigB devX c = true) (hp : plainKeysB devX .root c = true)
    (hn : deepB devX (namesB devX) .root c = true) (hq : deepB devX (quotableB devX) .root c = true) :
    Referable devX c :=
  ⟨devX_unique, devX_idents, validConfigB_sound hv, plainKeysB_sound _ _ hp,
    deepB_sound namesB_sound _ _ hn, deepB_sound quotableB_sound _ _ hq⟩

/-- Two list entries, one of them with the additional leaf, and two addresses. -/
def cfgX : Elem := cfg [el "top" [lf "a" "1", item "x" "1",
  el "item" [lf "name" "y", lf "val" "2", .mk extra ns [] (some "3") []],
  lf "tagl" "t", lf "dns" "8.8.8.8", lf "dns" "9.9.9.9"]]

theorem cfgX_referable : Referable devX cfgX :=
  referable (by decide +kernel) (by decide +kernel) (by decide +kernel) (by decide +kernel)

/-- The hypotheses of the theorems can be met, and the paths are what one expects. -/
example : ∃ path, getXpath devX .lxmlXpath true cfgX [0, 2, 1] = .ok path ∧
    eval (readerOf devX .lxmlXpath) cfgX ('.' :: path) = some [[0, 0, 2, 1]] :=
  C44_selects_node cfgX_referable (.inr (.inl rfl)) (by decide) (x := lf "val" "2") rfl

example : getXpath devX .lxmlXpath true cfgX [0, 2, 1] = .ok "/d:top/d:item[d:name=\"y\"]/d:val".toList := by
  decide +kernel

example : getXpath devX .xpath true cfgX [0, 2, 2] = .ok "/d:top/item[name=\"y\"]/aug:extra".toList := by
  decide +kernel

example : getXpath devX .jsonName true cfgX [0, 2, 2] =
    .ok "/demo:top/item[name=\"y\"]/demo-aug:extra".toList := by
  decide +kernel

example : getXpath devX .xpath true cfgX [0, 5] = .ok "/d:top/dns[text()=\"9.9.9.9\"]".toList := by
  decide +kernel

example : ∃ path sel, getXpath devX .xpath false cfgX [0, 1] = .ok path ∧
    eval (readerOf devX .xpath) cfgX ('.' :: path) = some sel ∧
      ∀ p, p ∈ sel ↔ ∃ j y, p = 0 :: ([0] ++ [j]) ∧ cfgX.at? ([0] ++ [j]) = some y ∧ y.tag = q "item" :=
  C44_selects_siblings cfgX_referable (.inl rfl) (pre := [0]) (i := 1) (x := item "x" "1") rfl

example : ∃ path, getXpath devX .lxmlXpath true cfgX [0, 2] = .ok path ∧
    eval ⟨xpathNamespaces devX, false⟩ cfgX ("/nc:config".toList ++ path) = some [[0, 0, 2]] :=
  C44_config_xpath cfgX_referable (nc := ("ietf-netconf", "nc", cfgTag.ns)) (by decide +kernel) rfl rfl
    (by decide) (x := el "item" [lf "name" "y", lf "val" "2", .mk extra ns [] (some "3") []]) rfl

/-! ## What the hypotheses exclude -/

/-- A list entry whose key contains double quotes. -/
def cfgQ : Elem := cfg [el "top" [item "x" "1", item "y\" or \"1" "2"]]

/-- **C44, quotes.**  Quotes in a key are not escaped: the path of the second entry selects both
entries. -/
theorem C44_quotes : validConfigB devX cfgQ = true ∧
    ∃ path, getXpath devX .lxmlXpath true cfgQ [0, 1] = .ok path ∧
      eval (readerOf devX .lxmlXpath) cfgQ ('.' :: path) = some [[0, 0, 0], [0, 0, 1]] :=
  ⟨by decide +kernel, "/d:top/d:item[d:name=\"y\" or \"1\"]".toList, by decide +kernel, by decide +kernel⟩

/-- Two entries of a leaf-list: one is empty, the other is the text `None`. -/
def cfgN : Elem := cfg [el "top" [.mk (q "tagl") ns [] none [], lf "tagl" "None"]]

/-- **C44, empty values.**  The path of an entry without text selects the entry with text `None`. -/
theorem C44_none : validConfigB devX cfgN = true ∧
    ∃ path, getXpath devX .lxmlXpath true cfgN [0, 0] = .ok path ∧
      eval (readerOf devX .lxmlXpath) cfgN ('.' :: path) = some [[0, 0, 1]] :=
  ⟨by decide +kernel, "/d:top/d:tagl[text()=\"None\"]".toList, by decide +kernel, by decide +kernel⟩

/-- **C44, default notation.**  The default notation leaves out prefixes, so XPath finds nothing with
it below the first step. -/
theorem C44_default_notation : ∃ path, getXpath devX .xpath true cfgX [0, 2] = .ok path ∧
    eval ⟨xpathNamespaces devX, false⟩ cfgX ('.' :: path) = some [] :=
  ⟨"/d:top/item[name=\"y\"]".toList, by decide +kernel, by decide +kernel⟩

/-- **C44, document root.**  The path starts at the model root, so as an absolute path it finds
nothing: `/nc:config` has to be put in front. -/
theorem C44_without_root : ∃ path, getXpath devX .lxmlXpath true cfgX [0, 2] = .ok path ∧
    eval ⟨xpathNamespaces devX, false⟩ cfgX path = some [] :=
  ⟨"/d:top/d:item[d:name=\"y\"]".toList, by decide +kernel, by decide +kernel⟩

end Demo

end NcDiff
