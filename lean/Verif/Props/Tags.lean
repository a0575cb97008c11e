import Verif.Proof.Tags
/-!
# C26: conversion of tags; C28: prefix tables
-/

namespace NcDiff

/-! ## C26 -/

/-- **C26.**  On a device with unique namespaces, `convert_tag` turns the text one notation writes
for a node into the text the other notation writes for the same node, and returns the node's
namespace. -/
theorem C26_convert_tag {d : Device} (hu : UniqueNamespaces d) (src dst : TagNotation)
    {dflt : Option Entry} {m : Entry} {name : List Char}
    (hd : ∀ e, dflt = some e → Namable d src.field dst.field e)
    (hm : Namable d src.field dst.field m) (hn : NodeName name) :
    convertTag d (writtenNs src.field dflt) (written src dflt m name) src dst =
      .ok (nsPart src.field m, written dst dflt m name) :=
  convertTag_written hu hd hm hn

/-- **C26.**  Converting a tag to another notation and back gives the tag again. -/
theorem C26_convert_tag_round_trip {d : Device} (hu : UniqueNamespaces d)
    (src dst : TagNotation) {dflt : Option Entry} {m : Entry} {name tag : List Char}
    (hd : ∀ e, dflt = some e → Namable d src.field dst.field e)
    (hm : Namable d src.field dst.field m) (hn : NodeName name)
    (ht : tag = written src dflt m name) :
    ∃ tag', convertTag d (writtenNs src.field dflt) tag src dst =
        .ok (nsPart src.field m, tag') ∧
      convertTag d (writtenNs dst.field dflt) tag' dst src = .ok (nsPart dst.field m, tag) := by
  subst ht
  exact ⟨_, convertTag_written hu hd hm hn,
    convertTag_written hu (fun e he => namable_symm (hd e he)) (namable_symm hm) hn⟩

/-- **C26.**  Different nodes never get the same text: a notation can be read back. -/
theorem C26_convert_tag_injective {d : Device} (hu : UniqueNamespaces d) (src dst : TagNotation)
    {dflt : Option Entry} {m m' : Entry} {name name' : List Char} {t : List Char} {n n' : String}
    (hd : ∀ e, dflt = some e → Namable d src.field dst.field e)
    (hm : Namable d src.field dst.field m) (hm' : Namable d src.field dst.field m')
    (hn : NodeName name) (hn' : NodeName name')
    (h : convertTag d (writtenNs src.field dflt) (written src dflt m name) src dst = .ok (n, t))
    (h' : convertTag d (writtenNs src.field dflt) (written src dflt m' name') src dst =
      .ok (n', t)) :
    m = m' ∧ written src dflt m name = written src dflt m' name' := by
  rw [convertTag_written hu hd hm hn] at h
  rw [convertTag_written hu hd hm' hn'] at h'
  cases h
  simp only [Except.ok.injEq, Prod.mk.injEq] at h'
  have hb := convertTag_written (src := dst) (dst := src) hu
    (fun e he => namable_symm (hd e he)) (namable_symm hm) hn
  have hb' := convertTag_written (src := dst) (dst := src) hu
    (fun e he => namable_symm (hd e he)) (namable_symm hm') hn'
  rw [h'.2, hb] at hb'
  simp only [Except.ok.injEq, Prod.mk.injEq] at hb'
  exact ⟨namable_inj hu (namable_symm hm) (namable_symm hm') hb'.1, hb'.2⟩

/-- **C26.**  `convert_ns`: whatever it converts, converting back gives the original, as long as no
two modules share the result. -/
theorem C26_convert_ns_round_trip {d : Device} {ns r : String} {src dst : NsField}
    (hu : (d.namespaces.map (nsPart dst)).Nodup) (h : convertNs d ns src dst = .ok r) :
    convertNs d r dst src = .ok ns :=
  convertNs_back hu h

/-- **C26.**  `convert_ns` converts every module of the device. -/
theorem C26_convert_ns {d : Device} {src : NsField} (dst : NsField) {e : Entry}
    (hu : (d.namespaces.map (nsPart src)).Nodup) (he : e ∈ d.namespaces) :
    convertNs d (nsPart src e) src dst = .ok (nsPart dst e) := by
  unfold convertNs
  rw [filter_unique hu he]

/-- **C26.**  If two modules share the namespace to be converted, both conversions raise; they
never pick one of them. -/
theorem C26_ambiguous_raises {d : Device} {pre mid post : List Entry} {a b : Entry}
    (hd : d.namespaces = pre ++ a :: mid ++ b :: post) (src dst : NsField)
    (hab : nsPart src a = nsPart src b) :
    convertNs d (nsPart src a) src dst = .error .valueError ∧
      ∀ (sn dn : TagNotation) (dflt : String) (name : List Char), sn.field = src →
        NodeName name → nsPart src a ≠ "" → dflt ≠ nsPart src a →
        convertTag d dflt (sn.style.render (nsPart src a) name) sn dn = .error .modelError := by
  have hlen : ∃ x y r, d.namespaces.filter (fun e => nsPart src e = nsPart src a) =
      x :: y :: r := by
    rw [hd]
    have h1 : 2 ≤ ((pre ++ a :: mid ++ b :: post).filter
        (fun e => nsPart src e = nsPart src a)).length := by
      simp only [List.filter_append, List.length_append]
      rw [List.filter_cons_of_pos (by simp), List.filter_cons_of_pos (by simp [hab])]
      simp only [List.length_cons]
      omega
    match hf : (pre ++ a :: mid ++ b :: post).filter (fun e => nsPart src e = nsPart src a), h1 with
    | x :: y :: r, _ => exact ⟨x, y, r, rfl⟩
  obtain ⟨x, y, r, hf⟩ := hlen
  refine ⟨by unfold convertNs; rw [hf], ?_⟩
  rintro sn dn dflt name rfl hn hne hdf
  have hp : nsPart sn.field a ∈ possiblePart1 d sn.field :=
    namable_possible (g := .url) (.inl (by rw [hd]; simp))
  unfold convertTag
  have hs : splitTag d sn (sn.style.render (nsPart sn.field a) name) =
      .ok (nsPart sn.field a, name) := by
    unfold splitTag
    rw [split_render _ hne hn]
    simp only [String.ofList_toList, hp, if_true]
  rw [hs]
  simp only [bind, Except.bind, hne, and_false, if_false]
  unfold writeTag
  rw [if_neg (fun h => hdf h.2)]
  unfold convertPart
  rw [hf]; rfl

/-- **C26.**  A namespace that neither the device nor the well-known list has raises. -/
theorem C26_unknown_raises {d : Device} (src dst : TagNotation) (dflt : String) {ns : String}
    {name : List Char} (hne : ns ≠ "") (hn : NodeName name)
    (hd : ∀ e ∈ d.namespaces, nsPart src.field e ≠ ns)
    (hs : ∀ e ∈ specialEntries, nsPart src.field e ≠ ns) :
    convertTag d dflt (src.style.render ns name) src dst = .error .valueError ∧
      convertNs d ns src.field dst.field = .error .valueError := by
  have hf : d.namespaces.filter (fun e => nsPart src.field e = ns) = [] := by
    rw [List.filter_eq_nil_iff]
    intro e he h
    exact hd e he (by simpa using h)
  refine ⟨?_, by unfold convertNs; rw [hf]⟩
  have hp : ns ∉ possiblePart1 d src.field := by
    intro h
    have : ns ∈ d.namespaces.map (nsPart src.field) ++ specialEntries.map (nsPart src.field) := by
      cases hfd : src.field with
      | name => rw [hfd] at h; exact List.mem_append_left _ h
      | «prefix» => rw [hfd] at h; exact h
      | url => rw [hfd] at h; exact h
    rcases List.mem_append.mp this with h | h
    · obtain ⟨e, he, h⟩ := List.mem_map.mp h; exact hd e he h
    · obtain ⟨e, he, h⟩ := List.mem_map.mp h; exact hs e he h
  unfold convertTag splitTag
  rw [split_render _ hne hn]
  simp only [String.ofList_toList, hp, if_false]
  rfl

/-- The namespace of a node that `IdentityRef` asks for is what `convert_tag` answers: the short
form `nodeUrl` used in the model of `ref.py` agrees with the model of `convert_tag`. -/
theorem nodeUrl_is_convertTag (d : Device) (tag : QName) (hne : tag.ns ≠ "")
    (hn : NodeName tag.name.toList) :
    (convertTag d "" (Style.brace.render tag.ns tag.name.toList) .lxmlEtree .ytool).map Prod.fst =
      nodeUrl d tag := by
  have hsplit : Style.brace.split (Style.brace.render tag.ns tag.name.toList) =
      some (tag.ns.toList, tag.name.toList) := split_render .brace hne hn
  unfold convertTag splitTag
  show Except.map Prod.fst (bind (match Style.brace.split _ with
    | some (p, n) => _
    | none => _) _) = _
  rw [hsplit]
  simp only [String.ofList_toList]
  unfold nodeUrl
  simp only [hne, if_false]
  have e1 : ∀ e : Entry, nsPart .url e = e.2.2 := fun _ => rfl
  have sp : (specialUrls.lookup tag.ns).isSome ↔ tag.ns ∈ specialEntries.map (nsPart .url) := by
    have : specialEntries.map (nsPart .url) = specialUrls.map Prod.fst := by decide +kernel
    rw [this]
    generalize specialUrls = l
    induction l with
    | nil => simp
    | cons x l ih =>
      rw [List.lookup_cons, List.map_cons, List.mem_cons]
      by_cases hx : tag.ns = x.1
      · simp [hx]
      · have : (tag.ns == x.1) = false := by simpa using hx
        rw [this]
        simp only [hx, false_or]
        exact ih
  have spf : tag.ns ∈ specialEntries.map (nsPart .url) →
      ∃ e, specialEntries.filter (fun e => nsPart .url e = tag.ns) = [e] := by
    intro h
    obtain ⟨e, he, h⟩ := List.mem_map.mp h
    rw [← h]
    exact ⟨e, filter_unique (special_nodup .url (by simp)) he⟩
  by_cases hp : tag.ns ∈ possiblePart1 d NsField.url
  · have : tag.ns ∈ possiblePart1 d TagNotation.lxmlEtree.field := hp
    simp only [this, if_true, bind, Except.bind, hne, and_false, if_false]
    unfold writeTag
    rw [if_neg (fun h => hne h.2.symm)]
    unfold convertPart
    show Except.map Prod.fst (bind (match d.namespaces.filter (fun e => nsPart .url e = tag.ns) with
      | [e] => _ | _ :: _ :: _ => _ | [] => _) _) = _
    simp only [e1]
    match hf : d.namespaces.filter (fun e => e.2.2 = tag.ns) with
    | [e] => rw [hf]; rfl
    | _ :: _ :: _ => rw [hf]; rfl
    | [] =>
      have hin : tag.ns ∈ specialEntries.map (nsPart .url) := by
        rcases List.mem_append.mp hp with h | h
        · obtain ⟨e, he, h⟩ := List.mem_map.mp h
          have : e ∈ d.namespaces.filter (fun e => e.2.2 = tag.ns) :=
            List.mem_filter.mpr ⟨he, decide_eq_true h⟩
          rw [hf] at this; cases this
        · exact h
      obtain ⟨e, he⟩ := spf hin
      rw [hf]
      simp only [sp.mpr hin, if_true]
      show Except.map Prod.fst (bind (if NsField.url ≠ .name ∧ NsField.prefix ≠ .name then
        (match specialEntries.filter (fun e => nsPart .url e = tag.ns) with
          | [e] => _ | _ => _) else _) _) = _
      rw [he]
      rfl
  · have : tag.ns ∉ possiblePart1 d TagNotation.lxmlEtree.field := hp
    simp only [this, if_false]
    have hf : d.namespaces.filter (fun e => e.2.2 = tag.ns) = [] := by
      rw [List.filter_eq_nil_iff]
      intro e he h
      exact hp (List.mem_append_left _ (List.mem_map.mpr ⟨e, he, of_decide_eq_true h⟩))
    have hns : ¬ (specialUrls.lookup tag.ns).isSome := fun h =>
      hp (List.mem_append_right _ (sp.mp h))
    rw [hf]
    simp only [hns]
    rfl

/-! ## C28 -/

/-- **C28.**  Whatever the device and the URLs, no prefix occurs twice in the table. -/
theorem C28_no_ambiguous_prefix (d : Device) (urls : List String) :
    ((getNs d urls).map Prod.fst).Nodup :=
  dictOf_keys (acc := []) List.nodup_nil

/-- **C28.**  The table built for a config, in whatever order the set of its URLs is iterated:
every namespace declared anywhere in the config has a prefix that the table maps back to it, and
it has only one. -/
theorem C28_covers {d : Device} (hd : DistinctPrefixes d) {e : Elem} {urls : List String}
    (hset : ∀ u, u ∈ urls ↔ u ∈ e.nsUrls) (hnd : urls.Nodup) {u : String} (hu : Declared u e) :
    ∃ p, (getNs d urls).lookup p = some u ∧
      ∀ p', (p', u) ∈ getNs d urls → p' = p := by
  have hin : u ∈ urls := (hset u).mpr ((mem_nsUrls e).mpr hu)
  rw [getNs_eq hd hnd]
  have hk := assign_keys (i := 0) hd hnd
  have hv : ((assignPrefixes d 0 urls).map Prod.snd).Nodup := by rw [assign_urls]; exact hnd
  have hm : u ∈ (assignPrefixes d 0 urls).map Prod.snd := by rw [assign_urls]; exact hin
  obtain ⟨q, hq, rfl⟩ := List.mem_map.mp hm
  refine ⟨q.1, ?_, fun p' hp' => ?_⟩
  · exact lookup_of_nodup hk hq
  · exact congrArg Prod.fst (List.inj_on_of_nodup_map hv hp' hq rfl)

/-- **C28.**  In particular every element of the config has a prefix for its own tag (the
namespace of a tag is declared at the element). -/
theorem C28_covers_tags {d : Device} (hd : DistinctPrefixes d) {e x : Elem} {urls : List String}
    (hset : ∀ u, u ∈ urls ↔ u ∈ e.nsUrls) (hnd : urls.Nodup) (hx : NodeOf x e)
    (hns : ∃ p, (p, x.tag.ns) ∈ x.nsmap) :
    ∃ p, (getNs d urls).lookup p = some x.tag.ns := by
  obtain ⟨p, hp⟩ := hns
  obtain ⟨q, hq, _⟩ := C28_covers hd hset hnd (declared_within hx (.here hp))
  exact ⟨q, hq⟩

/-- **C28.**  The table has nothing but the declared namespaces. -/
theorem C28_only_declared {d : Device} (hd : DistinctPrefixes d) {e : Elem} {urls : List String}
    (hset : ∀ u, u ∈ urls ↔ u ∈ e.nsUrls) (hnd : urls.Nodup) {p u : String}
    (h : (p, u) ∈ getNs d urls) : Declared u e := by
  rw [getNs_eq hd hnd] at h
  exact (mem_nsUrls e).mp ((hset u).mp (assign_mem h).1)

/-- **C28.**  A namespace of a module gets the module's own prefix, unless it is one of the
well-known namespaces, which have a fixed prefix. -/
theorem C28_module_prefix {d : Device} (hd : DistinctPrefixes d) {urls : List String}
    (hnd : urls.Nodup) {m : Entry} (hm : m ∈ d.namespaces)
    (huniq : (d.namespaces.map (nsPart .url)).Nodup) (hu : m.2.2 ∈ urls) :
    (getNs d urls).lookup ((specialUrls.lookup m.2.2).getD m.2.1) = some m.2.2 := by
  rw [getNs_eq hd hnd]
  have hm' : m.2.2 ∈ (assignPrefixes d 0 urls).map Prod.snd := by rw [assign_urls]; exact hu
  obtain ⟨q, hq, he⟩ := List.mem_map.mp hm'
  have hg : getPrefix d m.2.2 = some ((specialUrls.lookup m.2.2).getD m.2.1) := by
    unfold getPrefix
    cases specialUrls.lookup m.2.2 with
    | some p => rfl
    | none =>
      simp only [Option.getD_none]
      cases hf : d.namespaces.find? (fun e => m.2.2 = nsPart .url e) with
      | none =>
        exfalso
        have := List.find?_eq_none.mp hf m hm
        exact this (by simp [nsPart])
      | some x =>
        have hx := List.find?_some hf
        simp only [decide_eq_true_eq] at hx
        have := List.inj_on_of_nodup_map huniq hm (List.mem_of_find?_eq_some hf) hx
        rw [this]; rfl
  rcases (assign_mem hq).2 with h | ⟨h, _⟩
  · rw [he, hg] at h
    simp only [Option.some.injEq] at h
    rw [h, ← he]
    exact lookup_of_nodup (assign_keys hd hnd) hq
  · rw [he, hg] at h; cases h

/-! ## Examples -/

namespace TagDemo

/-- A device with two modules. -/
def dev : Device where
  namespaces := [("m-one", "one", "urn:one"), ("m-two", "two", "urn:two")]
  roots := []
  models := []

theorem dev_unique : UniqueNamespaces dev where
  unique := by intro f; cases f <;> decide +kernel
  nonempty := by
    intro e he f
    have h : ∀ e ∈ dev.namespaces, e.1 ≠ "" ∧ e.2.1 ≠ "" ∧ e.2.2 ≠ "" := by decide +kernel
    cases f
    · exact (h e he).1
    · exact (h e he).2.1
    · exact (h e he).2.2
  special := by
    have h : ∀ e ∈ dev.namespaces, ∀ s ∈ specialEntries, ¬ (e.2.1 = s.2.1 ∨ e.2.2 = s.2.2) := by
      decide +kernel
    exact fun e he s hs hor => absurd hor (h e he s hs)

/-- `{urn:two}x` under `m-one` in JSON notation, and back. -/
example : convertTag dev "urn:one" "{urn:two}x".toList .lxmlEtree .jsonName =
      .ok ("urn:two", "m-two:x".toList) ∧
    convertTag dev "m-one" "m-two:x".toList .jsonName .lxmlEtree =
      .ok ("m-two", "{urn:two}x".toList) := by decide +kernel

example : NodeName "x".toList := by unfold NodeName; decide +kernel
example : Namable dev .url .name ("m-two", "two", "urn:two") := .inl (by decide +kernel)
example : Namable dev .url .prefix ("", "nc", "urn:ietf:params:xml:ns:netconf:base:1.0") :=
  .inr (by decide +kernel)

/-- **C26, why the tag has to be written without redundant namespace.**  A tag that repeats the
namespace in force is not restored. -/
theorem C26_redundant_prefix_is_dropped :
    convertTag dev "one" "one:x".toList .xpath .lxmlEtree = .ok ("one", "{urn:one}x".toList) ∧
      convertTag dev "urn:one" "{urn:one}x".toList .lxmlEtree .xpath =
        .ok ("urn:one", "x".toList) := by decide +kernel

/-- **C26, why node names must not have colons.** -/
example : convertTag dev "" "{urn:one}a:b".toList .lxmlEtree .lxmlXpath =
      .ok ("urn:one", "one:a:b".toList) ∧
    convertTag dev "" "one:a:b".toList .lxmlXpath .lxmlEtree = .error .valueError := by
  decide +kernel

theorem dev_distinct : DistinctPrefixes dev where
  modules := by decide +kernel
  special := by
    have h : ∀ a ∈ dev.namespaces, ∀ s ∈ specialUrls, a.2.1 ≠ s.2 := by decide +kernel
    exact fun a ha s hs he => absurd he (h a ha s hs)
  invented := by
    have h : ∀ a ∈ dev.namespaces, a.2.1.toList.take 2 ≠ ['n', 's'] := by decide +kernel
    intro a ha ds _ he
    apply h a ha
    rw [he]; rfl

/-- A config with a known and two unknown namespaces. -/
def cfg : Elem :=
  .mk ⟨"urn:ietf:params:xml:ns:netconf:base:1.0", "config"⟩
    [(none, "urn:ietf:params:xml:ns:netconf:base:1.0")] [] none
    [.mk ⟨"urn:one", "a"⟩ [(none, "urn:one"), (some "z", "urn:foreign")] [] none
      [.mk ⟨"urn:other", "b"⟩ [(some "p", "urn:other")] [] none []]]

example : getNs dev ["urn:other", "urn:one", "urn:ietf:params:xml:ns:netconf:base:1.0",
      "urn:foreign"] =
    [("ns00", "urn:other"), ("one", "urn:one"),
     ("nc", "urn:ietf:params:xml:ns:netconf:base:1.0"), ("ns01", "urn:foreign")] := by
  decide +kernel

example : ∀ u, u ∈ ["urn:other", "urn:one", "urn:ietf:params:xml:ns:netconf:base:1.0",
    "urn:foreign"] ↔ u ∈ cfg.nsUrls := by
  intro u
  have : cfg.nsUrls = ["urn:ietf:params:xml:ns:netconf:base:1.0", "urn:one", "urn:foreign",
    "urn:other"] := by decide +kernel
  rw [this]
  simp only [List.mem_cons, List.not_mem_nil, or_false]
  tauto

/-- **C28, why prefixes have to be distinct.**  YANG does not make prefixes globally unique.  If
two modules have the same prefix, a namespace in use is missing from the table. -/
theorem C28_shared_prefix_loses_namespace :
    let d : Device := { namespaces := [("m1", "p", "urn:1"), ("m2", "p", "urn:2")], roots := [],
                        models := [] }
    getNs d ["urn:1", "urn:2"] = [("p", "urn:2")] := by decide +kernel

/-- **C28.**  The same happens if a module's prefix looks like an invented one. -/
theorem C28_invented_prefix_collides :
    let d : Device := { namespaces := [("m1", "ns00", "urn:1")], roots := [], models := [] }
    getNs d ["urn:1", "urn:2"] = [("ns00", "urn:2")] := by decide +kernel

end TagDemo
end NcDiff
