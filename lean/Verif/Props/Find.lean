import Verif.Proof.Find
import Verif.Props.Tags
/-!
# C86: searching in replies and configs
-/

namespace NcDiff.Find

open Report (pathOf)
open Statement (tagsTo mem_select_tags select_nodup)

/-- The table that is used if the caller gives none. -/
def tableOf (r : Reply) (namespaces : Option (List (String × String))) : List (String × String) := namespaces.getD r.ns

/-- A relative path, with prefixes of `reply.ns` or of the table that is given, selects the nodes on this path and no others, each once. -/
theorem C86_relative (d : Device) (urls : List String) (e : Elem) (namespaces : Option (List (String × String)))
    (hn : ∀ t, namespaces = some t → (t.map Prod.fst).Nodup) {l : List (String × String)} (hl : ∀ p ∈ l, Ident p.1.toList ∧ Ident p.2.toList)
    {path : List QName} (hm : Means (tableOf (received d urls e) namespaces) l path) :
    ∃ sel, (received d urls e).xpath pathEngine (pathOf l) namespaces = .ok sel ∧ sel.Nodup ∧
      ∀ p, p ∈ sel ↔ ∃ r, p = 0 :: r ∧ (∃ x, e.at? r = some x) ∧ tagsTo e r = path := by
  have main : ∀ t : List (String × String), (t.map Prod.fst).Nodup → Means t l path → ∃ sel, pathEngine e t (pathOf l) = .ok sel ∧ sel.Nodup ∧
      ∀ p, p ∈ sel ↔ ∃ r, p = 0 :: r ∧ (∃ x, e.at? r = some x) ∧ tagsTo e r = path := by
    intro t ht hm
    have he := Report.eval_path (t := e) hl (means_lookup ht hm)
    refine ⟨_, by unfold pathEngine; rw [he], (select_nodup _ _).map (fun _ _ h => by simpa using h), fun p => ?_⟩
    rw [List.mem_map]
    constructor
    · rintro ⟨r, hr, rfl⟩
      exact ⟨r, rfl, mem_select_tags.1 hr⟩
    · rintro ⟨r, rfl, hr⟩
      exact ⟨r, mem_select_tags.2 hr, rfl⟩
  cases namespaces with
  | none => exact main _ (ns_keys d urls) hm
  | some t => exact main t (hn t rfl) hm

/-- An absolute path begins with the tag of the document's root. -/
theorem C86_absolute (d : Device) (urls : List String) (e : Elem) (namespaces : Option (List (String × String)))
    (hn : ∀ t, namespaces = some t → (t.map Prod.fst).Nodup) {l : List (String × String)} (hl : ∀ p ∈ l, Ident p.1.toList ∧ Ident p.2.toList)
    {q : QName} {path : List QName} (hm : Means (tableOf (received d urls e) namespaces) l (q :: path)) :
    ∃ sel, (received d urls e).xpath pathEngine (rootPathOf l) namespaces = .ok sel ∧ sel.Nodup ∧
      ∀ p, p ∈ sel ↔ e.tag = q ∧ ∃ r, p = 0 :: r ∧ (∃ x, e.at? r = some x) ∧ tagsTo e r = path := by
  have main : ∀ t : List (String × String), (t.map Prod.fst).Nodup → Means t l (q :: path) →
      ∃ sel, pathEngine e t (rootPathOf l) = .ok sel ∧ sel.Nodup ∧
      ∀ p, p ∈ sel ↔ e.tag = q ∧ ∃ r, p = 0 :: r ∧ (∃ x, e.at? r = some x) ∧ tagsTo e r = path := by
    intro t ht hm
    have he := eval_abs (t := e) (by rintro rfl; cases hm) hl (means_lookup ht hm)
    refine ⟨_, by unfold pathEngine; rw [he], select_nodup _ _, fun p => ?_⟩
    rw [mem_select_tags]
    constructor
    · rintro ⟨⟨x, hx⟩, hp⟩
      cases p with
      | nil => rw [tagsTo] at hp; cases hp
      | cons i r =>
        cases i with
        | zero =>
          rw [tagsTo] at hp
          obtain ⟨h1, h2⟩ := List.cons.inj hp
          exact ⟨h1, r, rfl, ⟨x, hx⟩, h2⟩
        | succ i => cases hp
    · rintro ⟨rfl, r, rfl, ⟨x, hx⟩, rfl⟩
      exact ⟨⟨x, hx⟩, rfl⟩
  cases namespaces with
  | none => exact main _ (ns_keys d urls) hm
  | some t => exact main t (hn t rfl) hm

/-- The tags on the way to a node belong to nodes. -/
theorem tagsTo_nodes : ∀ {r : List Nat} {e x : Elem}, e.at? r = some x → ∀ t ∈ tagsTo e r, ∃ y, NodeOf y e ∧ y.tag = t
  | [], _, _, _, t, ht => by cases ht
  | i :: r, e, x, h, t, ht => by
    rw [Elem.at?] at h
    rw [tagsTo] at ht
    cases hk : e.kids[i]? with
    | none => rw [hk] at h; cases h
    | some k =>
      rw [hk] at h ht
      rcases List.mem_cons.1 ht with rfl | ht
      · exact ⟨k, .inner (List.mem_of_getElem? hk) .self, rfl⟩
      · obtain ⟨y, hy, h'⟩ := tagsTo_nodes h t ht
        exact ⟨y, .inner (List.mem_of_getElem? hk) hy, h'⟩

/-- Each node of a reply can be found with the prefixes of `reply.ns`, whatever namespaces it uses. -/
theorem C86_every_node {d : Device} (hd : DistinctPrefixes d) (hp : PrefixIdents d) {e : Elem} (he : Parsed e) {urls : List String}
    (hu : UrlsOf e urls) {r : List Nat} {x : Elem} (hx : e.at? r = some x) :
    ∃ l sel, (received d urls e).xpath pathEngine (pathOf l) none = .ok sel ∧ 0 :: r ∈ sel ∧
      ∀ p ∈ sel, ∃ r', p = 0 :: r' ∧ tagsTo e r' = tagsTo e r := by
  have name : ∀ path : List QName, (∀ t ∈ path, ∃ y, NodeOf y e ∧ y.tag = t) →
      ∃ l : List (String × String), (∀ p ∈ l, Ident p.1.toList ∧ Ident p.2.toList) ∧ Means (getNs d urls) l path := by
    intro path
    induction path with
    | nil => intro _; exact ⟨[], by simp, .nil⟩
    | cons t path ih =>
      intro h
      obtain ⟨l, h1, h2⟩ := ih fun t ht => h t (by simp [ht])
      obtain ⟨y, hy, rfl⟩ := h t (by simp)
      obtain ⟨p, hp'⟩ := C28_covers_tags hd (fun u => (hu.all u).trans (mem_nsUrls e).symm) hu.nodup hy (he.declared y hy)
      have hin := (lookup_mem (ns_keys d urls)).1 hp'
      refine ⟨(p, y.tag.name) :: l, ?_, .cons ⟨hin, rfl⟩ h2⟩
      intro q hq
      rcases List.mem_cons.1 hq with rfl | hq
      · exact ⟨ns_ident hd hp hu.nodup (p, y.tag.ns) hin, he.names y hy⟩
      · exact h1 q hq
  obtain ⟨l, h1, h2⟩ := name (tagsTo e r) (tagsTo_nodes hx)
  obtain ⟨sel, g1, _, g3⟩ := C86_relative d urls e none (by simp) h1 h2
  exact ⟨l, sel, g1, (g3 _).2 ⟨r, rfl, ⟨x, hx⟩, rfl⟩, fun p hp => by
    obtain ⟨r', e1, _, e2⟩ := (g3 p).1 hp
    exact ⟨r', e1, e2⟩⟩

/-- `Config.xpath` understands each expression that can be written with the prefixes that `ns_help` prints, if all namespaces of the config
are those of modules of the device. -/
theorem C86_config_as_help {d : Device} (hd : DistinctPrefixes d) (hu : UniqueNamespaces d) {e : Elem} {urls : List String} (hs : UrlsOf e urls)
    (hm : ∀ u, Declared u e → ∃ m ∈ d.namespaces, m.2.2 = u) {x : List Char} {sel : List (List Nat)}
    (h : configXpath pathEngine d e x (some (configNs d urls)) = .ok sel) : configXpath pathEngine d e x none = .ok sel := by
  simp only [configXpath, pathEngine] at h ⊢
  cases hv : XPath.eval ⟨configNs d urls, false⟩ e x with
  | none => rw [hv] at h; cases h
  | some l =>
    rw [hv] at h
    have keys : ((d.namespaces.map fun e => (e.2.1, e.2.2)).map Prod.fst).Nodup := by
      rw [List.map_map]
      exact hu.unique .prefix
    have ht : xpathNamespaces d = d.namespaces.map fun e => (e.2.1, e.2.2) := by
      unfold xpathNamespaces dictOf
      rw [dictOf_nodup (by simpa using keys)]
      rfl
    rw [Report.eval_more (rd := ⟨configNs d urls, false⟩) (rd' := ⟨xpathNamespaces d, false⟩) rfl (fun p u hp => ?_) hv]
    · exact h
    · have hin : (p, u) ∈ getNs d urls := (lookup_mem (ns_keys d urls)).1 hp
      obtain ⟨m, hmem, rfl⟩ := hm u (C28_only_declared hd (fun u => (hs.all u).trans (mem_nsUrls e).symm) hs.nodup hin)
      have hmod := C28_module_prefix hd hs.nodup hmem (hu.unique .url) ((hs.all _).2
        (C28_only_declared hd (fun u => (hs.all u).trans (mem_nsUrls e).symm) hs.nodup hin))
      have hpre : (specialUrls.lookup m.2.2).getD m.2.1 = m.2.1 := by
        cases hsp : specialUrls.lookup m.2.2 with
        | none => rfl
        | some s =>
          have hmem' : (m.2.2, s) ∈ specialUrls := by
            have aux : ∀ {l : List (String × String)} {a b : String}, l.lookup a = some b → (a, b) ∈ l := by
              intro l a b h
              induction l with
              | nil => cases h
              | cons e l ih =>
                obtain ⟨e1, e2⟩ := e
                rw [List.lookup] at h
                split at h
                · rename_i he
                  cases h
                  rw [beq_iff_eq.1 he]
                  simp
                · exact List.mem_cons_of_mem _ (ih h)
            exact aux hsp
          exact (hu.special m hmem ("", s, m.2.2) (List.mem_map.2 ⟨_, hmem', rfl⟩) (.inr rfl)).1.symm
      rw [hpre] at hmod
      have uniq : p = m.2.1 := by
        have hv : ((assignPrefixes d 0 urls).map Prod.snd).Nodup := by rw [assign_urls]; exact hs.nodup
        have h1 := hin
        have h2 := (lookup_mem (ns_keys d urls)).1 hmod
        rw [getNs_eq hd hs.nodup] at h1 h2
        exact congrArg Prod.fst (List.inj_on_of_nodup_map hv h1 h2 rfl)
      rw [uniq, ht]
      exact (lookup_mem keys).2 (List.mem_map.2 ⟨m, hmem, rfl⟩)

end NcDiff.Find

namespace NcDiff.Find86

open Find TagDemo
open Report (pathOf)

def urls : List String := ["urn:other", "urn:one", "urn:ietf:params:xml:ns:netconf:base:1.0", "urn:foreign"]

theorem urlsOf : UrlsOf cfg urls := by
  refine ⟨fun u => ?_, by decide⟩
  rw [← mem_nsUrls]
  have : cfg.nsUrls = ["urn:ietf:params:xml:ns:netconf:base:1.0", "urn:one", "urn:foreign", "urn:other"] := by decide +kernel
  rw [this]
  simp only [urls, List.mem_cons, List.not_mem_nil, or_false]
  tauto

theorem ident_of {s : List Char} (h : s.head?.any (fun c => c.isAlpha) = true)
    (h' : ∀ c ∈ s, c.isAlpha = true ∨ c.isDigit = true ∨ c = '_' ∨ c = '-' ∨ c = '.') : Ident s := by
  cases s with
  | nil => cases h
  | cons c r => exact ⟨⟨c, r, rfl, .inl (by simpa using h)⟩, h'⟩

theorem parsed : Parsed cfg := by
  have nodes : ∀ x, NodeOf x cfg → x ∈ [cfg] ++ cfg.kids ++ cfg.kids.flatMap Elem.kids := by
    intro x hx
    cases hx with
    | self => simp
    | @inner _ k hk hx =>
      have hk1 : k = cfg.kids[0]'(by decide) := by simpa [cfg, Elem.kids] using hk
      cases hx with
      | self => simp [hk]
      | @inner _ k' hk' hx =>
        have hk2 : k' = (cfg.kids[0]'(by decide)).kids[0]'(by decide) := by
          rw [hk1] at hk'
          simpa [cfg, Elem.kids] using hk'
        cases hx with
        | self =>
          simp only [List.mem_append, List.mem_flatMap]
          exact .inr ⟨k, hk, hk'⟩
        | @inner _ k'' hk'' _ =>
          rw [hk2] at hk''
          simp [cfg, Elem.kids] at hk''
  have all : ∀ x ∈ [cfg] ++ cfg.kids ++ cfg.kids.flatMap Elem.kids, x.nsmap.any (fun p => p.2 = x.tag.ns) = true ∧
      x.tag.name.toList.head?.any (fun c => c.isAlpha) = true ∧
      ∀ c ∈ x.tag.name.toList, c.isAlpha = true ∨ c.isDigit = true ∨ c = '_' ∨ c = '-' ∨ c = '.' := by decide +kernel
  constructor
  · intro x hx
    obtain ⟨p, hp, he⟩ := List.any_eq_true.1 (all x (nodes x hx)).1
    exact ⟨p.1, by rw [← of_decide_eq_true he]; exact hp⟩
  · intro x hx
    exact ident_of (all x (nodes x hx)).2.1 (all x (nodes x hx)).2.2

theorem prefixIdents : PrefixIdents dev := by
  have h : ∀ m ∈ dev.namespaces, m.2.1.toList.head?.any (fun c => c.isAlpha) = true ∧
      ∀ c ∈ m.2.1.toList, c.isAlpha = true ∨ c.isDigit = true ∨ c = '_' ∨ c = '-' ∨ c = '.' := by decide +kernel
  exact fun m hm => ident_of (h m hm).1 (h m hm).2

/-- A node in a namespace that the device does not know can be found. -/
example := C86_every_node dev_distinct prefixIdents parsed urlsOf (r := [0, 0])
  (x := .mk ⟨"urn:other", "b"⟩ [(some "p", "urn:other")] [] none []) rfl

/-- How it is found. -/
example : (received dev urls cfg).xpath pathEngine "./one:a/ns00:b".toList none = .ok [[0, 0, 0]] := by decide +kernel
example : (received dev urls cfg).xpath pathEngine "/nc:config/one:a/ns00:b".toList none = .ok [[0, 0, 0]] := by decide +kernel

/-- With a table of the caller. -/
example : (received dev urls cfg).xpath pathEngine "./x:a".toList (some [("x", "urn:one")]) = .ok [[0, 0]] := by decide +kernel

theorem names_ok : ∀ p ∈ [("one", "a"), ("ns00", "b")], Ident (p : String × String).1.toList ∧ Ident p.2.toList := by
  have h : ∀ p ∈ [("one", "a"), ("ns00", "b")], ∀ s ∈ [(p : String × String).1, p.2], s.toList.head?.any (fun c => c.isAlpha) = true ∧
      ∀ c ∈ s.toList, c.isAlpha = true ∨ c.isDigit = true ∨ c = '_' ∨ c = '-' ∨ c = '.' := by decide +kernel
  intro p hp
  exact ⟨ident_of (h p hp _ (by simp)).1 (h p hp _ (by simp)).2, ident_of (h p hp _ (by simp)).1 (h p hp _ (by simp)).2⟩

/-- The hypotheses of `C86_relative` and `C86_absolute` are met. -/
example := C86_relative dev urls cfg none (by simp) (l := [("one", "a"), ("ns00", "b")]) names_ok (path := [⟨"urn:one", "a"⟩, ⟨"urn:other", "b"⟩])
  (.cons ⟨by decide +kernel, rfl⟩ (.cons ⟨by decide +kernel, rfl⟩ .nil))
example := C86_absolute dev urls cfg none (by simp) (l := [("one", "a"), ("ns00", "b")]) names_ok (q := ⟨"urn:one", "a"⟩) (path := [⟨"urn:other", "b"⟩])
  (.cons ⟨by decide +kernel, rfl⟩ (.cons ⟨by decide +kernel, rfl⟩ .nil))

/-- A config all of whose namespaces are those of modules. -/
def known : Elem := .mk ⟨"urn:one", "a"⟩ [(none, "urn:one")] [] none [.mk ⟨"urn:two", "b"⟩ [(none, "urn:two")] [] (some "1") []]

/-- The hypotheses of `C86_config_as_help` are met. -/
example : configXpath pathEngine dev known "./two:b[text()=\"1\"]".toList none = .ok [[0, 0]] := by
  have hn : known.nsUrls = ["urn:one", "urn:two"] := by decide +kernel
  refine C86_config_as_help dev_distinct dev_unique (urls := ["urn:two", "urn:one"]) ⟨fun u => ?_, by decide⟩ (fun u h => ?_) (by decide +kernel)
  · rw [← mem_nsUrls, hn]
    simp only [List.mem_cons, List.not_mem_nil, or_false]
    tauto
  · rw [← mem_nsUrls, hn] at h
    rcases List.mem_cons.1 h with rfl | h
    · exact ⟨_, .head _, rfl⟩
    · rcases List.mem_cons.1 h with rfl | h
      · exact ⟨_, .tail _ (.head _), rfl⟩
      · cases h

/-- `Config.xpath` does not always know the prefixes that `ns_help` prints: those of well-known namespaces and invented ones are in
`Config.ns`, and the search with them fails unless the caller hands over `Config.ns`. -/
theorem C86_help_not_understood : ("nc", "urn:ietf:params:xml:ns:netconf:base:1.0") ∈ configNs dev urls ∧ ("ns00", "urn:other") ∈ configNs dev urls ∧
    configXpath pathEngine dev cfg "/nc:config/one:a".toList none = .error .syntaxError ∧
    configXpath pathEngine dev cfg "./one:a/ns00:b".toList none = .error .syntaxError ∧
    configXpath pathEngine dev cfg "/nc:config/one:a".toList (some (configNs dev urls)) = .ok [[0, 0]] ∧
    configXpath pathEngine dev cfg "./one:a/ns00:b".toList (some (configNs dev urls)) = .ok [[0, 0, 0]] := by decide +kernel

end NcDiff.Find86
