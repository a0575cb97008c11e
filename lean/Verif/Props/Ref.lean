import Verif.Proof.RefValue
import Verif.Props.Compare
/-!
# C31, C32: identityref and instance-identifier values
-/

namespace NcDiff

theorem nodeUrl_known {d : Device} {q : QName} (h : KnownUrl d q.ns) (hne : q.ns ≠ "") :
    nodeUrl d q = .ok q.ns := by
  obtain ⟨n, hn⟩ := h
  unfold nodeUrl
  rw [if_neg hne, hn]

/-- **C31.**  Two identityref values of nodes with the same tag compare equal exactly if they stand
for the same identity, whatever prefixes they are written with. -/
theorem C31_same_text {d : Device} (hd : NamesOk d) {sn : SNode}
    (hsn : sn.info.datatype = .identityref) {a b : Elem} (htag : a.tag = b.tag)
    (hown : KnownUrl d a.tag.ns) (hns : a.tag.ns ≠ "")
    (ha : (a.nsmap.map Prod.fst).Nodup) (hb : (b.nsmap.map Prod.fst).Nodup)
    {s t : String} (hs : a.text = some s) (ht : b.text = some t)
    {u v : String} {i j : List Char}
    (hi : DenotesId d a.nsmap s.toList u i) (hj : DenotesId d b.nsmap t.toList v j)
    (hu : KnownUrl d u) (hv : KnownUrl d v) :
    sameText d (.node sn) a b = .ok (decide (u = v ∧ i = j)) := by
  obtain ⟨x, y, h1, h2, h3⟩ := IdentityRef.composeDefault_inj hd (self := a.tag.ns) (.inr hu)
    (.inr hv) (IdentityRef.DenotesId.name hi) (IdentityRef.DenotesId.name hj)
  have e1 : parseText d a sn = .ok (some (String.ofList x)) := by
    unfold parseText
    rw [hs, hsn]
    simp only [IdentityRef.default, nodeUrl_known hown hns, IdentityRef.parse_denotes hd ha hi,
      bind, Except.bind, h1]
    rfl
  have e2 : parseText d b sn = .ok (some (String.ofList y)) := by
    unfold parseText
    rw [ht, hsn]
    rw [htag] at hown hns h2
    simp only [IdentityRef.default, nodeUrl_known hown hns, IdentityRef.parse_denotes hd hb hj,
      bind, Except.bind, h2]
    rfl
  have hne : ¬ (a.text = none ∧ b.text = none) := by rw [hs]; simp
  unfold sameText
  rw [if_neg hne]
  unfold parseTextAt
  rw [hs, ht]
  simp only [e1, e2, bind, Except.bind, pure, Except.pure, Except.ok.injEq]
  apply decide_eq_decide.mpr
  rw [Option.some.injEq]
  constructor
  · intro e
    apply h3.mp
    rw [← String.toList_ofList (l := x), e, String.toList_ofList]
  · intro e
    rw [h3.mpr e]

theorem sameValue_parse {d : Device} (hd : NamesOk d) {sc : Scope} {a b : Elem}
    (htag : a.tag = b.tag) (ha : (a.nsmap.map Prod.fst).Nodup) (hb : (b.nsmap.map Prod.fst).Nodup)
    (h : SameValue d sc a b) : parseTextAt d sc a = parseTextAt d sc b := by
  cases h with
  | text ht hc =>
    unfold parseTextAt
    rw [← ht]
    cases hx : a.text with
    | none => rfl
    | some x =>
      simp only []
      cases sc with
      | root => rfl
      | node sn =>
        simp only []
        unfold parseText
        rw [← ht, hx]
        rcases hc with hm | hn | hp
        · rw [htag, hm]
        · rw [hx] at hn; cases hn
        · have := hp sn rfl
          cases hdt : sn.info.datatype <;> simp [hdt, DType.plain] at this ⊢
  | identity hsc hdt hs ht hi hj =>
    subst hsc
    unfold parseTextAt
    rw [hs, ht]
    simp only []
    unfold parseText
    rw [hs, ht, hdt, htag]
    simp only [IdentityRef.default, IdentityRef.parse_denotes hd ha hi,
      IdentityRef.parse_denotes hd hb hj]

/-- No node declares a prefix twice. -/
inductive NsOk : Elem → Prop where
  | mk {e : Elem} : (e.nsmap.map Prod.fst).Nodup → (∀ k ∈ e.kids, NsOk k) → NsOk e

theorem respelled_rearranged {d : Device} (hd : NamesOk d) {sc : Scope} {a b : Elem}
    (h : Respelled d sc a b) : NsOk a → NsOk b → Rearranged d sc a b := by
  induction h with
  | @mk sc a b tag attrs value tags _ ih =>
    intro ha hb
    cases ha with
    | mk ha1 ha2 =>
      cases hb with
      | mk hb1 hb2 =>
        refine .mk a.kids tag (sameValue_parse hd tag ha1 hb1 value) (fun p => by rw [attrs])
          (List.Perm.refl _) tags ?_ (fun _ _ => rfl)
        intro i x y f hx hy hf
        exact ih i x y f hx hy hf (ha2 x (List.mem_of_getElem? hx))
          (hb2 y (List.mem_of_getElem? hy))

/-- **C31.**  Two configs that differ only in prefixes and in how identities are written with them
are equal.  The keys of lists are not of type identityref here: see `C31_false_for_list_keys`. -/
theorem C31_config {d : Device} (hd : NamesOk d) {a b : Elem} (ha : ValidConfig d a)
    (hb : ValidConfig d b) (hna : NsOk a) (hnb : NsOk b) (pk : PlainKeys d .root a)
    (h : Respelled d .root a b) : cfgEq d a b = .ok true :=
  (C04_eq_iff_rearranged d a b ha hb pk).mpr (respelled_rearranged hd h hna hnb)

/-- **C31.**  When a value is copied to another node, as in sums of configs, it is written with the
prefixes that are declared there and stands for the same identity. -/
theorem C31_copied {d : Device} (hd : NamesOk d) {sn : SNode}
    (hsn : sn.info.datatype = .identityref) {src dst : Elem}
    (hown : KnownUrl d src.tag.ns) (hns : src.tag.ns ≠ "")
    (hsrc : (src.nsmap.map Prod.fst).Nodup) (hdst : NsMapOk dst.nsmap)
    {s u : String} {i : List Char} (hs : src.text = some s) (hi : DenotesId d src.nsmap s.toList u i)
    (hu : ∃ p, (p, u) ∈ dst.nsmap) :
    ∃ t, mergeText d sn src dst = .ok (dst.setText (some t)) ∧
      DenotesId d dst.nsmap t.toList u i := by
  obtain ⟨p, hp⟩ := hu
  have hname := IdentityRef.DenotesId.name hi
  have hsome : ∃ q, dst.nsmap.prefixOf u = some q := by
    unfold NsMap.prefixOf
    cases hf : dst.nsmap.reverse.find? (fun p => decide (p.2 = u)) with
    | none =>
      rw [List.find?_eq_none] at hf
      have := hf _ (List.mem_reverse.mpr hp)
      simp at this
    | some q => exact ⟨q.1, rfl⟩
  obtain ⟨q, hq⟩ := hsome
  have hmem := NsMap.mem_of_prefixOf hq
  have go : ∀ t, IdentityRef.composeTo dst.nsmap u i = .ok t →
      mergeText d sn src dst = .ok (dst.setText (some (String.ofList t))) := by
    intro t ht
    unfold mergeText
    rw [hs, hsn]
    simp only [IdentityRef.converted, nodeUrl_known hown hns,
      IdentityRef.parse_denotes hd hsrc hi, bind, Except.bind, ht]
    rfl
  cases q with
  | none =>
    refine ⟨_, go i (by unfold IdentityRef.composeTo; rw [hq]), ?_⟩
    rw [String.toList_ofList]
    exact .plain hname.1 hname.2 hmem
  | some q =>
    refine ⟨_, go (q.toList ++ ':' :: i) (by unfold IdentityRef.composeTo; rw [hq]), ?_⟩
    rw [String.toList_ofList]
    refine .prefixed (IdentityRef.toList_ne fun e => ?_) hname.1 hname.2 (.declared ?_)
    · exact hdst.2.1 _ hmem (by rw [e])
    · rw [String.ofList_toList]; exact hmem

namespace InstId

/-- **C32.**  Converting an instance-identifier gives an instance-identifier with the same meaning:
the same local names in the same namespaces and the same literals, in the same order.  `dst` is the
target node's prefix map, or `none` for names of modules as prefixes (the form in which values are
compared). -/
theorem C32_convert {d : Device} (hd : NamesOk d) {tag : QName} (hown : KnownUrl d tag.ns)
    (hns : tag.ns ≠ "") {m : NsMap} (hm : (m.map Prod.fst).Nodup) {dst : Option NsMap}
    (hp : PrefixesOk d dst) {ts : List Tok} (hne : ts ≠ []) (hok : ∀ t ∈ ts, t.Ok)
    (hap : NoApostrophe ts) {as : List Abs} (h : Means d m none ts as)
    (hw : ∀ u ∈ urls as, Writable d dst u) :
    ∃ ts', InstId.convert d tag m dst (render ts) = .ok (render ts') ∧ (∀ t ∈ ts', t.Ok) ∧
      Means d (target dst) none ts' as := by
  obtain ⟨ps, h1, h2, h3, h4⟩ := convertPieces_ok hd hm hp h hok hap hw
  refine ⟨_, ?_, h3, h4 none⟩
  unfold InstId.convert
  simp only [nodeUrl_known hown hns, tokenize_render hne hok, bind, Except.bind, h1, pure,
    Except.pure, h2]

/-- **C32.**  Two instance-identifiers compare equal exactly if they mean the same. -/
theorem C32_same_text {d : Device} (hd : NamesOk d) (hp : PrefixesOk d none) {sn : SNode}
    (hsn : sn.info.datatype = .instanceId) {a b : Elem} (htag : a.tag = b.tag)
    (hown : KnownUrl d a.tag.ns) (hns : a.tag.ns ≠ "")
    (ha : (a.nsmap.map Prod.fst).Nodup) (hb : (b.nsmap.map Prod.fst).Nodup)
    {ts us : List Tok} (hs : a.text = some (String.ofList (render ts)))
    (ht : b.text = some (String.ofList (render us))) (hts : ts ≠ []) (hus : us ≠ [])
    (okt : ∀ t ∈ ts, t.Ok) (oku : ∀ t ∈ us, t.Ok) (apt : NoApostrophe ts) (apu : NoApostrophe us)
    {as bs : List Abs} (hi : Means d a.nsmap none ts as) (hj : Means d b.nsmap none us bs)
    (hu : ∀ u ∈ urls as, KnownUrl d u) (hv : ∀ u ∈ urls bs, KnownUrl d u) :
    sameText d (.node sn) a b = .ok (decide (as = bs)) := by
  obtain ⟨_, h1, h2, h3, h4⟩ := convertPieces_ok hd ha hp hi okt apt hu
  obtain ⟨_, g1, g2, g3, g4⟩ := convertPieces_ok hd hb hp hj oku apu hv
  have e1 : parseText d a sn = .ok (some (String.ofList (render (spell d none as)))) := by
    unfold parseText
    rw [hs, hsn]
    simp only [String.toList_ofList, InstId.convert, nodeUrl_known hown hns,
      tokenize_render hts okt, bind, Except.bind, h1, pure, Except.pure, h2]
  have e2 : parseText d b sn = .ok (some (String.ofList (render (spell d none bs)))) := by
    unfold parseText
    rw [ht, hsn]
    rw [htag] at hown hns
    simp only [String.toList_ofList, InstId.convert, nodeUrl_known hown hns,
      tokenize_render hus oku, bind, Except.bind, g1, pure, Except.pure, g2]
  have hne : ¬ (a.text = none ∧ b.text = none) := by rw [hs]; simp
  unfold sameText
  rw [if_neg hne]
  unfold parseTextAt
  rw [hs, ht]
  simp only [e1, e2, bind, Except.bind, pure, Except.pure, Except.ok.injEq]
  apply decide_eq_decide.mpr
  rw [Option.some.injEq]
  constructor
  · intro e
    have e' : render (spell d none as) = render (spell d none bs) := by
      rw [← String.toList_ofList (l := render (spell d none as)), e, String.toList_ofList]
    have := render_inj h3 g3 e'
    have hh := h4 none
    rw [this] at hh
    exact hh.unique hd (by simp [target]) (g4 none)
  · rintro rfl
    rfl

end InstId

/-! ## A device with two modules -/

namespace RefDemo

def leafS (n : String) (t : DType) : SNode :=
  .mk { tag := ⟨"urn:ex", n⟩, ntype := .leaf, datatype := t } []

/-- `container top { leaf kind {type identityref} leaf ref {type instance-identifier}
list l { key id; leaf id {type identityref} leaf v {type string} } }`. -/
def topS : SNode :=
  .mk { tag := ⟨"urn:ex", "top"⟩, ntype := .container }
    [ leafS "kind" .identityref, leafS "ref" .instanceId,
      .mk { tag := ⟨"urn:ex", "l"⟩, ntype := .list, keyNames := ["id"] }
        [.mk { tag := ⟨"urn:ex", "id"⟩, ntype := .leaf, datatype := .identityref, isKey := true } [],
         leafS "v" .other] ]

def dev : Device :=
  { namespaces := [("ex", "e", "urn:ex"), ("ot", "o", "urn:ot")]
    roots := [(⟨"urn:ex", "top"⟩, "ex")]
    models := [("ex", [topS])] }

theorem names_ok : NamesOk dev := by decide
theorem known_ex : KnownUrl dev "urn:ex" := ⟨_, rfl⟩
theorem known_ot : KnownUrl dev "urn:ot" := ⟨_, rfl⟩

def ns1 : NsMap := [(none, "urn:ex"), (some "a", "urn:ot"), (some "e", "urn:ex")]
def ns2 : NsMap := [(none, "urn:ex"), (some "b", "urn:ot"), (some "x", "urn:ex")]

def node (n : String) (m : NsMap) (t : Option String) (ks : List Elem) : Elem :=
  .mk ⟨"urn:ex", n⟩ m [] t ks

def cfg (ks : List Elem) : Elem :=
  .mk ⟨"urn:ietf:params:xml:ns:netconf:base:1.0", "config"⟩
    [(some "nc", "urn:ietf:params:xml:ns:netconf:base:1.0")] [] none ks

/-- The same identity with two prefixes. -/
def cfg1 : Elem := cfg [node "top" ns1 none [node "kind" ns1 (some "a:fast") []]]
def cfg2 : Elem := cfg [node "top" ns2 none [node "kind" ns2 (some "b:fast") []]]

theorem cfg1_valid : ValidConfig dev cfg1 := validConfigB_sound (by decide +kernel)
theorem cfg2_valid : ValidConfig dev cfg2 := validConfigB_sound (by decide +kernel)
theorem cfg1_plain : PlainKeys dev .root cfg1 := plainKeysB_sound _ _ (by decide +kernel)

theorem denotes1 : DenotesId dev ns1 "a:fast".toList "urn:ot" "fast".toList :=
  .prefixed (p := ['a']) (by decide) (by decide) (by decide) (.declared (by decide))
theorem denotes2 : DenotesId dev ns2 "b:fast".toList "urn:ot" "fast".toList :=
  .prefixed (p := ['b']) (by decide) (by decide) (by decide) (.declared (by decide))

theorem nsOk_leaf {n m t} (h : (m.map Prod.fst).Nodup) : NsOk (node n m t []) :=
  .mk h (by simp [node])

theorem cfg1_ns : NsOk cfg1 := by
  refine .mk (by decide) fun k hk => ?_
  simp only [cfg1, cfg, Elem.kids_mk, List.mem_singleton] at hk
  subst hk
  refine .mk (by decide) fun k hk => ?_
  simp only [node, Elem.kids_mk, List.mem_singleton] at hk
  subst hk
  exact nsOk_leaf (n := "kind") (by decide)

theorem cfg2_ns : NsOk cfg2 := by
  refine .mk (by decide) fun k hk => ?_
  simp only [cfg2, cfg, Elem.kids_mk, List.mem_singleton] at hk
  subst hk
  refine .mk (by decide) fun k hk => ?_
  simp only [node, Elem.kids_mk, List.mem_singleton] at hk
  subst hk
  exact nsOk_leaf (n := "kind") (by decide)

theorem lookup_node {sc : Scope} {q : QName} {f : Found} {sn : SNode}
    (hf : dev.lookup sc q = .ok f)
    (h : (dev.lookup sc q).toOption.map Found.node = some sn) : f.node = sn := by
  rw [hf] at h
  simpa [Except.toOption] using h

/-- The hypotheses of `C31_config` are met. -/
theorem respelled : Respelled dev .root cfg1 cfg2 := by
  refine .mk rfl rfl (.text rfl (.inr (.inl rfl))) rfl ?_
  intro i x y f hx hy hf
  rcases i with _ | i
  · cases hx; cases hy
    have hf' : dev.lookup .root ⟨"urn:ex", "top"⟩ = .ok f := hf
    have hn : f.node = topS := lookup_node hf' rfl
    rw [hn]
    refine .mk rfl rfl (.text rfl (.inr (.inl rfl))) rfl ?_
    intro i x y f hx hy hf
    rcases i with _ | i
    · cases hx; cases hy
      have hf' : dev.lookup (.node topS) ⟨"urn:ex", "kind"⟩ = .ok f := hf
      have hn : f.node = leafS "kind" .identityref := lookup_node hf' rfl
      rw [hn]
      refine .mk rfl rfl (.identity rfl rfl rfl rfl denotes1 denotes2) rfl ?_
      intro i x y f hx
      cases hx
    · cases hx
  · cases hx

example : cfgEq dev cfg1 cfg2 = .ok true :=
  C31_config names_ok cfg1_valid cfg2_valid cfg1_ns cfg2_ns cfg1_plain respelled

/-- The hypotheses of `C31_same_text` are met, by equal and by different identities. -/
example : sameText dev (.node (leafS "kind" .identityref)) (node "kind" ns1 (some "a:fast") [])
    (node "kind" ns2 (some "b:fast") []) = .ok true := by
  rw [C31_same_text (a := node "kind" ns1 (some "a:fast") [])
    (b := node "kind" ns2 (some "b:fast") []) names_ok rfl rfl known_ex (by decide) (by decide) (by decide) rfl rfl denotes1
    denotes2 known_ot known_ot]
  rfl

example : sameText dev (.node (leafS "kind" .identityref)) (node "kind" ns1 (some "a:fast") [])
    (node "kind" ns2 (some "fast") []) = .ok false := by
  rw [C31_same_text (a := node "kind" ns1 (some "a:fast") [])
    (b := node "kind" ns2 (some "fast") []) (v := "urn:ex") (j := "fast".toList) names_ok rfl rfl known_ex (by decide)
    (by decide) (by decide) rfl rfl denotes1 (.plain (by decide) (by decide) (by decide)) known_ot
    known_ex]
  rfl

/-- The hypotheses of `C31_copied` are met. -/
example : ∃ t, mergeText dev (leafS "kind" .identityref) (node "kind" ns1 (some "a:fast") [])
      (node "kind" ns2 none []) = .ok ((node "kind" ns2 none []).setText (some t)) ∧
    DenotesId dev ns2 t.toList "urn:ot" "fast".toList :=
  C31_copied (src := node "kind" ns1 (some "a:fast") []) names_ok rfl known_ex (by decide) (by decide) (by decide) rfl denotes1
    ⟨some "b", by decide⟩

/-- C31 does not extend to the keys of lists: keys are compared as plain text, since the schema node
that `_parse_text` is called with is that of the list. -/
theorem C31_false_for_list_keys :
    DenotesId dev ns1 "a:fast".toList "urn:ot" "fast".toList ∧
    DenotesId dev ns2 "b:fast".toList "urn:ot" "fast".toList ∧
    cfgEq dev
      (cfg [node "top" ns1 none [node "l" ns1 none [node "id" ns1 (some "a:fast") []]]])
      (cfg [node "top" ns2 none [node "l" ns2 none [node "id" ns2 (some "b:fast") []]]])
      = .ok false :=
  ⟨denotes1, denotes2, by decide +kernel⟩

/-! instance-identifiers -/

open InstId

/-- `/e:top/l[a:id="x=[1]"]/kind`. -/
def path : List Tok :=
  [.step ⟨some "e".toList, "top".toList⟩, .step ⟨none, "l".toList⟩,
   .key ⟨some "a".toList, "id".toList⟩ '"' "x=[1]".toList, .step ⟨none, "kind".toList⟩]

/-- What it means. -/
def meaning : List Abs :=
  [.step "urn:ex" "top".toList, .step "urn:ex" "l".toList,
   .key "urn:ot" "id".toList "x=[1]".toList, .step "urn:ex" "kind".toList]

theorem path_text : render path = "/e:top/l[a:id=\"x=[1]\"]/kind".toList := by decide +kernel

theorem name_ok {p : Option (List Char)} {l : List Char} (h : l ≠ [])
    (h' : l.all (fun c => c ∉ reserved) = true)
    (h2 : p.all (fun p => p ≠ [] && p.all (fun c => c ∉ reserved)) = true) : Name.Ok ⟨p, l⟩ := by
  refine ⟨h, fun c hc => by simpa using List.all_eq_true.mp h' c hc, fun q hq => ?_⟩
  simp only at hq
  subst hq
  simp only [Option.all_some, Bool.and_eq_true, decide_eq_true_eq, List.all_eq_true] at h2
  exact ⟨h2.1, fun c hc => h2.2 c hc⟩

theorem path_ok : ∀ t ∈ path, t.Ok := by
  intro t ht
  simp only [path, List.mem_cons, List.not_mem_nil, or_false] at ht
  rcases ht with rfl | rfl | rfl | rfl
  · exact ⟨name_ok (by decide) (by decide) (by decide), by decide⟩
  · exact ⟨name_ok (by decide) (by decide) (by decide), by decide⟩
  · exact ⟨name_ok (by decide) (by decide) (by decide), by decide, .inr rfl, by decide⟩
  · exact ⟨name_ok (by decide) (by decide) (by decide), by decide⟩

theorem path_noApostrophe : NoApostrophe path := by
  intro t ht
  simp only [path, List.mem_cons, List.not_mem_nil, or_false] at ht
  rcases ht with rfl | rfl | rfl | rfl
  · trivial
  · trivial
  · intro _; decide
  · trivial

theorem path_means : Means dev ns1 none path meaning :=
  .step (n := ⟨some "e".toList, "top".toList⟩) (PrefixMeans.declared (by decide)) <|
  .step (n := ⟨none, "l".toList⟩) (rfl : some "urn:ex" = some "urn:ex") <|
  .key (n := ⟨some "a".toList, "id".toList⟩) (PrefixMeans.declared (by decide)) <|
  .step (n := ⟨none, "kind".toList⟩) (rfl : some "urn:ex" = some "urn:ex") .nil

theorem prefixes_ok : PrefixesOk dev none := by
  intro p u h
  cases h with
  | declared h => simp [target] at h
  | module x _ h =>
    simp only [dev, List.mem_cons, Prod.mk.injEq, List.not_mem_nil, or_false] at h
    have hp : p = "ex".toList ∨ p = "ot".toList := by
      rcases h with ⟨h, _⟩ | ⟨h, _⟩
      · left; rw [← h, String.toList_ofList]
      · right; rw [← h, String.toList_ofList]
    rcases hp with rfl | rfl <;> exact ⟨by decide, by decide⟩

/-- The hypotheses of `C32_convert` are met, and this is what comes out. -/
example : ∃ ts', InstId.convert dev ⟨"urn:ex", "ref"⟩ ns1 none (render path) = .ok (render ts') ∧
    (∀ t ∈ ts', t.Ok) ∧ Means dev [] none ts' meaning :=
  C32_convert names_ok known_ex (by decide) (by decide) prefixes_ok (by decide) path_ok
    path_noApostrophe path_means (by
      intro u hu
      simp only [meaning, urls, List.mem_cons, List.not_mem_nil, or_false] at hu
      rcases hu with rfl | rfl | rfl | rfl
      · exact known_ex
      · exact known_ex
      · exact known_ot
      · exact known_ex)

example : InstId.convert dev ⟨"urn:ex", "ref"⟩ ns1 none "/e:top/l[a:id=\"x=[1]\"]/kind".toList =
    .ok "/ex:top/ex:l[ot:id='x=[1]']/ex:kind".toList := by decide +kernel

example : InstId.convert dev ⟨"urn:ex", "ref"⟩ ns1 (some ns2)
      "/e:top/l[a:id=\"x=[1]\"]/kind".toList =
    .ok "/x:top/x:l[b:id='x=[1]']/x:kind".toList := by decide +kernel

/-- The same path with other prefixes and quotation marks, `/x:top/x:l[b:id='x=[1]']/kind`. -/
def path2 : List Tok :=
  [.step ⟨some "x".toList, "top".toList⟩, .step ⟨some "x".toList, "l".toList⟩,
   .key ⟨some "b".toList, "id".toList⟩ '\'' "x=[1]".toList, .step ⟨none, "kind".toList⟩]

/-- The hypotheses of `C32_same_text` are met. -/
example : sameText dev (.node (leafS "ref" .instanceId))
    (node "ref" ns1 (some (String.ofList (render path))) [])
    (node "ref" ns2 (some (String.ofList (render path2))) []) = .ok true := by
  have hk : ∀ u ∈ urls meaning, KnownUrl dev u := by
    intro u hu
    simp only [meaning, urls, List.mem_cons, List.not_mem_nil, or_false] at hu
    rcases hu with rfl | rfl | rfl | rfl
    · exact known_ex
    · exact known_ex
    · exact known_ot
    · exact known_ex
  rw [C32_same_text (a := node "ref" ns1 (some (String.ofList (render path))) [])
    (b := node "ref" ns2 (some (String.ofList (render path2))) []) (as := meaning) (bs := meaning)
    names_ok prefixes_ok rfl rfl known_ex (by decide) (by decide) (by decide) rfl rfl (by decide)
    (by decide) path_ok ?_ path_noApostrophe ?_ path_means ?_ hk hk]
  · rfl
  · intro t ht
    simp only [path2, List.mem_cons, List.not_mem_nil, or_false] at ht
    rcases ht with rfl | rfl | rfl | rfl
    · exact ⟨name_ok (by decide) (by decide) (by decide), by decide⟩
    · exact ⟨name_ok (by decide) (by decide) (by decide), by decide⟩
    · exact ⟨name_ok (by decide) (by decide) (by decide), by decide, .inl rfl, by decide⟩
    · exact ⟨name_ok (by decide) (by decide) (by decide), by decide⟩
  · intro t ht
    simp only [path2, List.mem_cons, List.not_mem_nil, or_false] at ht
    rcases ht with rfl | rfl | rfl | rfl
    · trivial
    · trivial
    · intro h; cases h
    · trivial
  · exact .step (n := ⟨some "x".toList, "top".toList⟩) (PrefixMeans.declared (by decide)) <|
      .step (n := ⟨some "x".toList, "l".toList⟩) (PrefixMeans.declared (by decide)) <|
      .key (n := ⟨some "b".toList, "id".toList⟩) (PrefixMeans.declared (by decide)) <|
      .step (n := ⟨none, "kind".toList⟩) (rfl : some "urn:ex" = some "urn:ex") .nil

/-- C32 does not extend to positions: a prefix is put in front of the number. -/
theorem C32_false_for_positions :
    InstId.convert dev ⟨"urn:ex", "ref"⟩ ns1 (some ns2) "/e:top/e:l[2]".toList =
      .ok "/x:top/x:l[x:2]".toList := by decide +kernel

/-- Nor to node names with a dot: the part after the dot is taken for another step and gets a
prefix. -/
theorem C32_false_for_dots :
    InstId.convert dev ⟨"urn:ex", "ref"⟩ ns1 (some ns2) "/e:top/e:rev.a".toList =
      .ok "/x:top/x:rev.x:a".toList := by decide +kernel

/-- Nor to apostrophes inside of double quotes: they are doubled, which XPath does not know. -/
theorem C32_false_for_apostrophes :
    InstId.convert dev ⟨"urn:ex", "ref"⟩ ns1 (some ns2) "/e:top/e:l[e:id=\"it's\"]".toList =
      .ok "/x:top/x:l[x:id='it''s']".toList := by decide +kernel

/-- Spaces inside of predicates, which RFC 7950 allows, raise an error. -/
theorem C32_spaces_raise :
    InstId.convert dev ⟨"urn:ex", "ref"⟩ ns1 (some ns2) "/e:top/e:l[e:id = 'x']".toList =
      .error .configError := by decide +kernel

end RefDemo
end NcDiff
