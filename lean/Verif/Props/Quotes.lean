import Verif.Props.Ref
import Verif.Proof.Quotes
/-!
# C80: quotation marks inside literals of instance-identifiers
-/

namespace NcDiff

namespace InstId

/-- **C80.**  If quotation marks inside literals are read as in XPath 2.0, converting an instance-identifier keeps its
meaning, whatever quotation marks and apostrophes its values have, unless a value ends with the mark that it is written
in.  (`C32_convert` is about the reading of XPath 1.0.) -/
theorem C80_convert {d : Device} (hd : NamesOk d) {tag : QName} (hown : KnownUrl d tag.ns)
    (hns : tag.ns ≠ "") {m : NsMap} (hm : (m.map Prod.fst).Nodup) {dst : Option NsMap}
    (hp : PrefixesOk d dst) {ts : List Tok} (hne : ts ≠ []) (hok : ∀ t ∈ ts, t.Ok2) {as : List Abs}
    (h : Means d m none ts as) (hw : ∀ u ∈ urls as, Writable d dst u) :
    ∃ ts', InstId.convert d tag m dst (render2 ts) = .ok (render2 ts') ∧ Means d (target dst) none ts' as := by
  obtain ⟨ps, h1, h2, _, h4⟩ := convertPieces_ok2 hd hm hp h hok hw
  refine ⟨_, ?_, h4 none⟩
  unfold InstId.convert
  simp only [nodeUrl_known hown hns, tokenize_render2 hne hok, bind, Except.bind, h1, pure,
    Except.pure, h2]

/-- **C80.**  And two instance-identifiers compare equal exactly if they mean the same. -/
theorem C80_same_text {d : Device} (hd : NamesOk d) (hp : PrefixesOk d none) {sn : SNode}
    (hsn : sn.info.datatype = .instanceId) {a b : Elem} (htag : a.tag = b.tag)
    (hown : KnownUrl d a.tag.ns) (hns : a.tag.ns ≠ "")
    (ha : (a.nsmap.map Prod.fst).Nodup) (hb : (b.nsmap.map Prod.fst).Nodup)
    {ts us : List Tok} (hs : a.text = some (String.ofList (render2 ts)))
    (ht : b.text = some (String.ofList (render2 us))) (hts : ts ≠ []) (hus : us ≠ [])
    (okt : ∀ t ∈ ts, t.Ok2) (oku : ∀ t ∈ us, t.Ok2)
    {as bs : List Abs} (hi : Means d a.nsmap none ts as) (hj : Means d b.nsmap none us bs)
    (hu : ∀ u ∈ urls as, KnownUrl d u) (hv : ∀ u ∈ urls bs, KnownUrl d u) :
    sameText d (.node sn) a b = .ok (decide (as = bs)) := by
  obtain ⟨_, h1, h2, h3, h4⟩ := convertPieces_ok2 hd ha hp hi okt hu
  obtain ⟨_, g1, g2, g3, g4⟩ := convertPieces_ok2 hd hb hp hj oku hv
  have e1 : parseText d a sn = .ok (some (String.ofList (render2 (spell d none as)))) := by
    unfold parseText
    rw [hs, hsn]
    simp only [String.toList_ofList, InstId.convert, nodeUrl_known hown hns,
      tokenize_render2 hts okt, bind, Except.bind, h1, pure, Except.pure, h2]
  have e2 : parseText d b sn = .ok (some (String.ofList (render2 (spell d none bs)))) := by
    unfold parseText
    rw [ht, hsn]
    rw [htag] at hown hns
    simp only [String.toList_ofList, InstId.convert, nodeUrl_known hown hns,
      tokenize_render2 hus oku, bind, Except.bind, g1, pure, Except.pure, g2]
  have hne : ¬ (a.text = none ∧ b.text = none) := by rw [hs]; simp
  unfold sameText
  rw [if_neg hne]
  unfold parseTextAt
  rw [hs, ht]
  simp only [e1, e2, bind, Except.bind, pure, Except.pure, Except.ok.injEq]
  apply decide_eq_decide.mpr
  rw [Option.some.injEq]
  constructor
  · intro e
    have e' : render2 (spell d none as) = render2 (spell d none bs) := by
      rw [← String.toList_ofList (l := render2 (spell d none as)), e, String.toList_ofList]
    have := render2_inj h3 g3 e'
    have hh := h4 none
    rw [this] at hh
    exact hh.unique hd (by simp [target]) (g4 none)
  · rintro rfl
    rfl

/-- The two readings differ only if a value has the mark that it is written in. -/
theorem C80_readings {ts : List Tok} (h : ∀ t ∈ ts, t.Ok) : render2 ts = render ts ∧ ∀ t ∈ ts, t.Ok2 := by
  have key : ∀ t ∈ ts, t.text2 = t.text ∧ t.Ok2 := by
    intro t ht
    have := h t ht
    cases t with
    | step n => exact ⟨rfl, this⟩
    | key n q c =>
      exact ⟨by simp [Tok.text2, Tok.text, doubled_none this.2.2.2], this.1, this.2.1, this.2.2.1,
        fun e => this.2.2.2 (List.mem_of_getLast? e)⟩
    | self q c =>
      exact ⟨by simp [Tok.text2, Tok.text, doubled_none this.2], this.1, fun e => this.2 (List.mem_of_getLast? e)⟩
  refine ⟨?_, fun t ht => (key t ht).2⟩
  unfold render render2
  clear h
  induction ts with
  | nil => rfl
  | cons t ts ih =>
    rw [List.flatMap_cons, List.flatMap_cons, (key t List.mem_cons_self).1,
      ih (fun x hx => key x (List.mem_cons_of_mem _ hx))]

/-- **C80.**  Literals that are not closed, values without quotation marks and predicates that are not closed are
refused. -/
theorem C80_refused {d : Device} {tag : QName} (hown : KnownUrl d tag.ns) (hns : tag.ns ≠ "") (m : NsMap)
    (dst : Option NsMap) :
    (∀ {ts : List Tok} {h r : List Char} {q : Char}, (∀ t ∈ ts, t.Ok2) → '=' ∉ h → (q = '\'' ∨ q = '"' → q ∉ r) →
      InstId.convert d tag m dst (render2 ts ++ (h ++ '=' :: q :: r)) = .error .configError) ∧
    (∀ {a r : List Char}, '=' ∉ a ++ '[' :: r → ']' ∉ r →
      InstId.convert d tag m dst (a ++ '[' :: r) = .error .configError) := by
  refine ⟨fun {ts h r q} hok hh hr => ?_, fun {a r} he hr => ?_⟩
  · have : tokenize (render2 ts ++ (h ++ '=' :: q :: r)) = .error .configError := by
      by_cases hq : q = '\'' ∨ q = '"'
      · exact parseQuote_open hok hh hq (hr hq)
      · exact parseQuote_bare hok hh (not_or.mp hq)
    unfold InstId.convert
    simp only [nodeUrl_known hown hns, this, bind, Except.bind]
  · unfold InstId.convert
    simp only [nodeUrl_known hown hns, parseBracket_open he hr, bind, Except.bind]

end InstId

namespace RefDemo
open InstId

/-- `/e:top/l[a:id="5""'6"]/kind`; the value is `5"'6`. -/
def path80 : List Tok :=
  [.step ⟨some "e".toList, "top".toList⟩, .step ⟨none, "l".toList⟩,
   .key ⟨some "a".toList, "id".toList⟩ '"' "5\"'6".toList, .step ⟨none, "kind".toList⟩]

def meaning80 : List Abs :=
  [.step "urn:ex" "top".toList, .step "urn:ex" "l".toList, .key "urn:ot" "id".toList "5\"'6".toList,
   .step "urn:ex" "kind".toList]

example : render2 path80 = "/e:top/l[a:id=\"5\"\"'6\"]/kind".toList := by decide +kernel

theorem path80_ok : ∀ t ∈ path80, t.Ok2 := by
  intro t ht
  simp only [path80, List.mem_cons, List.not_mem_nil, or_false] at ht
  rcases ht with rfl | rfl | rfl | rfl
  · exact ⟨name_ok (by decide) (by decide) (by decide), by decide⟩
  · exact ⟨name_ok (by decide) (by decide) (by decide), by decide⟩
  · exact ⟨name_ok (by decide) (by decide) (by decide), by decide, .inr rfl, by decide⟩
  · exact ⟨name_ok (by decide) (by decide) (by decide), by decide⟩

/-- The hypotheses of `C80_convert` are met. -/
example : ∃ ts', InstId.convert dev ⟨"urn:ex", "ref"⟩ ns1 none (render2 path80) = .ok (render2 ts') ∧
    Means dev [] none ts' meaning80 :=
  C80_convert names_ok known_ex (by decide) (by decide) prefixes_ok (by decide)
    path80_ok
    (.step (n := ⟨some "e".toList, "top".toList⟩) (PrefixMeans.declared (by decide)) <|
      .step (n := ⟨none, "l".toList⟩) (rfl : some "urn:ex" = some "urn:ex") <|
      .key (n := ⟨some "a".toList, "id".toList⟩) (PrefixMeans.declared (by decide)) <|
      .step (n := ⟨none, "kind".toList⟩) (rfl : some "urn:ex" = some "urn:ex") .nil)
    (by
      intro u hu
      simp only [meaning80, urls, List.mem_cons, List.not_mem_nil, or_false] at hu
      rcases hu with rfl | rfl | rfl | rfl
      · exact known_ex
      · exact known_ex
      · exact known_ot
      · exact known_ex)

example : InstId.convert dev ⟨"urn:ex", "ref"⟩ ns1 none "/e:top/l[a:id=\"5\"\"'6\"]/kind".toList =
    .ok "/ex:top/ex:l[ot:id='5\"''6']/ex:kind".toList := by decide +kernel

/-- `/e:top/l[a:id="5""'6"]/kind[e:v='7]` and `/e:top/l[3` meet the hypotheses of `C80_refused`. -/
example : InstId.convert dev ⟨"urn:ex", "ref"⟩ ns1 none (render2 path80 ++ ("[e:v".toList ++ '=' :: '\'' :: "7]".toList)) =
    .error .configError :=
  (C80_refused known_ex (by decide) ns1 none).1 path80_ok (by decide) (by decide)

example : InstId.convert dev ⟨"urn:ex", "ref"⟩ ns1 none ("/e:top/l".toList ++ '[' :: "3".toList) = .error .configError :=
  (C80_refused known_ex (by decide) ns1 none).2 (by decide) (by decide)

/-- Values that end with the mark that they are written in are refused; or, if another literal follows, the text up to its
first mark is taken for a part of the value, and the prefixes in it are not converted. -/
theorem C80_false_for_marks_at_the_end :
    InstId.convert dev ⟨"urn:ex", "ref"⟩ ns1 none "/e:top/l[a:id='5''']/kind".toList = .error .configError ∧
    InstId.convert dev ⟨"urn:ex", "ref"⟩ ns1 none "/e:top/l[a:id='5''']/e:l[a:id='6']".toList =
      .ok "/ex:top/l[a:id='5''']/e:l[a:id='6']".toList := by
  refine ⟨by decide +kernel, by decide +kernel⟩

end RefDemo
end NcDiff
