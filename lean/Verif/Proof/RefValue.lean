import Verif.Proof.InstId
import Verif.Proof.Ref
/-!
# Values of identityref and instance-identifier nodes keep their meaning
-/

namespace NcDiff

theorem splitLastColon_no_colon : ∀ {s : List Char}, ':' ∉ s → splitLastColon s = none
  | [], _ => rfl
  | c :: r, h => by
    have h1 := splitLastColon_no_colon (s := r) (fun hm => h (List.mem_cons_of_mem _ hm))
    unfold splitLastColon
    rw [h1]
    cases r with
    | nil => rfl
    | cons x y =>
      have hx : x ≠ ':' := fun e => h (by simp [e])
      simp only []
      split
      · rename_i heq
        cases heq
        exact absurd rfl hx
      · rfl

theorem splitLastColon_prefixed {p i : List Char} (hp : p ≠ []) (hi : i ≠ []) (hc : ':' ∉ i) :
    splitLastColon (p ++ ':' :: i) = some (p, i) :=
  splitLastColon_append (splitLastColon_no_colon hc) hi
    (fun x y e => hc (by simp [e])) hp

theorem lookup_of_mem {α β : Type} [BEq α] [LawfulBEq α] {a : α} {b : β} : ∀ {l : List (α × β)},
    (l.map Prod.fst).Nodup → (a, b) ∈ l → l.lookup a = some b
  | [], _, h => by cases h
  | (a', b') :: l, hn, h => by
    rw [List.map_cons, List.nodup_cons] at hn
    rw [List.lookup_cons]
    rcases List.mem_cons.mp h with h | h
    · cases h; simp
    · have : (a == a') = false := by
        rw [beq_eq_false_iff_ne]
        intro e
        exact hn.1 (List.mem_map.mpr ⟨_, h, e⟩)
      rw [this]
      exact lookup_of_mem hn.2 h

theorem lookup_none {α β : Type} [BEq α] [LawfulBEq α] {a : α} : ∀ {l : List (α × β)},
    (∀ b, (a, b) ∉ l) → l.lookup a = none
  | [], _ => rfl
  | (a', b') :: l, h => by
    rw [List.lookup_cons]
    have : (a == a') = false := by
      rw [beq_eq_false_iff_ne]
      rintro rfl
      exact h b' List.mem_cons_self
    rw [this]
    exact lookup_none (fun b hb => h b (List.mem_cons_of_mem _ hb))

theorem nameToUrl_of_mem {d : Device} (hd : NamesOk d) {p x u : String}
    (h : (p, x, u) ∈ d.namespaces) : nameToUrl d p = some u := by
  unfold nameToUrl
  have h1 := hd.1
  cases hf : d.namespaces.reverse.find? (fun n => decide (n.1 = p)) with
  | none =>
    rw [List.find?_eq_none] at hf
    have := hf _ (List.mem_reverse.mpr h)
    simp at this
  | some n =>
    have hm := List.mem_reverse.mp (List.mem_of_find?_eq_some hf)
    have hp : n.1 = p := by simpa using List.find?_some hf
    have : n = (p, x, u) := List.inj_on_of_nodup_map h1 hm h hp
    rw [this]
    rfl

theorem resolvePrefix_of {d : Device} (hd : NamesOk d) {m : NsMap} (hm : (m.map Prod.fst).Nodup)
    {p : List Char} {u : String} (h : PrefixMeans d m p u) :
    resolvePrefix d m (String.ofList p) = .ok u := by
  unfold resolvePrefix NsMap.url
  cases h with
  | declared h => rw [lookup_of_mem hm h]
  | module x h1 h2 =>
    rw [lookup_none h1]
    simp only [nameToUrl_of_mem hd h2]

namespace IdentityRef

theorem parse_denotes {d : Device} (hd : NamesOk d) {m : NsMap} (hm : (m.map Prod.fst).Nodup)
    {s i : List Char} {u : String} (h : DenotesId d m s u i) :
    IdentityRef.parse d m s = .ok (u, i) := by
  unfold IdentityRef.parse
  cases h with
  | prefixed hp hi hc hu =>
    rw [splitLastColon_prefixed hp hi hc]
    simp only [resolvePrefix_of hd hm hu]
    rfl
  | plain hi hc hu =>
    rw [splitLastColon_no_colon hc]
    simp only [NsMap.url, lookup_of_mem hm hu]

theorem DenotesId.name {d : Device} {m : NsMap} {s i : List Char} {u : String}
    (h : DenotesId d m s u i) : i ≠ [] ∧ ':' ∉ i := by
  cases h with
  | prefixed _ hi hc _ => exact ⟨hi, hc⟩
  | plain hi hc _ => exact ⟨hi, hc⟩

theorem urlToName_known {d : Device} {u : String} (h : KnownUrl d u) :
    ∃ n ∈ d.namespaces, n.2.2 = u ∧ urlToName d u = .ok n.1 := by
  obtain ⟨n, hn⟩ := h
  have hm : n ∈ d.namespaces.filter (fun n => n.2.2 = u) := by rw [hn]; exact List.mem_cons_self
  obtain ⟨h1, h2⟩ := List.mem_filter.mp hm
  refine ⟨n, h1, by simpa using h2, ?_⟩
  unfold urlToName
  rw [hn]

theorem toList_ne {s : String} (h : s ≠ "") : s.toList ≠ [] := by
  intro e
  exact h (by rw [← String.ofList_toList (s := s), e])

/-- Two identities are written alike only if they are the same. -/
theorem composeDefault_inj {d : Device} (hd : NamesOk d) {self u v : String} {i j : List Char}
    (hu : u = self ∨ KnownUrl d u) (hv : v = self ∨ KnownUrl d v)
    (hi : i ≠ [] ∧ ':' ∉ i) (hj : j ≠ [] ∧ ':' ∉ j) :
    ∃ s t, composeDefault d self u i = .ok s ∧ composeDefault d self v j = .ok t ∧
      (s = t ↔ u = v ∧ i = j) := by
  unfold composeDefault
  by_cases h1 : u = self
  · by_cases h2 : v = self
    · refine ⟨i, j, by simp [h1], by simp [h2], ?_⟩
      rw [h1, h2]; simp
    · obtain ⟨n, hn, hnu, hname⟩ := urlToName_known (hv.resolve_left h2)
      refine ⟨i, n.1.toList ++ ':' :: j, by simp [h1], by rw [if_neg h2, hname]; rfl, ?_⟩
      constructor
      · intro e; exact absurd (by rw [e]; simp) hi.2
      · intro ⟨e, _⟩; exact absurd (e ▸ h1) h2
  · obtain ⟨n, hn, hnu, hname⟩ := urlToName_known (hu.resolve_left h1)
    by_cases h2 : v = self
    · refine ⟨n.1.toList ++ ':' :: i, j, by rw [if_neg h1, hname]; rfl, by simp [h2], ?_⟩
      constructor
      · intro e; exact absurd (by rw [← e]; simp) hj.2
      · intro ⟨e, _⟩; exact absurd (e.trans h2) h1
    · obtain ⟨n', hn', hnu', hname'⟩ := urlToName_known (hv.resolve_left h2)
      refine ⟨n.1.toList ++ ':' :: i, n'.1.toList ++ ':' :: j, by rw [if_neg h1, hname]; rfl,
        by rw [if_neg h2, hname']; rfl, ?_⟩
      constructor
      · intro e
        have e1 := splitLastColon_prefixed (toList_ne (hd.2 n hn)) hi.1 hi.2
        have e2 := splitLastColon_prefixed (toList_ne (hd.2 n' hn')) hj.1 hj.2
        rw [e, e2, Option.some.injEq, Prod.mk.injEq] at e1
        have e3 : n'.1 = n.1 := by
          rw [← String.ofList_toList (s := n'.1), e1.1, String.ofList_toList]
        have : n' = n := List.inj_on_of_nodup_map hd.1 hn' hn e3
        exact ⟨by rw [← hnu, ← hnu', this], e1.2.symm⟩
      · rintro ⟨rfl, rfl⟩
        rw [hname, Except.ok.injEq] at hname'
        rw [hname']

end IdentityRef

namespace InstId

/-! ## instance-identifier -/

theorem Name.Ok.text_ne {n : Name} (h : n.Ok) : n.text ≠ [] := by
  unfold Name.text
  cases n.pfx with
  | some p => simp
  | none => exact h.1

theorem Name.Ok.colon {n : Name} (h : n.Ok) : ':' ∉ n.loc :=
  fun hm => h.2.1 _ hm (by decide)

theorem Name.Ok.chars {n : Name} (h : n.Ok) : ∀ c ∈ n.text, c = ':' ∨ c ∉ reserved := by
  intro c hc
  unfold Name.text at hc
  cases hp : n.pfx with
  | none => rw [hp] at hc; exact .inr (h.2.1 c hc)
  | some p =>
    rw [hp] at hc
    rcases List.mem_append.mp hc with hc | hc
    · exact .inr ((h.2.2 p hp).2 c hc)
    · rcases List.mem_cons.mp hc with hc | hc
      · exact .inl hc
      · exact .inr (h.2.1 c hc)

theorem Tok.Ok.view {t : Tok} (h : t.Ok) : t.view.Ok := by
  cases t with
  | step n =>
    refine ⟨h.1.text_ne, fun c hc hm => ?_⟩
    rcases h.1.chars c hc with rfl | h'
    · simp at hm
    · simp only [List.mem_cons, List.not_mem_nil, or_false] at hm
      rcases hm with rfl | hm
      · exact h.2 hc
      · apply h'
        unfold reserved
        simp only [List.mem_cons, List.not_mem_nil, or_false]
        tauto
  | key n q c =>
    refine ⟨h.1.text_ne, fun x hx hm => ?_, h.2.2.closed⟩
    rcases h.1.chars x hx with rfl | h'
    · simp at hm
    · apply h'
      unfold reserved
      simp only [List.mem_cons, List.not_mem_nil, or_false] at hm ⊢
      tauto
  | self q c =>
    refine ⟨by simp, fun x hx hm => ?_, LitOk.closed h⟩
    rw [List.mem_singleton] at hx
    subst hx
    simp at hm

theorem render_view (ts : List Tok) : vtext (ts.map Tok.view) = render ts := by
  unfold vtext render
  rw [List.flatMap_map]
  congr 1
  funext t
  exact t.view_text

theorem tokenize_render {ts : List Tok} (hne : ts ≠ []) (hok : ∀ t ∈ ts, t.Ok) :
    tokenize (render ts) = .ok (pieces3 (ts.map Tok.view)) := by
  rw [← render_view]
  apply tokenize_ok (by simpa using hne)
  intro v hv
  obtain ⟨t, ht, rfl⟩ := List.mem_map.mp hv
  exact (hok t ht).view

theorem parse_name {d : Device} (hd : NamesOk d) {m : NsMap} (hm : (m.map Prod.fst).Nodup)
    {n : Name} (hn : n.Ok) {dflt : Option String} {u : String} (h : NameMeans d m dflt n u) :
    ∃ o, InstId.parse d m n.text = .ok (o, n.loc) ∧ o.or dflt = some u := by
  unfold NameMeans at h
  unfold InstId.parse Name.text
  cases hp : n.pfx with
  | none =>
    rw [hp] at h
    refine ⟨none, ?_, by simpa using h⟩
    simp only [splitLastColon_no_colon hn.colon]
  | some p =>
    rw [hp] at h
    refine ⟨some u, ?_, rfl⟩
    simp only [splitLastColon_prefixed (hn.2.2 p hp).1 hn.1 hn.colon, resolvePrefix_of hd hm h]
    rfl

/-- The prefix with which a namespace is written. -/
def pfxFor (d : Device) (dst : Option NsMap) (u : String) : List Char :=
  match dst with
  | none =>
    match urlToName d u with
    | .ok n => n.toList
    | .error _ => []
  | some m =>
    match NsMap.prefixOf (m.filter (fun p => p.1.isSome)) u with
    | some (some p) => p.toList
    | _ => []

/-- How a meaning is written. -/
def spell (d : Device) (dst : Option NsMap) : List Abs → List Tok
  | [] => []
  | .step u l :: r => .step ⟨some (pfxFor d dst u), l⟩ :: spell d dst r
  | .key u l c :: r => .key ⟨some (pfxFor d dst u), l⟩ '\'' c :: spell d dst r
  | .self c :: r => .self '\'' c :: spell d dst r

theorem compose_ok {d : Device} {dst : Option NsMap} {u : String} (h : Writable d dst u)
    (i : List Char) : compose d dst u i = .ok (pfxFor d dst u ++ ':' :: i) ∧
      PrefixMeans d (target dst) (pfxFor d dst u) u := by
  cases dst with
  | none =>
    obtain ⟨n, hn, hnu, hname⟩ := IdentityRef.urlToName_known h
    unfold compose pfxFor
    simp only [hname]
    refine ⟨rfl, .module n.2.1 (by simp [target]) ?_⟩
    rw [String.ofList_toList, ← hnu]
    exact hn
  | some m =>
    obtain ⟨p, hp⟩ := h
    unfold compose pfxFor
    simp only
    have hsome : ∃ q, NsMap.prefixOf (m.filter (fun p => p.1.isSome)) u = some (some q) := by
      unfold NsMap.prefixOf
      cases hf : (m.filter (fun p => p.1.isSome)).reverse.find? (fun p => decide (p.2 = u)) with
      | none =>
        rw [List.find?_eq_none] at hf
        have := hf _ (List.mem_reverse.mpr (List.mem_filter.mpr ⟨hp, rfl⟩))
        simp at this
      | some q =>
        have hm := List.mem_reverse.mp (List.mem_of_find?_eq_some hf)
        have := (List.mem_filter.mp hm).2
        rcases hq : q.1 with _ | x
        · rw [hq] at this; cases this
        · exact ⟨x, by simp [hq]⟩
    obtain ⟨q, hq⟩ := hsome
    simp only [hq]
    refine ⟨trivial, .declared ?_⟩
    have := NsMap.mem_of_prefixOf hq
    rw [String.ofList_toList]
    exact (List.mem_filter.mp this).1

theorem doubleApos_none : ∀ {c : List Char}, '\'' ∉ c → doubleApos c = c
  | [], _ => rfl
  | x :: c, h => by
    have hx : x ≠ '\'' := fun e => h (by simp [e])
    unfold doubleApos
    split
    · rename_i heq; cases heq
    · rename_i heq; cases heq; exact absurd rfl hx
    · rename_i heq
      cases heq
      rw [doubleApos_none (fun hm => h (List.mem_cons_of_mem _ hm))]

theorem halveQuote_none : ∀ {c : List Char}, '"' ∉ c → halveQuote c = c
  | [], _ => rfl
  | x :: c, h => by
    have hx : x ≠ '"' := fun e => h (by simp [e])
    unfold halveQuote
    split
    · rename_i heq; cases heq; exact absurd rfl hx
    · rename_i heq
      cases heq
      rw [halveQuote_none (fun hm => h (List.mem_cons_of_mem _ hm))]
    · rename_i heq; cases heq

/-- A literal is written with apostrophes. -/
theorem litConv_eq {q : Char} {c : List Char} (hl : LitOk q c) (ha : q = '"' → '\'' ∉ c) :
    litConv q c = litText '\'' c ∧ LitOk '\'' c := by
  unfold litConv
  rcases hl.1 with rfl | rfl
  · exact ⟨by simp, hl⟩
  · have h1 := ha rfl
    refine ⟨?_, .inl rfl, h1⟩
    simp only [if_true]
    unfold convertLiteral litText
    rw [List.drop_one, List.tail_cons, List.dropLast_concat, doubleApos_none h1,
      halveQuote_none hl.2]

theorem new_name {d : Device} {dst : Option NsMap} (hp : PrefixesOk d dst) {w : List Char}
    {u : String} (hw : PrefixMeans d (target dst) w u) {n : Name} (hn : n.Ok) :
    (Name.mk (some w) n.loc).Ok :=
  ⟨hn.1, hn.2.1, fun p e => by
    cases e
    exact ⟨(hp w u hw).1, fun c hc => ((hp w u hw).2 c hc).1⟩⟩

/-- Converting keeps the meaning. -/
theorem convertPieces_ok {d : Device} (hd : NamesOk d) {m : NsMap} (hm : (m.map Prod.fst).Nodup)
    {dst : Option NsMap} (hp : PrefixesOk d dst) :
    ∀ {ts : List Tok} {as : List Abs} {dflt : Option String}, Means d m dflt ts as →
      (∀ t ∈ ts, t.Ok) → NoApostrophe ts → (∀ u ∈ urls as, Writable d dst u) →
      ∃ ps, convertPieces d m dst dflt (pieces3 (ts.map Tok.view)) = .ok ps ∧
        ps.flatMap (fun p => p.2.2) = render (spell d dst as) ∧ (∀ t ∈ spell d dst as, t.Ok) ∧
        (∀ dflt', Means d (target dst) dflt' (spell d dst as) as) := by
  intro ts as dflt h
  induction h with
  | nil =>
    intro _ _ _
    exact ⟨[], rfl, rfl, by simp [spell], fun _ => .nil⟩
  | @step dflt n u ts as hu _ ih =>
    intro hok hap hw
    obtain ⟨hn, hdot⟩ := hok _ List.mem_cons_self
    obtain ⟨o, hparse, ho⟩ := parse_name hd hm hn hu
    obtain ⟨hcomp, hmean⟩ := compose_ok (hw u (by simp [urls])) n.loc
    generalize hw' : pfxFor d dst u = w at hcomp hmean
    obtain ⟨ps, h1, h2, h3, h4⟩ := ih (fun t ht => hok t (List.mem_cons_of_mem _ ht))
      (fun t ht => hap t (List.mem_cons_of_mem _ ht))
      (fun u' hu' => hw u' (by simp [urls, hu']))
    refine ⟨(['/'], 0, ['/']) :: (n.text, 3, w ++ ':' :: n.loc) :: ps,
      ?_, ?_, ?_, ?_⟩
    · rw [List.map_cons, Tok.view, pieces3, convertPieces]
      simp only [Nat.zero_le, if_true]
      rw [convertPieces]
      simp only [show ¬ (3 ≤ 1) by omega, show ¬ (3 = 2) by omega, if_false, hparse, bind,
        Except.bind, ho, hcomp, h1]
      rfl
    · simp [h2, render, Tok.text, Name.text, spell, hw']
    · intro t ht
      simp only [spell] at ht
      rcases List.mem_cons.mp ht with rfl | ht
      · rw [hw']
        refine ⟨new_name hp hmean hn, fun hm' => ?_⟩
        simp only [Name.text, List.mem_append, List.mem_cons] at hm'
        rcases hm' with hm' | hm' | hm'
        · exact ((hp w u hmean).2 _ hm').2 rfl
        · cases hm'
        · apply hdot
          unfold Name.text
          cases n.pfx <;> simp [hm']
      · exact h3 t ht
    · intro dflt'
      rw [spell, hw']
      exact .step (n := ⟨some w, n.loc⟩) hmean (h4 _)
  | @key dflt n u q c ts as hu _ ih =>
    intro hok hap hw
    obtain ⟨hn, hdot, hl⟩ := hok _ List.mem_cons_self
    obtain ⟨o, hparse, ho⟩ := parse_name hd hm hn hu
    obtain ⟨hcomp, hmean⟩ := compose_ok (hw u (by simp [urls])) n.loc
    generalize hw' : pfxFor d dst u = w at hcomp hmean
    obtain ⟨ps, h1, h2, h3, h4⟩ := ih (fun t ht => hok t (List.mem_cons_of_mem _ ht))
      (fun t ht => hap t (List.mem_cons_of_mem _ ht))
      (fun u' hu' => hw u' (by simp [urls, hu']))
    obtain ⟨hlit, hlok⟩ := litConv_eq hl (hap _ List.mem_cons_self)
    have hv := (hok _ List.mem_cons_self).view
    have hnot : ¬ (n.text = ['['] ∨ n.text = [']'] ∨ n.text = ['='] ∨ n.text = ['.']) := by
      obtain ⟨_, hch, _⟩ := hv
      rintro (e | e | e | e)
      · exact hch '[' (by rw [e]; simp) (by simp)
      · exact hch ']' (by rw [e]; simp) (by simp)
      · exact hch '=' (by rw [e]; simp) (by simp)
      · exact hdot e
    refine ⟨[(['['], 2, ['[']), (n.text, 2, w ++ ':' :: n.loc), (['='], 2, ['=']),
      (litText q c, 1, litConv q c), ([']'], 2, [']'])] ++ ps,
      ?_, ?_, ?_, ?_⟩
    · rw [List.map_cons, Tok.view, pieces3, predPieces]
      simp only [List.cons_append, List.nil_append]
      rw [convertPieces]
      simp only [show ¬ (2 ≤ 1) by omega, if_false, if_true, true_or]
      rw [convertPieces]
      simp only [show ¬ (2 ≤ 1) by omega, if_false, if_true, hnot, hparse, bind,
        Except.bind, ho, hcomp]
      rw [convertPieces]
      simp only [show ¬ (2 ≤ 1) by omega, if_false, if_true, true_or, or_true, bind, Except.bind]
      rw [convertPieces]
      simp only [Nat.le_refl, if_true, bind, Except.bind]
      rw [convertPieces]
      simp only [show ¬ (2 ≤ 1) by omega, if_false, if_true, true_or, or_true, bind, Except.bind,
        h1]
      rfl
    · simp [h2, render, Tok.text, Name.text, hlit, litText, spell, hw']
    · intro t ht
      simp only [spell] at ht
      rcases List.mem_cons.mp ht with rfl | ht
      · rw [hw']
        refine ⟨new_name hp hmean hn, ?_, hlok⟩
        intro e
        have := congrArg List.length e
        have hwl := List.length_pos_iff.mpr (hp w u hmean).1
        simp [Name.text] at this
        omega
      · exact h3 t ht
    · intro dflt'
      rw [spell, hw']
      exact .key (n := ⟨some w, n.loc⟩) hmean (h4 _)
  | @self dflt q c ts as _ ih =>
    intro hok hap hw
    have hl := hok _ List.mem_cons_self
    obtain ⟨ps, h1, h2, h3, h4⟩ := ih (fun t ht => hok t (List.mem_cons_of_mem _ ht))
      (fun t ht => hap t (List.mem_cons_of_mem _ ht))
      (fun u' hu' => hw u' (by simpa [urls] using hu'))
    obtain ⟨hlit, hlok⟩ := litConv_eq hl (hap _ List.mem_cons_self)
    refine ⟨[(['['], 2, ['[']), (['.'], 2, ['.']), (['='], 2, ['=']),
      (litText q c, 1, litConv q c), ([']'], 2, [']'])] ++ ps,
      ?_, ?_, ?_, ?_⟩
    · rw [List.map_cons, Tok.view, pieces3, predPieces]
      simp only [List.cons_append, List.nil_append]
      rw [convertPieces]
      simp only [show ¬ (2 ≤ 1) by omega, if_false, if_true, true_or]
      rw [convertPieces]
      simp only [show ¬ (2 ≤ 1) by omega, if_false, if_true, or_true, bind, Except.bind]
      rw [convertPieces]
      simp only [show ¬ (2 ≤ 1) by omega, if_false, if_true, true_or, or_true, bind, Except.bind]
      rw [convertPieces]
      simp only [Nat.le_refl, if_true, bind, Except.bind]
      rw [convertPieces]
      simp only [show ¬ (2 ≤ 1) by omega, if_false, if_true, true_or, or_true, bind, Except.bind,
        h1]
      rfl
    · simp [h2, render, Tok.text, hlit, litText, spell]
    · intro t ht
      simp only [spell] at ht
      rcases List.mem_cons.mp ht with rfl | ht
      · exact hlok
      · exact h3 t ht
    · intro dflt'
      exact .self (h4 _)

/-- A rendered instance-identifier has one reading. -/
theorem pieces3_inj : ∀ {vs ws : List V}, pieces3 vs = pieces3 ws → vs = ws
  | [], [], _ => rfl
  | [], .step _ :: _, h => by simp [pieces3] at h
  | [], .pred _ _ _ :: _, h => by simp [pieces3, predPieces] at h
  | .step _ :: _, [], h => by simp [pieces3] at h
  | .pred _ _ _ :: _, [], h => by simp [pieces3, predPieces] at h
  | .step n :: r, .step n' :: r', h => by
    simp only [pieces3, List.cons.injEq, Prod.mk.injEq] at h
    obtain ⟨_, ⟨rfl, _⟩, h⟩ := h
    rw [pieces3_inj h]
  | .step n :: r, .pred _ _ _ :: r', h => by simp [pieces3, predPieces] at h
  | .pred _ _ _ :: r, .step _ :: r', h => by simp [pieces3, predPieces] at h
  | .pred hh q c :: r, .pred hh' q' c' :: r', h => by
    simp only [pieces3, predPieces, List.cons_append, List.nil_append, List.cons.injEq,
      Prod.mk.injEq, litText] at h
    obtain ⟨_, ⟨rfl, _⟩, _, ⟨⟨rfl, h1⟩, _⟩, _, h⟩ := h
    rw [List.append_cancel_right h1, pieces3_inj h]

theorem view_inj {t t' : Tok} (h : t.Ok) (h' : t'.Ok) (e : t.view = t'.view) : t = t' := by
  have name : ∀ {n n' : Name}, n.Ok → n'.Ok → n.text = n'.text → n = n' := by
    intro n n' hn hn' e
    rcases n with ⟨p, l⟩
    rcases n' with ⟨p', l'⟩
    cases p with
    | none =>
      cases p' with
      | none => simp only [Name.text] at e; rw [e]
      | some p' =>
        simp only [Name.text] at e
        exact absurd (by rw [e]; simp) hn.colon
    | some p =>
      cases p' with
      | none =>
        simp only [Name.text] at e
        exact absurd (by rw [← e]; simp) hn'.colon
      | some p' =>
        simp only [Name.text] at e
        have e1 := splitLastColon_prefixed (hn.2.2 p rfl).1 hn.1 hn.colon
        have e2 := splitLastColon_prefixed (hn'.2.2 p' rfl).1 hn'.1 hn'.colon
        simp only [] at e1 e2
        rw [e, e2, Option.some.injEq, Prod.mk.injEq] at e1
        rw [e1.1, e1.2]
  cases t with
  | step n =>
    cases t' with
    | step n' => simp only [Tok.view, V.step.injEq] at e; rw [name h.1 h'.1 e]
    | key _ _ _ => simp [Tok.view] at e
    | self _ _ => simp [Tok.view] at e
  | key n q c =>
    cases t' with
    | step n' => simp [Tok.view] at e
    | key n' q' c' =>
      simp only [Tok.view, V.pred.injEq] at e
      rw [name h.1 h'.1 e.1, e.2.1, e.2.2]
    | self q' c' =>
      simp only [Tok.view, V.pred.injEq] at e
      exact absurd e.1 h.2.1
  | self q c =>
    cases t' with
    | step n' => simp [Tok.view] at e
    | key n' q' c' =>
      simp only [Tok.view, V.pred.injEq] at e
      exact absurd e.1.symm h'.2.1
    | self q' c' =>
      simp only [Tok.view, V.pred.injEq] at e
      rw [e.2.1, e.2.2]

theorem render_inj {ts ts' : List Tok} (h : ∀ t ∈ ts, t.Ok) (h' : ∀ t ∈ ts', t.Ok)
    (e : render ts = render ts') : ts = ts' := by
  have ne : ∀ {l : List Tok}, render l = [] → l = [] := by
    intro l hl
    cases l with
    | nil => rfl
    | cons t l => cases t <;> simp [render, Tok.text] at hl
  by_cases h0 : ts = []
  · subst h0
    exact (ne e.symm).symm
  · have h0' : ts' ≠ [] := by
      rintro rfl
      exact h0 (ne e)
    have e1 := tokenize_render h0 h
    rw [e, tokenize_render h0' h', Except.ok.injEq] at e1
    have e2 := (pieces3_inj e1).symm
    clear e e1 h0 h0'
    induction ts generalizing ts' with
    | nil => cases ts' with
      | nil => rfl
      | cons _ _ => simp at e2
    | cons t ts ih => cases ts' with
      | nil => simp at e2
      | cons t' ts' =>
        rw [List.map_cons, List.map_cons, List.cons.injEq] at e2
        rw [view_inj (h _ List.mem_cons_self) (h' _ List.mem_cons_self) e2.1,
          ih (fun x hx => h x (List.mem_cons_of_mem _ hx))
            (fun x hx => h' x (List.mem_cons_of_mem _ hx)) e2.2]

/-- With unambiguous prefixes, a text means one thing. -/
theorem Means.unique {d : Device} (hd : NamesOk d) {m : NsMap} (hm : (m.map Prod.fst).Nodup) :
    ∀ {ts : List Tok} {dflt as bs}, Means d m dflt ts as → Means d m dflt ts bs → as = bs := by
  have nm : ∀ {n : Name} {dflt u v}, NameMeans d m dflt n u → NameMeans d m dflt n v → u = v := by
    intro n dflt u v h1 h2
    unfold NameMeans at h1 h2
    cases hp : n.pfx with
    | none =>
      rw [hp] at h1 h2
      simp only at h1 h2
      rw [h1] at h2
      cases h2
      rfl
    | some p =>
      rw [hp] at h1 h2
      have e1 := resolvePrefix_of hd hm h1
      rw [resolvePrefix_of hd hm h2] at e1
      cases e1
      rfl
  intro ts dflt as bs h
  induction h generalizing bs with
  | nil => intro h'; cases h'; rfl
  | step hu _ ih =>
    intro h'
    cases h' with
    | step hu' h' =>
      have := nm hu hu'
      subst this
      rw [ih h']
  | key hu _ ih =>
    intro h'
    cases h' with
    | key hu' h' => rw [nm hu hu', ih h']
  | self _ ih =>
    intro h'
    cases h' with
    | self h' => rw [ih h']

end InstId
end NcDiff
