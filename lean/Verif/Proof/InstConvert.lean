import Verif.Proof.RefValue
import Verif.Proof.Tree
/-!
# Copying instance-identifiers

An instance-identifier that is written with the prefixes of another node has the same canonical form.
-/

namespace NcDiff
namespace InstId

/-- What `convert` does with the parts of an instance-identifier. -/
def conv (d : Device) (m : NsMap) (dst : Option NsMap) : Option String → List Tok → Except Err (List Char)
  | _, [] => .ok []
  | du, .step n :: r =>
    match nameUrl d m du n with
    | none => .error .configError
    | some u => do
      let x ← compose d dst u n.loc
      let t ← conv d m dst (some u) r
      pure ('/' :: (x ++ t))
  | du, .key n _ c :: r =>
    match nameUrl d m du n with
    | none => .error .configError
    | some u => do
      let x ← compose d dst u n.loc
      let t ← conv d m dst du r
      pure ('[' :: (x ++ '=' :: (litText '\'' c ++ ']' :: t)))
  | du, .self _ c :: r => do
    let t ← conv d m dst du r
    pure ('[' :: '.' :: '=' :: (litText '\'' c ++ ']' :: t))

theorem parse_nameUrl {d : Device} {m : NsMap} {n : Name} (hn : n.Ok) (du : Option String) :
    (∃ u o, nameUrl d m du n = some u ∧ InstId.parse d m n.text = .ok (o, n.loc) ∧ o.or du = some u) ∨
    (nameUrl d m du n = none ∧ (InstId.parse d m n.text = .error .configError ∨
      (InstId.parse d m n.text = .ok (none, n.loc) ∧ du = none))) := by
  unfold nameUrl InstId.parse Name.text
  cases hp : n.pfx with
  | none =>
    simp only [splitLastColon_no_colon hn.colon]
    cases du with
    | none => exact Or.inr ⟨rfl, Or.inr ⟨trivial, rfl⟩⟩
    | some u => exact Or.inl ⟨u, none, rfl, rfl, rfl⟩
  | some p =>
    simp only [splitLastColon_prefixed (hn.2.2 p hp).1 hn.1 hn.colon, resolvePrefix]
    cases h1 : m.url (some (String.ofList p)) with
    | some u => exact Or.inl ⟨u, some u, rfl, rfl, rfl⟩
    | none =>
      cases h2 : nameToUrl d (String.ofList p) with
      | some u => exact Or.inl ⟨u, some u, rfl, rfl, rfl⟩
      | none => exact Or.inr ⟨rfl, Or.inl rfl⟩

theorem conv_eq {d : Device} {m : NsMap} {dst : Option NsMap} : ∀ {ts : List Tok} {du : Option String},
    (∀ t ∈ ts, t.Ok) → NoApostrophe ts →
    (do let ps ← convertPieces d m dst du (pieces3 (ts.map Tok.view))
        pure (ps.flatMap (fun p => p.2.2))) = conv d m dst du ts
  | [], du, _, _ => rfl
  | t :: ts, du, hok, hap => by
    have ih := fun du' => conv_eq (d := d) (m := m) (dst := dst) (ts := ts) (du := du')
      (fun t ht => hok t (List.mem_cons_of_mem _ ht)) (fun t ht => hap t (List.mem_cons_of_mem _ ht))
    cases t with
    | step n =>
      obtain ⟨hn, hdot⟩ := hok _ List.mem_cons_self
      rw [List.map_cons, Tok.view, pieces3, convertPieces]
      simp only [Nat.zero_le, if_true]
      rw [convertPieces]
      simp only [show ¬ (3 ≤ 1) by omega, show ¬ (3 = 2) by omega, if_false]
      rw [conv]
      rcases parse_nameUrl (d := d) (m := m) hn du with ⟨u, o, h1, h2, h3⟩ | ⟨h1, h2⟩
      · simp only [h1, h2, bind, Except.bind, h3]
        cases hc : compose d dst u n.loc with
        | error x => rfl
        | ok x =>
          have := ih (some u)
          simp only [bind, Except.bind] at this
          rw [← this]
          cases convertPieces d m dst (some u) (pieces3 (ts.map Tok.view)) with
          | error y => rfl
          | ok ps => simp [pure, Except.pure]
      · rcases h2 with h2 | ⟨h2, h3⟩
        · simp [h1, h2, bind, Except.bind]
        · subst h3; simp [h1, h2, bind, Except.bind]
    | key n q c =>
      obtain ⟨hn, hdot, hl⟩ := hok _ List.mem_cons_self
      obtain ⟨hlit, hlok⟩ := litConv_eq hl (hap _ List.mem_cons_self)
      have hv := (hok _ List.mem_cons_self).view
      have hnot : ¬ (n.text = ['['] ∨ n.text = [']'] ∨ n.text = ['='] ∨ n.text = ['.']) := by
        obtain ⟨_, hch, _⟩ := hv
        rintro (e | e | e | e)
        · exact hch '[' (by rw [e]; simp) (by simp)
        · exact hch ']' (by rw [e]; simp) (by simp)
        · exact hch '=' (by rw [e]; simp) (by simp)
        · exact hdot e
      rw [List.map_cons, Tok.view, pieces3, predPieces]
      simp only [List.cons_append, List.nil_append]
      rw [convertPieces]
      simp only [show ¬ (2 ≤ 1) by omega, if_false, if_true, true_or]
      rw [convertPieces]
      simp only [show ¬ (2 ≤ 1) by omega, if_false, if_true, hnot]
      rw [convertPieces]
      simp only [show ¬ (2 ≤ 1) by omega, if_false, if_true, true_or, or_true]
      rw [convertPieces]
      simp only [Nat.le_refl, if_true]
      rw [convertPieces]
      simp only [show ¬ (2 ≤ 1) by omega, if_false, if_true, true_or, or_true]
      rw [conv]
      rcases parse_nameUrl (d := d) (m := m) hn du with ⟨u, o, h1, h2, h3⟩ | ⟨h1, h2⟩
      · simp only [h1, h2, bind, Except.bind, h3]
        cases hc : compose d dst u n.loc with
        | error x => rfl
        | ok x =>
          have := ih du
          simp only [bind, Except.bind] at this
          rw [← this]
          cases convertPieces d m dst du (pieces3 (ts.map Tok.view)) with
          | error y => rfl
          | ok ps => simp [pure, Except.pure, hlit]
      · rcases h2 with h2 | ⟨h2, h3⟩
        · simp [h1, h2, bind, Except.bind]
        · subst h3; simp [h1, h2, bind, Except.bind]
    | self q c =>
      have hl := hok _ List.mem_cons_self
      obtain ⟨hlit, hlok⟩ := litConv_eq hl (hap _ List.mem_cons_self)
      rw [List.map_cons, Tok.view, pieces3, predPieces]
      simp only [List.cons_append, List.nil_append]
      rw [convertPieces]
      simp only [show ¬ (2 ≤ 1) by omega, if_false, if_true, true_or]
      rw [convertPieces]
      simp only [show ¬ (2 ≤ 1) by omega, if_false, if_true, or_true]
      rw [convertPieces]
      simp only [show ¬ (2 ≤ 1) by omega, if_false, if_true, true_or, or_true]
      rw [convertPieces]
      simp only [Nat.le_refl, if_true]
      rw [convertPieces]
      simp only [show ¬ (2 ≤ 1) by omega, if_false, if_true, true_or, or_true]
      rw [conv]
      have := ih du
      simp only [bind, Except.bind] at this ⊢
      rw [← this]
      cases convertPieces d m dst du (pieces3 (ts.map Tok.view)) with
      | error y => rfl
      | ok ps => simp [pure, Except.pure, hlit]

theorem convert_eq {d : Device} {tag : QName} {m : NsMap} {dst : Option NsMap} {s : List Char} {ts : List Tok}
    (h : Readable s ts) : InstId.convert d tag m dst s = (do
      let _ ← nodeUrl d tag
      conv d m dst none ts) := by
  obtain ⟨rfl, hne, hok, hap⟩ := h
  rw [← conv_eq hok hap]
  unfold InstId.convert
  rw [tokenize_render hne hok]
  rfl

theorem compose_some {d : Device} {m : NsMap} {u : String} {i x : List Char}
    (h : compose d (some m) u i = .ok x) : ∃ p, (some p, u) ∈ m ∧ x = p.toList ++ ':' :: i := by
  unfold compose at h
  simp only at h
  split at h
  · rename_i p hp
    cases h
    exact ⟨p, (List.mem_filter.mp (NsMap.mem_of_prefixOf hp)).1, rfl⟩
  · cases h

theorem compose_error {d : Device} {m : NsMap} {u : String} {i : List Char} {x : Err}
    (h : compose d (some m) u i = .error x) : x = .configError := by
  unfold compose at h
  simp only at h
  split at h
  · cases h
  · cases h; rfl

theorem name_written {d : Device} {m : NsMap} (hm : NsMapOk m) {p u : String} (hp : (some p, u) ∈ m)
    {n : Name} (hn : n.Ok) (du : Option String) :
    nameUrl d m du ⟨some p.toList, n.loc⟩ = some u ∧ (Name.mk (some p.toList) n.loc).Ok ∧
      ('.' ∉ n.text → '.' ∉ (Name.mk (some p.toList) n.loc).text) ∧
      (Name.mk (some p.toList) n.loc).text ≠ ['.'] := by
  have hpne : p.toList ≠ [] := by
    intro e
    have h2 : p = "" := by rw [← String.ofList_toList (s := p), e]
    exact hm.2.1 _ hp (by rw [h2])
  refine ⟨?_, ⟨hn.1, hn.2.1, ?_⟩, ?_, ?_⟩
  · unfold nameUrl NsMap.url
    simp only [String.ofList_toList, lookup_of_mem hm.1 hp]
  · intro q hq
    cases hq
    exact ⟨hpne, fun c hc => (hm.2.2 _ hp p rfl c hc).1⟩
  · intro hd hc
    simp only [Name.text, List.mem_append, List.mem_cons] at hc
    rcases hc with hc | hc | hc
    · exact (hm.2.2 _ hp p rfl _ hc).2 rfl
    · cases hc
    · apply hd
      unfold Name.text
      cases n.pfx <;> simp [hc]
  · intro e
    have := congrArg List.length e
    have hwl := List.length_pos_iff.mpr hpne
    simp [Name.text] at this
    omega

/-- Writing with the prefixes of another node does not change the canonical form. -/
theorem conv_twice {d : Device} {m m' : NsMap} (hm : NsMapOk m') : ∀ {ts : List Tok} {du : Option String}
    {r : List Char}, (∀ t ∈ ts, t.Ok) → NoApostrophe ts → conv d m (some m') du ts = .ok r →
    ∃ ts', r = render ts' ∧ (ts ≠ [] → ts' ≠ []) ∧ (∀ t ∈ ts', t.Ok) ∧ NoApostrophe ts' ∧
      ∀ du', conv d m' none du' ts' = conv d m none du ts
  | [], du, r, _, _, h => by
    cases h
    exact ⟨[], rfl, fun h => h, by simp, by simp [NoApostrophe], fun _ => rfl⟩
  | t :: ts, du, r, hok, hap, h => by
    have ih := fun du' r' => conv_twice (d := d) (m := m) hm (ts := ts) (du := du') (r := r')
      (fun t ht => hok t (List.mem_cons_of_mem _ ht)) (fun t ht => hap t (List.mem_cons_of_mem _ ht))
    cases t with
    | step n =>
      obtain ⟨hn, hdot⟩ := hok _ List.mem_cons_self
      rw [conv] at h
      cases hu : nameUrl d m du n with
      | none => simp [hu] at h
      | some u =>
        simp only [hu] at h
        obtain ⟨x, hx, h⟩ := bind_ok.1 h
        obtain ⟨t, ht, h⟩ := bind_ok.1 h
        cases h
        obtain ⟨p, hp, rfl⟩ := compose_some hx
        obtain ⟨ts', rfl, _, hok', hap', hc⟩ := ih _ _ ht
        have nw := fun du' => name_written (d := d) hm hp hn du'
        refine ⟨.step ⟨some p.toList, n.loc⟩ :: ts', by simp [render, Tok.text, Name.text], by simp, ?_, ?_, ?_⟩
        · intro t ht
          rcases List.mem_cons.mp ht with rfl | ht
          · exact ⟨(nw none).2.1, (nw none).2.2.1 hdot⟩
          · exact hok' t ht
        · intro t ht
          rcases List.mem_cons.mp ht with rfl | ht
          · trivial
          · exact hap' t ht
        · intro du'
          rw [conv, conv]
          simp only [hu, (nw du').1, hc]
    | key n q c =>
      obtain ⟨hn, hdot, hl⟩ := hok _ List.mem_cons_self
      obtain ⟨_, hlok⟩ := litConv_eq hl (hap _ List.mem_cons_self)
      rw [conv] at h
      cases hu : nameUrl d m du n with
      | none => simp [hu] at h
      | some u =>
        simp only [hu] at h
        obtain ⟨x, hx, h⟩ := bind_ok.1 h
        obtain ⟨t, ht, h⟩ := bind_ok.1 h
        cases h
        obtain ⟨p, hp, rfl⟩ := compose_some hx
        obtain ⟨ts', rfl, _, hok', hap', hc⟩ := ih _ _ ht
        have nw := fun du' => name_written (d := d) hm hp hn du'
        refine ⟨.key ⟨some p.toList, n.loc⟩ '\'' c :: ts',
          by simp [render, Tok.text, Name.text, litText], by simp, ?_, ?_, ?_⟩
        · intro t ht
          rcases List.mem_cons.mp ht with rfl | ht
          · exact ⟨(nw none).2.1, (nw none).2.2.2, hlok⟩
          · exact hok' t ht
        · intro t ht
          rcases List.mem_cons.mp ht with rfl | ht
          · intro e; exact absurd e (by decide)
          · exact hap' t ht
        · intro du'
          rw [conv, conv]
          simp only [hu, (nw du').1, hc]
    | self q c =>
      have hl := hok _ List.mem_cons_self
      obtain ⟨_, hlok⟩ := litConv_eq hl (hap _ List.mem_cons_self)
      rw [conv] at h
      obtain ⟨t, ht, h⟩ := bind_ok.1 h
      cases h
      obtain ⟨ts', rfl, _, hok', hap', hc⟩ := ih _ _ ht
      refine ⟨.self '\'' c :: ts', by simp [render, Tok.text, litText], by simp, ?_, ?_, ?_⟩
      · intro t ht
        rcases List.mem_cons.mp ht with rfl | ht
        · exact hlok
        · exact hok' t ht
      · intro t ht
        rcases List.mem_cons.mp ht with rfl | ht
        · intro e; exact absurd e (by decide)
        · exact hap' t ht
      · intro du'
        rw [conv, conv]
        simp only [hc]

/-- The namespaces that are used have prefixes where the value was written. -/
theorem conv_used {d : Device} {m m' : NsMap} : ∀ {ts : List Tok} {du : Option String}
    {r : List Char}, conv d m (some m') du ts = .ok r → ∀ u ∈ used d m du ts, ∃ p, (some p, u) ∈ m'
  | [], du, r, _ => by simp [used]
  | t :: ts, du, r, h => by
    have ih := fun du' r' => conv_used (d := d) (m := m) (m' := m') (ts := ts) (du := du') (r := r')
    intro v hv
    cases t with
    | step n =>
      rw [conv] at h
      cases hu : nameUrl d m du n with
      | none => simp [hu] at h
      | some u =>
        simp only [hu] at h
        obtain ⟨x, hx, h⟩ := bind_ok.1 h
        obtain ⟨t, ht, _⟩ := bind_ok.1 h
        obtain ⟨p, hp, _⟩ := compose_some hx
        simp only [used, hu, Option.toList_some, List.cons_append, List.nil_append, List.mem_cons] at hv
        rcases hv with rfl | hv
        · exact ⟨p, hp⟩
        · exact ih _ _ ht v hv
    | key n q c =>
      rw [conv] at h
      cases hu : nameUrl d m du n with
      | none => simp [hu] at h
      | some u =>
        simp only [hu] at h
        obtain ⟨x, hx, h⟩ := bind_ok.1 h
        obtain ⟨t, ht, _⟩ := bind_ok.1 h
        obtain ⟨p, hp, _⟩ := compose_some hx
        simp only [used, hu, Option.toList_some, List.cons_append, List.nil_append, List.mem_cons] at hv
        rcases hv with rfl | hv
        · exact ⟨p, hp⟩
        · exact ih _ _ ht v hv
    | self q c =>
      rw [conv] at h
      obtain ⟨t, ht, _⟩ := bind_ok.1 h
      exact ih _ _ ht v hv

/-- A value that has a canonical form can be written where its namespaces have prefixes. -/
theorem conv_writable {d : Device} {m m' : NsMap} : ∀ {ts : List Tok} {du : Option String}
    {r : List Char}, conv d m none du ts = .ok r → (∀ u ∈ used d m du ts, ∃ p, (some p, u) ∈ m') →
    ∃ r', conv d m (some m') du ts = .ok r'
  | [], du, r, _, _ => ⟨[], rfl⟩
  | t :: ts, du, r, h, hw => by
    have ih := fun du' r' => conv_writable (d := d) (m := m) (m' := m') (ts := ts) (du := du') (r := r')
    cases t with
    | step n =>
      rw [conv] at h ⊢
      cases hu : nameUrl d m du n with
      | none => simp [hu] at h
      | some u =>
        simp only [hu] at h
        obtain ⟨x, hx, h⟩ := bind_ok.1 h
        obtain ⟨t, ht, _⟩ := bind_ok.1 h
        simp only [used, hu, Option.toList_some, List.cons_append, List.nil_append, List.mem_cons] at hw
        obtain ⟨r', hr⟩ := ih _ _ ht (fun v hv => hw v (Or.inr hv))
        have := (compose_ok (d := d) (dst := some m') (hw u (Or.inl rfl)) n.loc).1
        simp only [this, hr, bind, Except.bind, pure, Except.pure]
        exact ⟨_, rfl⟩
    | key n q c =>
      rw [conv] at h ⊢
      cases hu : nameUrl d m du n with
      | none => simp [hu] at h
      | some u =>
        simp only [hu] at h
        obtain ⟨x, hx, h⟩ := bind_ok.1 h
        obtain ⟨t, ht, _⟩ := bind_ok.1 h
        simp only [used, hu, Option.toList_some, List.cons_append, List.nil_append, List.mem_cons] at hw
        obtain ⟨r', hr⟩ := ih _ _ ht (fun v hv => hw v (Or.inr hv))
        have := (compose_ok (d := d) (dst := some m') (hw u (Or.inl rfl)) n.loc).1
        simp only [this, hr, bind, Except.bind, pure, Except.pure]
        exact ⟨_, rfl⟩
    | self q c =>
      rw [conv] at h ⊢
      obtain ⟨t, ht, _⟩ := bind_ok.1 h
      obtain ⟨r', hr⟩ := ih _ _ ht hw
      simp only [hr, bind, Except.bind, pure, Except.pure]
      exact ⟨_, rfl⟩

theorem conv_error {d : Device} {m m' : NsMap} : ∀ {ts : List Tok} {du : Option String}
    {x : Err}, conv d m (some m') du ts = .error x → x = .configError
  | [], du, x, h => by cases h
  | t :: ts, du, x, h => by
    have ih := fun du' => conv_error (d := d) (m := m) (m' := m') (ts := ts) (du := du') (x := x)
    cases t with
    | step n =>
      rw [conv] at h
      cases hu : nameUrl d m du n with
      | none => simp only [hu] at h; cases h; rfl
      | some u =>
        simp only [hu, bind, Except.bind] at h
        cases hc : compose d (some m') u n.loc with
        | error y => simp only [hc] at h; cases h; exact compose_error hc
        | ok y =>
          simp only [hc] at h
          cases ht : conv d m (some m') (some u) ts with
          | error y => simp only [ht] at h; cases h; exact ih _ ht
          | ok y => simp [ht, pure, Except.pure] at h
    | key n q c =>
      rw [conv] at h
      cases hu : nameUrl d m du n with
      | none => simp only [hu] at h; cases h; rfl
      | some u =>
        simp only [hu, bind, Except.bind] at h
        cases hc : compose d (some m') u n.loc with
        | error y => simp only [hc] at h; cases h; exact compose_error hc
        | ok y =>
          simp only [hc] at h
          cases ht : conv d m (some m') du ts with
          | error y => simp only [ht] at h; cases h; exact ih _ ht
          | ok y => simp [ht, pure, Except.pure] at h
    | self q c =>
      rw [conv] at h
      simp only [bind, Except.bind] at h
      cases ht : conv d m (some m') du ts with
      | error y => simp only [ht] at h; cases h; exact ih _ ht
      | ok y => simp [ht, pure, Except.pure] at h

end InstId

/-- Merging a leaf gives it the value of the source. -/
theorem mergeText_value {d : Device} {sn : SNode} {k s e : Elem} (hv : LeafValueOk sn k)
    (hs : NsMapOk s.nsmap) (ht : k.tag = s.tag) (h : mergeText d sn k s = .ok e) :
    parseText d e sn = parseText d k sn := by
  unfold mergeText at h
  cases hk : k.text with
  | none =>
    simp only [hk, Except.ok.injEq] at h; subst h
    unfold parseText; simp [hk]
  | some t =>
    simp only [hk] at h
    rcases hv with hv | ⟨hv, htx⟩ | ⟨hv, htx⟩
    · have : e = s.setText (some t) := by
        cases hd : sn.info.datatype <;> simp_all [DType.plain]
      subst this
      unfold parseText
      simp only [Elem.text_setText, hk]
      cases hd : sn.info.datatype <;> simp_all [DType.plain]
    · simp only [hv] at h
      unfold IdentityRef.converted at h
      simp only [bind, Except.bind] at h
      cases hn : nodeUrl d k.tag with
      | error x => simp [hn] at h
      | ok self =>
        cases hp : IdentityRef.parse d k.nsmap t.toList with
        | error x => simp [hn, hp] at h
        | ok ui =>
          obtain ⟨u, i⟩ := ui
          cases hc : IdentityRef.composeTo s.nsmap u i with
          | error x => simp [hn, hp, hc] at h
          | ok s' =>
            simp only [hn, hp, hc, pure, Except.pure, Except.ok.injEq] at h
            subst h
            have hp' := parse_composeTo hs (htx t hk) hp hc
            unfold parseText
            simp only [Elem.text_setText, hk, hv, IdentityRef.default, Elem.tag_setText, Elem.nsmap_setText,
              ← ht, String.toList_ofList, hn, hp, hp', bind, Except.bind]
    · obtain ⟨ts, hr⟩ := htx t hk
      simp only [hv, InstId.convert_eq hr] at h
      obtain ⟨r, h1, h2⟩ := bind_ok.1 h
      cases h2
      obtain ⟨self, hn, hc⟩ := bind_ok.1 h1
      obtain ⟨ts', rfl, hne, hok, hap, hc'⟩ := InstId.conv_twice hs hr.2.2.1 hr.2.2.2 hc
      have hr' : InstId.Readable (InstId.render ts') ts' := ⟨rfl, hne hr.2.1, hok, hap⟩
      unfold parseText
      simp only [Elem.text_setText, hk, hv, Elem.tag_setText, Elem.nsmap_setText, ← ht,
        String.toList_ofList, InstId.convert_eq hr, InstId.convert_eq hr', hc']

end NcDiff
