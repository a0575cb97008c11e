import Verif.Proof.RefValue
/-!
# Doubled quotation marks in instance-identifiers
-/

namespace NcDiff
namespace InstId

/-- The part with the text between the quotation marks instead of the value. -/
def Tok.raw : Tok → Tok
  | .step n => .step n
  | .key n q c => .key n q (doubled q c)
  | .self q c => .self q (doubled q c)

theorem Tok.raw_text (t : Tok) : t.raw.text = t.text2 := by cases t <;> rfl

theorem render_raw (ts : List Tok) : render (ts.map Tok.raw) = render2 ts := by
  simp [render, render2, List.flatMap_map, Tok.raw_text]

theorem Tok.Ok2.view {t : Tok} (h : t.Ok2) : t.raw.view.Ok := by
  cases t with
  | step n => exact Tok.Ok.view (t := .step n) h
  | key n q c =>
    have h' : (Tok.key n '\'' []).Ok := ⟨h.1, h.2.1, .inl rfl, by simp⟩
    obtain ⟨h1, h2, _⟩ := h'.view
    exact ⟨h1, h2, h.2.2.1, c, rfl, h.2.2.2⟩
  | self q c =>
    have h' : (Tok.self '\'' []).Ok := ⟨.inl rfl, by simp⟩
    obtain ⟨h1, h2, _⟩ := h'.view
    exact ⟨h1, h2, h.1, c, rfl, h.2⟩

theorem tokenize_render2 {ts : List Tok} (hne : ts ≠ []) (hok : ∀ t ∈ ts, t.Ok2) :
    tokenize (render2 ts) = .ok (pieces3 (ts.map (fun t => t.raw.view))) := by
  have h : vtext (ts.map (fun t => t.raw.view)) = render2 ts := by
    simp [vtext, render2, List.flatMap_map, Tok.view_text, Tok.raw_text]
  rw [← h]
  apply tokenize_ok (by simpa using hne)
  intro v hv
  obtain ⟨t, ht, rfl⟩ := List.mem_map.mp hv
  exact (hok t ht).view

theorem doubleApos_eq : ∀ c, doubleApos c = doubled '\'' c
  | [] => rfl
  | x :: c => by
    by_cases hx : x = '\''
    · subst hx; rw [doubleApos, doubleApos_eq c]; simp [doubled]
    · rw [doubled, if_neg hx, ← doubleApos_eq c]
      unfold doubleApos
      split
      · rename_i heq; cases heq
      · rename_i heq; cases heq; exact absurd rfl hx
      · rename_i heq; cases heq; rw [← doubleApos.eq_def]

theorem halve_doubled : ∀ c, halveQuote (doubled '\'' (doubled '"' c)) = doubled '\'' c
  | [] => rfl
  | x :: c => by
    by_cases hx : x = '"'
    · subst hx
      simp only [doubled, if_true, show ¬ ('"' = '\'') by decide, if_false]
      rw [halveQuote, halve_doubled c]
    · have h1 : ∀ (y : Char) (l : List Char), y ≠ '"' → halveQuote (y :: l) = y :: halveQuote l := by
        intro y l hy
        rw [halveQuote.eq_def]
        split
        · rename_i heq; cases heq; exact absurd rfl hy
        · rename_i heq; cases heq; rfl
        · rename_i heq; cases heq
      by_cases ha : x = '\''
      · subst ha
        simp only [doubled, if_true, show ¬ ('\'' = '"') by decide, if_false]
        rw [h1 _ _ (by decide), h1 _ _ (by decide), halve_doubled c]
      · simp only [doubled, hx, ha, if_false]
        rw [h1 _ _ hx, halve_doubled c]

theorem litConv_doubled {q : Char} {c : List Char} (hq : q = '\'' ∨ q = '"') :
    litConv q (doubled q c) = litText '\'' (doubled '\'' c) := by
  unfold litConv
  rcases hq with rfl | rfl
  · simp
  · simp only [if_true]
    unfold convertLiteral litText
    rw [List.drop_one, List.tail_cons, List.dropLast_concat, doubleApos_eq, halve_doubled]

/-- Parts as they are written. -/
def Tok.Spelled : Tok → Prop
  | .step n => n.Ok
  | .key n q _ => n.Ok ∧ n.text ≠ ['.'] ∧ q = '\''
  | .self q _ => q = '\''

theorem Name.Ok.ends {n : Name} (h : n.Ok) : ∀ x ∈ n.text, x ≠ '/' ∧ x ≠ '[' ∧ x ≠ '=' := by
  intro x hx
  rcases h.chars x hx with rfl | h'
  · decide
  · simp only [reserved, List.mem_cons, not_or] at h'
    tauto

theorem Name.Ok.inj {n n' : Name} (h : n.Ok) (h' : n'.Ok) (e : n.text = n'.text) : n = n' := by
  by_cases hd : n.text = ['.']
  · have h1 := n
    rcases n with ⟨p, l⟩
    rcases n' with ⟨p', l'⟩
    have hn : ∀ {p : Option (List Char)} {l : List Char}, (Name.mk p l).text = ['.'] → p = none ∧ l = ['.'] := by
      intro p l hh
      cases p with
      | none => exact ⟨rfl, hh⟩
      | some p =>
        have : ':' ∈ (Name.mk (some p) l).text := by simp [Name.text]
        rw [hh] at this
        simp at this
    obtain ⟨rfl, rfl⟩ := hn hd
    obtain ⟨rfl, rfl⟩ := hn (e ▸ hd)
    rfl
  · have := view_inj (t := .key n '\'' []) (t' := .key n' '\'' []) ⟨h, hd, .inl rfl, by simp⟩
      ⟨h', by rw [← e]; exact hd, .inl rfl, by simp⟩ (by simp [Tok.view, e])
    cases this
    rfl

/-- Converting keeps the meaning. -/
theorem convertPieces_ok2 {d : Device} (hd : NamesOk d) {m : NsMap} (hm : (m.map Prod.fst).Nodup)
    {dst : Option NsMap} (hp : PrefixesOk d dst) :
    ∀ {ts : List Tok} {as : List Abs} {dflt : Option String}, Means d m dflt ts as →
      (∀ t ∈ ts, t.Ok2) → (∀ u ∈ urls as, Writable d dst u) →
      ∃ ps, convertPieces d m dst dflt (pieces3 (ts.map (fun t => t.raw.view))) = .ok ps ∧
        ps.flatMap (fun p => p.2.2) = render2 (spell d dst as) ∧
        (∀ t ∈ spell d dst as, t.Spelled) ∧
        (∀ dflt', Means d (target dst) dflt' (spell d dst as) as) := by
  intro ts as dflt h
  induction h with
  | nil =>
    intro _ _
    exact ⟨[], rfl, rfl, by simp [spell], fun _ => .nil⟩
  | @step dflt n u ts as hu _ ih =>
    intro hok hw
    obtain ⟨hn, hdot⟩ := hok _ List.mem_cons_self
    obtain ⟨o, hparse, ho⟩ := parse_name hd hm hn hu
    obtain ⟨hcomp, hmean⟩ := compose_ok (hw u (by simp [urls])) n.loc
    generalize hw' : pfxFor d dst u = w at hcomp hmean
    obtain ⟨ps, h1, h2, h3, h4⟩ := ih (fun t ht => hok t (List.mem_cons_of_mem _ ht))
      (fun u' hu' => hw u' (by simp [urls, hu']))
    refine ⟨(['/'], 0, ['/']) :: (n.text, 3, w ++ ':' :: n.loc) :: ps, ?_, ?_, ?_, ?_⟩
    · rw [List.map_cons, Tok.raw, Tok.view, pieces3, convertPieces]
      simp only [Nat.zero_le, if_true]
      rw [convertPieces]
      simp only [show ¬ (3 ≤ 1) by omega, show ¬ (3 = 2) by omega, if_false, hparse, bind,
        Except.bind, ho, hcomp, h1]
      rfl
    · simp [h2, render2, Tok.text2, Name.text, spell, hw']
    · intro t ht
      simp only [spell] at ht
      rcases List.mem_cons.mp ht with rfl | ht
      · rw [hw']; exact new_name hp hmean hn
      · exact h3 t ht
    · intro dflt'
      rw [spell, hw']
      exact .step (n := ⟨some w, n.loc⟩) hmean (h4 _)
  | @key dflt n u q c ts as hu _ ih =>
    intro hok hw
    have hv := (hok _ List.mem_cons_self).view
    obtain ⟨hn, hdot, hl⟩ := hok _ List.mem_cons_self
    obtain ⟨o, hparse, ho⟩ := parse_name hd hm hn hu
    obtain ⟨hcomp, hmean⟩ := compose_ok (hw u (by simp [urls])) n.loc
    generalize hw' : pfxFor d dst u = w at hcomp hmean
    obtain ⟨ps, h1, h2, h3, h4⟩ := ih (fun t ht => hok t (List.mem_cons_of_mem _ ht))
      (fun u' hu' => hw u' (by simp [urls, hu']))
    have hlit := litConv_doubled (c := c) hl.1
    have hnot : ¬ (n.text = ['['] ∨ n.text = [']'] ∨ n.text = ['='] ∨ n.text = ['.']) := by
      obtain ⟨_, hch, _⟩ := hv
      rintro (e | e | e | e)
      · exact hch '[' (by rw [e]; simp) (by simp)
      · exact hch ']' (by rw [e]; simp) (by simp)
      · exact hch '=' (by rw [e]; simp) (by simp)
      · exact hdot e
    refine ⟨[(['['], 2, ['[']), (n.text, 2, w ++ ':' :: n.loc), (['='], 2, ['=']),
      (litText q (doubled q c), 1, litConv q (doubled q c)), ([']'], 2, [']'])] ++ ps,
      ?_, ?_, ?_, ?_⟩
    · rw [List.map_cons, Tok.raw, Tok.view, pieces3, predPieces]
      simp only [List.cons_append, List.nil_append]
      rw [convertPieces]
      simp only [show ¬ (2 ≤ 1) by omega, if_false, if_true, true_or]
      rw [convertPieces]
      simp only [show ¬ (2 ≤ 1) by omega, if_false, if_true, hnot, hparse, bind,
        Except.bind, ho, hcomp]
      rw [convertPieces]
      simp only [show ¬ (2 ≤ 1) by omega, if_false, if_true, true_or, or_true, bind, Except.bind]
      rw [convertPieces]
      simp only [Nat.le_refl, if_true, bind, Except.bind]
      rw [convertPieces]
      simp only [show ¬ (2 ≤ 1) by omega, if_false, if_true, true_or, or_true, bind, Except.bind,
        h1]
      rfl
    · simp [h2, render2, Tok.text2, Name.text, hlit, litText, spell, hw']
    · intro t ht
      simp only [spell] at ht
      rcases List.mem_cons.mp ht with rfl | ht
      · rw [hw']
        refine ⟨new_name hp hmean hn, ?_, rfl⟩
        intro e
        have := congrArg List.length e
        have hwl := List.length_pos_iff.mpr (hp w u hmean).1
        simp [Name.text] at this
        omega
      · exact h3 t ht
    · intro dflt'
      rw [spell, hw']
      exact .key (n := ⟨some w, n.loc⟩) hmean (h4 _)
  | @self dflt q c ts as _ ih =>
    intro hok hw
    have hl := hok _ List.mem_cons_self
    obtain ⟨ps, h1, h2, h3, h4⟩ := ih (fun t ht => hok t (List.mem_cons_of_mem _ ht))
      (fun u' hu' => hw u' (by simpa [urls] using hu'))
    have hlit := litConv_doubled (c := c) hl.1
    refine ⟨[(['['], 2, ['[']), (['.'], 2, ['.']), (['='], 2, ['=']),
      (litText q (doubled q c), 1, litConv q (doubled q c)), ([']'], 2, [']'])] ++ ps,
      ?_, ?_, ?_, ?_⟩
    · rw [List.map_cons, Tok.raw, Tok.view, pieces3, predPieces]
      simp only [List.cons_append, List.nil_append]
      rw [convertPieces]
      simp only [show ¬ (2 ≤ 1) by omega, if_false, if_true, true_or]
      rw [convertPieces]
      simp only [show ¬ (2 ≤ 1) by omega, if_false, if_true, or_true, bind, Except.bind]
      rw [convertPieces]
      simp only [show ¬ (2 ≤ 1) by omega, if_false, if_true, true_or, or_true, bind, Except.bind]
      rw [convertPieces]
      simp only [Nat.le_refl, if_true, bind, Except.bind]
      rw [convertPieces]
      simp only [show ¬ (2 ≤ 1) by omega, if_false, if_true, true_or, or_true, bind, Except.bind,
        h1]
      rfl
    · simp [h2, render2, Tok.text2, hlit, litText, spell]
    · intro t ht
      simp only [spell] at ht
      rcases List.mem_cons.mp ht with rfl | ht
      · rfl
      · exact h3 t ht
    · intro dflt'
      exact .self (h4 _)

/-! ## One reading -/

theorem lit_end {q : Char} (hq : q ≠ ']') : ∀ {c c' r r' : List Char},
    doubled q c ++ q :: ']' :: r = doubled q c' ++ q :: ']' :: r' → c = c' ∧ r = r'
  | [], [], r, r', h => by simpa [doubled] using h
  | [], x :: c', r, r', h => by
    rw [doubled, doubled] at h
    split at h
    · simp at h; exact absurd h.1.symm hq
    · next hx => simp at h; exact absurd h.1.symm hx
  | x :: c, [], r, r', h => by
    rw [doubled, doubled] at h
    split at h
    · simp at h; exact absurd h.1 hq
    · next hx => simp at h; exact absurd h.1 hx
  | x :: c, y :: c', r, r', h => by
    rw [doubled, doubled] at h
    split at h <;> split at h
    · next hx hy =>
      simp only [List.cons_append, List.cons.injEq, true_and] at h
      obtain ⟨rfl, rfl⟩ := lit_end hq h
      exact ⟨by rw [hx, hy], rfl⟩
    · next hx hy => simp at h; exact absurd h.1.symm hy
    · next hx hy => simp at h; exact absurd h.1 hx
    · simp only [List.cons_append, List.cons.injEq] at h
      obtain ⟨rfl, rfl⟩ := lit_end hq h.2
      exact ⟨by rw [h.1], rfl⟩

/-- A text ends where a character of another kind follows. -/
theorem text_end {P : Char → Prop} : ∀ {a a' b b' : List Char}, (∀ x ∈ a, P x) → (∀ x ∈ a', P x) →
    (∀ x, b.head? = some x → ¬ P x) → (∀ x, b'.head? = some x → ¬ P x) → a ++ b = a' ++ b' → a = a' ∧ b = b'
  | [], [], _, _, _, _, _, _, h => ⟨rfl, h⟩
  | [], x :: a', b, b', _, h2, h3, _, h => by
    rw [List.nil_append] at h
    exact absurd (h2 x List.mem_cons_self) (h3 x (by rw [h]; rfl))
  | x :: a, [], b, b', h1, _, _, h4, h => by
    rw [List.nil_append] at h
    exact absurd (h1 x List.mem_cons_self) (h4 x (by rw [← h]; rfl))
  | x :: a, y :: a', b, b', h1, h2, h3, h4, h => by
    rw [List.cons_append, List.cons_append, List.cons.injEq] at h
    obtain ⟨e1, e2⟩ := text_end (fun z hz => h1 z (List.mem_cons_of_mem _ hz))
      (fun z hz => h2 z (List.mem_cons_of_mem _ hz)) h3 h4 h.2
    exact ⟨by rw [h.1, e1], e2⟩

theorem render2_head (ts : List Tok) : ∀ x, (render2 ts).head? = some x → x = '/' ∨ x = '[' := by
  intro x hx
  cases ts with
  | nil => simp [render2] at hx
  | cons t ts => cases t <;> simp [render2, Tok.text2] at hx <;> subst hx <;> simp

theorem render2_inj : ∀ {ts us : List Tok}, (∀ t ∈ ts, t.Spelled) → (∀ t ∈ us, t.Spelled) → render2 ts = render2 us →
    ts = us
  | [], [], _, _, _ => rfl
  | [], u :: us, _, _, h => by cases u <;> simp [render2, Tok.text2] at h
  | t :: ts, [], _, _, h => by cases t <;> simp [render2, Tok.text2] at h
  | t :: ts, u :: us, h1, h2, h => by
    have ih := fun e => render2_inj (fun x hx => h1 x (List.mem_cons_of_mem _ hx))
      (fun x hx => h2 x (List.mem_cons_of_mem _ hx)) (e : render2 ts = render2 us)
    have ht := h1 t List.mem_cons_self
    have hu := h2 u List.mem_cons_self
    have hdot : ∀ {n : Name}, n.Ok → n.text ≠ ['.'] → ∀ (a b : List Char), n.text ++ '=' :: a ≠ '.' :: '=' :: b := by
      intro n hn hd a b e
      have := (text_end (P := fun x => x ≠ '=') (a := n.text) (a' := ['.']) (fun x hx => (hn.ends x hx).2.2) (by simp) (by simp)
        (by simp) (show n.text ++ '=' :: a = ['.'] ++ '=' :: b from e)).1
      exact hd this
    cases t with
    | step n =>
      cases u with
      | step n' =>
        have h' : n.text ++ render2 ts = n'.text ++ render2 us := by simpa [render2, Tok.text2] using h
        obtain ⟨e1, e2⟩ := text_end (P := fun x => x ≠ '/' ∧ x ≠ '[') (fun x hx => ⟨(Name.Ok.ends ht x hx).1, (Name.Ok.ends ht x hx).2.1⟩)
          (fun x hx => ⟨(Name.Ok.ends hu x hx).1, (Name.Ok.ends hu x hx).2.1⟩)
          (fun x hx hn => (render2_head ts x hx).elim hn.1 hn.2)
          (fun x hx hn => (render2_head us x hx).elim hn.1 hn.2) h'
        rw [Name.Ok.inj ht hu e1, ih e2]
      | key n' q' c' => simp [render2, Tok.text2] at h
      | self q' c' => simp [render2, Tok.text2] at h
    | key n q c =>
      cases u with
      | step n' => simp [render2, Tok.text2] at h
      | key n' q' c' =>
        obtain ⟨hn, _, rfl⟩ := ht
        obtain ⟨hn', _, rfl⟩ := hu
        have h' : n.text ++ '=' :: '\'' :: (doubled '\'' c ++ '\'' :: ']' :: render2 ts) =
            n'.text ++ '=' :: '\'' :: (doubled '\'' c' ++ '\'' :: ']' :: render2 us) := by
          simpa [render2, Tok.text2] using h
        obtain ⟨e1, e2⟩ := text_end (P := fun x => x ≠ '=') (fun x hx => (hn.ends x hx).2.2) (fun x hx => (hn'.ends x hx).2.2)
          (by simp) (by simp) h'
        rw [List.cons.injEq, List.cons.injEq] at e2
        obtain ⟨e3, e4⟩ := lit_end (by decide) e2.2.2
        rw [hn.inj hn' e1, e3, ih e4]
      | self q' c' =>
        have h' : n.text ++ '=' :: (q :: (doubled q c ++ q :: ']' :: render2 ts)) =
            '.' :: '=' :: (q' :: (doubled q' c' ++ q' :: ']' :: render2 us)) := by
          simpa [render2, Tok.text2] using h
        exact absurd h' (hdot ht.1 ht.2.1 _ _)
    | self q c =>
      cases u with
      | step n' => simp [render2, Tok.text2] at h
      | key n' q' c' =>
        have h' : n'.text ++ '=' :: (q' :: (doubled q' c' ++ q' :: ']' :: render2 us)) =
            '.' :: '=' :: (q :: (doubled q c ++ q :: ']' :: render2 ts)) := by
          simpa [render2, Tok.text2] using h.symm
        exact absurd h' (hdot hu.1 hu.2.1 _ _)
      | self q' c' =>
        cases ht
        cases hu
        have h' : doubled '\'' c ++ '\'' :: ']' :: render2 ts = doubled '\'' c' ++ '\'' :: ']' :: render2 us := by
          simpa [render2, Tok.text2] using h
        obtain ⟨e3, e4⟩ := lit_end (by decide) h'
        rw [e3, ih e4]

/-! ## What is refused -/

/-- The loop gets behind complete parts. -/
theorem quoteLoop_reach {s tail : List Char} : ∀ (vs : List V) (_ : ∀ v ∈ vs, v.Ok) (idx : Nat) (st : QState),
    st.start = none → st.escape = none → s.drop idx = vtext vs ++ tail →
    ∃ st', st'.start = none ∧ st'.escape = none ∧
      quoteLoop s idx (vtext vs ++ tail) st = quoteLoop s (idx + (vtext vs).length) tail st'
  | [], _, idx, st, h1, h2, _ => ⟨st, h1, h2, by simp [vtext]⟩
  | .step n :: r, hok, idx, st, h1, h2, h5 => by
    obtain ⟨hn, hch⟩ := hok _ List.mem_cons_self
    have e : vtext (.step n :: r) ++ tail = ('/' :: n) ++ (vtext r ++ tail) := by simp [vtext, V.text]
    rw [e] at h5 ⊢
    rw [quoteLoop_skip h1 _ _ _ (by
      intro x hx
      rcases List.mem_cons.mp hx with rfl | hx
      · decide
      · intro e; exact hch x hx (by simp [e]))]
    obtain ⟨st', g1, g2, g3⟩ := quoteLoop_reach r (fun v hv => hok v (List.mem_cons_of_mem _ hv))
      (idx + ('/' :: n).length) st h1 h2 (by rw [← List.drop_drop, h5, List.drop_left])
    refine ⟨st', g1, g2, g3.trans ?_⟩
    congr 1
    simp [vtext, V.text]; omega
  | .pred h q c :: r, hok, idx, st, h1, h2, h5 => by
    obtain ⟨hn, hch, hlit⟩ := hok _ List.mem_cons_self
    have e : vtext (.pred h q c :: r) ++ tail =
        ('[' :: h) ++ ('=' :: (litText q c ++ (']' :: (vtext r ++ tail)))) := by
      simp [vtext, V.text]
    rw [e] at h5 ⊢
    rw [quoteLoop_skip h1 _ _ _ (by
      intro x hx
      rcases List.mem_cons.mp hx with rfl | hx
      · decide
      · intro e; exact hch x hx (by simp [e]))]
    have hdrop : s.drop (idx + ('[' :: h).length) = '=' :: (litText q c ++ (']' :: (vtext r ++ tail))) := by
      rw [← List.drop_drop, h5, List.drop_left]
    have hqne : (']' :: (vtext r ++ tail)).head? ≠ some q := by
      rcases hlit.1 with rfl | rfl <;> simp
    rw [quoteLoop_lit hlit hqne h1 h2 hdrop]
    have e2 := fun st (hst : QState.start st = none) => quoteLoop_skip (s := s) hst [']'] (vtext r ++ tail)
      (idx + ('[' :: h).length + 1 + (litText q c).length) (by simp)
    rw [List.singleton_append] at e2
    rw [e2 _ rfl]
    obtain ⟨st', g1, g2, g3⟩ := quoteLoop_reach r (fun v hv => hok v (List.mem_cons_of_mem _ hv))
      (idx + ('[' :: h).length + 1 + (litText q c).length + [']'].length)
      { st with
          start := none
          quote := q
          pieces := cut (idx + ('[' :: h).length + 1)
            (idx + ('[' :: h).length + 1 + (litText q c).length) (litConv q c) 1 0 st.pieces }
      rfl h2
      (by
        rw [show idx + ('[' :: h).length + 1 + (litText q c).length + [']'].length =
          idx + ('[' :: h).length + ('=' :: (litText q c ++ [']'])).length by simp; omega]
        rw [← List.drop_drop, hdrop]
        rw [show '=' :: (litText q c ++ ']' :: (vtext r ++ tail)) =
          ('=' :: (litText q c ++ [']'])) ++ (vtext r ++ tail) by simp]
        rw [List.drop_left])
    refine ⟨st', g1, g2, g3.trans ?_⟩
    congr 1
    simp [vtext, V.text]; omega

theorem quoteLoop_render {ts : List Tok} (hok : ∀ t ∈ ts, t.Ok2) {h : List Char} (hh : '=' ∉ h) (tail : List Char)
    (ps : List Piece) : ∃ st : QState, st.start = none ∧ st.escape = none ∧ ∃ idx,
      quoteLoop (render2 ts ++ (h ++ '=' :: tail)) 0 (render2 ts ++ (h ++ '=' :: tail)) { pieces := ps } =
        quoteLoop (render2 ts ++ (h ++ '=' :: tail)) idx ('=' :: tail) st := by
  have hv : vtext (ts.map (fun t => t.raw.view)) = render2 ts := by
    simp [vtext, render2, List.flatMap_map, Tok.view_text, Tok.raw_text]
  have hok' : ∀ v ∈ ts.map (fun t => t.raw.view), v.Ok := by
    intro v hv
    obtain ⟨t, ht, rfl⟩ := List.mem_map.mp hv
    exact (hok t ht).view
  obtain ⟨st, h1, h2, h3⟩ := quoteLoop_reach (s := render2 ts ++ (h ++ '=' :: tail)) (tail := h ++ '=' :: tail) _ hok' 0
    { pieces := ps } rfl rfl (by rw [hv]; rfl)
  rw [hv] at h3
  refine ⟨st, h1, h2, _, h3.trans (quoteLoop_skip h1 h ('=' :: tail) _ ?_)⟩
  intro c hc e
  exact hh (e ▸ hc)

/-- A literal that is not closed. -/
theorem parseQuote_open {ts : List Tok} (hok : ∀ t ∈ ts, t.Ok2) {h : List Char} (hh : '=' ∉ h) {q : Char}
    (hq : q = '\'' ∨ q = '"') {r : List Char} (hr : q ∉ r) :
    tokenize (render2 ts ++ (h ++ '=' :: q :: r)) = .error .configError := by
  unfold tokenize parseQuote
  have hstr : string [(render2 ts ++ (h ++ '=' :: q :: r), 0, render2 ts ++ (h ++ '=' :: q :: r))] 1 =
    render2 ts ++ (h ++ '=' :: q :: r) := by simp [string]
  simp only [hstr]
  obtain ⟨st, h1, _, idx, h3⟩ := quoteLoop_render hok hh (q :: r)
    [(render2 ts ++ (h ++ '=' :: q :: r), 0, render2 ts ++ (h ++ '=' :: q :: r))]
  rw [h3]
  generalize render2 ts ++ (h ++ '=' :: q :: r) = s
  have h2 : ¬ (q ≠ '\'' ∧ q ≠ '"') := by
    rcases hq with h | h <;> simp [h]
  have hl : quoteLoop s idx ('=' :: q :: r) st = .ok { st with start := some (idx + 1), quote := q } := by
    rw [quoteLoop, quoteStep, h1]
    simp only [if_true]
    show quoteLoop s (idx + 1) (q :: r) { st with start := some (idx + 1) } = _
    rw [quoteLoop, quoteStep]
    simp only [if_true, h2, if_false]
    have := quoteLoop_inside (s := s) (st := { st with start := some (idx + 1), quote := q }) (b := idx + 1) rfl r []
      (idx + 1 + 1) (by omega) (fun x hx e => hr ((show x = q from e) ▸ hx))
    rw [List.append_nil] at this
    exact this
  rw [hl]
  rfl

/-- A value without quotation marks. -/
theorem parseQuote_bare {ts : List Tok} (hok : ∀ t ∈ ts, t.Ok2) {h : List Char} (hh : '=' ∉ h) {q : Char}
    (hq : q ≠ '\'' ∧ q ≠ '"') {r : List Char} :
    tokenize (render2 ts ++ (h ++ '=' :: q :: r)) = .error .configError := by
  unfold tokenize parseQuote
  have hstr : string [(render2 ts ++ (h ++ '=' :: q :: r), 0, render2 ts ++ (h ++ '=' :: q :: r))] 1 =
    render2 ts ++ (h ++ '=' :: q :: r) := by simp [string]
  simp only [hstr]
  obtain ⟨st, h1, _, idx, h3⟩ := quoteLoop_render hok hh (q :: r)
    [(render2 ts ++ (h ++ '=' :: q :: r), 0, render2 ts ++ (h ++ '=' :: q :: r))]
  rw [h3]
  generalize render2 ts ++ (h ++ '=' :: q :: r) = s
  have hl : quoteLoop s idx ('=' :: q :: r) st = .error .configError := by
    rw [quoteLoop, quoteStep, h1]
    simp only [if_true]
    show quoteLoop s (idx + 1) (q :: r) { st with start := some (idx + 1) } = _
    rw [quoteLoop, quoteStep]
    simp [hq]
    rfl
  rw [hl]
  rfl

theorem bracketLoop_append (s : List Char) : ∀ (a b : List Char) (idx : Nat) (st : Option Nat × List Piece),
    bracketLoop s idx (a ++ b) st = bracketLoop s (idx + a.length) b (bracketLoop s idx a st)
  | [], b, idx, st => rfl
  | c :: a, b, idx, st => by
    rw [List.cons_append, bracketLoop, bracketLoop, bracketLoop_append s a b]
    congr 1
    simp only [List.length_cons]; omega

theorem bracketLoop_open (s : List Char) : ∀ (r : List Char) (idx : Nat) (st : Option Nat × List Piece), ']' ∉ r →
    st.1.isSome → (bracketLoop s idx r st).1.isSome
  | [], _, _, _, h => h
  | c :: r, idx, st, hr, h => by
    rw [bracketLoop]
    apply bracketLoop_open s r _ _ (fun hm => hr (List.mem_cons_of_mem _ hm))
    obtain ⟨b, hb⟩ := Option.isSome_iff_exists.mp h
    have hc : c ≠ ']' := fun e => hr (by simp [e])
    simp [bracketStep, hb, hc]

/-- A predicate that is not closed. -/
theorem parseBracket_open {a r : List Char} (he : '=' ∉ a ++ '[' :: r) (hr : ']' ∉ r) :
    tokenize (a ++ '[' :: r) = .error .configError := by
  unfold tokenize parseQuote
  have hstr : ∀ k, string [(a ++ '[' :: r, 0, a ++ '[' :: r)] k = a ++ '[' :: r := by simp [string]
  rw [hstr]
  have hl := quoteLoop_skip (s := a ++ '[' :: r) (st := { pieces := [(a ++ '[' :: r, 0, a ++ '[' :: r)] }) rfl
    (a ++ '[' :: r) [] 0 (fun c hc e => he (e ▸ hc))
  rw [List.append_nil] at hl
  simp only [hl, quoteLoop, bind, Except.bind]
  unfold parseBracket
  rw [hstr]
  have hs : (bracketLoop (a ++ '[' :: r) 0 (a ++ '[' :: r)
      (none, [(a ++ '[' :: r, 0, a ++ '[' :: r)])).1.isSome := by
    generalize hs' : a ++ '[' :: r = s
    generalize ((none : Option Nat), [(s, 0, s)]) = st
    rw [← hs', bracketLoop_append, bracketLoop]
    apply bracketLoop_open _ _ _ _ hr
    unfold bracketStep
    split
    · simp
    · next b hb => simp [hb]
  simp only
  revert hs
  cases bracketLoop (a ++ '[' :: r) 0 (a ++ '[' :: r) (none, [(a ++ '[' :: r, 0, a ++ '[' :: r)]) with
  | mk o ps =>
    cases o with
    | none => intro hs; simp at hs
    | some b => intro _; rfl

end InstId
end NcDiff
