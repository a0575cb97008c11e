import Verif.Spec.Ref
/-!
# The tokenizer for instance-identifiers

`tokenize` cuts a rendered instance-identifier into exactly the pieces that its parts have.
-/

namespace NcDiff.InstId

/-- A part as the tokenizer sees it: a step, or the text before `=`, the quotation mark and the
content of a predicate. -/
inductive V where
  | step (n : List Char)
  | pred (h : List Char) (q : Char) (c : List Char)

def Tok.view : Tok → V
  | .step n => .step n.text
  | .key n q c => .pred n.text q c
  | .self q c => .pred ['.'] q c

/-- A literal with its quotation marks. -/
def litText (q : Char) (c : List Char) : List Char := q :: (c ++ [q])

/-- The literal as `parse_quote` writes it. -/
def litConv (q : Char) (c : List Char) : List Char :=
  if q = '"' then convertLiteral (litText q c) else litText q c

def V.text : V → List Char
  | .step n => '/' :: n
  | .pred h q c => '[' :: (h ++ '=' :: (litText q c ++ [']']))

theorem Tok.view_text (t : Tok) : t.view.text = t.text := by
  cases t <;> simp [Tok.view, V.text, Tok.text, litText]

/-- The text between quotation marks `q` comes from a value that does not end with `q`. -/
def Closed (q : Char) (r : List Char) : Prop :=
  (q = '\'' ∨ q = '"') ∧ ∃ c, r = doubled q c ∧ c.getLast? ≠ some q

theorem doubled_none {q : Char} : ∀ {c : List Char}, q ∉ c → doubled q c = c
  | [], _ => rfl
  | x :: c, h => by
    have hx : x ≠ q := fun e => h (by simp [e])
    rw [doubled, if_neg hx, doubled_none (fun hm => h (List.mem_cons_of_mem _ hm))]

theorem LitOk.closed {q : Char} {c : List Char} (h : LitOk q c) : Closed q c :=
  ⟨h.1, c, (doubled_none h.2).symm, fun e => h.2 (List.mem_of_getLast? e)⟩

def V.Ok : V → Prop
  | .step n => n ≠ [] ∧ ∀ c ∈ n, c ∉ ['.', '/', '[', ']', '=']
  | .pred h q c => h ≠ [] ∧ (∀ x ∈ h, x ∉ ['[', ']', '=']) ∧ Closed q c

/-- An untouched piece, if there is something in it. -/
def plain (x : List Char) : List Piece := if x = [] then [] else [(x, 0, x)]

theorem plain_nil : plain [] = [] := rfl

theorem plain_ne {x : List Char} (h : x ≠ []) : plain x = [(x, 0, x)] := by simp [plain, h]

def vtext (vs : List V) : List Char := vs.flatMap V.text

/-- The text without literals. -/
def vtext2 : List V → List Char
  | [] => []
  | .step n :: r => '/' :: (n ++ vtext2 r)
  | .pred h _ _ :: r => '[' :: (h ++ '=' :: ']' :: vtext2 r)

/-- The text without predicates. -/
def vtext3 : List V → List Char
  | [] => []
  | .step n :: r => '/' :: (n ++ vtext3 r)
  | .pred _ _ _ :: r => vtext3 r

/-- Pieces after the first phase; `pre` is in front. -/
def pieces1 (pre : List Char) : List V → List Piece
  | [] => plain pre
  | .step n :: r => pieces1 (pre ++ '/' :: n) r
  | .pred h q c :: r =>
    (pre ++ '[' :: (h ++ ['=']), 0, pre ++ '[' :: (h ++ ['='])) :: (litText q c, 1, litConv q c) ::
      pieces1 [']'] r

/-- The pieces of a predicate. -/
def predPieces (h : List Char) (q : Char) (c : List Char) : List Piece :=
  [(['['], 2, ['[']), (h, 2, h), (['='], 2, ['=']), (litText q c, 1, litConv q c),
   ([']'], 2, [']'])]

/-- Pieces after the second phase. -/
def pieces2 (pre : List Char) : List V → List Piece
  | [] => plain pre
  | .step n :: r => pieces2 (pre ++ '/' :: n) r
  | .pred h q c :: r => plain pre ++ predPieces h q c ++ pieces2 [] r

/-- Pieces at the end. -/
def pieces3 : List V → List Piece
  | [] => []
  | .step n :: r => (['/'], 0, ['/']) :: (n, 3, n) :: pieces3 r
  | .pred h q c :: r => predPieces h q c ++ pieces3 r

/-- Length of what `cut` counts. -/
def len (phase : Nat) : List Piece → Nat
  | [] => 0
  | p :: r => (if p.2.1 = 0 || p.2.1 = phase then p.1.length else 0) + len phase r

theorem len_append (phase : Nat) (a b : List Piece) :
    len phase (a ++ b) = len phase a + len phase b := by
  induction a with
  | nil => simp [len]
  | cons p a ih => simp [len, ih]; omega

theorem len_plain (phase : Nat) (x : List Char) : len phase (plain x) = x.length := by
  unfold plain
  split
  · next h => simp [len, h]
  · simp [len]

/-- Cutting something out of an untouched piece. -/
theorem cut_at {conv x y z : List Char} {phase start stop : Nat} {b : List Piece} (hy : y ≠ []) :
    ∀ (a : List Piece) (pos : Nat), start = pos + len phase a + x.length →
      stop = start + y.length →
      cut start stop conv phase pos (a ++ plain (x ++ y ++ z) ++ b) =
        a ++ plain x ++ [(y, phase, conv)] ++ plain z ++ b
  | [], pos, hs, he => by
    have hylen : 0 < y.length := List.length_pos_iff.mpr hy
    have hne : x ++ y ++ z ≠ [] := by simp [hy]
    simp only [len, Nat.add_zero] at hs
    rw [plain_ne hne, List.nil_append, List.singleton_append, cut]
    have hc : (pos ≤ start && stop ≤ pos + (x ++ y ++ z).length) = true := by
      simp only [List.length_append, Bool.and_eq_true, decide_eq_true_eq]
      omega
    have h1 : start - pos = x.length := by omega
    have h2 : stop - pos = x.length + y.length := by omega
    simp only [decide_true, Bool.true_or, if_true, hc, cutPiece, h1, h2]
    have e1 : (x ++ y ++ z).take x.length = x := by simp
    have e2 : ((x ++ y ++ z).drop x.length).take (x.length + y.length - x.length) = y := by
      rw [List.append_assoc, List.drop_left]
      rw [Nat.add_sub_cancel_left, List.take_left]
    have e3 : (x ++ y ++ z).drop (x.length + y.length) = z := by
      rw [← List.length_append, List.drop_left]
    rw [e1, e2, e3]
    have hy' : y.isEmpty = false := by simpa [List.isEmpty_iff] using hy
    by_cases hx : x = [] <;> by_cases hz : z = [] <;>
      simp [plain, hx, hz, hy']
  | p :: a, pos, hs, he => by
    have hylen : 0 < y.length := List.length_pos_iff.mpr hy
    rw [List.cons_append, List.cons_append, cut]
    by_cases hp : (p.2.1 = 0 || p.2.1 = phase) = true
    · have hl : len phase (p :: a) = p.1.length + len phase a := by
        simp only [len]; rw [if_pos hp]
      have hno : (pos ≤ start && stop ≤ pos + p.1.length) = false := by
        simp only [Bool.and_eq_false_imp, decide_eq_true_eq, decide_eq_false_iff_not]
        intro _; omega
      rw [if_pos hp, hno]
      simp only [Bool.false_eq_true, if_false]
      rw [cut_at hy a (pos + p.1.length) (by omega) he]
      simp
    · have hl : len phase (p :: a) = len phase a := by
        simp only [len]; rw [if_neg hp]; omega
      rw [if_neg hp, cut_at hy a pos (by omega) he]
      simp

/-! ## Phase 1: literals -/

theorem quoteLoop_skip {s : List Char} {st : QState} (hst : st.start = none) :
    ∀ (o t : List Char) (idx : Nat), (∀ c ∈ o, c ≠ '=') →
      quoteLoop s idx (o ++ t) st = quoteLoop s (idx + o.length) t st
  | [], t, idx, _ => by simp
  | c :: o, t, idx, h => by
    rw [List.cons_append, quoteLoop, quoteStep, hst]
    simp only [h c List.mem_cons_self, if_false]
    show quoteLoop s (idx + 1) (o ++ t) st = _
    rw [quoteLoop_skip hst o t (idx + 1) (fun x hx => h x (List.mem_cons_of_mem _ hx))]
    congr 1
    simp only [List.length_cons]; omega

theorem quoteLoop_inside {s : List Char} {st : QState} {b : Nat} (hst : st.start = some b) :
    ∀ (o t : List Char) (idx : Nat), b < idx → (∀ c ∈ o, c ≠ st.quote) →
      quoteLoop s idx (o ++ t) st = quoteLoop s (idx + o.length) t st
  | [], t, idx, _, _ => by simp
  | c :: o, t, idx, hb, h => by
    have h1 : idx ≠ b := by omega
    rw [List.cons_append, quoteLoop, quoteStep, hst]
    simp only [h1, if_false, gt_iff_lt, hb, if_true, h c List.mem_cons_self]
    show quoteLoop s (idx + 1) (o ++ t) st = _
    rw [quoteLoop_inside hst o t (idx + 1) (by omega)
      (fun x hx => h x (List.mem_cons_of_mem _ hx))]
    congr 1
    simp only [List.length_cons]; omega

/-- A quotation mark of the literal in front of another one. -/
theorem quoteLoop_pair {s : List Char} {st : QState} {b : Nat} (hst : st.start = some b) {t : List Char} {idx : Nat}
    (hb : b < idx) : quoteLoop s idx (st.quote :: st.quote :: t) st =
      quoteLoop s (idx + 1) (st.quote :: t) { st with escape := some idx } := by
  have h1 : idx ≠ b := by omega
  rw [quoteLoop, quoteStep, hst]
  simp only [h1, if_false, gt_iff_lt, hb, if_true, List.head?_cons]
  rfl

/-- The last one of several quotation marks. -/
theorem quoteLoop_last {s : List Char} {st : QState} {b : Nat} (hst : st.start = some b) {t : List Char} {idx : Nat}
    (hb : b < idx) (he : st.escape = some (idx - 1)) (ht : t.head? ≠ some st.quote) :
    quoteLoop s idx (st.quote :: t) st = quoteLoop s (idx + 1) t { st with escape := none } := by
  have h1 : idx ≠ b := by omega
  have h2 : (idx + 1 - (idx - 1)) % 2 = 0 := by omega
  rw [quoteLoop, quoteStep, hst]
  simp only [h1, if_false, gt_iff_lt, hb, if_true, ht, he, Option.isSome_some, Option.getD_some, h2, and_self]
  rfl

mutual
theorem quoteLoop_doubled {s : List Char} : ∀ (c t : List Char) (st : QState) (b idx : Nat), st.start = some b → b < idx →
    st.escape = none → c.getLast? ≠ some st.quote →
    quoteLoop s idx (doubled st.quote c ++ t) st = quoteLoop s (idx + (doubled st.quote c).length) t st
  | [], t, st, b, idx, _, _, _, _ => by simp [doubled]
  | x :: c, t, st, b, idx, hst, hb, he, hl => by
    by_cases hx : x = st.quote
    · rw [doubled, if_pos hx, List.cons_append, List.cons_append, quoteLoop_pair hst hb]
      have hc : c ≠ [] := by rintro rfl; exact hl (by simp [hx])
      have := quoteLoop_doubled' (s := s) c t { st with escape := some idx } b (idx + 1) hst (by omega) rfl hc
        (fun e => hl (by rw [List.getLast?_cons]; simp [show c.getLast? = some st.quote from e]))
      rw [show ({ st with escape := some idx } : QState).quote = st.quote from rfl] at this
      rw [this]
      have e : ({ st with escape := none } : QState) = st := by cases st; simp_all
      show quoteLoop s _ t { st with escape := none } = _
      rw [e]
      congr 1
      simp only [List.length_cons]; omega
    · rw [doubled, if_neg hx, List.cons_append]
      have h1 := quoteLoop_inside (s := s) hst [x] (doubled st.quote c ++ t) idx hb (by simpa using hx)
      rw [List.singleton_append] at h1
      rw [h1, quoteLoop_doubled c t st b _ hst (by simp; omega) he (fun e => hl (by rw [List.getLast?_cons]; simp [e]))]
      congr 1
      simp only [List.length_cons, List.length_nil]; omega
theorem quoteLoop_doubled' {s : List Char} : ∀ (c t : List Char) (st : QState) (b idx : Nat), st.start = some b → b < idx →
    st.escape = some (idx - 1) → c ≠ [] → c.getLast? ≠ some st.quote →
    quoteLoop s idx (st.quote :: (doubled st.quote c ++ t)) st =
      quoteLoop s (idx + 1 + (doubled st.quote c).length) t { st with escape := none }
  | [], t, st, b, idx, _, _, _, hc, _ => absurd rfl hc
  | x :: c, t, st, b, idx, hst, hb, he, _, hl => by
    by_cases hx : x = st.quote
    · have hc : c ≠ [] := by rintro rfl; exact hl (by simp [hx])
      rw [doubled, if_pos hx, List.cons_append, List.cons_append, quoteLoop_pair hst hb]
      have h1 := quoteLoop_pair (s := s) (st := { st with escape := some idx }) (t := doubled st.quote c ++ t)
        (idx := idx + 1) hst (by omega)
      rw [show ({ st with escape := some idx } : QState).quote = st.quote from rfl] at h1
      rw [h1]
      have := quoteLoop_doubled' (s := s) c t { st with escape := some (idx + 1) } b (idx + 1 + 1) hst (by omega) rfl hc
        (fun e => hl (by rw [List.getLast?_cons]; simp [show c.getLast? = some st.quote from e]))
      rw [show ({ st with escape := some (idx + 1) } : QState).quote = st.quote from rfl] at this
      rw [this]
      congr 1
      simp only [List.length_cons]; omega
    · have h1 := quoteLoop_last (s := s) (t := doubled st.quote (x :: c) ++ t) hst hb he (by
        rw [doubled, if_neg hx]; simpa using hx)
      rw [h1]
      rw [doubled, if_neg hx, List.cons_append]
      have h2 := quoteLoop_inside (s := s) (st := { st with escape := none }) hst [x] (doubled st.quote c ++ t) (idx + 1)
        (by omega) (by simpa using hx)
      rw [List.singleton_append] at h2
      have h3 := quoteLoop_doubled (s := s) c t { st with escape := none } b (idx + 1 + [x].length) hst (by simp; omega) rfl
        (fun e => hl (by rw [List.getLast?_cons]; simp [show c.getLast? = some st.quote from e]))
      rw [show ({ st with escape := none } : QState).quote = st.quote from rfl] at h3
      rw [h2, h3]
      congr 1
      simp only [List.length_cons, List.length_nil]; omega
end

/-- A literal is cut out. -/
theorem quoteLoop_lit {s t : List Char} {q : Char} {c : List Char} (hl : Closed q c)
    (ht : t.head? ≠ some q) {st : QState} (hst : st.start = none) (hesc : st.escape = none)
    {idx : Nat} (hs : s.drop idx = '=' :: (litText q c ++ t)) :
    quoteLoop s idx ('=' :: (litText q c ++ t)) st =
      quoteLoop s (idx + 1 + (litText q c).length) t
        { st with
          start := none
          quote := q
          pieces := cut (idx + 1) (idx + 1 + (litText q c).length) (litConv q c) 1 0 st.pieces } := by
  obtain ⟨hq, v, hv, hc⟩ := hl
  rw [quoteLoop, quoteStep, hst]
  simp only [if_true]
  show quoteLoop s (idx + 1) (litText q c ++ t) { st with start := some (idx + 1) } = _
  unfold litText
  rw [List.cons_append, quoteLoop, quoteStep]
  have h2 : ¬ (q ≠ '\'' ∧ q ≠ '"') := by
    rcases hq with h | h <;> simp [h]
  simp only [if_true, h2, if_false]
  show quoteLoop s (idx + 1 + 1) (c ++ [q] ++ t)
    { st with start := some (idx + 1), quote := q } = _
  have hin := quoteLoop_doubled (s := s) v ([q] ++ t) { st with start := some (idx + 1), quote := q } (idx + 1)
    (idx + 1 + 1) rfl (by omega) hesc hc
  rw [show ({ st with start := some (idx + 1), quote := q } : QState).quote = q from rfl, ← hv] at hin
  rw [List.append_assoc, hin]
  rw [List.singleton_append, quoteLoop, quoteStep]
  have h3 : idx + 1 + 1 + c.length ≠ idx + 1 := by omega
  have h4 : idx + 1 + 1 + c.length > idx + 1 := by omega
  have hsub : (s.drop (idx + 1)).take (idx + 1 + 1 + c.length + 1 - (idx + 1)) = litText q c := by
    have : s.drop (idx + 1) = litText q c ++ t := by
      rw [← List.drop_drop, hs]; rfl
    rw [this]
    have hlen : idx + 1 + 1 + c.length + 1 - (idx + 1) = (litText q c).length := by
      simp [litText]; omega
    rw [hlen, List.take_left]
  have hlen : idx + 1 + 1 + c.length + 1 = idx + 1 + (q :: (c ++ [q])).length := by
    simp; omega
  simp only [h3, h4, if_true, if_false, ht, hesc, Option.isSome_none, Bool.false_eq_true,
    false_and, hsub]
  rw [hlen]
  rfl

theorem vtext_head {vs : List V} : vtext vs = [] ∨ (vtext vs).head? = some '/' ∨
    (vtext vs).head? = some '[' := by
  cases vs with
  | nil => left; rfl
  | cons v r =>
    right
    cases v with
    | step n => left; simp [vtext, V.text]
    | pred h q c => right; simp [vtext, V.text]

theorem quoteLoop_ok {s : List Char} : ∀ (vs : List V) (_ : ∀ v ∈ vs, v.Ok) (pre : List Char)
    (done : List Piece) (idx : Nat) (st : QState), st.start = none → st.escape = none →
    st.pieces = done ++ plain (pre ++ vtext vs) → len 1 done + pre.length = idx →
    s.drop idx = vtext vs →
    ∃ st', quoteLoop s idx (vtext vs) st = .ok st' ∧ st'.start = none ∧
      st'.pieces = done ++ pieces1 pre vs
  | [], _, pre, done, idx, st, h1, _, h3, _, _ => by
    refine ⟨st, rfl, h1, ?_⟩
    rw [h3]
    simp [vtext, pieces1]
  | .step n :: r, hok, pre, done, idx, st, h1, h2, h3, h4, h5 => by
    obtain ⟨hn, hch⟩ := hok _ List.mem_cons_self
    have e : vtext (.step n :: r) = ('/' :: n) ++ vtext r := by simp [vtext, V.text]
    rw [e] at h3 h5 ⊢
    rw [quoteLoop_skip h1 _ _ _ (by
      intro x hx
      rcases List.mem_cons.mp hx with rfl | hx
      · decide
      · intro e; exact hch x hx (by simp [e]))]
    exact quoteLoop_ok r (fun v hv => hok v (List.mem_cons_of_mem _ hv)) (pre ++ '/' :: n) done
      _ st h1 h2 (by rw [h3, List.append_assoc]) (by simp; omega)
      (by rw [← List.drop_drop, h5, List.drop_left])
  | .pred h q c :: r, hok, pre, done, idx, st, h1, h2, h3, h4, h5 => by
    obtain ⟨hn, hch, hlit⟩ := hok _ List.mem_cons_self
    have e : vtext (.pred h q c :: r) = ('[' :: h) ++ ('=' :: (litText q c ++ (']' :: vtext r))) := by
      simp [vtext, V.text]
    rw [e] at h3 h5 ⊢
    rw [quoteLoop_skip h1 _ _ _ (by
      intro x hx
      rcases List.mem_cons.mp hx with rfl | hx
      · decide
      · intro e; exact hch x hx (by simp [e]))]
    have hdrop : s.drop (idx + ('[' :: h).length) = '=' :: (litText q c ++ (']' :: vtext r)) := by
      rw [← List.drop_drop, h5, List.drop_left]
    have hqne : (']' :: vtext r).head? ≠ some q := by
      rcases hlit.1 with rfl | rfl <;> simp
    rw [quoteLoop_lit hlit hqne h1 h2 hdrop]
    -- the piece after the cut
    have hcut : cut (idx + ('[' :: h).length + 1)
        (idx + ('[' :: h).length + 1 + (litText q c).length) (litConv q c) 1 0 st.pieces =
        done ++ plain (pre ++ '[' :: (h ++ ['='])) ++ [(litText q c, 1, litConv q c)] ++
          plain (']' :: vtext r) ++ [] := by
      rw [h3]
      have := cut_at (conv := litConv q c) (phase := 1) (b := [])
        (x := pre ++ '[' :: (h ++ ['='])) (y := litText q c) (z := ']' :: vtext r)
        (start := idx + ('[' :: h).length + 1)
        (stop := idx + ('[' :: h).length + 1 + (litText q c).length)
        (by simp [litText]) done 0 (by simp; omega) rfl
      rw [List.append_nil] at this
      rw [← this]
      congr 2
      simp
    have e2 : quoteLoop s (idx + ('[' :: h).length + 1 + (litText q c).length) (']' :: vtext r)
        { st with
          start := none
          quote := q
          pieces := cut (idx + ('[' :: h).length + 1)
            (idx + ('[' :: h).length + 1 + (litText q c).length) (litConv q c) 1 0 st.pieces } =
        quoteLoop s (idx + ('[' :: h).length + 1 + (litText q c).length + 1) (vtext r)
        { st with
          start := none
          quote := q
          pieces := cut (idx + ('[' :: h).length + 1)
            (idx + ('[' :: h).length + 1 + (litText q c).length) (litConv q c) 1 0 st.pieces } :=
      quoteLoop_skip rfl [']'] (vtext r) _ (by simp)
    rw [e2]
    have hne : pre ++ '[' :: (h ++ ['=']) ≠ [] := by simp
    obtain ⟨st', g1, g2, g3⟩ := quoteLoop_ok r (fun v hv => hok v (List.mem_cons_of_mem _ hv)) [']']
      (done ++ plain (pre ++ '[' :: (h ++ ['='])) ++ [(litText q c, 1, litConv q c)])
      (idx + ('[' :: h).length + 1 + (litText q c).length + 1)
      { st with
          start := none
          quote := q
          pieces := cut (idx + ('[' :: h).length + 1)
            (idx + ('[' :: h).length + 1 + (litText q c).length) (litConv q c) 1 0 st.pieces }
      rfl h2 (by rw [hcut]; simp)
      (by
        rw [len_append, len_append, len_plain]
        simp [len]
        omega)
      (by
        rw [show idx + ('[' :: h).length + 1 + (litText q c).length + 1 =
          idx + ('[' :: h).length + ('=' :: (litText q c ++ [']'])).length by simp; omega]
        rw [← List.drop_drop, hdrop]
        rw [show '=' :: (litText q c ++ ']' :: vtext r) = ('=' :: (litText q c ++ [']'])) ++ vtext r by
          simp]
        rw [List.drop_left])
    refine ⟨st', g1, g2, ?_⟩
    rw [g3, plain_ne hne]
    simp [pieces1]

/-! ## Phase 2: predicates -/

/-- What the first piece starts with does not matter. -/
theorem pieces1_shape : ∀ (vs : List V), ∃ x rest, ∀ pre, pieces1 pre vs = plain (pre ++ x) ++ rest
  | [] => ⟨[], [], fun pre => by simp [pieces1]⟩
  | .step n :: r => by
    obtain ⟨x, rest, h⟩ := pieces1_shape r
    refine ⟨'/' :: n ++ x, rest, fun pre => ?_⟩
    rw [pieces1, h]
    simp
  | .pred h q c :: r =>
    ⟨'[' :: (h ++ ['=']), (litText q c, 1, litConv q c) :: pieces1 [']'] r, fun pre => by
      rw [pieces1, plain_ne (by simp)]
      simp⟩

theorem bracketLoop_skip {s : List Char} {ps : List Piece} :
    ∀ (o t : List Char) (idx : Nat), (∀ c ∈ o, c ≠ '[') →
      bracketLoop s idx (o ++ t) (none, ps) = bracketLoop s (idx + o.length) t (none, ps)
  | [], t, idx, _ => by simp
  | c :: o, t, idx, h => by
    rw [List.cons_append, bracketLoop, bracketStep]
    simp only [h c List.mem_cons_self, if_false]
    rw [bracketLoop_skip o t (idx + 1) (fun x hx => h x (List.mem_cons_of_mem _ hx))]
    congr 1
    simp only [List.length_cons]; omega

theorem bracketLoop_inside {s : List Char} {ps : List Piece} {b : Nat} :
    ∀ (o t : List Char) (idx : Nat), (∀ c ∈ o, c ≠ ']') →
      bracketLoop s idx (o ++ t) (some b, ps) = bracketLoop s (idx + o.length) t (some b, ps)
  | [], t, idx, _ => by simp
  | c :: o, t, idx, h => by
    rw [List.cons_append, bracketLoop, bracketStep]
    simp only [h c List.mem_cons_self, and_false, if_false]
    rw [bracketLoop_inside o t (idx + 1) (fun x hx => h x (List.mem_cons_of_mem _ hx))]
    congr 1
    simp only [List.length_cons]; omega

theorem bracketLoop_ok {s : List Char} : ∀ (vs : List V) (_ : ∀ v ∈ vs, v.Ok) (pre : List Char)
    (done : List Piece) (idx : Nat), len 2 done + pre.length = idx → s.drop idx = vtext2 vs →
    bracketLoop s idx (vtext2 vs) (none, done ++ pieces1 pre vs) = (none, done ++ pieces2 pre vs)
  | [], _, pre, done, idx, _, _ => rfl
  | .step n :: r, hok, pre, done, idx, h4, h5 => by
    obtain ⟨hn, hch⟩ := hok _ List.mem_cons_self
    have e : vtext2 (.step n :: r) = ('/' :: n) ++ vtext2 r := by simp [vtext2]
    rw [e] at h5 ⊢
    rw [bracketLoop_skip _ _ _ (by
      intro x hx
      rcases List.mem_cons.mp hx with rfl | hx
      · decide
      · intro e; exact hch x hx (by simp [e]))]
    rw [pieces1, pieces2]
    exact bracketLoop_ok r (fun v hv => hok v (List.mem_cons_of_mem _ hv)) (pre ++ '/' :: n) done
      _ (by simp; omega) (by rw [← List.drop_drop, h5, List.drop_left])
  | .pred h q c :: r, hok, pre, done, idx, h4, h5 => by
    obtain ⟨hn, hch, hlit⟩ := hok _ List.mem_cons_self
    have e : vtext2 (.pred h q c :: r) = '[' :: ((h ++ ['=']) ++ (']' :: vtext2 r)) := by
      simp [vtext2]
    rw [e] at h5 ⊢
    rw [bracketLoop, bracketStep]
    simp only [if_true]
    rw [bracketLoop_inside _ _ _ (by
      intro x hx
      rcases List.mem_append.mp hx with hx | hx
      · intro e; exact hch x hx (by simp [e])
      · rw [List.mem_singleton] at hx; subst hx; decide)]
    rw [bracketLoop, bracketStep]
    have hj : idx + 1 + (h ++ ['=']).length = idx + h.length + 2 := by simp; omega
    rw [hj]
    have hgt : idx + h.length + 2 > idx ∧ True := ⟨by omega, trivial⟩
    simp only []
    rw [if_pos hgt]
    have hsub : (s.drop idx).take (idx + h.length + 2 + 1 - idx) = '[' :: (h ++ ['=', ']']) := by
      rw [h5]
      rw [show idx + h.length + 2 + 1 - idx = ('[' :: (h ++ ['=', ']'])).length by simp; omega]
      rw [show '[' :: (h ++ ['='] ++ ']' :: vtext2 r) = '[' :: (h ++ ['=', ']']) ++ vtext2 r by simp]
      rw [List.take_left]
    rw [hsub]
    have hlast : ('[' :: (h ++ ['=', ']'])).dropLast.getLast? = some '=' := by
      rw [show '[' :: (h ++ ['=', ']']) = ('[' :: (h ++ ['='])) ++ [']'] by simp,
        List.dropLast_concat]
      rw [show '[' :: (h ++ ['=']) = ('[' :: h) ++ ['='] by simp, List.getLast?_append]
      simp
    have htag : (('[' :: (h ++ ['=', ']'])).drop 1).dropLast.dropLast = h := by
      rw [List.drop_one, List.tail_cons,
        show h ++ ['=', ']'] = (h ++ ['=']) ++ [']'] by simp,
        List.dropLast_concat, List.dropLast_concat]
    rw [if_pos hlast, htag]
    -- the four cuts
    obtain ⟨x, rest, hshape⟩ := pieces1_shape r
    have p0 : done ++ pieces1 pre (.pred h q c :: r) =
        done ++ plain (pre ++ ['['] ++ (h ++ ['='])) ++
          ((litText q c, 1, litConv q c) :: (plain ([] ++ [']'] ++ x) ++ rest)) := by
      rw [pieces1, hshape, plain_ne (x := pre ++ ['['] ++ (h ++ ['='])) (by simp)]
      simp
    rw [p0, cut_at (by simp) done 0 (by simp; omega) (by simp)]
    have p1 : done ++ plain pre ++ [(['['], 2, ['['])] ++ plain (h ++ ['=']) ++
          ((litText q c, 1, litConv q c) :: (plain ([] ++ [']'] ++ x) ++ rest)) =
        (done ++ plain pre ++ [(['['], 2, ['['])] ++ plain (h ++ ['=']) ++
          [(litText q c, 1, litConv q c)]) ++ plain ([] ++ [']'] ++ x) ++ rest := by simp
    rw [p1, cut_at (by simp) _ 0 (by
      simp only [len_append, len_plain, len]
      simp
      omega) (by simp)]
    have p2 : done ++ plain pre ++ [(['['], 2, ['['])] ++ plain (h ++ ['=']) ++
          [(litText q c, 1, litConv q c)] ++ plain [] ++ [([']'], 2, [']'])] ++ plain x ++ rest =
        (done ++ plain pre ++ [(['['], 2, ['['])]) ++ plain (h ++ ['='] ++ []) ++
          ((litText q c, 1, litConv q c) :: ([']'], 2, [']']) :: (plain x ++ rest)) := by
      simp [plain_nil]
    rw [p2, cut_at (by simp) _ 0 (by
      simp only [len_append, len_plain, len]
      simp
      omega) (by simp)]
    have p3 : done ++ plain pre ++ [(['['], 2, ['['])] ++ plain h ++ [(['='], 2, ['='])] ++ plain [] ++
          ((litText q c, 1, litConv q c) :: ([']'], 2, [']']) :: (plain x ++ rest)) =
        (done ++ plain pre ++ [(['['], 2, ['['])]) ++ plain ([] ++ h ++ []) ++
          ((['='], 2, ['=']) :: (litText q c, 1, litConv q c) :: ([']'], 2, [']']) ::
            (plain x ++ rest)) := by
      simp [plain_nil]
    rw [p3, cut_at hn _ 0 (by
      simp only [len_append, len_plain, len]
      simp
      omega) (by simp; omega)]
    have p4 : done ++ plain pre ++ [(['['], 2, ['['])] ++ plain [] ++ [(h, 2, h)] ++ plain [] ++
          ((['='], 2, ['=']) :: (litText q c, 1, litConv q c) :: ([']'], 2, [']']) ::
            (plain x ++ rest)) =
        (done ++ plain pre ++ predPieces h q c) ++ pieces1 [] r := by
      rw [hshape]
      simp [plain_nil, predPieces]
    rw [p4]
    rw [bracketLoop_ok r (fun v hv => hok v (List.mem_cons_of_mem _ hv)) []
      (done ++ plain pre ++ predPieces h q c) (idx + h.length + 2 + 1)
      (by
        simp only [len_append, len_plain, len, predPieces]
        simp
        omega)
      (by
        rw [show idx + h.length + 2 + 1 = idx + ('[' :: (h ++ ['=', ']'])).length by simp; omega]
        rw [← List.drop_drop, h5]
        rw [show '[' :: (h ++ ['='] ++ ']' :: vtext2 r) = '[' :: (h ++ ['=', ']']) ++ vtext2 r by simp]
        rw [List.drop_left])]
    simp [pieces2]

/-! ## Phase 3: steps -/

theorem pieces2_shape : ∀ (vs : List V), ∃ x rest, ∀ pre, pieces2 pre vs = plain (pre ++ x) ++ rest
  | [] => ⟨[], [], fun pre => by simp [pieces2]⟩
  | .step n :: r => by
    obtain ⟨x, rest, h⟩ := pieces2_shape r
    refine ⟨'/' :: n ++ x, rest, fun pre => ?_⟩
    rw [pieces2, h]
    simp
  | .pred h q c :: r =>
    ⟨[], predPieces h q c ++ pieces2 [] r, fun pre => by simp [pieces2]⟩

/-- The end of `parse_element`. -/
def finish (s : List Char) (st : Option Nat × List Piece) : List Piece :=
  match st with
  | (some b, ps) => cut b s.length (s.drop b) 3 0 ps
  | (none, ps) => ps

theorem parseElement_eq (ps : List Piece) :
    parseElement ps = finish (string ps 3) (elementLoop (string ps 3) 0 (string ps 3) (none, ps)) := by
  unfold parseElement finish
  rfl

theorem elementLoop_inside {s : List Char} {ps : List Piece} {b : Nat} :
    ∀ (o t : List Char) (idx : Nat), (∀ c ∈ o, isSep c = false) →
      elementLoop s idx (o ++ t) (some b, ps) = elementLoop s (idx + o.length) t (some b, ps)
  | [], t, idx, _ => by simp
  | c :: o, t, idx, h => by
    rw [List.cons_append, elementLoop, elementStep]
    simp only [h c List.mem_cons_self, Bool.false_eq_true, if_false]
    rw [elementLoop_inside o t (idx + 1) (fun x hx => h x (List.mem_cons_of_mem _ hx))]
    congr 1
    simp only [List.length_cons]; omega

/-- A name ends at a separator or at the end of the text. -/
theorem element_end {s : List Char} {ps : List Piece} {b idx : Nat} {t : List Char}
    (hs : s.drop idx = t) (hidx : idx ≤ s.length) (ht : t = [] ∨ ∃ r, t = '/' :: r) (hb : b ≤ idx) :
    finish s (elementLoop s idx t (some b, ps)) =
      finish s (elementLoop s idx t (none, cut b idx ((s.drop b).take (idx - b)) 3 0 ps)) := by
  rcases ht with rfl | ⟨r, rfl⟩
  · have : idx = s.length := by
      have := congrArg List.length hs
      simp at this
      omega
    subst this
    simp only [elementLoop, finish]
    congr 1
    rw [List.take_of_length_le (by simp)]
  · rw [elementLoop, elementLoop, elementStep, elementStep]
    simp [isSep]

theorem vtext3_head (vs : List V) : vtext3 vs = [] ∨ ∃ r, vtext3 vs = '/' :: r := by
  induction vs with
  | nil => exact .inl rfl
  | cons v r ih =>
    cases v with
    | step n => exact .inr ⟨_, rfl⟩
    | pred h q c => exact ih

theorem element_ok {s : List Char} : ∀ (vs : List V) (_ : ∀ v ∈ vs, v.Ok)
    (done : List Piece) (idx : Nat), len 3 done = idx → s.drop idx = vtext3 vs → idx ≤ s.length →
    finish s (elementLoop s idx (vtext3 vs) (none, done ++ pieces2 [] vs)) = done ++ pieces3 vs
  | [], _, done, idx, _, _, _ => rfl
  | .pred h q c :: r, hok, done, idx, h4, h5, h6 => by
    rw [vtext3, pieces2, pieces3, plain_nil, List.nil_append, ← List.append_assoc,
      ← List.append_assoc]
    exact element_ok r (fun v hv => hok v (List.mem_cons_of_mem _ hv)) _ idx
      (by simp [len_append, len, predPieces, h4]) h5 h6
  | .step n :: r, hok, done, idx, h4, h5, h6 => by
    obtain ⟨hn, hch⟩ := hok _ List.mem_cons_self
    obtain ⟨c, n', rfl⟩ := List.exists_cons_of_ne_nil hn
    have hsep : ∀ x ∈ c :: n', isSep x = false := by
      intro x hx
      have := hch x hx
      simp only [List.mem_cons, not_or] at this
      simp [isSep, this.1, this.2.1]
    rw [vtext3] at h5 ⊢
    rw [elementLoop, elementStep]
    simp only [isSep, decide_true, Bool.or_true, if_true]
    rw [List.cons_append, elementLoop, elementStep]
    have hc0 : isSep c = false := hsep c List.mem_cons_self
    simp only [hc0, Bool.false_eq_true, if_false]
    rw [elementLoop_inside _ _ _ (fun x hx => hsep x (List.mem_cons_of_mem _ hx))]
    have hidx : idx + 1 + 1 + n'.length = idx + 1 + (c :: n').length := by
      simp only [List.length_cons]; omega
    rw [hidx]
    have hdrop1 : s.drop (idx + 1) = (c :: n') ++ vtext3 r := by
      rw [← List.drop_drop, h5]; rfl
    have hdrop : s.drop (idx + 1 + (c :: n').length) = vtext3 r := by
      rw [← List.drop_drop, hdrop1, List.drop_left]
    have hle : idx + 1 + (c :: n').length ≤ s.length := by
      have := congrArg List.length h5
      simp only [List.length_drop, List.length_cons, List.length_append] at this ⊢
      omega
    rw [element_end hdrop hle (vtext3_head r) (by omega)]
    rw [Nat.add_sub_cancel_left, hdrop1, List.take_left]
    obtain ⟨x, rest, hshape⟩ := pieces2_shape r
    have p0 : done ++ pieces2 [] (.step (c :: n') :: r) =
        done ++ plain (['/'] ++ (c :: n') ++ x) ++ rest := by
      rw [pieces2, hshape]
      simp
    rw [p0, cut_at (by simp) done 0 (by simp; omega) rfl]
    have p1 : done ++ plain ['/'] ++ [(c :: n', 3, c :: n')] ++ plain x ++ rest =
        (done ++ [(['/'], 0, ['/']), (c :: n', 3, c :: n')]) ++ pieces2 [] r := by
      rw [hshape]
      simp [plain]
    rw [p1, element_ok r (fun v hv => hok v (List.mem_cons_of_mem _ hv)) _ _
      (by simp [len_append, len]; omega) hdrop hle]
    simp [pieces3]

/-! ## All phases -/

theorem string_plain (x : List Char) (phase : Nat) : string (plain x) phase = x := by
  unfold plain
  split
  · next h => simp [string, h]
  · simp [string]

theorem string_append (a b : List Piece) (phase : Nat) :
    string (a ++ b) phase = string a phase ++ string b phase := by
  simp [string]

theorem string_cons (p : Piece) (b : List Piece) (phase : Nat) :
    string (p :: b) phase = string [p] phase ++ string b phase :=
  string_append [p] b phase

theorem string_pieces1 : ∀ (vs : List V) (pre : List Char),
    string (pieces1 pre vs) 2 = pre ++ vtext2 vs
  | [], pre => by simp [pieces1, string_plain, vtext2]
  | .step n :: r, pre => by rw [pieces1, string_pieces1 r]; simp [vtext2]
  | .pred h q c :: r, pre => by
    rw [pieces1, string_cons, string_cons _ (pieces1 _ _), string_pieces1 r]
    simp [string, vtext2]

theorem string_pieces2 : ∀ (vs : List V) (pre : List Char),
    string (pieces2 pre vs) 3 = pre ++ vtext3 vs
  | [], pre => by simp [pieces2, string_plain, vtext3]
  | .step n :: r, pre => by rw [pieces2, string_pieces2 r]; simp [vtext3]
  | .pred h q c :: r, pre => by
    rw [pieces2, string_append, string_append, string_pieces2 r, string_plain]
    simp [string, vtext3, predPieces]

/-- The tokenizer finds the parts. -/
theorem tokenize_ok {vs : List V} (hne : vs ≠ []) (hok : ∀ v ∈ vs, v.Ok) :
    tokenize (vtext vs) = .ok (pieces3 vs) := by
  have hv : vtext vs ≠ [] := by
    cases vs with
    | nil => exact absurd rfl hne
    | cons v r => cases v <;> simp [vtext, V.text]
  unfold tokenize parseQuote
  have hstr : string [(vtext vs, 0, vtext vs)] 1 = vtext vs := by simp [string]
  rw [hstr]
  obtain ⟨st', h1, h2, h3⟩ := quoteLoop_ok (s := vtext vs) vs hok [] [] 0
    { pieces := [(vtext vs, 0, vtext vs)] } rfl rfl (by simp [plain_ne hv]) (by simp [len]) rfl
  simp only [h1, bind, Except.bind, h2]
  rw [List.nil_append] at h3
  rw [h3]
  unfold parseBracket
  rw [string_pieces1, List.nil_append]
  have hb := bracketLoop_ok (s := vtext2 vs) vs hok [] [] 0 (by simp [len]) rfl
  rw [List.nil_append, List.nil_append] at hb
  simp only [hb]
  rw [parseElement_eq, string_pieces2, List.nil_append]
  have he := element_ok (s := vtext3 vs) vs hok [] 0 rfl rfl (by simp)
  rw [List.nil_append, List.nil_append] at he
  rw [he]
  rfl

end NcDiff.InstId
