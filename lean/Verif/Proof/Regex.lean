import Verif.Spec.Regex
import Verif.Model.Tags
import Verif.Model.RunningConfig
import Verif.Model.Offer
import Verif.Model.Show
/-!
# Regular expressions: proofs
-/

namespace NcDiff.Regex

theorem flatMap_last {β : Type} (f : Nat → List β) (n : Nat) (h : ∀ m, m < n → f m = []) :
    (List.range (n + 1)).reverse.flatMap f = f n := by
  rw [List.range_succ, List.reverse_append, List.flatMap_append]
  have : (List.range n).reverse.flatMap f = [] := by
    rw [List.flatMap_eq_nil_iff]
    intro m hm
    exact h m (by simpa using hm)
  simp [this]

theorem ends_seq (a b : Re) (i : Nat) (s : Text) :
    ends (.seq a b) i s = (ends a i s).flatMap fun e =>
      (ends b (i + e.1) (s.drop e.1)).map fun e' => (e.1 + e'.1, e.2 ++ e'.2) := rfl

theorem ends_many (k : Cls) (r : Re) (i : Nat) (s : Text)
    (h : ∀ m, m < run k s → ends r (i + m) (s.drop m) = []) :
    ends (.seq (.many k) r) i s =
      (ends r (i + run k s) (s.drop (run k s))).map fun e => (run k s + e.1, e.2) := by
  rw [ends_seq]
  simp only [ends, List.flatMap_map]
  rw [flatMap_last]
  · simp
  · intro m hm; simp [h m hm]

theorem ends_some (k : Cls) (r : Re) (i : Nat) (s : Text)
    (h : ∀ m, m < run k s → ends r (i + m) (s.drop m) = []) :
    ends (.seq (.some k) r) i s =
      if run k s = 0 then []
      else (ends r (i + run k s) (s.drop (run k s))).map fun e => (run k s + e.1, e.2) := by
  rw [ends_seq]
  simp only [ends, List.flatMap_map]
  generalize hn : run k s = n at *
  cases n with
  | zero => simp
  | succ n =>
    rw [flatMap_last]
    · simp
    · intro m hm; simp [h (m + 1) (by omega)]

theorem drop_run (k : Cls) : ∀ (s : Text) (m : Nat), m < run k s →
    ∃ c t, s.drop m = c :: t ∧ k.has c = true
  | [], m, h => by simp [run] at h
  | c :: s, m, h => by
    by_cases hc : k.has c = true
    · cases m with
      | zero => exact ⟨c, s, rfl, hc⟩
      | succ m =>
        have : m < run k s := by simpa [run, List.takeWhile_cons, hc] using h
        simpa using drop_run k s m this
    · simp [run, List.takeWhile_cons, hc] at h

/-- An expression that cannot match at a character of the class. -/
def Fails (k : Cls) (r : Re) : Prop := ∀ i c t, k.has c = true → ends r i (c :: t) = []

theorem Fails.drop {k : Cls} {r : Re} (h : Fails k r) (i : Nat) (s : Text) (m : Nat) (hm : m < run k s) :
    ends r i (s.drop m) = [] := by
  obtain ⟨c, t, e, hc⟩ := drop_run k s m hm
  rw [e]; exact h _ _ _ hc

theorem Fails.seq {k : Cls} {a : Re} (b : Re) (h : Fails k a) : Fails k (.seq a b) := by
  intro i c t hc
  rw [ends_seq, h i c t hc]; rfl

theorem fails_chr {k k' : Cls} (h : ∀ c, k.has c = true → k'.has c = false) : Fails k (.chr k') := by
  intro i c t hc
  simp [ends, h c hc]

theorem fails_some {k k' : Cls} (h : ∀ c, k.has c = true → k'.has c = false) : Fails k (.some k') := by
  intro i c t hc
  simp [ends, run, List.takeWhile_cons, h c hc]

/-! ## Symbols -/

open Running (Tok matchToks searchToks Str)

/-- One character of a literal, or one of the other tokens. -/
inductive Sym where
  | ch (c : Char)
  | nonspace
  | digits
  | digit
  | spaceOrEnd
  deriving DecidableEq, Repr

def flat : List Tok → List Sym
  | [] => []
  | .lit t :: r => t.map .ch ++ flat r
  | .nonspace :: r => .nonspace :: flat r
  | .digits :: r => .digits :: flat r
  | .digit :: r => .digit :: flat r
  | .spaceOrEnd :: r => .spaceOrEnd :: flat r

def matchSyms : List Sym → Str → Option Nat
  | [], _ => some 0
  | .ch c :: r, s => match s with
    | x :: s' => if x = c then (matchSyms r s').map (· + 1) else none
    | [] => none
  | .nonspace :: r, s =>
    let n := (s.takeWhile (fun c => !Running.isSpace c)).length
    if n = 0 then none else (matchSyms r (s.drop n)).map (· + n)
  | .digits :: r, s =>
    let n := (s.takeWhile Char.isDigit).length
    if n = 0 then none else (matchSyms r (s.drop n)).map (· + n)
  | .digit :: r, s =>
    match s with
    | c :: s' => if c.isDigit then (matchSyms r s').map (· + 1) else none
    | [] => none
  | .spaceOrEnd :: r, s =>
    match s with
    | [] => matchSyms r []
    | ' ' :: s' => (matchSyms r s').map (· + 1)
    | _ => none

theorem matchSyms_lit (r : List Sym) : ∀ (t : Str) (s : Str),
    matchSyms (t.map .ch ++ r) s =
      if t.isPrefixOf s then (matchSyms r (s.drop t.length)).map (· + t.length) else none
  | [], s => by simp
  | c :: t, [] => by simp [matchSyms]
  | c :: t, x :: s => by
    simp only [List.map_cons, List.cons_append, matchSyms, List.isPrefixOf_cons₂, matchSyms_lit r t s]
    by_cases hx : x = c
    · subst hx
      by_cases hp : t.isPrefixOf s = true
      · simp [hp, Option.map_map, Function.comp_def, Nat.add_assoc]
      · simp [hp]
    · have : (c == x) = false := by simpa using fun h => hx h.symm
      simp [hx, this]

theorem matchToks_flat : ∀ (ts : List Tok) (s : Str), matchToks ts s = matchSyms (flat ts) s
  | [], s => rfl
  | .lit t :: r, s => by simp [matchToks, flat, matchSyms_lit, matchToks_flat r]
  | .nonspace :: r, s => by simp [matchToks, flat, matchSyms, matchToks_flat r]
  | .digits :: r, s => by simp [matchToks, flat, matchSyms, matchToks_flat r]
  | .digit :: r, s => by
    cases s <;> simp [matchToks, flat, matchSyms, matchToks_flat r]
  | .spaceOrEnd :: r, s => by
    simp only [matchToks, flat, matchSyms, matchToks_flat r]
    split <;> simp_all

/-- The expression is the symbols one after the other. -/
def readsB : List Sym → Re → Bool
  | [], .empty => true
  | .ch c :: ys, .seq (.chr (.one c')) r => c = c' && readsB ys r
  | .nonspace :: ys, .seq (.some .nonspace) r => readsB ys r
  | .digits :: ys, .seq (.some k) r => (k = .digit || k = .set [('0', '9')]) && readsB ys r
  | .digit :: ys, .seq (.group (.seq (.chr .digit) .empty)) r => readsB ys r
  | .spaceOrEnd :: ys, .seq (.group (.alt (.seq (.chr (.one ' ')) .empty) (.seq .eos .empty))) r => readsB ys r
  | _, _ => false

/-- A repetition is followed by a character that it cannot match. -/
def detB : List Sym → Bool
  | [] => true
  | .nonspace :: .ch c :: ys => space c && detB (.ch c :: ys)
  | .digits :: .ch c :: ys => !c.isDigit && detB (.ch c :: ys)
  | .nonspace :: _ => false
  | .digits :: _ => false
  | _ :: ys => detB ys

theorem isDigit_iff (c : Char) : c.isDigit = ('0'.toNat ≤ c.toNat && c.toNat ≤ '9'.toNat) := by
  simp only [Char.isDigit, UInt32.le_iff_toNat_le, ge_iff_le]
  rfl

theorem digit_has (k : Cls) (h : (decide (k = .digit) || decide (k = .set [('0', '9')])) = true) (c : Char) :
    k.has c = c.isDigit := by
  rw [isDigit_iff]
  rcases (by simpa using h : k = .digit ∨ k = .set [('0', '9')]) with rfl | rfl
  · rfl
  · simp [Cls.has]

theorem space_eq (c : Char) : space c = Running.isSpace c := rfl

theorem run_congr {k : Cls} {p : Char → Bool} (h : ∀ c, k.has c = p c) (s : Text) :
    run k s = (s.takeWhile p).length := by
  have : k.has = p := funext h
  rw [run, this]

theorem heads_map (l : List (Nat × List Text)) (f : Nat → Nat) (g : List Text → List Text) :
    ((l.map fun e => (f e.1, g e.2)).head?).map Prod.fst = (l.head?.map Prod.fst).map f := by
  cases l <;> simp

/-- Matching of symbols is the preferred match of the expression. -/
theorem matchSyms_ends : ∀ (ys : List Sym) (r : Re) (i : Nat) (s : Text), readsB ys r = true → detB ys = true →
    (Sym.spaceOrEnd ∈ ys → s.getLast? ≠ some '\n') →
    (ends r i s).head?.map Prod.fst = matchSyms ys s := by
  intro ys
  induction ys with
  | nil =>
    intro r i s hr _ _
    cases r <;> simp [readsB] at hr
    simp [ends, matchSyms]
  | cons y ys ih =>
    intro r i s hr hd hn
    have hn' : ∀ n, Sym.spaceOrEnd ∈ ys → (s.drop n).getLast? ≠ some '\n' := by
      intro n hm hl
      rw [List.getLast?_drop] at hl
      split at hl
      · simp at hl
      · exact hn (List.mem_cons_of_mem _ hm) hl
    unfold readsB at hr
    split at hr
    case h_1 => simp at *
    case h_2 c ys' c' r' heq =>
      cases heq
      simp only [Bool.and_eq_true, decide_eq_true_eq] at hr
      obtain ⟨rfl, hr⟩ := hr
      have hd' : detB ys = true := by simpa [detB] using hd
      rw [ends_seq]
      cases s with
      | nil => simp [ends, matchSyms]
      | cons x s =>
        by_cases hx : x = c
        · have := ih r' (i + 1) s hr hd' (by simpa using hn' 1)
          simp only [ends, Cls.has, hx, decide_true, if_true, List.flatMap_cons, List.flatMap_nil,
            List.append_nil, matchSyms, List.drop_one, List.tail_cons, List.nil_append]
          rw [← this]
          cases ends r' (i + 1) s <;> simp [Nat.add_comm]
        · simp [ends, Cls.has, hx, matchSyms]
    case h_3 ys' r' heq =>
      cases heq
      cases ys with
      | nil => simp [detB] at hd
      | cons z zs =>
        cases z <;> simp [detB] at hd
        case ch c =>
          obtain ⟨hc, hd'⟩ := hd
          have hf : Fails .nonspace r' := by
            cases r' <;> try simp [readsB] at hr
            rename_i a b
            cases a <;> try simp [readsB] at hr
            rename_i k
            cases k <;> try simp [readsB] at hr
            obtain ⟨rfl, hr⟩ := hr
            refine Fails.seq _ (fails_chr ?_)
            intro x hx
            simp only [Cls.has, Bool.not_eq_true', decide_eq_false_iff_not] at hx ⊢
            rintro rfl
            simp [hc] at hx
          rw [ends_some _ _ _ _ (fun m hm => hf.drop _ _ _ hm)]
          have hrun : run .nonspace s = (s.takeWhile (fun c => !Running.isSpace c)).length := rfl
          have := ih r' (i + run .nonspace s) (s.drop (run .nonspace s)) hr (by simpa [detB] using hd') (hn' _)
          simp only [matchSyms] at this ⊢
          rw [← hrun]
          split
          · simp
          · rw [← this]
            cases ends r' (i + run .nonspace s) (s.drop (run .nonspace s)) <;> simp [Nat.add_comm]
    case h_4 ys' k r' heq =>
      cases heq
      rw [Bool.and_eq_true] at hr
      obtain ⟨hk, hr⟩ := hr
      have hk' := digit_has k hk
      cases ys with
      | nil => simp [detB] at hd
      | cons z zs =>
        cases z <;> simp [detB] at hd
        case ch c =>
          obtain ⟨hc, hd'⟩ := hd
          have hf : Fails k r' := by
            cases r' <;> try simp [readsB] at hr
            rename_i a b
            cases a <;> try simp [readsB] at hr
            rename_i k'
            cases k' <;> try simp [readsB] at hr
            obtain ⟨rfl, hr⟩ := hr
            refine Fails.seq _ (fails_chr ?_)
            intro x hx
            rw [hk'] at hx
            simp only [Cls.has, decide_eq_false_iff_not]
            rintro rfl
            simp [hc] at hx
          rw [ends_some _ _ _ _ (fun m hm => hf.drop _ _ _ hm)]
          have hrun : run k s = (s.takeWhile Char.isDigit).length := run_congr hk' s
          have := ih r' (i + run k s) (s.drop (run k s)) hr (by simpa [detB] using hd') (hn' _)
          simp only [matchSyms] at this ⊢
          rw [← hrun]
          split
          · simp
          · rw [← this]
            cases ends r' (i + run k s) (s.drop (run k s)) <;> simp [Nat.add_comm]
    case h_5 ys' r' heq =>
      cases heq
      have hd' : detB ys = true := by simpa [detB] using hd
      rw [ends_seq]
      cases s with
      | nil => simp [ends, matchSyms]
      | cons x s =>
        by_cases hx : x.isDigit = true
        · have := ih r' (i + 1) s hr hd' (by simpa using hn' 1)
          have hx' : (Cls.has .digit x) = true := by rw [digit_has _ (by decide)]; exact hx
          simp only [ends, hx', hx, if_true, List.flatMap_cons, List.flatMap_nil, List.map_cons, List.map_nil,
            List.append_nil, matchSyms, List.drop_one, List.tail_cons, List.nil_append, Nat.add_zero]
          rw [← this]
          cases ends r' (i + 1) s <;> simp [Nat.add_comm]
        · have hx' : (Cls.has .digit x) = false := by rw [digit_has _ (by decide)]; simpa using hx
          simp [ends, hx', matchSyms, hx]
    case h_6 ys' r' heq =>
      cases heq
      have hd' : detB ys = true := by simpa [detB] using hd
      have hl := hn (by simp)
      rw [ends_seq]
      cases s with
      | nil =>
        have := ih r' i [] hr hd' (by simp)
        simp only [ends, List.flatMap_nil, List.nil_append, true_or, if_true, List.flatMap_cons,
          List.map_cons, List.map_nil, List.append_nil, matchSyms, Nat.add_zero, List.drop_nil]
        rw [← this]
        cases ends r' i [] <;> simp
      | cons x s =>
        by_cases hx : x = ' '
        · subst hx
          have := ih r' (i + 1) s hr hd' (by simpa using hn' 1)
          have h2 : ¬ (' ' :: s = [] ∨ ' ' :: s = ['\n']) := by simp
          simp only [ends, Cls.has, h2, decide_true, if_true, if_false, List.flatMap_cons, List.flatMap_nil,
            List.map_cons, List.map_nil,
            List.append_nil, matchSyms, List.drop_one, List.tail_cons, List.nil_append, Nat.add_zero]
          rw [← this]
          cases ends r' (i + 1) s <;> simp [Nat.add_comm]
        · have h2 : ¬ (x :: s = [] ∨ x :: s = ['\n']) := by
            rintro (h | h)
            · simp at h
            · rw [h] at hl; simp at hl
          have h3 : matchSyms (.spaceOrEnd :: ys) (x :: s) = none := by
            simp only [matchSyms]
            split
            · rename_i h; simp at h
            · rename_i h; simp at h; exact absurd h.1 hx
            · rfl
          rw [h3]
          simp only [ends, Cls.has, hx, h2, decide_false, if_false, Bool.false_eq_true]
          rfl
    case h_7 => simp at hr

/-- The first symbol does not match a space. -/
def firstB : List Sym → Bool
  | .ch c :: _ => c ≠ ' '
  | .nonspace :: _ => true
  | _ => false

theorem findFrom_bos (r : Re) : ∀ (s : Text) (i : Nat), 0 < i → findFrom (.seq .bos r) i s = none
  | [], i, hi => by
    have : i ≠ 0 := by omega
    simp [findFrom, ends, this]
  | c :: s, i, hi => by
    have : i ≠ 0 := by omega
    simp only [findFrom, ends, this, if_false, List.flatMap_nil, List.head?_nil]
    exact findFrom_bos r s (i + 1) (by omega)

theorem ends_bos (r : Re) (s : Text) : ends (.seq .bos r) 0 s = ends r 0 s := by
  simp [ends]

theorem find_bos (r : Re) (s : Text) :
    findFrom (.seq .bos r) 0 s = (ends r 0 s).head?.map fun e => (s.take e.1, e.2) := by
  cases s with
  | nil => simp only [findFrom, ends_bos, List.take_nil]
  | cons c s =>
    simp only [findFrom, ends_bos]
    cases h : (ends r 0 (c :: s)).head? with
    | some e => simp
    | none => simpa using findFrom_bos r s 1 (by omega)

/-- Searching with `^ *` and symbols. -/
theorem searchToks_find (ts : List Tok) (r : Re) (s : Text)
    (hr : readsB (flat ts) r = true) (hd : detB (flat ts) = true) (hf : firstB (flat ts) = true)
    (hn : Sym.spaceOrEnd ∈ flat ts → s.getLast? ≠ some '\n') :
    (findFrom (.seq .bos (.seq (.many (.one ' ')) r)) 0 s).map Prod.fst = searchToks ts s := by
  have hfail : Fails (.one ' ') r := by
    generalize flat ts = ys at hr hf
    unfold readsB at hr
    split at hr <;> simp [firstB] at hf hr
    · refine Fails.seq _ (fails_chr ?_)
      intro x hx
      simp only [Cls.has, decide_eq_true_eq, decide_eq_false_iff_not] at hx ⊢
      rw [hx, ← hr.1]; exact fun h => hf h.symm
    · refine Fails.seq _ (fails_some ?_)
      intro x hx
      simp only [Cls.has, decide_eq_true_eq] at hx ⊢
      rw [hx]; decide
  rw [find_bos, ends_many _ _ _ _ (fun m hm => hfail.drop _ _ _ hm)]
  have hrun : run (.one ' ') s = (s.takeWhile (· = ' ')).length := rfl
  have := matchSyms_ends (flat ts) r (0 + run (.one ' ') s) (s.drop (run (.one ' ') s)) hr hd (by
    intro hm hl
    rw [List.getLast?_drop] at hl
    split at hl
    · simp at hl
    · exact hn hm hl)
  rw [← matchToks_flat] at this
  simp only [searchToks]
  rw [← hrun, ← this]
  cases ends r (0 + run (.one ' ') s) (s.drop (run (.one ' ') s)) <;> simp

/-! ## Splitting at the last separator -/

/-- `(.+)`. -/
abbrev dots : Re := .group (.seq (.some .dot) .empty)

theorem run_dot : ∀ (s : Text), '\n' ∉ s → run .dot s = s.length
  | [], _ => rfl
  | c :: s, h => by
    have hc : c ≠ '\n' := fun e => h (by simp [e])
    have := run_dot s (fun e => h (by simp [e]))
    simp [run, List.takeWhile_cons, Cls.has, hc] at this ⊢
    exact this

theorem ends_dots (i : Nat) (s : Text) (h : '\n' ∉ s) :
    ends dots i s = (List.range s.length).reverse.map fun n => (n + 1, [s.take (n + 1)]) := by
  simp [ends, run_dot s h, List.flatMap_map, ← List.map_eq_flatMap]

/-- `(.+)$`. -/
theorem ends_tail (i : Nat) (s : Text) (h : '\n' ∉ s) :
    ends (.seq dots (.seq .eos .empty)) i s = if s = [] then [] else [(s.length, [s])] := by
  rw [ends_seq, ends_dots i s h, List.flatMap_map]
  cases hs : s.length with
  | zero =>
    have : s = [] := List.length_eq_zero_iff.1 hs
    simp [this]
  | succ n =>
    have hne : s ≠ [] := by rintro rfl; simp at hs
    rw [flatMap_last]
    · have h1 : s.drop (n + 1) = [] := by rw [← hs]; simp
      have h2 : s.take (n + 1) = s := by rw [← hs]; simp
      simp [ends, h1, h2, hne]
    · intro m hm
      have h1 : s.drop (m + 1) ≠ [] := by
        intro e; have := List.drop_eq_nil_iff.1 e; omega
      have h2 : s.drop (m + 1) ≠ ['\n'] := by
        intro e; exact h (List.mem_of_mem_drop (by rw [e]; simp))
      simp [ends, h1, h2]

/-- What follows the first group. -/
def sepEnds (sep : Char) : Text → List (Nat × List Text)
  | x :: y :: z => if x = sep then [(z.length + 2, [y :: z])] else []
  | _ => []

theorem splitLastAt_cons (sep c : Char) (r : Text) : splitLastAt sep (c :: r) =
    match splitLastAt sep r with
    | some (a, b) => some (c :: a, b)
    | none =>
      match r with
      | s :: x :: y => if s = sep then some ([c], x :: y) else none
      | _ => none := rfl

theorem ends_sep (sep : Char) (i : Nat) (s : Text) (h : '\n' ∉ s) :
    ends (.seq (.chr (.one sep)) (.seq dots (.seq .eos .empty))) i s = sepEnds sep s := by
  rw [ends_seq]
  match s, h with
  | [], _ => simp [ends, sepEnds]
  | [x], _ =>
    by_cases hx : x = sep
    · simp [ends, Cls.has, hx, run, sepEnds]
    · simp [ends, Cls.has, hx, sepEnds]
  | x :: y :: z, h =>
    by_cases hx : x = sep
    · have := ends_tail (i + 1) (y :: z) (fun e => h (by simp at e ⊢; exact Or.inr e))
      simp only [ends, Cls.has, hx, decide_true, if_true, List.flatMap_cons, List.flatMap_nil, List.append_nil,
        List.drop_one, List.tail_cons] at this ⊢
      rw [this]
      simp [sepEnds]; omega
    · simp [ends, Cls.has, hx, sepEnds]

theorem head_flatMap_range (s : Text) (f : Nat → List (Nat × List Text)) (c : Char) :
    (List.range (c :: s).length).reverse.flatMap f =
      ((List.range s.length).reverse.flatMap fun n => f (n + 1)) ++ f 0 := by
  rw [List.length_cons, List.range_succ_eq_map, List.reverse_cons, List.flatMap_append, ← List.map_reverse,
    List.flatMap_map]
  simp

/-- `(.+)X(.+)$`. -/
theorem ends_split (sep : Char) : ∀ (s : Text) (i : Nat), '\n' ∉ s →
    (ends (.seq dots (.seq (.chr (.one sep)) (.seq dots (.seq .eos .empty)))) i s).head? =
      (splitLastAt sep s).map fun p => (s.length, [p.1, p.2])
  | [], i, _ => by rfl
  | c :: r, i, h => by
    have hr : '\n' ∉ r := fun e => h (by simp [e])
    have ih := ends_split sep r (i + 1) hr
    rw [ends_seq, ends_dots _ _ h, List.flatMap_map, head_flatMap_range]
    rw [ends_seq, ends_dots _ _ hr, List.flatMap_map] at ih
    have hcongr : ((List.range r.length).reverse.flatMap fun n =>
        (ends (.seq (.chr (.one sep)) (.seq dots (.seq .eos .empty))) (i + (n + 1 + 1)) ((c :: r).drop (n + 1 + 1))).map
          fun e' => (n + 1 + 1 + e'.1, [(c :: r).take (n + 1 + 1)] ++ e'.2)) =
        ((List.range r.length).reverse.flatMap fun n =>
        (ends (.seq (.chr (.one sep)) (.seq dots (.seq .eos .empty))) (i + 1 + (n + 1)) (r.drop (n + 1))).map
          fun e' => (n + 1 + e'.1, [r.take (n + 1)] ++ e'.2)).map
            fun e => (e.1 + 1, match e.2 with | a :: b => (c :: a) :: b | [] => []) := by
      rw [List.map_flatMap]
      congr 1
      funext n
      have e1 : i + (n + 1 + 1) = i + 1 + (n + 1) := by omega
      rw [e1, List.map_map, List.drop_succ_cons]
      congr 1
      funext e
      simp; omega
    rw [hcongr, List.head?_append, List.head?_map, ih, splitLastAt_cons]
    cases hs : splitLastAt sep r with
    | some p => simp
    | none =>
      simp only [Option.map_none, Option.none_or, Nat.zero_add, List.drop_succ_cons, List.drop_zero]
      rw [ends_sep _ _ _ hr]
      match r with
      | [] => rfl
      | [x] => rfl
      | x :: y :: z =>
        by_cases hx : x = sep
        · simp [hx, sepEnds]; omega
        · simp [hx, sepEnds]

theorem splitLastColon_eq : ∀ s, splitLastColon s = splitLastAt ':' s
  | [] => rfl
  | c :: r => by
    simp only [splitLastColon, splitLastAt, splitLastColon_eq r]
    cases splitLastAt ':' r with
    | some p => rfl
    | none =>
      match r with
      | [] => rfl
      | [x] => simp
      | x :: y :: z =>
        by_cases hx : x = ':'
        · subst hx; rfl
        · simp [hx]

/-! ## Capabilities -/

theorem moduleChar_has (c : Char) :
    (Cls.set [('a', 'z'), ('A', 'Z'), ('0', '9'), ('-', '-')]).has c = Offer.moduleChar c := by
  have e : (c = '-') ↔ ('-'.toNat ≤ c.toNat ∧ c.toNat ≤ '-'.toNat) := by
    constructor
    · rintro rfl; exact ⟨Nat.le_refl _, Nat.le_refl _⟩
    · rintro ⟨a, b⟩
      exact Char.toNat_inj.1 (Nat.le_antisymm b a)
  rw [Bool.eq_iff_iff]
  simp only [Cls.has, Offer.moduleChar, Char.isAlpha, Char.isUpper, Char.isLower, isDigit_iff, List.any_cons,
    List.any_nil, Bool.or_false, Bool.or_eq_true, Bool.and_eq_true, decide_eq_true_eq, ge_iff_le,
    UInt32.le_iff_toNat_le, e]
  show _ ↔ ((('A'.toNat ≤ c.toNat ∧ c.toNat ≤ 'Z'.toNat) ∨ ('a'.toNat ≤ c.toNat ∧ c.toNat ≤ 'z'.toNat)) ∨ _) ∨ _
  tauto

theorem ends_lits (r : Re) : ∀ (t : Text) (i : Nat) (s : Text),
    ends (t.foldr (fun c a => .seq (.chr (.one c)) a) r) i s =
      if t.isPrefixOf s then (ends r (i + t.length) (s.drop t.length)).map fun e => (t.length + e.1, e.2) else []
  | [], i, s => by simp
  | c :: t, i, [] => by simp [ends]
  | c :: t, i, x :: s => by
    rw [List.foldr_cons, ends_seq]
    by_cases hx : x = c
    · subst hx
      simp only [ends, Cls.has, decide_true, if_true, List.flatMap_cons, List.flatMap_nil, List.append_nil,
        List.drop_one, List.tail_cons, ends_lits r t (i + 1) s]
      by_cases hp : t.isPrefixOf s = true
      · have e1 : i + 1 + t.length = i + (t.length + 1) := by omega
        simp only [hp, if_true, List.map_map, e1, List.isPrefixOf_cons₂, BEq.rfl, Bool.true_and, List.length_cons,
          List.drop_succ_cons]
        congr 1
        funext e
        simp; omega
      · simp [hp]
    · have : ¬ c = x := fun h => hx h.symm
      simp [ends, Cls.has, hx, this]

theorem head_flatMap {α β : Type} (a : α) (l : List α) (f : α → List β) (h : f a ≠ []) :
    ((a :: l).flatMap f).head? = (f a).head? := by
  rw [List.flatMap_cons, List.head?_append]
  cases hf : f a with
  | nil => exact absurd hf h
  | cons b t => simp

theorem take_run (k : Cls) (s : Text) : s.take (run k s) = s.takeWhile k.has := by
  unfold run
  induction s with
  | nil => rfl
  | cons c s ih =>
    by_cases hc : k.has c = true
    · simp [List.takeWhile_cons, hc, ih]
    · simp [List.takeWhile_cons, hc]

/-- `(k+)x{0,1}`. -/
theorem ends_group_opt (k x : Cls) (i : Nat) (s : Text) :
    (ends (.seq (.group (.seq (.some k) .empty)) (.seq (.opt x) .empty)) i s).head?.map Prod.snd =
      match s.takeWhile k.has with
      | [] => none
      | c :: t => some [c :: t] := by
  have hr := take_run k s
  have hg : ends (.group (.seq (.some k) .empty)) i s =
      (List.range (run k s)).reverse.map fun n => (n + 1, [s.take (n + 1)]) := by
    simp [ends, List.flatMap_map, ← List.map_eq_flatMap]
  rw [ends_seq, hg]
  cases hn : run k s with
  | zero =>
    have : s.takeWhile k.has = [] := List.length_eq_zero_iff.1 hn
    simp [this]
  | succ n =>
    rw [List.range_succ, List.reverse_append, List.reverse_singleton, List.singleton_append, List.map_cons]
    rw [head_flatMap]
    · rw [hn] at hr
      simp only [hr]
      have hne : s.takeWhile k.has ≠ [] := fun e => by
        have : run k s = 0 := by rw [run, e]; rfl
        omega
      cases ht : s.takeWhile k.has with
      | nil => exact absurd ht hne
      | cons c t =>
        simp only [ends]
        split
        · split <;> simp
        · simp
    · simp only [ends]
      split
      · split <;> simp
      · simp

/-- `module=([a-zA-Z0-9-]+)\&{0,1}`. -/
def moduleRe : Re := "module=".toList.foldr (fun c a => .seq (.chr (.one c)) a)
  (.seq (.group (.seq (.some (.set [('a', 'z'), ('A', 'Z'), ('0', '9'), ('-', '-')])) .empty))
    (.seq (.opt (.one '&')) .empty))

theorem ends_module (i : Nat) (s : Text) :
    (ends moduleRe i s).head?.map Prod.snd =
      match "module=".toList.isPrefixOf s, (s.drop 7).takeWhile Offer.moduleChar with
      | true, x :: n => some [x :: n]
      | _, _ => none := by
  rw [moduleRe, ends_lits]
  have hk : (Cls.set [('a', 'z'), ('A', 'Z'), ('0', '9'), ('-', '-')]).has = Offer.moduleChar := funext moduleChar_has
  have hl : "module=".toList.length = 7 := rfl
  have := ends_group_opt (.set [('a', 'z'), ('A', 'Z'), ('0', '9'), ('-', '-')]) (.one '&') (i + 7) (s.drop 7)
  rw [hk] at this
  rw [hl]
  by_cases hp : "module=".toList.isPrefixOf s = true
  · rw [if_pos hp, hp]
    simp only [List.head?_map, Option.map_map]
    have e : (Prod.snd ∘ fun e : Nat × List Text => (7 + e.1, e.2)) = Prod.snd := rfl
    rw [e, this]
    cases (s.drop 7).takeWhile Offer.moduleChar <;> rfl
  · rw [if_neg hp]
    have : "module=".toList.isPrefixOf s = false := Bool.eq_false_iff.2 hp
    rw [this]
    rfl

theorem findFrom_module : ∀ (s : Text) (i : Nat),
    (findFrom moduleRe i s).map Prod.snd = (Offer.searchModule s).map fun n => [n]
  | [], i => by
    have := ends_module i []
    simp only [findFrom, Offer.searchModule, Option.map_map]
    have e : (Prod.snd ∘ fun e : Nat × List Text => (([] : Text), e.2)) = Prod.snd := rfl
    rw [e, this]
    rfl
  | c :: s, i => by
    have h := ends_module i (c :: s)
    have ih := findFrom_module s (i + 1)
    rw [findFrom, Offer.searchModule]
    split at h
    · rename_i x n hp ht
      rw [hp, ht]
      cases he : (ends moduleRe i (c :: s)).head? with
      | none => rw [he] at h; simp at h
      | some e => rw [he] at h; simpa using h
    · rename_i hnot
      have hn : (ends moduleRe i (c :: s)).head? = none := by simpa using h
      rw [hn]
      simp only []
      rw [ih]

/-! ## Prefixes -/

/-- The characters of a YANG identifier. -/
def identChar (c : Char) : Bool := c.isAlphanum || c = '-' || c = '_' || c = '.'

def clsOf (c : Char) : Cls := if c = '.' then .dot else .one c

theorem parseSeq_plain (n : Nat) (c d : Char) (r : Text)
    (hc : c ∉ [')', '|', '^', '$', '(', '\\', '[']) (hd : d ∉ ['*', '+', '{']) :
    parseSeq (n + 1) (c :: d :: r) = (parseSeq n (d :: r)).map fun x => (.seq (.chr (clsOf c)) x.1, x.2) := by
  simp only [List.mem_cons, List.not_mem_nil, not_or, not_false_eq_true, and_true] at hc hd
  obtain ⟨h1, h2, h3, h4, h5, h6, h7⟩ := hc
  obtain ⟨g1, g2, g3⟩ := hd
  have hcls : parseCls (c :: d :: r) = some (clsOf c, d :: r) := by
    unfold parseCls clsOf
    split <;> simp_all
  have hrep : parseRep (clsOf c) (d :: r) = (.chr (clsOf c), d :: r) := by
    unfold parseRep
    split <;> simp_all
  rw [parseSeq]
  · simp only [hcls, hrep]
  all_goals simp_all

theorem identChar_ok (c : Char) (h : identChar c = true) :
    c ∉ [')', '|', '^', '$', '(', '\\', '['] ∧ c ∉ ['*', '+', '{'] := by
  constructor
  all_goals
    intro hm
    simp only [List.mem_cons, List.not_mem_nil, or_false] at hm
  · rcases hm with rfl | rfl | rfl | rfl | rfl | rfl | rfl <;> exact absurd h (by decide)
  · rcases hm with rfl | rfl | rfl <;> exact absurd h (by decide)

theorem parseSeq_ident : ∀ (p : Text) (n : Nat) (r : Text), (∀ c ∈ p, identChar c = true) →
    parseSeq (n + p.length) (p ++ ':' :: r) =
      (parseSeq n (':' :: r)).map fun x => (p.foldr (fun c a => .seq (.chr (clsOf c)) a) x.1, x.2)
  | [], n, r, _ => by simp
  | c :: p, n, r, h => by
    have ih := parseSeq_ident p n r (fun x hx => h x (List.mem_cons_of_mem _ hx))
    have hc := (identChar_ok c (h c List.mem_cons_self)).1
    have e : n + (c :: p).length = (n + p.length) + 1 := by simp; omega
    rw [e]
    cases p with
    | nil =>
      rw [List.cons_append, List.nil_append, parseSeq_plain _ _ _ _ hc (by decide)]
      simp
    | cons d p =>
      have hd := (identChar_ok d (h d (by simp))).2
      rw [List.cons_append, List.cons_append, parseSeq_plain _ _ _ _ hc hd, ← List.cons_append, ih, Option.map_map]
      rfl

/-- The expression of `remove_model_prefix`. -/
theorem compile_prefix (p : String) (h : ∀ c ∈ p.toList, identChar c = true) :
    compile ("^" ++ p ++ ":(.+)$") = some (.seq .bos (p.toList.foldr (fun c a => .seq (.chr (clsOf c)) a)
      (.seq (.chr (.one ':')) (.seq dots (.seq .eos .empty))))) := by
  have hl : ("^" ++ p ++ ":(.+)$").length = p.toList.length + 7 := by
    rw [String.length_append, String.length_append, String.length_toList,
      show "^".length = 1 from rfl, show ":(.+)$".length = 6 from rfl]
    omega
  have ht : ("^" ++ p ++ ":(.+)$").toList = '^' :: (p.toList ++ ":(.+)$".toList) := by
    simp [String.toList_append]
  unfold compile
  rw [hl, ht]
  have e : 2 * (p.toList.length + 7) + 2 = (p.toList.length + 14) + p.toList.length + 1 + 1 := by omega
  have hs : parseSeq ((p.toList.length + 14) + p.toList.length) (p.toList ++ ":(.+)$".toList) =
      some (p.toList.foldr (fun c a => .seq (.chr (clsOf c)) a)
        (.seq (.chr (.one ':')) (.seq dots (.seq .eos .empty))), []) := by
    have := parseSeq_ident p.toList (p.toList.length + 14) "(.+)$".toList h
    rw [show ":(.+)$".toList = ':' :: "(.+)$".toList from rfl, this]
    rfl
  rw [e]
  simp only [parseAlt, parseSeq]
  rw [hs]
  rfl

theorem ends_prefix : ∀ (p s : Text), '\n' ∉ s → ∀ i,
    (ends (p.foldr (fun c a => .seq (.chr (clsOf c)) a)
      (.seq (.chr (.one ':')) (.seq dots (.seq .eos .empty)))) i s).map Prod.snd =
      ((Show.afterPrefix p s).map fun x => [x]).toList
  | [], s, h, i => by
    rw [List.foldr_nil, ends_sep _ _ _ h]
    match s with
    | [] => rfl
    | [x] =>
      simp only [sepEnds]
      by_cases hx : x = ':'
      · subst hx; rfl
      · simp [Show.afterPrefix]
    | x :: y :: z =>
      by_cases hx : x = ':'
      · subst hx; rfl
      · simp [sepEnds, hx, Show.afterPrefix]
  | c :: p, [], h, i => by
    rw [List.foldr_cons, ends_seq]
    simp [ends, Show.afterPrefix]
  | c :: p, x :: s, h, i => by
    have hs : '\n' ∉ s := fun e => h (List.mem_cons_of_mem _ e)
    have hx : x ≠ '\n' := fun e => h (by simp [e])
    have ih := ends_prefix p s hs (i + 1)
    rw [List.foldr_cons, ends_seq]
    by_cases hc : c = '.'
    · subst hc
      have e : Show.afterPrefix ('.' :: p) (x :: s) = Show.afterPrefix p s := by rw [Show.afterPrefix]
      rw [e, ← ih]
      simp [ends, clsOf, Cls.has, hx]
    · have e : Show.afterPrefix (c :: p) (x :: s) = if c = x then Show.afterPrefix p s else none := by
        rw [Show.afterPrefix]
        simpa using hc
      rw [e]
      by_cases hcx : x = c
      · rw [if_pos hcx.symm, ← ih]
        simp [ends, clsOf, hc, Cls.has, hcx]
      · rw [if_neg (fun e => hcx e.symm)]
        simp [ends, clsOf, hc, Cls.has, hcx]

end NcDiff.Regex
