import Verif.Spec.XPath
import Verif.Proof.Tags
import Verif.Proof.Tree
/-! # Lemmas about XPath expressions -/

namespace NcDiff.XPath

/-! ## Reading what has been written -/

/-- A name that can be written. -/
def Name (n : List Char) : Prop :=
  (∃ c r, n = c :: r ∧ nameStart c = true) ∧ ∀ c ∈ n, nameChar c = true

theorem first_nameStart {c : Char} (h : nameStart c = true) : first c = some ([], .inName [c]) := by
  have ha : ∀ x : Char, nameStart x = false → c ≠ x := by
    intro x hx e
    subst e
    rw [h] at hx
    cases hx
  unfold first
  rw [if_neg (by
      rintro (e | e | e | e) <;> exact ha _ (by decide) e),
    if_neg (ha _ (by decide)), if_neg (ha _ (by decide)), if_neg (ha _ (by decide)),
    if_neg (ha _ (by decide)), if_neg (ha _ (by decide)), if_neg (ha _ (by decide)),
    if_neg (ha _ (by decide)), if_neg (by rintro (e | e) <;> exact ha _ (by decide) e), if_pos h]

/-- Nothing that belongs to a name follows. -/
def Ends (r : List Char) : Prop := ∀ c ∈ r.head?, nameChar c = false

theorem tokens_inName {r : List Char} (hr : Ends r) : ∀ (n a : List Char), (∀ c ∈ n, nameChar c = true) →
    tokens (.inName a) (n ++ r) = (tokens .between r).map (.name (a.reverse ++ n) :: ·)
  | [], a, _ => by
    cases r with
    | nil => simp [tokens]
    | cons c r =>
      have : nameChar c = false := hr c (by simp)
      simp only [List.nil_append, tokens, this, Bool.false_eq_true, if_false, List.append_nil]
      cases first c with
      | none => rfl
      | some p =>
        obtain ⟨ts, m⟩ := p
        simp only [Option.map_map]
        rfl
  | c :: n, a, h => by
    show tokens (.inName a) (c :: (n ++ r)) = _
    rw [tokens, if_pos (h c (by simp)),
      tokens_inName hr n (c :: a) (fun x hx => h x (List.mem_cons_of_mem _ hx))]
    simp

theorem tokens_name {n r : List Char} (hn : Name n) (hr : Ends r) :
    tokens .between (n ++ r) = (tokens .between r).map (.name n :: ·) := by
  obtain ⟨⟨c, n', rfl, hc⟩, ha⟩ := hn
  show tokens .between (c :: (n' ++ r)) = _
  rw [tokens, first_nameStart hc]
  simp only
  rw [tokens_inName hr n' [c] (fun x hx => ha x (List.mem_cons_of_mem _ hx)), Option.map_map]
  rfl

theorem tokens_inLit {q : Char} {r : List Char} : ∀ (l a : List Char), q ∉ l →
    tokens (.inLit q a) (l ++ q :: r) = (tokens .between r).map (.lit (a.reverse ++ l) :: ·)
  | [], a, _ => by simp [tokens]
  | c :: l, a, h => by
    show tokens (.inLit q a) (c :: (l ++ q :: r)) = _
    rw [tokens, if_neg (fun e => h (by simp [e])), tokens_inLit l (c :: a) (fun hm => h (by simp [hm]))]
    simp

theorem tokens_lit {r l : List Char} (h : '"' ∉ l) :
    tokens .between ('"' :: (l ++ '"' :: r)) = (tokens .between r).map (.lit l :: ·) := by
  rw [tokens]
  show Option.map _ (tokens (.inLit '"' []) _) = _
  rw [tokens_inLit l [] h, Option.map_map]
  rfl

/-- The conditions that ncdiff writes. -/
def condText : Cond (List Char) → List Char
  | .child n l => ['['] ++ n ++ ['=', '"'] ++ l ++ ['"', ']']
  | .text l => ['['] ++ "text()".toList ++ ['=', '"'] ++ l ++ ['"', ']']
  | _ => []

/-- See `condText`. -/
def CondOk : Cond (List Char) → Prop
  | .child n l => Name n ∧ '"' ∉ l
  | .text l => '"' ∉ l
  | _ => False

def condToks : Cond (List Char) → List Tok
  | .child n l => [.lbr, .name n, .eq, .lit l, .rbr]
  | .text l => [.lbr, .name ['t', 'e', 'x', 't'], .lpar, .rpar, .eq, .lit l, .rbr]
  | _ => []

def predsText (cs : List (Cond (List Char))) : List Char := cs.flatMap condText

/-- A step whose predicates have one condition each. -/
def mkStep (n : List Char) (cs : List (Cond (List Char))) : LStep (List Char) := ⟨n, cs.map ([·])⟩

/-- Steps as text. -/
def pathText : List (List Char × List (Cond (List Char))) → List Char
  | [] => []
  | s :: r => ['/'] ++ s.1 ++ predsText s.2 ++ pathText r

def pathToks : List (List Char × List (Cond (List Char))) → List Tok
  | [] => []
  | s :: r => .slash :: .name s.1 :: (s.2.flatMap condToks ++ pathToks r)

theorem first_char (c : Char) (t : Tok)
    (h : (c, t) ∈ [('/', Tok.slash), ('.', .dot), ('[', .lbr), (']', .rbr), ('(', .lpar), (')', .rpar),
      ('=', .eq)]) (r : List Char) :
    tokens .between (c :: r) = (tokens .between r).map (t :: ·) := by
  have : first c = some ([t], .between) := by
    simp only [List.mem_cons, Prod.mk.injEq, List.not_mem_nil, or_false] at h
    rcases h with ⟨rfl, rfl⟩ | ⟨rfl, rfl⟩ | ⟨rfl, rfl⟩ | ⟨rfl, rfl⟩ | ⟨rfl, rfl⟩ | ⟨rfl, rfl⟩ | ⟨rfl, rfl⟩ <;>
      rfl
  rw [tokens, this]
  rfl

theorem ends_cons {c : Char} {r : List Char} (h : nameChar c = false) : Ends (c :: r) := by
  intro x hx
  simp only [List.head?_cons, Option.mem_some_iff] at hx
  exact hx ▸ h

theorem name_text : Name ['t', 'e', 'x', 't'] := by
  refine ⟨⟨'t', _, rfl, by decide⟩, ?_⟩
  decide

theorem tokens_cond {c : Cond (List Char)} (hc : CondOk c) (r : List Char) :
    tokens .between (condText c ++ r) = (tokens .between r).map (condToks c ++ ·) := by
  cases c with
  | child n l =>
    have e : condText (.child n l) ++ r = '[' :: (n ++ '=' :: '"' :: (l ++ '"' :: ']' :: r)) := by
      simp [condText]
    rw [e, first_char '[' .lbr (by simp), tokens_name hc.1 (ends_cons (by decide)),
      first_char '=' .eq (by simp), tokens_lit hc.2, first_char ']' .rbr (by simp)]
    simp only [Option.map_map]
    rfl
  | text l =>
    have e : condText (.text l) ++ r =
        '[' :: (['t', 'e', 'x', 't'] ++ '(' :: ')' :: '=' :: '"' :: (l ++ '"' :: ']' :: r)) := by
      simp [condText]
    rw [e, first_char '[' .lbr (by simp), tokens_name name_text (ends_cons (by decide)),
      first_char '(' .lpar (by simp), first_char ')' .rpar (by simp),
      first_char '=' .eq (by simp), tokens_lit hc, first_char ']' .rbr (by simp)]
    simp only [Option.map_map]
    rfl
  | literal l => exact hc.elim
  | same a b => exact hc.elim

theorem tokens_preds (r : List Char) : ∀ (cs : List (Cond (List Char))), (∀ c ∈ cs, CondOk c) →
    tokens .between (predsText cs ++ r) = (tokens .between r).map (cs.flatMap condToks ++ ·)
  | [], _ => by simp [predsText]
  | c :: cs, h => by
    have e : predsText (c :: cs) ++ r = condText c ++ (predsText cs ++ r) := by simp [predsText]
    rw [e, tokens_cond (h c (by simp)), tokens_preds r cs (fun x hx => h x (List.mem_cons_of_mem _ hx)),
      Option.map_map]
    simp only [List.flatMap_cons, List.append_assoc]
    rfl

theorem ends_preds {cs : List (Cond (List Char))} (h : ∀ c ∈ cs, CondOk c) {r : List Char} (hr : Ends r) :
    Ends (predsText cs ++ r) := by
  cases cs with
  | nil => exact hr
  | cons c cs =>
    have hc := h c (by simp)
    cases c with
    | child n l => exact ends_cons (by decide)
    | text l => exact ends_cons (by decide)
    | literal l => exact hc.elim
    | same a b => exact hc.elim

/-- Steps that can be written. -/
def PathOk (ss : List (List Char × List (Cond (List Char)))) : Prop :=
  ∀ s ∈ ss, Name s.1 ∧ ∀ c ∈ s.2, CondOk c

theorem ends_path : ∀ ss, Ends (pathText ss)
  | [] => by intro c hc; simp [pathText] at hc
  | _ :: _ => ends_cons (by decide)

theorem tokens_path : ∀ {ss}, PathOk ss → tokens .between (pathText ss) = some (pathToks ss)
  | [], _ => rfl
  | s :: r, h => by
    have e : pathText (s :: r) = '/' :: (s.1 ++ (predsText s.2 ++ pathText r)) := by simp [pathText]
    have hs := h s (by simp)
    rw [e, first_char '/' .slash (by simp), tokens_name hs.1 (ends_preds hs.2 (ends_path r)),
      tokens_preds _ _ hs.2, tokens_path (fun x hx => h x (List.mem_cons_of_mem _ hx))]
    rfl

theorem steps_preds (n : List Char) (done : List (LStep (List Char))) (r : List Tok) :
    ∀ (cs : List (Cond (List Char))) (ps), (∀ c ∈ cs, CondOk c) →
    steps (⟨n, ps⟩ :: done) (cs.flatMap condToks ++ r) = steps (⟨n, ps ++ cs.map ([·])⟩ :: done) r
  | [], ps, _ => by simp
  | c :: cs, ps, h => by
    have ih := steps_preds n done r cs (ps ++ [[c]]) (fun x hx => h x (List.mem_cons_of_mem _ hx))
    have hc := h c (by simp)
    rw [List.map_cons, ← List.singleton_append (x := [c]), ← List.append_assoc, ← ih,
      List.flatMap_cons, List.append_assoc]
    cases c with
    | child n' l => simp [condToks, steps, cond, next]
    | text l => simp [condToks, steps, cond, next]
    | literal l => exact hc.elim
    | same a b => exact hc.elim

theorem steps_path : ∀ {ss}, PathOk ss → ∀ done,
    steps done (pathToks ss) = some (done.reverse ++ ss.map fun s => mkStep s.1 s.2)
  | [], _, done => by simp [pathToks, steps]
  | s :: r, h, done => by
    rw [pathToks, steps, steps_preds _ _ _ _ _ (h s (by simp)).2,
      steps_path (fun x hx => h x (List.mem_cons_of_mem _ hx))]
    simp [mkStep]

/-- Steps that are written are read as they are. -/
theorem parse_relative {ss} (h : PathOk ss) :
    (tokens .between ('.' :: pathText ss)).bind parse = some (false, ss.map fun s => mkStep s.1 s.2) := by
  rw [first_char '.' .dot (by simp), tokens_path h]
  show (steps [] (pathToks ss)).map _ = _
  rw [steps_path h]
  rfl

theorem parse_absolute {s ss} (h : PathOk (s :: ss)) :
    (tokens .between (pathText (s :: ss))).bind parse =
      some (true, (s :: ss).map fun s => mkStep s.1 s.2) := by
  rw [tokens_path h]
  show (steps [] (pathToks (s :: ss))).map _ = _
  rw [steps_path h]
  rfl

theorem eval_eq (rd : Reader) (cfg : Elem) (s : List Char) : eval rd cfg s =
    ((tokens .between s).bind parse).bind fun p => (rd.steps "" p.2).map fun ss =>
      if p.1 then select ss (document cfg) else (select ss cfg).map (0 :: ·) := by
  unfold eval
  cases tokens .between s with
  | none => rfl
  | some ts =>
    simp only [Option.bind_some]
    cases parse ts with
    | none => rfl
    | some p =>
      simp only [Option.bind_some]
      cases rd.steps "" p.2 <;> rfl

/-! ## Selection -/

/-- A step that selects exactly one of the children. -/
theorem select_one {s : LStep QName} {e k : Elem} {i : Nat} (hi : e.kids[i]? = some k)
    (h : ∀ j x, e.kids[j]? = some x → (s.selects x = true ↔ j = i)) (r : List (LStep QName)) :
    select (s :: r) e = (select r k).map (i :: ·) := by
  rw [select]
  have key : ∀ (l : List Elem) (n : Nat), (∀ j x, l[j]? = some x → (s.selects x = true ↔ j + n = i)) →
      (l.zipIdx n).flatMap (fun p => if s.selects p.1 = true then (select r p.1).map (p.2 :: ·) else []) =
        if n ≤ i then (match l[i - n]? with | some k => (select r k).map (i :: ·) | none => []) else [] := by
    intro l
    induction l with
    | nil => intro n _; simp
    | cons x l ih =>
      intro n hl
      rw [List.zipIdx_cons, List.flatMap_cons, ih (n + 1) (fun j y hy => by
        have := hl (j + 1) y (by simpa using hy)
        rw [this]; omega)]
      have h0 := hl 0 x rfl
      by_cases hn : n = i
      · subst hn
        rw [if_pos (h0.2 (by omega)), if_neg (by omega)]
        simp
      · have hx : s.selects x ≠ true := fun hx => hn (by have := h0.1 hx; omega)
        simp only [hx, if_false, Bool.false_eq_true, List.nil_append]
        by_cases hle : n ≤ i
        · rw [if_pos (by omega), if_pos hle]
          obtain ⟨m, hm⟩ : ∃ m, i - n = m + 1 := ⟨i - n - 1, by omega⟩
          rw [hm, show i - (n + 1) = m by omega, List.getElem?_cons_succ]
        · rw [if_neg (by omega), if_neg hle]
  rw [key e.kids 0 (fun j x hx => by simpa using h j x hx)]
  simp [hi]

/-- A step without predicates selects the children with the tag. -/
theorem select_tag {t : QName} {e : Elem} {p : List Nat} :
    p ∈ select [⟨t, []⟩] e ↔ ∃ j x, e.kids[j]? = some x ∧ x.tag = t ∧ p = [j] := by
  simp only [select, List.mem_flatMap, LStep.selects, List.all_nil, and_true, decide_eq_true_eq]
  constructor
  · rintro ⟨⟨x, j⟩, hx, hp⟩
    rw [List.mem_zipIdx_iff_getElem?] at hx
    by_cases ht : x.tag = t
    · simp only [ht, if_true] at hp
      simp at hp
      exact ⟨j, x, hx, ht, hp⟩
    · simp [ht] at hp
  · rintro ⟨j, x, hx, ht, rfl⟩
    exact ⟨(x, j), List.mem_zipIdx_iff_getElem?.mpr hx, by simp [ht]⟩

end NcDiff.XPath
