import Verif.Proof.YangParse
/-!
# C63: parsing of YANG statements
-/

namespace NcDiff.Parse

theorem code_length (keep : Bool) (ts : List Token) : (code keep ts).length ≤ ts.length := by
  cases keep with
  | true => exact Nat.le_refl _
  | false => exact List.length_filter_le _ _

/-- **C63, soundness.**  What is parsed is a statement, its tokens are those that were consumed, its places are those of the
tokens, and the tokenizer is switched to YANG 1.1 exactly if it was before or the statement says so. -/
theorem C63_parsed {keep : Bool} {st st' : St} {t : Stmt} (h : parse keep false st = .ok (t, st')) :
    ∃ x, st.toks = x ++ st'.toks ∧ Spans keep st.cur st.lastLine t (code keep x) ∧
      st'.is11 = (st.is11 || says11 t) := by
  obtain ⟨x, h1, h2, _, h4⟩ := (sound keep _).1 _ _ _ h
  exact ⟨x, h1, h2, h4⟩

/-- **C63, completeness.**  If the next tokens are those of a statement, it is parsed and no more is consumed. -/
theorem C63_accepted {keep : Bool} {st : St} {t : Stmt} {ts rest : List Token}
    (h : Spans keep st.cur st.lastLine t ts) (hc : code keep st.toks = ts ++ rest) :
    ∃ st', parse keep false st = .ok (t, st') ∧ code keep st'.toks = rest := by
  have hl : ts.length ≤ st.toks.length + 1 := by
    have := code_length keep st.toks
    rw [hc, List.length_append] at this
    omega
  obtain ⟨st', h1, h2, _⟩ := complete h (n := st.toks.length + 1) hl rfl rfl hc
  exact ⟨st', h1, h2⟩

/-- **C63, errors.**  Parsing always ends, and it fails exactly if the tokens do not begin with a statement; it then raises
`Abort` or `Eof`. -/
theorem C63_total (keep : Bool) (st : St) :
    parse keep false st ≠ .error .fuel ∧ parse keep true st ≠ .error .fuel ∧
    ((∃ e, parse keep false st = .error e) ↔
      ¬ ∃ t ts rest, code keep st.toks = ts ++ rest ∧ Spans keep st.cur st.lastLine t ts) := by
  refine ⟨(no_fuel keep _).1 _ _ (Nat.le_succ _) (Nat.succ_pos _), (no_fuel keep _).1 _ _ (Nat.le_succ _)
    (Nat.succ_pos _), ?_⟩
  constructor
  · rintro ⟨e, he⟩ ⟨t, ts, rest, hc, hs⟩
    obtain ⟨st', h, _⟩ := C63_accepted hs hc
    rw [he] at h; cases h
  · intro hn
    cases h : parse keep false st with
    | error e => exact ⟨e, rfl⟩
    | ok r =>
      obtain ⟨t, st'⟩ := r
      obtain ⟨x, e, hs, _⟩ := C63_parsed h
      exact absurd ⟨t, code keep x, code keep st'.toks, by rw [e, code_append], hs⟩ hn

/-- **C63, one reading.**  Tokens begin with one statement at most: two readings of the same tokens are the same statement
with the same tokens. -/
theorem C63_unique {keep : Bool} {p : Place} {l : Nat} {t t' : Stmt} {ts ts' r r' : List Token}
    (h : Spans keep p l t ts) (h' : Spans keep p l t' ts') (e : ts ++ r = ts' ++ r')
    (hc : code keep (ts ++ r) = ts ++ r) : t = t' ∧ ts = ts' := by
  have h1 := C63_accepted (st := ⟨ts ++ r, p, l, false⟩) h hc
  have h2 := C63_accepted (st := ⟨ts ++ r, p, l, false⟩) h' (by rw [hc]; exact e)
  obtain ⟨s1, p1, c1⟩ := h1
  obtain ⟨s2, p2, c2⟩ := h2
  rw [p1] at p2
  cases p2
  refine ⟨rfl, ?_⟩
  have : r = r' := by rw [← c1, ← c2]
  subst this
  exact List.append_cancel_right e

/-- **C63, the module.**  Without comments in the tree, a module is parsed like any other statement.  If comments are kept,
one comment before the module is dropped. -/
theorem C63_module (st : St) :
    parse false true st = parse false false st ∧
    ∀ (t : Stmt) (c : List Token) (ts rest : List Token), (∀ x ∈ c, x.kind.isComment = true) → c.length ≤ 1 →
      (∀ s f l, ∀ g, t ≠ .comment s g f l) → Spans true st.cur st.lastLine t ts → st.toks = c ++ (ts ++ rest) →
      ∃ st', parse true true st = .ok (t, st') ∧ st'.toks = rest := by
  refine ⟨by simp [parse, parseStmt], ?_⟩
  intro t c ts rest hc hl ht hs he
  -- the statement is not a comment, so it starts with a keyword
  have key : ∀ (n : Nat) (s : St), ts.length ≤ n + 1 → s.lastLine = st.lastLine → s.toks = ts ++ rest →
      ∃ st', parseRest true (parseSubs true n) st.cur s = .ok (t, st') ∧ st'.toks = rest := by
    intro n s hn hll hst
    have hcode : code true s.toks = ts ++ rest := hst
    cases hs with
    | comment _ _ => exact absurd rfl (ht _ _ _ _)
    | leaf hk ha hse =>
      obtain ⟨s', h1, h2, _⟩ := parseRest_leaf (loop := parseSubs true n) (p := st.cur) (by simpa using hcode) hk ha hse
      exact ⟨s', h1, h2⟩
    | block hk ha ho hsub hz =>
      obtain ⟨s', h1, h2, _⟩ := parseRest_block (loop := parseSubs true n) (p := st.cur) (by simpa using hcode) hk ha ho
        (fun s hc1 hl1 => completeAll hsub (by simp at hn; omega) hl1 hz hc1)
      exact ⟨s', h1, h2⟩
  have hfirst : ∃ k r w, ts = k :: r ∧ k.kind = .word w := by
    cases hs with
    | comment _ _ => exact absurd rfl (ht _ _ _ _)
    | leaf hk => exact ⟨_, _, _, rfl, hk⟩
    | block hk => exact ⟨_, _, _, rfl, hk⟩
  obtain ⟨k, r, w, rfl, hk⟩ := hfirst
  unfold parse
  match c, hc, hl with
  | [], _, _ =>
    have hp : peek true st = .ok (k, { st with toks := k :: (r ++ rest), cur := k.start }) := by
      simp only [peek, dropComments, if_true, he, List.nil_append, List.cons_append]
    obtain ⟨s', h1, h2⟩ := key st.toks.length { st with toks := k :: (r ++ rest), cur := k.start }
      (by rw [he]; simp; omega) rfl rfl
    refine ⟨s', ?_, h2⟩
    rw [parseStmt]
    simp only [if_true, bind, Except.bind, hp, hk, h1]
  | [x], hc, _ =>
    have hx := hc x (by simp)
    have hp : peek true st = .ok (x, { st with toks := x :: (k :: (r ++ rest)), cur := x.start }) := by
      simp only [peek, dropComments, if_true, he, List.cons_append, List.nil_append]
    have hn : next true { st with toks := x :: (k :: (r ++ rest)), cur := x.start } =
        .ok (x, { st with toks := k :: (r ++ rest), cur := x.stop }) := by
      simp only [next, dropComments, if_true]
    obtain ⟨s', h1, h2⟩ := key st.toks.length { st with toks := k :: (r ++ rest), cur := x.stop }
      (by rw [he]; simp; omega) rfl rfl
    refine ⟨s', ?_, h2⟩
    rw [parseStmt]
    cases hkx : x.kind with
    | comment cm => simp only [if_true, bind, Except.bind, hp, hkx, hn, h1]
    | _ => rw [hkx] at hx; cases hx

/-- **C63, places.**  For every statement in the tree, at any depth, the tokens of the text that lie between its
`first_line` and its `last_line` are the tokens of the statement: what is before stops not after `first_line`, what is after
starts not before `last_line`. -/
theorem C63_places {st st' : St} {t s : Stmt} (h : parse false false st = .ok (t, st')) (ht : InText st.toks)
    (hcur : ∀ x ∈ st.toks, st.cur.le x.start) (hs : Sub s t) :
    ∃ a seg b l, code false st.toks = a ++ seg ++ b ∧ Spans false s.first l s seg ∧
      (∀ x ∈ a, x.stop.le s.first) ∧ (∀ x ∈ b, s.last.le x.start) ∧
      ∀ x ∈ seg, s.first.le x.start ∧ x.stop.le s.last := by
  obtain ⟨x, hx, hsp, _⟩ := C63_parsed h
  have hcode : code false st.toks = code false x ++ code false st'.toks := by rw [hx, code_append]
  have htc := inText_code false ht
  rw [hcode] at htc
  rcases sub_seg hs hsp with rfl | ⟨a, hd, seg, b, l', e, sp⟩
  · obtain ⟨hf, i, z, hi, hl⟩ := spans_last hsp
    cases hh : code false x with
    | nil => rw [hh] at hsp; exact absurd rfl (spans_ne hsp)
    | cons hd seg =>
      rw [hh] at hi htc hsp
      obtain ⟨_, h2, h3⟩ := inText_split (a := []) (by simpa using htc) hi
      refine ⟨[], hd :: seg, code false st'.toks, st.lastLine, by rw [hcode, hh]; rfl, by rw [hf]; exact hsp, by simp,
        fun y hy => by rw [hl]; exact h2 y hy, fun y hy => ⟨?_, by rw [hl]; exact (h3 y hy).2⟩⟩
      rw [hf]
      refine hcur y ?_
      have hy' : y ∈ code false x := by rw [hh]; exact hy
      rw [hx]
      exact List.mem_append_left _ (List.mem_filter.1 hy').1
  · obtain ⟨hf, i, z, hi, hl⟩ := spans_last sp
    rw [e] at htc
    obtain ⟨h1, h2, h3⟩ := inText_split (a := a) (b := b ++ code false st'.toks) (by simpa using htc) hi
    refine ⟨a, hd :: seg, b ++ code false st'.toks, l', by rw [hcode, e]; simp, by rw [hf]; exact sp, ?_, ?_, ?_⟩
    · rw [hf]; exact h1
    · rw [hl]; exact h2
    · rw [hf, hl]; exact h3

/-! ## Examples -/

private def tk (k : Kind) (l a b : Nat) : Token := ⟨k, ⟨l, a⟩, ⟨l, b⟩⟩

/-- `module m { /* c */ yang-version 1.1; leaf x { type "a" + "b"; } }` in four lines. -/
def demoToks : List Token :=
  [tk (.word "module") 1 0 6, tk (.word "m") 1 7 8, tk .lbrace 1 9 10,
   tk (.comment "/* c */") 2 2 9, tk (.word "yang-version") 2 10 22, tk (.word "1.1") 2 23 26, tk .semi 2 26 27,
   tk (.word "leaf") 3 2 6, tk (.word "x") 3 7 8, tk .lbrace 3 9 10, tk (.word "type") 3 11 15,
   tk (.quoted ["a", "b"]) 3 16 25, tk .semi 3 25 26, tk .rbrace 3 27 28, tk .rbrace 4 0 1]

def demoSt : St := ⟨demoToks, ⟨0, 0⟩, 0, false⟩

/-- A row for a statement: keyword, argument, places. -/
structure Row where
  keyword : String
  arg : Option String
  first : Place
  last : Place
  deriving DecidableEq

/-- The statement and those inside it. -/
def Stmt.flat : Stmt → List Row
  | .mk k a f l ss => ⟨k, a.map String.join, f, l⟩ :: flatList ss
  | .comment c _ f l => [⟨"_comment", some c, f, l⟩]
where flatList : List Stmt → List Row
  | [] => []
  | s :: ss => s.flat ++ flatList ss

def shown (r : Except PErr (Stmt × St)) : Option (List Row × Bool) :=
  match r with
  | .ok (t, st) => some (t.flat, st.is11)
  | .error _ => none

example : shown (parse false true demoSt) = some ([⟨"module", some "m", ⟨0, 0⟩, ⟨4, 1⟩⟩,
    ⟨"yang-version", some "1.1", ⟨2, 10⟩, ⟨2, 27⟩⟩, ⟨"leaf", some "x", ⟨3, 2⟩, ⟨3, 28⟩⟩,
    ⟨"type", some "ab", ⟨3, 11⟩, ⟨3, 26⟩⟩], true) := by decide +kernel

/-- The hypotheses of `C63_places`. -/
example : InText demoSt.toks ∧ ∀ x ∈ demoSt.toks, demoSt.cur.le x.start := by
  unfold InText Place.le
  decide +kernel

/-- A comment that is kept has the line where the statement before it stops as its last line, so it can end before it
begins. -/
theorem C63_comment_ends_before_it_begins :
    shown (parse true true demoSt) = some ([⟨"module", some "m", ⟨0, 0⟩, ⟨4, 1⟩⟩,
      ⟨"_comment", some "/* c */", ⟨2, 2⟩, ⟨1, 9⟩⟩,
      ⟨"yang-version", some "1.1", ⟨2, 10⟩, ⟨2, 27⟩⟩, ⟨"leaf", some "x", ⟨3, 2⟩, ⟨3, 28⟩⟩,
      ⟨"type", some "ab", ⟨3, 11⟩, ⟨3, 26⟩⟩], true) := by decide +kernel

def twoComments : St :=
  ⟨[tk (.comment "/* a */") 1 0 7, tk (.comment "// b") 2 0 4, tk (.word "module") 3 0 6, tk (.word "m") 3 7 8,
    tk .lbrace 3 9 10, tk .rbrace 3 10 11], ⟨0, 0⟩, 0, false⟩

/-- If comments are kept, a module after two comments is not parsed, though it is without keeping comments. -/
theorem C63_two_comments_before_module :
    shown (parse true true twoComments) = none ∧
    shown (parse false true twoComments) = some ([⟨"module", some "m", ⟨0, 0⟩, ⟨3, 11⟩⟩], false) := by decide +kernel

end NcDiff.Parse
