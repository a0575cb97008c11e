import Verif.Spec.YangParse
/-!
# Parsing: proofs
-/

namespace NcDiff.Parse

theorem code_eq (keep : Bool) (ts : List Token) :
    code keep ts = if keep then ts else ts.filter fun t => !t.kind.isComment := rfl

theorem pbind_ok {ε α β : Type} {x : Except ε α} {f : α → Except ε β} {b : β} :
    x >>= f = .ok b ↔ ∃ a, x = .ok a ∧ f a = .ok b := by
  cases x with
  | error e => simp [bind, Except.bind]
  | ok a => simp [bind, Except.bind]

theorem code_append (keep : Bool) (a b : List Token) : code keep (a ++ b) = code keep a ++ code keep b := by
  cases keep <;> simp [code]

theorem code_nil (keep : Bool) : code keep [] = [] := by cases keep <;> rfl

theorem code_single {keep : Bool} {t : Token} (h : keep = true ∨ t.kind.isComment = false) : code keep [t] = [t] := by
  rw [code_eq]
  cases keep
  · rcases h with h | h
    · cases h
    · simp [h]
  · rfl

/-- What is skipped. -/
theorem drop_split (keep : Bool) : ∀ ts, ∃ a, ts = a ++ dropComments keep ts ∧ code keep a = [] ∧
    ∀ t r, dropComments keep ts = t :: r → keep = true ∨ t.kind.isComment = false := by
  intro ts
  cases keep with
  | true => exact ⟨[], rfl, rfl, fun _ _ _ => .inl rfl⟩
  | false =>
    refine ⟨ts.takeWhile fun t => t.kind.isComment, ?_, ?_, ?_⟩
    · simp [dropComments]
    · rw [code_eq]
      simp only [Bool.false_eq_true, if_false, List.filter_eq_nil_iff]
      intro t ht
      have := List.all_takeWhile (p := fun t : Token => t.kind.isComment) (l := ts)
      rw [List.all_eq_true] at this
      simpa using this t ht
    · intro t r h
      right
      have := List.head?_dropWhile_not (fun t : Token => t.kind.isComment) ts
      simp only [dropComments, Bool.false_eq_true, if_false] at h
      rw [h] at this
      simpa using this

theorem next_ok {keep : Bool} {st st' : St} {t : Token} (h : next keep st = .ok (t, st')) :
    ∃ a, st.toks = a ++ st'.toks ∧ code keep a = [t] ∧ st'.cur = t.stop ∧ st'.lastLine = st.lastLine ∧
      st'.is11 = st.is11 := by
  obtain ⟨a, h1, h2, h3⟩ := drop_split keep st.toks
  unfold next at h
  split at h
  · cases h
  · rename_i x r hd
    cases h
    refine ⟨a ++ [t], ?_, ?_, rfl, rfl, rfl⟩
    · rw [hd] at h1; simpa using h1
    · rw [code_append, h2, code_single (h3 _ _ hd)]; rfl

theorem peek_ok {keep : Bool} {st st' : St} {t : Token} (h : peek keep st = .ok (t, st')) :
    ∃ a, st.toks = a ++ st'.toks ∧ code keep a = [] ∧ st'.toks.head? = some t ∧
      (keep = true ∨ t.kind.isComment = false) ∧ st'.cur = t.start ∧ st'.lastLine = st.lastLine ∧
      st'.is11 = st.is11 := by
  obtain ⟨a, h1, h2, h3⟩ := drop_split keep st.toks
  unfold peek at h
  split at h
  · cases h
  · rename_i x r hd
    cases h
    refine ⟨a, ?_, h2, rfl, h3 _ _ hd, rfl, rfl, rfl⟩
    rw [hd] at h1; exact h1

/-- A keyword and an argument. -/
def argSays (w : String) (a : Option (List String)) : Bool := w == "yang-version" && a.map String.join == some "1.1"

theorem readHead_ok {keep : Bool} {st st' : St} {w : String} {a : Option (List String)}
    (h : readHead keep st = .ok (w, a, st')) :
    ∃ x k as, st.toks = x ++ st'.toks ∧ code keep x = k :: as ∧ k.kind = .word w ∧ Arg a as ∧
      st'.lastLine = st.lastLine ∧ st'.is11 = (st.is11 || argSays w a) := by
  unfold readHead at h
  obtain ⟨⟨k, s1⟩, h1, h⟩ := pbind_ok.1 h
  obtain ⟨x1, e1, c1, _, l1, i1⟩ := next_ok h1
  simp only [] at h
  split at h
  · rename_i w' hk
    obtain ⟨⟨t, s2⟩, h2, h⟩ := pbind_ok.1 h
    obtain ⟨x2, e2, c2, _, _, _, l2, i2⟩ := peek_ok h2
    simp only [] at h
    have hfin : ∀ b, (b = Option.none) → (w', b, s2) = (w, a, st') → ∃ x k as, st.toks = x ++ st'.toks ∧
        code keep x = k :: as ∧ k.kind = .word w ∧ Arg a as ∧
        st'.lastLine = st.lastLine ∧ st'.is11 = (st.is11 || argSays w a) := by
      rintro b rfl hb
      cases hb
      refine ⟨x1 ++ x2, k, [], ?_, ?_, hk, .none, by rw [l2, l1], ?_⟩
      · rw [e1, e2, List.append_assoc]
      · rw [code_append, c1, c2]; rfl
      · rw [i2, i1]; simp [argSays]
    split at h
    · exact hfin _ rfl (Except.ok.inj h)
    · exact hfin _ rfl (Except.ok.inj h)
    · obtain ⟨⟨t', s3⟩, h3, h⟩ := pbind_ok.1 h
      obtain ⟨x3, e3, c3, _, l3, i3⟩ := next_ok h3
      have hx : st.toks = (x1 ++ x2 ++ x3) ++ s3.toks := by
        rw [e1, e2, e3]; simp
      have hc : code keep (x1 ++ x2 ++ x3) = k :: [t'] := by
        rw [code_append, code_append, c1, c2, c3]; rfl
      simp only [] at h
      split at h
      · rename_i a' ha
        cases h
        exact ⟨_, _, _, hx, hc, hk, .word ha, by simp [l3, l2, l1], by simp [i3, i2, i1, argSays, String.join]⟩
      · rename_i l hl
        cases h
        refine ⟨_, _, _, hx, hc, hk, .quoted hl, by simp [l3, l2, l1], ?_⟩
        simp only [i3, i2, i1, argSays, Option.map_some]
        congr 2
      · cases h
  · cases h

/-- What the loop does. -/
def LoopOk (keep : Bool) (st : St) (ss : List Stmt) (st' : St) : Prop :=
  ∃ x ts c, st.toks = x ++ st'.toks ∧ code keep x = ts ++ [c] ∧ c.kind = .rbrace ∧ SpansAll keep st.lastLine ss ts ∧
    st'.cur = c.stop ∧ st'.is11 = (st.is11 || says11List ss)

/-- What a statement does. -/
def StmtOk (keep : Bool) (p : Place) (st : St) (t : Stmt) (st' : St) : Prop :=
  ∃ x, st.toks = x ++ st'.toks ∧ Spans keep p st.lastLine t (code keep x) ∧ st'.lastLine = after st.lastLine t ∧
    st'.is11 = (st.is11 || says11 t)

theorem parseRest_ok {keep : Bool} {loop : St → Except PErr (List Stmt × St)}
    (hloop : ∀ st ss st', loop st = .ok (ss, st') → LoopOk keep st ss st') {p : Place} {st st' : St} {t : Stmt}
    (h : parseRest keep loop p st = .ok (t, st')) : StmtOk keep p st t st' ∧ st'.cur = t.last := by
  unfold parseRest at h
  obtain ⟨⟨w, a, s1⟩, h1, h⟩ := pbind_ok.1 h
  obtain ⟨⟨o, s2⟩, h2, h⟩ := pbind_ok.1 h
  obtain ⟨x1, k, as, e1, c1, hk, ha, l1, i1⟩ := readHead_ok h1
  obtain ⟨x2, e2, c2, u2, l2, i2⟩ := next_ok h2
  simp only [] at h
  split at h
  · rename_i ho
    obtain ⟨⟨ss, s3⟩, h3, h⟩ := pbind_ok.1 h
    obtain ⟨x3, ts, c, e3, c3, hc, hs, u3, i3⟩ := hloop _ _ _ h3
    cases h
    refine ⟨⟨x1 ++ x2 ++ x3, ?_, ?_, rfl, ?_⟩, rfl⟩
    · show st.toks = _ ++ s3.toks
      rw [e1, e2]
      have e3' : s2.toks = x3 ++ s3.toks := e3
      rw [e3']; simp
    · rw [code_append, code_append, c1, c2, c3, u3]
      rw [u2] at hs
      have := Spans.block (keep := keep) (p := p) (line := st.lastLine) hk ha ho hs hc
      simpa using this
    · show s3.is11 = _
      rw [i3]
      show (s2.is11 || _) = _
      rw [i2, i1, says11, Bool.or_assoc]; rfl
  · rename_i ho
    cases h
    refine ⟨⟨x1 ++ x2, ?_, ?_, rfl, ?_⟩, rfl⟩
    · show st.toks = _ ++ s2.toks
      rw [e1, e2]; simp
    · rw [code_append, c1, c2, u2]
      have := Spans.leaf (keep := keep) (p := p) (line := st.lastLine) hk ha ho
      simpa using this
    · show s2.is11 = _
      rw [i2, i1, says11, says11List, Bool.or_false]; rfl
  · cases h

theorem spans_ne {keep : Bool} {p : Place} {l : Nat} {t : Stmt} {ts : List Token} (h : Spans keep p l t ts) :
    ts ≠ [] := by
  cases h <;> simp

/-- Soundness. -/
theorem sound (keep : Bool) : ∀ n,
    (∀ st t st', parseStmt keep false n st = .ok (t, st') → StmtOk keep st.cur st t st') ∧
    (∀ st ss st', parseSubs keep n st = .ok (ss, st') → LoopOk keep st ss st')
  | 0 => ⟨fun _ _ _ h => by simp [parseStmt] at h, fun _ _ _ h => by simp [parseSubs] at h⟩
  | n + 1 => by
    obtain ⟨ih1, ih2⟩ := sound keep n
    constructor
    · intro st t st' h
      rw [parseStmt] at h
      split at h
      · rename_i hkeep
        obtain ⟨⟨c, s1⟩, h1, h⟩ := pbind_ok.1 h
        obtain ⟨x1, e1, c1, hh, _, u1, l1, i1⟩ := peek_ok h1
        simp only [] at h
        split at h
        · rename_i x hx
          obtain ⟨⟨c', s2⟩, h2, h⟩ := pbind_ok.1 h
          obtain ⟨x2, e2, c2, u2, l2, i2⟩ := next_ok h2
          simp only [Bool.false_eq_true, if_false] at h
          cases h
          have hcc : c' = c := by
            rw [e2] at hh
            cases x2 with
            | nil => rw [code_nil] at c2; cases c2
            | cons y x2 =>
              subst hkeep
              simp only [code, if_true, List.cons.injEq] at c2
              simp at hh
              rw [← c2.1, hh]
          refine ⟨x1 ++ x2, ?_, ?_, ?_, ?_⟩
          · rw [e1, e2]; simp
          · rw [code_append, c1, c2, hcc]
            exact .comment hkeep hx
          · rw [l2, l1]; rfl
          · rw [i2, i1]; simp [says11]
        · obtain ⟨⟨y, e2, s2, l2, i2⟩, _⟩ := parseRest_ok ih2 h
          refine ⟨x1 ++ y, ?_, ?_, ?_, ?_⟩
          · rw [e1, e2]; simp
          · rw [code_append, c1, List.nil_append, ← l1]; exact s2
          · rw [l2, l1]
          · rw [i2, i1]
      · exact (parseRest_ok ih2 h).1
    · intro st ss st' h
      rw [parseSubs] at h
      obtain ⟨⟨t, s1⟩, h1, h⟩ := pbind_ok.1 h
      obtain ⟨x1, e1, c1, hh, hkc, u1, l1, i1⟩ := peek_ok h1
      simp only [] at h
      split at h
      · rename_i ht
        obtain ⟨⟨c, s2⟩, h2, h⟩ := pbind_ok.1 h
        obtain ⟨x2, e2, c2, u2, l2, i2⟩ := next_ok h2
        cases h
        refine ⟨x1 ++ x2, [], c, ?_, ?_, ?_, .nil, u2, ?_⟩
        · rw [e1, e2]; simp
        · rw [code_append, c1, c2]
        · have : c = t := by
            rw [e2] at hh
            cases x2 with
            | nil => rw [code_nil] at c2; cases c2
            | cons y x2 =>
              have hy : y = t := by simpa using hh
              subst hy
              have : code keep ([y] ++ x2) = [c] := c2
              rw [code_append, code_single hkc] at this
              simp at this
              exact this.1.symm
          rw [this, ht]
        · rw [i2, i1]; simp [says11List]
      · obtain ⟨⟨s, s2⟩, h2, h⟩ := pbind_ok.1 h
        obtain ⟨⟨r, s3⟩, h3, h⟩ := pbind_ok.1 h
        cases h
        obtain ⟨x2, e2, sp, l2, i2⟩ := ih1 _ _ _ h2
        obtain ⟨x3, ts, c, e3, c3, hc, hs, u3, i3⟩ := ih2 _ _ _ h3
        cases x2 with
        | nil => rw [code_nil] at sp; exact absurd rfl (spans_ne sp)
        | cons y x2 =>
          have hy : y = t := by rw [e2] at hh; simpa using hh
          subst hy
          have hcy : code keep (y :: x2) = y :: code keep x2 := by
            show code keep ([y] ++ x2) = _
            rw [code_append, code_single hkc]; rfl
          rw [hcy, u1, l1] at sp
          rw [l2, l1] at hs
          refine ⟨x1 ++ (y :: x2) ++ x3, y :: (code keep x2 ++ ts), c, ?_, ?_, hc, .cons sp hs, u3, ?_⟩
          · rw [e1, e2, e3]; simp
          · rw [code_append, code_append, c1, hcy, c3]; simp
          · rw [i3, i2, i1, says11List, Bool.or_assoc]

/-! ## Completeness -/

theorem code_cons {keep : Bool} {ts : List Token} {t : Token} {rest : List Token} (h : code keep ts = t :: rest) :
    ∃ r, dropComments keep ts = t :: r ∧ code keep r = rest := by
  obtain ⟨a, h1, h2, h3⟩ := drop_split keep ts
  cases hd : dropComments keep ts with
  | nil => rw [h1, hd, code_append, h2, code_nil] at h; cases h
  | cons x r =>
    have hx := h3 _ _ hd
    rw [h1, hd, code_append, h2] at h
    have : code keep ([x] ++ r) = t :: rest := h
    rw [code_append, code_single hx] at this
    simp at this
    exact ⟨r, by rw [this.1], this.2⟩

theorem next_of {keep : Bool} {st : St} {t : Token} {rest : List Token} (h : code keep st.toks = t :: rest) :
    ∃ r, next keep st = .ok (t, { st with toks := r, cur := t.stop }) ∧ code keep r = rest := by
  obtain ⟨r, h1, h2⟩ := code_cons h
  exact ⟨r, by simp [next, h1], h2⟩

theorem peek_of {keep : Bool} {st : St} {t : Token} {rest : List Token} (h : code keep st.toks = t :: rest) :
    ∃ r, peek keep st = .ok (t, { st with toks := t :: r, cur := t.start }) ∧ code keep (t :: r) = t :: rest := by
  obtain ⟨r, h1, h2⟩ := code_cons h
  refine ⟨r, by simp [peek, h1], ?_⟩
  obtain ⟨_, _, _, h3⟩ := drop_split keep st.toks
  show code keep ([t] ++ r) = _
  rw [code_append, code_single (h3 _ _ h1), h2]; rfl

theorem readHead_of {keep : Bool} {st : St} {k e : Token} {w : String} {a : Option (List String)}
    {as rest : List Token} (h : code keep st.toks = k :: (as ++ e :: rest)) (hk : k.kind = .word w) (ha : Arg a as)
    (he : e.kind = .lbrace ∨ e.kind = .semi) :
    ∃ s, readHead keep st = .ok (w, a, s) ∧ code keep s.toks = e :: rest ∧ s.lastLine = st.lastLine := by
  obtain ⟨r1, h1, c1⟩ := next_of h
  cases ha with
  | none =>
    obtain ⟨r2, h2, c2⟩ := peek_of (st := { st with toks := r1, cur := k.stop }) (t := e) (rest := rest) c1
    refine ⟨{ st with toks := e :: r2, cur := e.start }, ?_, c2, ?_⟩
    · unfold readHead
      rw [h1]
      simp only [bind, Except.bind, hk, h2]
      rcases he with he | he <;> simp only [he]
    · rfl
  | @word t x ht =>
    obtain ⟨r2, h2, c2⟩ := peek_of (st := { st with toks := r1, cur := k.stop }) (t := t) (rest := e :: rest) c1
    obtain ⟨r3, h3, c3⟩ := next_of (st := { st with toks := t :: r2, cur := t.start }) (t := t) (rest := e :: rest) c2
    refine ⟨(⟨r3, t.stop, st.lastLine, st.is11 || (w == "yang-version" && x == "1.1")⟩ : St), ?_, c3, rfl⟩
    unfold readHead
    rw [h1]
    simp only [bind, Except.bind, hk, h2, ht, h3]
  | @quoted t l ht =>
    obtain ⟨r2, h2, c2⟩ := peek_of (st := { st with toks := r1, cur := k.stop }) (t := t) (rest := e :: rest) c1
    obtain ⟨r3, h3, c3⟩ := next_of (st := { st with toks := t :: r2, cur := t.start }) (t := t) (rest := e :: rest) c2
    refine ⟨(⟨r3, t.stop, st.lastLine, st.is11 || (w == "yang-version" && String.join l == "1.1")⟩ : St), ?_, c3, rfl⟩
    unfold readHead
    rw [h1]
    simp only [bind, Except.bind, hk, h2, ht, h3]

/-- A statement that is not a comment, at the place where the keyword is read. -/
theorem parseStmt_rest {keep top : Bool} {n : Nat} {st : St} {k : Token} {w : String} {rest : List Token}
    (h : code keep st.toks = k :: rest) (hk : k.kind = .word w) :
    ∃ s, parseStmt keep top (n + 1) st = parseRest keep (parseSubs keep n) st.cur s ∧ code keep s.toks = k :: rest ∧
      s.lastLine = st.lastLine := by
  rw [parseStmt]
  cases keep with
  | false => exact ⟨st, by simp, h, rfl⟩
  | true =>
    obtain ⟨r, h1, c1⟩ := peek_of h
    refine ⟨{ st with toks := k :: r, cur := k.start }, ?_, c1, rfl⟩
    simp only [if_true, bind, Except.bind, h1, hk]

theorem parseRest_leaf {keep : Bool} {loop : St → Except PErr (List Stmt × St)} {p : Place} {st : St}
    {k s : Token} {w : String} {a : Option (List String)} {as rest : List Token}
    (h : code keep st.toks = k :: (as ++ s :: rest)) (hk : k.kind = .word w) (ha : Arg a as) (hs : s.kind = .semi) :
    ∃ st', parseRest keep loop p st = .ok (.mk w a p s.stop [], st') ∧ code keep st'.toks = rest ∧
      st'.lastLine = s.stop.line := by
  obtain ⟨s1, h1, c1, _⟩ := readHead_of h hk ha (.inr hs)
  obtain ⟨r2, h2, c2⟩ := next_of c1
  exact ⟨{ s1 with toks := r2, cur := s.stop, lastLine := s.stop.line }, by
    simp only [parseRest, bind, Except.bind, h1, h2, hs], c2, rfl⟩

theorem parseRest_block {keep : Bool} {loop : St → Except PErr (List Stmt × St)} {p : Place} {st : St}
    {k o c : Token} {w : String} {a : Option (List String)} {as ts rest : List Token} {subs : List Stmt}
    (h : code keep st.toks = k :: (as ++ o :: (ts ++ c :: rest))) (hk : k.kind = .word w) (ha : Arg a as)
    (ho : o.kind = .lbrace)
    (hl : ∀ s, code keep s.toks = ts ++ c :: rest → s.lastLine = o.stop.line →
      ∃ s', loop s = .ok (subs, s') ∧ code keep s'.toks = rest ∧ s'.cur = c.stop) :
    ∃ st', parseRest keep loop p st = .ok (.mk w a p c.stop subs, st') ∧ code keep st'.toks = rest ∧
      st'.lastLine = c.stop.line := by
  obtain ⟨s1, h1, c1, _⟩ := readHead_of h hk ha (.inl ho)
  obtain ⟨r2, h2, c2⟩ := next_of c1
  obtain ⟨s3, h3, c3, u3⟩ := hl { s1 with toks := r2, cur := o.stop, lastLine := o.stop.line } c2 rfl
  refine ⟨{ s3 with lastLine := s3.cur.line }, ?_, c3, by rw [u3]⟩
  simp only [parseRest, bind, Except.bind, h1, h2, ho, h3, u3]

mutual
/-- Completeness: the tokens of a statement are parsed. -/
theorem complete {keep : Bool} : ∀ {p : Place} {l : Nat} {t : Stmt} {ts : List Token}, Spans keep p l t ts →
    ∀ {n : Nat} {st : St} {rest : List Token}, ts.length ≤ n → st.cur = p → st.lastLine = l →
      code keep st.toks = ts ++ rest →
      ∃ st', parseStmt keep false n st = .ok (t, st') ∧ code keep st'.toks = rest ∧ st'.lastLine = after l t
  | _, _, _, _, .comment (c := c) (x := x) hkeep hc, n, st, rest, hn, hp, hl, h => by
    subst hp; subst hl
    cases n with
    | zero => simp at hn
    | succ n =>
      obtain ⟨r, h1, c1⟩ := peek_of (t := c) (rest := rest) h
      obtain ⟨r2, h2, c2⟩ := next_of (st := { st with toks := c :: r, cur := c.start }) c1
      refine ⟨{ st with toks := r2, cur := c.stop }, ?_, c2, rfl⟩
      rw [parseStmt]
      simp only [hkeep, if_true, bind, Except.bind, Bool.false_eq_true, if_false] at h1 h2 ⊢
      rw [h1]
      simp only [hc, h2]
  | _, _, _, _, .leaf (s := s) hk ha hs, n, st, rest, hn, hp, hl, h => by
    subst hp; subst hl
    cases n with
    | zero => simp at hn
    | succ n =>
      obtain ⟨s1, h1, c1, l1⟩ := parseStmt_rest (top := false) (n := n) h hk
      rw [h1]
      exact parseRest_leaf (by simpa using c1) hk ha hs
  | _, _, _, _, .block hk ha ho hs hc, n, st, rest, hn, hp, hl, h => by
    subst hp; subst hl
    cases n with
    | zero => simp at hn
    | succ n =>
      obtain ⟨s1, h1, c1, l1⟩ := parseStmt_rest (top := false) (n := n) h hk
      rw [h1]
      refine parseRest_block (by simpa using c1) hk ha ho (fun s hc1 hl1 => ?_)
      exact completeAll hs (by simp at hn; omega) hl1 hc hc1
/-- Completeness of the loop. -/
theorem completeAll {keep : Bool} : ∀ {l : Nat} {ss : List Stmt} {ts : List Token}, SpansAll keep l ss ts →
    ∀ {n : Nat} {st : St} {c : Token} {rest : List Token}, ts.length + 1 ≤ n → st.lastLine = l → c.kind = .rbrace →
      code keep st.toks = ts ++ c :: rest →
      ∃ st', parseSubs keep n st = .ok (ss, st') ∧ code keep st'.toks = rest ∧ st'.cur = c.stop
  | _, _, _, .nil, n, st, c, rest, hn, hl, hc, h => by
    cases n with
    | zero => simp at hn
    | succ n =>
      obtain ⟨r, h1, c1⟩ := peek_of (t := c) (rest := rest) h
      obtain ⟨r2, h2, c2⟩ := next_of (st := { st with toks := c :: r, cur := c.start }) c1
      refine ⟨{ st with toks := r2, cur := c.stop }, ?_, c2, rfl⟩
      rw [parseSubs]
      simp only [bind, Except.bind, h1, hc, h2]
  | _, _, _, .cons (t := t) (ts := ts) (us := us) hs hr, n, st, c, rest, hn, hl, hc, h => by
    cases n with
    | zero => simp at hn
    | succ n =>
      obtain ⟨r, h1, c1⟩ := peek_of (t := t) (rest := ts ++ us ++ c :: rest) (by simpa using h)
      obtain ⟨s2, h2, c2, l2⟩ := complete hs (n := n) (st := { st with toks := t :: r, cur := t.start })
        (rest := us ++ c :: rest) (by simp at hn ⊢; omega) rfl hl (by simpa using c1)
      obtain ⟨s3, h3, c3, u3⟩ := completeAll hr (n := n) (st := s2) (by simp at hn ⊢; omega) l2 hc c2
      refine ⟨s3, ?_, c3, u3⟩
      have hnot : t.kind ≠ .rbrace := by
        intro e
        cases hs with
        | comment _ h' => rw [e] at h'; cases h'
        | leaf h' => rw [e] at h'; cases h'
        | block h' => rw [e] at h'; cases h'
      rw [parseSubs]
      simp only [bind, Except.bind, h1, h2, h3]
end

/-! ## The bound of the recursion -/

theorem next_lt {keep : Bool} {st st' : St} {t : Token} (h : next keep st = .ok (t, st')) :
    st'.toks.length < st.toks.length := by
  obtain ⟨a, h1, h2, _⟩ := next_ok h
  have : a ≠ [] := by rintro rfl; rw [code_nil] at h2; cases h2
  have := List.length_pos_iff.2 this
  rw [h1, List.length_append]; omega

theorem peek_le {keep : Bool} {st st' : St} {t : Token} (h : peek keep st = .ok (t, st')) :
    st'.toks.length ≤ st.toks.length ∧ 0 < st'.toks.length := by
  obtain ⟨a, h1, _, h3, _⟩ := peek_ok h
  constructor
  · rw [h1, List.length_append]; omega
  · cases ht : st'.toks with
    | nil => rw [ht] at h3; cases h3
    | cons _ _ => simp

theorem readHead_lt {keep : Bool} {st st' : St} {w : String} {a : Option (List String)}
    (h : readHead keep st = .ok (w, a, st')) : st'.toks.length < st.toks.length := by
  obtain ⟨x, k, as, h1, h2, _⟩ := readHead_ok h
  have : x ≠ [] := by rintro rfl; rw [code_nil] at h2; cases h2
  have := List.length_pos_iff.2 this
  rw [h1, List.length_append]; omega

theorem next_fuel (keep : Bool) (st : St) : next keep st ≠ .error .fuel := by
  unfold next; split <;> simp

theorem peek_fuel (keep : Bool) (st : St) : peek keep st ≠ .error .fuel := by
  unfold peek; split <;> simp

theorem bind_fuel {α β : Type} {x : Except PErr α} {f : α → Except PErr β} (hx : x ≠ .error .fuel)
    (hf : ∀ a, x = .ok a → f a ≠ .error .fuel) : x >>= f ≠ .error .fuel := by
  cases x with
  | error e => simpa [bind, Except.bind] using hx
  | ok a => exact hf a rfl

theorem readHead_fuel (keep : Bool) (st : St) : readHead keep st ≠ .error .fuel := by
  unfold readHead
  refine bind_fuel (next_fuel _ _) (fun ⟨k, s1⟩ _ => ?_)
  simp only []
  split
  · refine bind_fuel (peek_fuel _ _) (fun ⟨t, s2⟩ _ => ?_)
    simp only []
    split
    · simp
    · simp
    · refine bind_fuel (next_fuel _ _) (fun ⟨t, s3⟩ _ => ?_)
      simp only []
      split <;> simp
  · simp

theorem parseRest_fuel {keep : Bool} {loop : St → Except PErr (List Stmt × St)} {p : Place} {st : St}
    (hl : ∀ s : St, s.toks.length + 2 ≤ st.toks.length → loop s ≠ .error .fuel) :
    parseRest keep loop p st ≠ .error .fuel := by
  unfold parseRest
  refine bind_fuel (readHead_fuel _ _) (fun ⟨w, a, s1⟩ h1 => ?_)
  refine bind_fuel (next_fuel _ _) (fun ⟨t, s2⟩ h2 => ?_)
  have l1 := readHead_lt h1
  have l2 := next_lt h2
  simp only []
  split
  · refine bind_fuel (hl _ (by simp only []; omega)) (fun ⟨ss, s3⟩ _ => ?_)
    simp
  · simp
  · simp

theorem no_fuel (keep : Bool) : ∀ n,
    (∀ top st, st.toks.length ≤ n → 0 < n → parseStmt keep top n st ≠ .error .fuel) ∧
    (∀ st : St, st.toks.length + 1 ≤ n → parseSubs keep n st ≠ .error .fuel)
  | 0 => ⟨fun _ _ _ h => absurd h (by simp), fun _ h => absurd h (by simp)⟩
  | n + 1 => by
    obtain ⟨ih1, ih2⟩ := no_fuel keep n
    constructor
    · intro top st hn _
      rw [parseStmt]
      split
      · refine bind_fuel (peek_fuel _ _) (fun ⟨t, s1⟩ h1 => ?_)
        have l1 := (peek_le h1).1
        simp only []
        split
        · refine bind_fuel (next_fuel _ _) (fun ⟨t', s2⟩ h2 => ?_)
          have l2 := next_lt h2
          simp only []
          split
          · exact parseRest_fuel (fun s hs => ih2 s (by omega))
          · simp
        · exact parseRest_fuel (fun s hs => ih2 s (by omega))
      · exact parseRest_fuel (fun s hs => ih2 s (by omega))
    · intro st hn
      rw [parseSubs]
      refine bind_fuel (peek_fuel _ _) (fun ⟨t, s1⟩ h1 => ?_)
      have l1 := peek_le h1
      simp only []
      split
      · refine bind_fuel (next_fuel _ _) (fun ⟨t', s2⟩ h2 => ?_)
        simp
      · refine bind_fuel (ih1 _ _ (by omega) (by omega)) (fun ⟨s, s2⟩ h2 => ?_)
        have l2 : s2.toks.length < s1.toks.length := by
          obtain ⟨x, e, sp, _⟩ := (sound keep n).1 _ _ _ h2
          have : x ≠ [] := by rintro rfl; rw [code_nil] at sp; exact spans_ne sp rfl
          have := List.length_pos_iff.2 this
          rw [e, List.length_append]; omega
        simp only []
        refine bind_fuel (ih2 _ (by omega)) (fun ⟨ss, s3⟩ h3 => ?_)
        simp

/-! ## Places -/

theorem Place.le_trans {a b c : Place} (h : a.le b) (h' : b.le c) : a.le c := by
  unfold Place.le at *; omega

theorem Place.le_refl (a : Place) : a.le a := by
  unfold Place.le; omega

theorem spans_last {p : Place} {l : Nat} {t : Stmt} {ts : List Token} (h : Spans false p l t ts) :
    t.first = p ∧ ∃ i z, ts = i ++ [z] ∧ t.last = z.stop := by
  cases h with
  | comment h => cases h
  | @leaf _ _ k w a as s => exact ⟨rfl, k :: as, s, by simp, rfl⟩
  | @block _ _ k w a as o subs us c => exact ⟨rfl, k :: (as ++ o :: us), c, by simp, rfl⟩

theorem all_split {keep : Bool} : ∀ {l : Nat} {ss : List Stmt} {ts : List Token}, SpansAll keep l ss ts →
    ∀ {s : Stmt}, s ∈ ss → ∃ a h seg b l', ts = a ++ (h :: seg) ++ b ∧ Spans keep h.start l' s (h :: seg)
  | _, _, _, .nil, _, hs => by cases hs
  | l, _, _, .cons (t := t) (ts := ts) (us := us) h1 h2, s, hs => by
    rcases List.mem_cons.1 hs with rfl | hs
    · exact ⟨[], t, ts, us, l, by simp, h1⟩
    · obtain ⟨a, h, seg, b, l', e, sp⟩ := all_split h2 hs
      exact ⟨t :: (ts ++ a), h, seg, b, l', by rw [e]; simp, sp⟩

/-- The tokens of a statement inside a statement. -/
theorem sub_seg {s t : Stmt} (hs : Sub s t) : ∀ {p : Place} {l : Nat} {ts : List Token}, Spans false p l t ts →
    (s = t) ∨ ∃ a h seg b l', ts = a ++ (h :: seg) ++ b ∧ Spans false h.start l' s (h :: seg) := by
  induction hs with
  | self => intro p l ts _; exact .inl rfl
  | @deeper c t hc hs ih =>
    intro p l ts h
    right
    cases h with
    | comment h => cases h
    | leaf => simp [Stmt.subs] at hc
    | @block _ _ k w a as o subs us z hk ha ho hsub hz =>
      obtain ⟨x, hd, seg, y, l', e, sp⟩ := all_split hsub hc
      rcases ih sp with rfl | ⟨x', hd', seg', y', l'', e', sp'⟩
      · exact ⟨k :: (as ++ o :: x), hd, seg, y ++ [z], l', by rw [e]; simp, sp⟩
      · exact ⟨k :: (as ++ o :: x) ++ x', hd', seg', y' ++ (y ++ [z]), l'', by rw [e, e']; simp, sp'⟩

/-- In a text, what is before and after a part. -/
theorem inText_split {a seg b : List Token} {h z : Token} {i : List Token} (ht : InText (a ++ (h :: seg) ++ b))
    (hz : h :: seg = i ++ [z]) :
    (∀ x ∈ a, x.stop.le h.start) ∧ (∀ x ∈ b, z.stop.le x.start) ∧
      ∀ x ∈ h :: seg, h.start.le x.start ∧ x.stop.le z.stop := by
  obtain ⟨h1, h2⟩ := ht
  rw [List.append_assoc, List.pairwise_append] at h2
  obtain ⟨_, h2, h3⟩ := h2
  rw [List.pairwise_append] at h2
  obtain ⟨h2, _, h4⟩ := h2
  refine ⟨fun x hx => h3 x hx h (by simp), fun x hx => h4 z (by rw [hz]; simp) x hx, ?_⟩
  intro x hx
  have hs : ∀ y ∈ h :: seg, y.start.le y.stop := fun y hy => h1 y (List.mem_append_left _ (List.mem_append_right _ hy))
  constructor
  · rcases List.mem_cons.1 hx with rfl | hx'
    · exact Place.le_refl _
    · exact Place.le_trans (hs h (by simp)) ((List.pairwise_cons.1 h2).1 x hx')
  · rw [hz] at hx h2
    rcases List.mem_append.1 hx with hx' | hx'
    · have := (List.pairwise_append.1 h2).2.2 x hx' z (by simp)
      exact Place.le_trans this (hs z (by rw [hz]; simp))
    · rw [List.mem_singleton.1 hx']; exact Place.le_refl _

theorem inText_code {ts : List Token} (keep : Bool) (h : InText ts) : InText (code keep ts) := by
  cases keep with
  | true => exact h
  | false =>
    exact ⟨fun t ht => h.1 t ((List.mem_filter.1 ht).1), h.2.sublist List.filter_sublist⟩

end NcDiff.Parse
