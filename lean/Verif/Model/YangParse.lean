/-!
# Parsing of YANG statements

Model of `_parse_statement` (`src/ncdiff/__init__.py` lines 206-273), which replaces the method of `YangParser` of pyang, and
of the two fields that class `Position` (lines 171-200) has in addition to that of pyang.

The tokenizer of pyang is not part of the code.  It is represented by the list of tokens that are left, each with the place
where it starts and where it stops.  `peek` and the other methods of the tokenizer first skip white space, and comments
unless they are kept.

Simplifications: `pos.line`, `pos.top` and the flags of a comment are left out; the argument of `get_comment` is recorded
instead of the flags.  A comment that is kept and is not at the start of a statement is an error.
-/

namespace NcDiff.Parse

/-- `(self.pos.line, self.tokenizer.offset)`. -/
structure Place where
  line : Nat
  offset : Nat
  deriving DecidableEq, Repr

/-- What the tokenizer finds: an unquoted word, quoted strings joined by `+`, `{`, `}`, `;`, a comment. -/
inductive Kind where
  | word (s : String)
  | quoted (l : List String)
  | lbrace
  | rbrace
  | semi
  | comment (s : String)
  deriving DecidableEq, Repr

structure Token where
  kind : Kind
  start : Place
  stop : Place
  deriving DecidableEq, Repr

/-- A `Statement`: keyword, `arg_substrings`, `pos.first_line`, `pos.last_line`, `substmts`; or a `_comment`, with the line that
`get_comment` was given. -/
inductive Stmt where
  | mk (keyword : String) (arg : Option (List String)) (first last : Place) (subs : List Stmt)
  | comment (text : String) (given : Nat) (first last : Place)
  deriving Repr

namespace Stmt
def first : Stmt → Place | .mk _ _ f _ _ => f | .comment _ _ f _ => f
def last : Stmt → Place | .mk _ _ _ l _ => l | .comment _ _ _ l => l
def subs : Stmt → List Stmt | .mk _ _ _ _ s => s | .comment .. => []
/-- `''.join([a[0] for a in argstrs])`, line 239. -/
def arg : Stmt → Option String
  | .mk _ a _ _ _ => a.map String.join
  | .comment s _ _ _ => some s
end Stmt

/-- The parser and its tokenizer: the tokens that are left, the place, `self.last_line`, `tokenizer.is_1_1`. -/
structure St where
  toks : List Token
  cur : Place
  lastLine : Nat
  is11 : Bool
  deriving DecidableEq, Repr

/-- `error.Abort`, `error.Eof`; `fuel` is the bound of the recursion of the model, see `C63_total`. -/
inductive PErr where
  | abort | eof | fuel
  deriving DecidableEq, Repr

def Kind.isComment : Kind → Bool
  | .comment _ => true
  | _ => false

/-- `tokenizer.skip()`. -/
def dropComments (keep : Bool) (ts : List Token) : List Token :=
  if keep then ts else ts.dropWhile fun t => t.kind.isComment

/-- The next token, for the methods of the tokenizer that read one. -/
def next (keep : Bool) (st : St) : Except PErr (Token × St) :=
  match dropComments keep st.toks with
  | [] => .error .eof
  | t :: r => .ok (t, { st with toks := r, cur := t.stop })

/-- `tokenizer.peek()`: the next token is not consumed, but what is before it is skipped. -/
def peek (keep : Bool) (st : St) : Except PErr (Token × St) :=
  match dropComments keep st.toks with
  | [] => .error .eof
  | t :: r => .ok (t, { st with toks := t :: r, cur := t.start })

/-- Keyword and argument, lines 231-243. -/
def readHead (keep : Bool) (st : St) : Except PErr (String × Option (List String) × St) := do
  let (k, st) ← next keep st
  match k.kind with
  | .word w =>
    let (t, st) ← peek keep st
    match t.kind with
    | .lbrace | .semi => .ok (w, none, st)
    | _ =>
      let (t, st) ← next keep st
      match t.kind with
      | .word a => .ok (w, some [a], { st with is11 := st.is11 || (w == "yang-version" && a == "1.1") })
      | .quoted l => .ok (w, some l, { st with is11 := st.is11 || (w == "yang-version" && String.join l == "1.1") })
      | _ => .error .abort
  | _ => .error .abort

/-- Lines 231-273; `loop` is the loop over the substatements. -/
def parseRest (keep : Bool) (loop : St → Except PErr (List Stmt × St)) (first : Place) (st : St) :
    Except PErr (Stmt × St) := do
  let (w, a, st) ← readHead keep st
  let (t, st) ← next keep st
  match t.kind with
  | .lbrace =>
    let (subs, st) ← loop { st with lastLine := st.cur.line }
    .ok (.mk w a first st.cur subs, { st with lastLine := st.cur.line })
  | .semi => .ok (.mk w a first st.cur [], { st with lastLine := st.cur.line })
  | _ => .error .abort

mutual
/-- `_parse_statement`, lines 206-273.  The second argument says whether `parent` is `None`. -/
def parseStmt (keep top : Bool) : Nat → St → Except PErr (Stmt × St)
  | 0, _ => .error .fuel
  | n + 1, st =>
    if keep then do
      let (t, st') ← peek keep st
      match t.kind with
      | .comment c =>
        let (_, st'') ← next keep st'
        if top then parseRest keep (parseSubs keep n) st.cur st''
        else .ok (.comment c st.lastLine st.cur ⟨st.lastLine, t.stop.offset⟩, st'')
      | _ => parseRest keep (parseSubs keep n) st.cur st'
    else parseRest keep (parseSubs keep n) st.cur st
/-- The loop over the substatements with the closing brace, lines 258-261. -/
def parseSubs (keep : Bool) : Nat → St → Except PErr (List Stmt × St)
  | 0, _ => .error .fuel
  | n + 1, st => do
    let (t, st) ← peek keep st
    match t.kind with
    | .rbrace =>
      let (_, st) ← next keep st
      .ok ([], st)
    | _ =>
      let (s, st) ← parseStmt keep false n st
      let (ss, st) ← parseSubs keep n st
      .ok (s :: ss, st)
end

/-- `_parse_statement(parent)`. -/
def parse (keep top : Bool) (st : St) : Except PErr (Stmt × St) := parseStmt keep top (st.toks.length + 1) st

end NcDiff.Parse
