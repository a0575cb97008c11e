import Verif.Model.YangParse
/-!
# Specification: the grammar of YANG statements, with places

RFC 7950, section 6.3: a statement is a keyword, an optional argument, and a semicolon or a block of substatements in
braces.
-/

namespace NcDiff.Parse

/-- The tokens that count: all if comments are kept, otherwise those that are not comments. -/
def code (keep : Bool) (ts : List Token) : List Token :=
  if keep then ts else ts.filter fun t => !t.kind.isComment

/-- The tokens of an argument. -/
inductive Arg : Option (List String) → List Token → Prop
  | none : Arg none []
  | word {t w} : t.kind = .word w → Arg (some [w]) [t]
  | quoted {t l} : t.kind = .quoted l → Arg (some l) [t]

/-- The line where the statement before the next one stops: comments do not count. -/
def after (line : Nat) : Stmt → Nat
  | .mk _ _ _ last _ => last.line
  | .comment .. => line

mutual
/-- The tokens are those of the statement, which starts at place `p`, and `last_line` is the place where the last of the
tokens stops.  `line` is where the statement before stops; it is used for comments only. -/
inductive Spans (keep : Bool) : Place → Nat → Stmt → List Token → Prop
  | comment {p line c x} : keep = true → c.kind = .comment x →
      Spans keep p line (.comment x line p ⟨line, c.stop.offset⟩) [c]
  | leaf {p line k w a as s} : k.kind = .word w → Arg a as → s.kind = .semi →
      Spans keep p line (.mk w a p s.stop []) (k :: (as ++ [s]))
  | block {p line k w a as o subs ts c} : k.kind = .word w → Arg a as → o.kind = .lbrace →
      SpansAll keep o.stop.line subs ts → c.kind = .rbrace →
      Spans keep p line (.mk w a p c.stop subs) (k :: (as ++ o :: (ts ++ [c])))
/-- Statements one after the other; each starts where the first of its tokens starts. -/
inductive SpansAll (keep : Bool) : Nat → List Stmt → List Token → Prop
  | nil {line} : SpansAll keep line [] []
  | cons {line s ss t ts us} : Spans keep t.start line s (t :: ts) → SpansAll keep (after line s) ss us →
      SpansAll keep line (s :: ss) (t :: (ts ++ us))
end

mutual
/-- The statement or one inside it is `yang-version 1.1`. -/
def says11 : Stmt → Bool
  | .mk k a _ _ subs => (k == "yang-version" && a.map String.join == some "1.1") || says11List subs
  | .comment .. => false
def says11List : List Stmt → Bool
  | [] => false
  | s :: ss => says11 s || says11List ss
end

/-- A statement inside a statement, at any depth. -/
inductive Sub : Stmt → Stmt → Prop
  | self {s} : Sub s s
  | deeper {s c t} : c ∈ t.subs → Sub s c → Sub s t

/-- Not later in the text. -/
def Place.le (a b : Place) : Prop := a.line < b.line ∨ (a.line = b.line ∧ a.offset ≤ b.offset)

/-- The tokens come one after the other in the text. -/
def InText (ts : List Token) : Prop :=
  (∀ t ∈ ts, t.start.le t.stop) ∧ ts.Pairwise fun a b => a.stop.le b.start

end NcDiff.Parse
