import Verif.Model.Schema
/-!
# identityref and instance-identifier values

Model of `src/ncdiff/ref.py`.  Strings are lists of characters.

Simplification: `re.search('^(.+):(.+)$', id)` is modelled for strings without a newline.
-/

namespace NcDiff

/-- Split at the last colon that has something before and something after it:
`re.search(r'^(.+):(.+)$', s)` (`src/ncdiff/composer.py` line 41), greedy first group. -/
def splitLastColon : List Char → Option (List Char × List Char)
  | [] => none
  | c :: r =>
    match splitLastColon r with
    | some (a, b) => some (c :: a, b)
    | none =>
      match r with
      | ':' :: x :: y => some ([c], x :: y)
      | _ => none

/-- `convert_tag('', tag)[0]` with the default notations (`src/ncdiff/manager.py` lines 821-934),
used by `IdentityRef.__init__` (`src/ncdiff/ref.py` line 37) to get the URL of a node.  The
four special URLs are those of `src/ncdiff/manager.py` lines 22-27. -/
def specialUrls : List (String × String) :=
  [("urn:ietf:params:xml:ns:netconf:base:1.0", "nc"),
   ("urn:ietf:params:xml:ns:yang:1", "yang"),
   ("http://tail-f.com/ns/netconf/params/1.1", "tailf"),
   ("urn:ietf:params:xml:ns:netconf:notification:1.0", "ncEvent")]

/-- See `specialUrls`. -/
def nodeUrl (d : Device) (tag : QName) : Except Err String :=
  if tag.ns = "" then .error .valueError
  else
    match d.namespaces.filter (fun n => n.2.2 = tag.ns) with
    | [_] => .ok tag.ns
    | _ :: _ :: _ => .error .modelError
    | [] => if (specialUrls.lookup tag.ns).isSome then .ok tag.ns else .error .valueError

/-- `convert_ns(url, src=Tag.NAMESPACE, dst=Tag.NAME)`, `src/ncdiff/manager.py` lines 936-970. -/
def urlToName (d : Device) (url : String) : Except Err String :=
  match d.namespaces.filter (fun n => n.2.2 = url) with
  | [n] => .ok n.1
  | _ => .error .valueError

/-- `name_to_url[name]` of `parse_prefixed_id`, `src/ncdiff/ref.py` lines 66-68: the last module
of that name wins. -/
def nameToUrl (d : Device) (name : String) : Option String :=
  (d.namespaces.reverse.find? (fun n => n.1 = name)).map (fun n => n.2.2)

/-- Prefix part common to both `parse_prefixed_id` (`src/ncdiff/ref.py` lines 61-72 and
190-201). -/
def resolvePrefix (d : Device) (m : NsMap) (p : String) : Except Err String :=
  match m.url (some p) with
  | some u => .ok u
  | none =>
    match nameToUrl d p with
    | some u => .ok u
    | none => .error .configError

namespace IdentityRef

/-- `IdentityRef.parse_prefixed_id`, `src/ncdiff/ref.py` lines 61-80: (URL, identity name). -/
def parse (d : Device) (m : NsMap) (s : List Char) : Except Err (String × List Char) :=
  match splitLastColon s with
  | some (p, i) => do
    let u ← resolvePrefix d m (String.ofList p)
    pure (u, i)
  | none =>
    match m.url none with
    | some u => .ok (u, s)
    | none => .error .configError

/-- `IdentityRef.compose_prefixed_id` without `to_node`, lines 91-96. -/
def composeDefault (d : Device) (self url : String) (i : List Char) : Except Err (List Char) :=
  if url = self then .ok i
  else do
    let n ← urlToName d url
    pure (n.toList ++ ':' :: i)

/-- `IdentityRef.compose_prefixed_id` with `to_node`, lines 97-108. -/
def composeTo (m : NsMap) (url : String) (i : List Char) : Except Err (List Char) :=
  match m.prefixOf url with
  | some none => .ok i
  | some (some p) => .ok (p.toList ++ ':' :: i)
  | none => .error .configError

/-- `IdentityRef(device, node).default`, lines 38 and 49-54 (text is not `None`). -/
def default (d : Device) (tag : QName) (m : NsMap) (s : List Char) : Except Err (List Char) := do
  let self ← nodeUrl d tag
  let (u, i) ← parse d m s
  composeDefault d self u i

/-- `IdentityRef(device, node, to_node).converted`, lines 38 and 41-47. -/
def converted (d : Device) (tag : QName) (m to : NsMap) (s : List Char) :
    Except Err (List Char) := do
  let _ ← nodeUrl d tag
  let (u, i) ← parse d m s
  composeTo to u i

end IdentityRef

namespace InstId

/-- A piece of `str_list`: original text, phase number, converted text. -/
abbrev Piece := List Char × Nat × List Char

/-- `InstanceIdentifier.string`, `src/ncdiff/ref.py` lines 186-188. -/
def string (ps : List Piece) (phase : Nat) : List Char :=
  (ps.filter (fun p => p.2.1 = 0 || phase ≤ p.2.1)).flatMap Prod.fst

/-- `this_piece` of `cut`, lines 272-278. -/
def cutPiece (p : Piece) (start stop : Nat) (conv : List Char) (phase : Nat) : List Piece :=
  [(p.1.take start, p.2.1, p.1.take start),
   ((p.1.drop start).take (stop - start), phase, conv),
   (p.1.drop stop, p.2.1, p.1.drop stop)].filter (fun q => !q.1.isEmpty)

/-- `InstanceIdentifier.cut`, lines 271-298. -/
def cut (start stop : Nat) (conv : List Char) (phase : Nat) : (position : Nat) → List Piece →
    List Piece
  | _, [] => []
  | pos, p :: r =>
    if p.2.1 = 0 || p.2.1 = phase then
      if pos ≤ start && stop ≤ pos + p.1.length then
        cutPiece p (start - pos) (stop - pos) conv phase ++ r
      else p :: cut start stop conv phase (pos + p.1.length) r
    else p :: cut start stop conv phase pos r

/-- `re.sub("'", "''", s)`. -/
def doubleApos : List Char → List Char
  | [] => []
  | '\'' :: r => '\'' :: '\'' :: doubleApos r
  | c :: r => c :: doubleApos r

/-- `re.sub('""', '"', s)`. -/
def halveQuote : List Char → List Char
  | '"' :: '"' :: r => '"' :: halveQuote r
  | c :: r => c :: halveQuote r
  | [] => []

/-- `convert_literal`, lines 300-304. -/
def convertLiteral (s : List Char) : List Char :=
  '\'' :: (halveQuote (doubleApos (s.drop 1).dropLast) ++ ['\''])

/-- Loop state of `parse_quote`. -/
structure QState where
  start : Option Nat := none
  escape : Option Nat := none
  quote : Char := '\''
  pieces : List Piece

/-- One iteration of the loop of `parse_quote`, lines 310-337.  `s` is the whole string, `c` the
character at `idx` and `next` the one after it. -/
def quoteStep (s : List Char) (idx : Nat) (c : Char) (next : Option Char) (st : QState) :
    Except Err QState :=
  match st.start with
  | none => if c = '=' then .ok { st with start := some (idx + 1) } else .ok st
  | some b =>
    if idx = b then
      if c ≠ '\'' ∧ c ≠ '"' then .error .configError else .ok { st with quote := c }
    else if idx > b then
      if c = st.quote then
        if next = some st.quote then .ok { st with escape := some idx }
        else if st.escape.isSome ∧ (idx + 1 - st.escape.getD 0) % 2 = 0 then
          .ok { st with escape := none }
        else
          let sub := (s.drop b).take (idx + 1 - b)
          let lit := if st.quote = '"' then convertLiteral sub else sub
          .ok { st with pieces := cut b (idx + 1) lit 1 0 st.pieces, start := none }
      else .ok st
    else .ok st

/-- The loop of `parse_quote`; the list argument is what is left of `s` at index `idx`. -/
def quoteLoop (s : List Char) : Nat → List Char → QState → Except Err QState
  | _, [], st => .ok st
  | idx, c :: r, st => do
    let st ← quoteStep s idx c r.head? st
    quoteLoop s (idx + 1) r st

/-- `parse_quote`, lines 306-342. -/
def parseQuote (ps : List Piece) : Except Err (List Piece) := do
  let s := string ps 1
  let st ← quoteLoop s 0 s { pieces := ps }
  match st.start with
  | some _ => .error .configError
  | none => .ok st.pieces

/-- One iteration of `parse_square_bracket`, lines 347-370.  A positional predicate `[3]` is cut
like a tag (lines 363-365). -/
def bracketStep (s : List Char) (idx : Nat) (c : Char) (st : Option Nat × List Piece) :
    Option Nat × List Piece :=
  match st.1 with
  | none => if c = '[' then (some idx, st.2) else st
  | some b =>
    if idx > b ∧ c = ']' then
      let sub := (s.drop b).take (idx + 1 - b)
      let ps := cut b (b + 1) ['['] 2 0 st.2
      let ps := cut idx (idx + 1) [']'] 2 0 ps
      if (sub.dropLast).getLast? = some '=' then
        let tag := (sub.drop 1).dropLast.dropLast
        let ps := cut (idx - 1) idx ['='] 2 0 ps
        (none, cut (b + 1) (idx - 1) tag 2 0 ps)
      else
        (none, cut (b + 1) idx (sub.drop 1).dropLast 2 0 ps)
    else st

/-- The loop of `parse_square_bracket`. -/
def bracketLoop (s : List Char) : Nat → List Char → Option Nat × List Piece →
    Option Nat × List Piece
  | _, [], st => st
  | idx, c :: r, st => bracketLoop s (idx + 1) r (bracketStep s idx c st)

/-- `parse_square_bracket`, lines 344-375. -/
def parseBracket (ps : List Piece) : Except Err (List Piece) :=
  let s := string ps 2
  match bracketLoop s 0 s (none, ps) with
  | (some _, _) => .error .configError
  | (none, ps) => .ok ps

/-- `char in "./"`, line 378. -/
def isSep (c : Char) : Bool := c = '.' || c = '/'

/-- One iteration of `parse_element`, lines 381-391. -/
def elementStep (s : List Char) (idx : Nat) (c : Char) (st : Option Nat × List Piece) :
    Option Nat × List Piece :=
  match st.1 with
  | none => if isSep c then st else (some idx, st.2)
  | some b =>
    if isSep c then (none, cut b idx ((s.drop b).take (idx - b)) 3 0 st.2) else st

/-- The loop of `parse_element`. -/
def elementLoop (s : List Char) : Nat → List Char → Option Nat × List Piece →
    Option Nat × List Piece
  | _, [], st => st
  | idx, c :: r, st => elementLoop s (idx + 1) r (elementStep s idx c st)

/-- `parse_element`, lines 377-398. -/
def parseElement (ps : List Piece) : List Piece :=
  let s := string ps 3
  match elementLoop s 0 s (none, ps) with
  | (some b, ps) => cut b s.length (s.drop b) 3 0 ps
  | (none, ps) => ps

/-- `InstanceIdentifier.parse_prefixed_id`, lines 190-204. -/
def parse (d : Device) (m : NsMap) (s : List Char) : Except Err (Option String × List Char) :=
  match splitLastColon s with
  | some (p, i) => do
    let u ← resolvePrefix d m (String.ofList p)
    pure (some u, i)
  | none => .ok (none, s)

/-- `InstanceIdentifier.compose_prefixed_id`, lines 206-227; `to = none` is `to_node=None`. -/
def compose (d : Device) (to : Option NsMap) (url : String) (i : List Char) :
    Except Err (List Char) :=
  match to with
  | none => do
    let n ← urlToName d url
    pure (n.toList ++ ':' :: i)
  | some m =>
    match NsMap.prefixOf (m.filter (fun p => p.1.isSome)) url with
    | some (some p) => .ok (p.toList ++ ':' :: i)
    | _ => .error .configError

/-- `convert_str_list`, lines 229-269; the second argument is `default_url`. -/
def convertPieces (d : Device) (m : NsMap) (to : Option NsMap) : Option String → List Piece →
    Except Err (List Piece)
  | _, [] => .ok []
  | du, p :: r =>
    if p.2.1 ≤ 1 then do
      let r ← convertPieces d m to du r
      pure (p :: r)
    else if p.2.1 = 2 then
      if p.1 = ['['] ∨ p.1 = [']'] ∨ p.1 = ['='] ∨ p.1 = ['.'] then do
        let r ← convertPieces d m to du r
        pure ((p.1, p.2.1, p.1) :: r)
      else do
        let (u, i) ← parse d m p.1
        match u.or du with
        | none => .error .configError
        | some url =>
          let c ← compose d to url i
          let r ← convertPieces d m to du r
          pure ((p.1, p.2.1, c) :: r)
    else do
      let (u, i) ← parse d m p.1
      match u.or du with
      | none => .error .configError
      | some url =>
        let c ← compose d to url i
        let r ← convertPieces d m to (some url) r
        pure ((p.1, p.2.1, c) :: r)

/-- The three tokenising phases, run by `default` and `converted` (lines 168-184). -/
def tokenize (s : List Char) : Except Err (List Piece) := do
  let ps ← parseQuote [(s, 0, s)]
  let ps ← parseBracket ps
  pure (parseElement ps)

/-- `InstanceIdentifier.default` (`to = none`, lines 177-184) and `.converted` (lines 168-175),
with the `IdentityRef.__init__` part (line 37). -/
def convert (d : Device) (tag : QName) (m : NsMap) (to : Option NsMap) (s : List Char) :
    Except Err (List Char) := do
  let _ ← nodeUrl d tag
  let ps ← tokenize s
  let ps ← convertPieces d m to none ps
  pure (ps.flatMap (fun p => p.2.2))

end InstId
end NcDiff
