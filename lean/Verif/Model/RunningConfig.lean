/-!
# Running-config diff

Model of `src/ncdiff/runningconfig.py`.  Text is a list of characters.  The tables of regular
expressions are a parameter (`Tables`), so that everything that is proved holds for every table; the
tables of the code are `ciscoTables`.
-/

namespace NcDiff.Running

abbrev Str := List Char

/-- The third component of a tuple: `''`, `'+'`, `'-'`, `'?'`. -/
inductive Info where
  | ctx | add | del | same
  deriving DecidableEq, Repr, Inhabited

/-- A tuple `(line, sub-section or None, info)`, lines 229-238 of `src/ncdiff/runningconfig.py`. -/
inductive Item where
  | mk (key : Str) (sub : Option (List Item)) (info : Info)
  deriving Repr, Inhabited

namespace Item
def key : Item → Str | .mk k _ _ => k
def sub : Item → Option (List Item) | .mk _ s _ => s
def info : Item → Info | .mk _ _ i => i
/-- `(k, v, info)` for `k, v, i` in a list. -/
def withInfo (i : Info) : Item → Item | .mk k s _ => .mk k s i
end Item

mutual
/-- Equality of tuples. -/
def Item.beq : Item → Item → Bool
  | .mk k s i, .mk k' s' i' => decide (k = k') && Item.beqSub s s' && decide (i = i')
def Item.beqSub : Option (List Item) → Option (List Item) → Bool
  | none, none => true
  | some l, some l' => Item.beqList l l'
  | _, _ => false
def Item.beqList : List Item → List Item → Bool
  | [], [] => true
  | a :: l, b :: l' => Item.beq a b && Item.beqList l l'
  | _, _ => false
end

mutual
theorem Item.beq_iff : ∀ a b : Item, Item.beq a b = true ↔ a = b
  | .mk k s i, .mk k' s' i' => by
    simp [Item.beq, Item.beqSub_iff s s', and_assoc]
theorem Item.beqSub_iff : ∀ a b, Item.beqSub a b = true ↔ a = b
  | none, none => by simp [Item.beqSub]
  | some l, some l' => by simp [Item.beqSub, Item.beqList_iff l l']
  | none, some _ => by simp [Item.beqSub]
  | some _, none => by simp [Item.beqSub]
theorem Item.beqList_iff : ∀ a b, Item.beqList a b = true ↔ a = b
  | [], [] => by simp [Item.beqList]
  | a :: l, b :: l' => by simp [Item.beqList, Item.beq_iff a b, Item.beqList_iff l l']
  | [], _ :: _ => by simp [Item.beqList]
  | _ :: _, [] => by simp [Item.beqList]
end

instance : DecidableEq Item := fun a b => decidable_of_iff _ (Item.beq_iff a b)

/-! ## ListDiff, lines 216-318 -/

/-- The rest of a list of lines after the first `k`; `none` when `k` is not in it. -/
def afterFirst (k : Str) : List Str → Option (List Str)
  | [] => none
  | a :: r => if a = k then some r else afterFirst k r

/-- `common_key_list`, lines 249-257 (and `lines_common`, lines 666-675): the greedy common
subsequence.  The variable `previous_index_2` of the code is not used for the result. -/
def commonKeys (l1 : List Str) : List Str → List Str
  | [] => []
  | k :: r =>
    match afterFirst k l1 with
    | some l1' => k :: commonKeys l1' r
    | none => commonKeys l1 r

/-- Splitting a list at the first item with the given key. -/
def splitKey (proj : α → Str) (k : Str) : List α → Option (List α × α × List α)
  | [] => none
  | a :: r =>
    if proj a = k then some ([], a, r)
    else match splitKey proj k r with
      | some (p, x, q) => some (a :: p, x, q)
      | none => none

/-- Comparison function of the sub-section of an item. -/
abbrev CmpFn := List Item → Option (List Item)

/-- What is reported for a common key, lines 273-296. -/
def commonItem (key : Str) (cmp : CmpFn) (s1 s2 : Option (List Item)) : Option Item :=
  if s1 = s2 then some (.mk key (s1.map (·.map (Item.withInfo .ctx))) .same)
  else match s1, s2 with
    | some _, some l2 => (cmp l2).map (fun d => .mk key (some d) .ctx)
    | some l1, none => some (.mk key (some (l1.map (Item.withInfo .del))) .ctx)
    | none, some l2 => some (.mk key (some (l2.map (Item.withInfo .add))) .ctx)
    | none, none => none

/-- The loop of lines 258-305, producing `diff_1`.  `none` is the `ValueError` of a missing index. -/
def alignLoop : List Str → List (Item × CmpFn) → List Item → Option (List Item)
  | [], l1, l2 => some (l1.map (fun p => p.1.withInfo .del) ++ l2.map (Item.withInfo .add))
  | key :: r, l1, l2 => do
    let (p1, x1, q1) ← splitKey (fun p => p.1.key) key l1
    let (p2, x2, q2) ← splitKey Item.key key l2
    let c ← commonItem key x1.2 x1.1.sub x2.sub
    let rest ← alignLoop r q1 q2
    pure (p1.map (fun p => p.1.withInfo .del) ++ p2.map (Item.withInfo .add) ++ c :: rest)

/-- "Cleanup", lines 307-318.  `before` holds the keys already passed. -/
def cleanup : List Str → List Item → List Item
  | _, [] => []
  | before, it :: r =>
    let rest := cleanup (it.key :: before) r
    if it.info = .same then
      if before.any (fun k => (r.map Item.key).contains k) then it.withInfo .ctx :: rest else rest
    else it :: rest

/-- `ListDiff.compare`, lines 244-318, given the comparison functions of the sub-sections. -/
def compareBody (l1 : List (Item × CmpFn)) (l2 : List Item) : Option (List Item) := do
  let diff1 ← alignLoop (commonKeys (l1.map (fun p => p.1.key)) (l2.map Item.key)) l1 l2
  pure (cleanup [] diff1)

mutual
/-- `ListDiff.compare`, lines 244-318. -/
def compare (l1 l2 : List Item) : Option (List Item) := compareBody (cmpTable l1) l2
/-- The items of a list, each with the comparison function of its sub-section. -/
def cmpTable : List Item → List (Item × CmpFn)
  | [] => []
  | a :: r => (a, cmpItem a) :: cmpTable r
def cmpItem : Item → CmpFn
  | .mk _ s _ => cmpSub s
def cmpSub : Option (List Item) → CmpFn
  | none => fun _ => none
  | some l => fun l2 => compareBody (cmpTable l) l2
end

/-! ## Tables, lines 8-213 -/

/-- The tables of the module.  Orderless commands: predicate on line and depth; overwritable
commands: the matched text. -/
structure Tables where
  shortNo : List Str
  coexist : List Str
  orderless : Str → Nat → Bool
  overwritable : List (Str → Option Str)
  sibling : List (Str → Bool)
  missingIndent : List (Str → Bool)
  replacing : List (Str × Str)

/-- Tokens of the regular expressions of the tables. -/
inductive Tok where
  | lit (s : Str)
  | nonspace
  | digits
  | digit
  | spaceOrEnd
  deriving Repr

/-- White space of `\S`, `strip` and `rstrip`. -/
def isSpace (c : Char) : Bool :=
  c = ' ' || (9 ≤ c.toNat && c.toNat ≤ 13) || (28 ≤ c.toNat && c.toNat ≤ 31) || c.toNat = 0x85 ||
  c.toNat = 0xa0 || c.toNat = 0x1680 || (0x2000 ≤ c.toNat && c.toNat ≤ 0x200a) || c.toNat = 0x2028 ||
  c.toNat = 0x2029 || c.toNat = 0x202f || c.toNat = 0x205f || c.toNat = 0x3000

/-- Match of a token sequence at the start; the matched length.  In the tables a repetition is always
followed by a character that it cannot match, so greedy matching without backtracking is exact. -/
def matchToks : List Tok → Str → Option Nat
  | [], _ => some 0
  | .lit t :: r, s =>
    if t.isPrefixOf s then (matchToks r (s.drop t.length)).map (· + t.length) else none
  | .nonspace :: r, s =>
    let n := (s.takeWhile (fun c => !isSpace c)).length
    if n = 0 then none else (matchToks r (s.drop n)).map (· + n)
  | .digits :: r, s =>
    let n := (s.takeWhile Char.isDigit).length
    if n = 0 then none else (matchToks r (s.drop n)).map (· + n)
  | .digit :: r, s =>
    match s with
    | c :: s' => if c.isDigit then (matchToks r s').map (· + 1) else none
    | [] => none
  | .spaceOrEnd :: r, s =>
    match s with
    | [] => matchToks r []
    | ' ' :: s' => (matchToks r s').map (· + 1)
    | _ => none

/-- `re.search('^ *...', line)`: the matched text. -/
def searchToks (ts : List Tok) (s : Str) : Option Str :=
  let sp := (s.takeWhile (· = ' ')).length
  (matchToks ts (s.drop sp)).map (fun n => s.take (sp + n))

def litPat (s : String) : List Tok := [.lit s.toList]

/-- `ORDERLESS_COMMANDS`, lines 64-145. -/
def orderlessTable : List (List Tok × Nat) := [
  (litPat "aaa authentication ", 0), (litPat "aaa accounting system default ", 0),
  (litPat "aaa attribute list ", 0), (litPat "aaa group server ", 0), (litPat "radius server ", 0),
  (litPat "logging host ", 0), (litPat "flow exporter ", 0), (litPat "flow record ", 0),
  (litPat "flow monitor ", 0), (litPat "flow file-export ", 0), (litPat "exporter ", 1),
  (litPat "dot1x ", 0), (litPat "service-template ", 0), (litPat "redundancy", 0),
  (litPat "username ", 0), (litPat "parameter-map type ", 0), (litPat "match ipv4 ", 1),
  (litPat "match ipv6 ", 1), (litPat "match protocol ", 1), (litPat "collect connection ", 1),
  (litPat "l2nat instance ", 0), (litPat "inside from host ", 1), (litPat "outside from host ", 1),
  (litPat "inside from network ", 1), (litPat "outside from network ", 1),
  (litPat "inside from range ", 1), (litPat "outside from range ", 1), (litPat "neighbor ", 1),
  (litPat "neighbor ", 2), (litPat "no neighbor ", 2), (litPat "crypto keyring ", 0),
  (litPat "crypto tls-tunnel ", 0), (litPat "ip helper-address ", 1),
  (litPat "route-target import ", 1), (litPat "route-target export ", 1),
  (litPat "default-router ", 1), (litPat "dns-server ", 1), (litPat "domain-name ", 1),
  (litPat "option ", 1), (litPat "lease ", 1), (litPat "vlan group ", 0),
  (litPat "ip ospf message-digest-key ", 1), (litPat "ospfv3 neighbor ", 1),
  ([.lit "ospfv3 ".toList, .digits, .lit " ipv".toList, .digit, .lit " neighbor".toList], 1),
  ([.lit "ospfv3 ".toList, .digits, .lit " neighbor ".toList], 1),
  (litPat "mobile-network pool ", 4), (litPat "mobile-network v6pool ", 4), (litPat "router ", 0),
  (litPat "area ", 1), (litPat "redistribute ", 1), (litPat "redistribute ", 2),
  (litPat "redistribute ", 3), (litPat "distribute-list prefix-list ", 1), (litPat "ip dns ", 0),
  (litPat "ip route ", 0), (litPat "ipv6 route ", 0), (litPat "ip multicast-routing ", 0),
  (litPat "ipv6 multicast-routing ", 0), (litPat "ip pim vrf ", 0), (litPat "ipv6 pim vrf ", 0),
  (litPat "ip pim rp-address ", 0), (litPat "ipv6 pim rp-address ", 0),
  (litPat "ip access-list ", 0), (litPat "ipv6 access-list ", 0), (litPat "ip dhcp pool ", 0),
  (litPat "ipv6 dhcp pool ", 0), (litPat "bandwidth remaining ratio ", 2),
  (litPat "ntp server ", 0), (litPat "mpls mldp static ", 0),
  (litPat "mpls ldp advertise-labels for ", 0), (litPat "device-tracking binding ", 0),
  (litPat "device classifier ", 0), ([.nonspace, .lit " tlv-type ".toList], 1),
  (litPat "mac Regex ", 1), (litPat "netconf-yang", 0), (litPat "summary-address ", 1),
  (litPat "member vni ", 1)]

/-- The tables of the code, lines 8-213. -/
def ciscoTables : Tables where
  shortNo := ["no license boot level ".toList, "no transport input ".toList,
    "no transport output ".toList, "no ip address ".toList, "no ipv6 address ".toList]
  coexist := ["snmp-server manager".toList, "ip multicast-routing".toList,
    "ip dhcp relay information option".toList]
  orderless := fun line depth =>
    orderlessTable.any (fun p => p.2 = depth && (searchToks p.1 line).isSome)
  overwritable := [
    searchToks [.lit "username ".toList, .nonspace, .lit " privilege ".toList, .digits,
      .lit " password ".toList],
    searchToks (litPat "password "), searchToks (litPat "description "),
    searchToks [.lit "ip address".toList, .spaceOrEnd],
    searchToks [.lit "ipv6 address".toList, .spaceOrEnd]]
  sibling := [fun s => (searchToks (litPat "client ") s).isSome]
  missingIndent := [fun s => (searchToks (litPat "client ") s).isSome]
  replacing := [("exit-locator-set".toList, "exit".toList), ("exit-router-lisp".toList, "exit".toList),
    ("exit-address-family".toList, " exit-address-family".toList)]

/-! ## Text -/

/-- A line boundary of `str.splitlines`, apart from `\r\n`. -/
def isBreak (c : Char) : Bool :=
  (10 ≤ c.toNat && c.toNat ≤ 13) || (28 ≤ c.toNat && c.toNat ≤ 30) || c.toNat = 0x85 ||
  c.toNat = 0x2028 || c.toNat = 0x2029

/-- `str.splitlines()`; `cur` is the current line, reversed. -/
def splitLinesGo : Str → Str → List Str
  | cur, [] => if cur = [] then [] else [cur.reverse]
  | cur, '\r' :: '\n' :: r => cur.reverse :: splitLinesGo [] r
  | cur, c :: r => if isBreak c then cur.reverse :: splitLinesGo [] r else splitLinesGo (c :: cur) r

def splitLines (s : Str) : List Str := splitLinesGo [] s

def rstrip (s : Str) : Str := (s.reverse.dropWhile isSpace).reverse
def lstrip (s : Str) : Str := s.dropWhile isSpace
def strip (s : Str) : Str := rstrip (lstrip s)

/-- `str.replace(old, new)`; the first argument counts the characters of a match still to skip. -/
def replaceGo (old new : Str) : Nat → Str → Str
  | _, [] => []
  | n + 1, _ :: r => replaceGo old new n r
  | 0, c :: r =>
    if old.isPrefixOf (c :: r) then new ++ replaceGo old new (old.length - 1) r
    else c :: replaceGo old new 0 r

def replaceAll (old new s : Str) : Str := replaceGo old new 0 s

/-! ## config2list, lines 421-501 -/

/-- The variables of the loop. -/
structure ParseState where
  ret : List Item
  lastLine : Str
  lastSection : List Str
  lastIndent : Nat
  missing : Bool

/-- "Append `last_line`", lines 437-445, 479-487 and 491-496; `rec` parses a section. -/
def flush (rec : List Str → List Item) (st : ParseState) : List Item :=
  if st.lastLine = [] then st.ret
  else if 0 < st.lastIndent then st.ret ++ [.mk (rstrip st.lastLine) (some (rec st.lastSection)) .ctx]
  else st.ret ++ [.mk (rstrip st.lastLine) none .ctx]

/-- `re.search('^ *c', line)`. -/
def startsWithMark (c : Char) (line : Str) : Bool :=
  match line.dropWhile (· = ' ') with
  | x :: _ => x = c
  | [] => false

/-- One iteration of the loop, lines 427-489.  `last_section` is kept as a list of lines instead of
a string with line feeds; no line of it contains a line boundary, so parsing the string is parsing
the list (`splitLines` of the joined lines). -/
def parseLine (t : Tables) (rec : List Str → List Item) (st : ParseState) (line : Str) : ParseState :=
  let ind := (line.takeWhile (· = ' ')).length
  if 22 < (strip line).length ∧ line.take 22 = "Building configuration".toList then st
  else if 21 < (strip line).length ∧ line.take 21 = "Current configuration".toList then st
  else if strip line = [] then st
  else if st.missing ∧ rstrip line = ['!'] then ⟨flush rec st, [], [], 0, false⟩
  else if startsWithMark '!' line ∨ startsWithMark '%' line then st
  else if 0 < ind then
    let li := if st.lastIndent = 0 then ind else st.lastIndent
    if ind < li then
      { st with lastIndent := li
                lastSection := st.lastSection ++ [List.replicate (li + 1) ' ' ++ line.drop ind] }
    else { st with lastIndent := li, lastSection := st.lastSection ++ [line.drop li] }
  else if t.missingIndent.any (fun r => r line) then ⟨flush rec st, line, [], 0, true⟩
  else if st.missing then
    { st with lastIndent := if st.lastIndent = 0 then 1 else st.lastIndent
              lastSection := st.lastSection ++ [line] }
  else ⟨flush rec st, line, [], 0, false⟩

/-- `config2list` on the lines of a text.  The first argument bounds the depth of the recursion; a
section has fewer lines than the text it is in, so the number of lines is enough
(`config2list_fuel`). -/
def config2listFuel (t : Tables) : Nat → List Str → List Item
  | 0, _ => []
  | n + 1, lines =>
    flush (config2listFuel t n) (lines.foldl (parseLine t (config2listFuel t n)) ⟨[], [], [], 0, false⟩)

/-- `config2list`, lines 421-501. -/
def config2list (t : Tables) (s : Str) : List Item :=
  config2listFuel t ((splitLines s).length + 1) (splitLines s)

/-! ## handle_orderless, lines 636-759 -/

/-- `l[a:b]`. -/
def slice (l : List α) (a : Nat) (b : Option Nat) : List α :=
  match b with
  | some b => (l.take b).drop a
  | none => l.drop a

/-- `l.insert(i, x)`. -/
def insertAt (l : List α) (i : Nat) (x : α) : List α := l.take i ++ x :: l.drop i

/-- Inserting items one after the other, starting at position `i`. -/
def insertAll (l : List α) (i : Nat) : List α → List α
  | [] => l
  | x :: r => insertAll (insertAt l i x) (i + 1) r

/-- The variables of the loop of lines 678-744. -/
structure OrderState where
  list1 : List Item
  offset1 : Nat
  offset2 : Nat
  inserted : List Str
  lastAnchor : Option Nat

/-- What stays the same in the loop. -/
structure OrderEnv where
  lines1 : List Str
  lines2 : List Str
  /-- `matches`: orderless lines that are in both lists. -/
  isMatch : Str → Bool
  common : List Str
  /-- `removed_items`. -/
  removed : Str → Item

/-- `next_anchor_line`, lines 691-701. -/
def nextAnchor (common : List Str) : Option Str → Option Str
  | none => common[0]?
  | some l => common[common.idxOf l + 1]?

/-- Lines 685-744, one line of `lines_list1`.  Every `index` of the code is of a line that is in the
list, so `idxOf` is that index. -/
def orderStep (env : OrderEnv) (st : OrderState) (line : Str) : OrderState :=
  if env.isMatch line then
    if line ∈ st.inserted then st
    else
      let lastLine := st.lastAnchor.map (fun i => env.lines2.getD i [])
      let nextLine := nextAnchor env.common lastLine
      let next2 := nextLine.map (env.lines2.idxOf ·)
      let last1 := lastLine.map (env.lines1.idxOf ·)
      let next1 := nextLine.map (env.lines1.idxOf ·)
      if line ∈ slice env.lines2 (st.lastAnchor.getD 0) next2 then
        let new := (slice env.lines2 st.offset2 (some (env.lines2.idxOf line + 1))).filter
          (fun i => env.isMatch i && decide (i ∈ slice env.lines1 (last1.getD 0) next1)
            && decide (i ∉ st.inserted))
        { st with
          list1 := insertAll st.list1 st.offset1 (new.map env.removed)
          inserted := st.inserted ++ new
          offset1 := st.offset1 + new.length
          offset2 := env.lines2.idxOf line + 1 }
      else
        { st with
          list1 := insertAt st.list1 st.offset1 (env.removed line)
          inserted := st.inserted ++ [line]
          offset1 := st.offset1 + 1 }
  else if line ∈ env.common then
    let this2 := env.lines2.idxOf line
    let this1 := env.lines1.idxOf line
    let new := if st.offset2 ≤ this2 then
        (slice env.lines2 st.offset2 (some this2)).filter
          (fun i => env.isMatch i && decide (i ∈ slice env.lines1 st.offset1 (some this1))
            && decide (i ∉ st.inserted))
      else []
    let l := insertAll st.list1 st.offset1 (new.map env.removed)
    { list1 := l
      inserted := st.inserted ++ new
      offset1 := (l.map Item.key).idxOf line + 1
      offset2 := if st.offset2 < this2 + 1 then this2 + 1 else st.offset2
      lastAnchor := some this2 }
  else { st with offset1 := (st.list1.map Item.key).idxOf line + 1 }

/-- Lines 637-749: the top level of `handle_orderless`.  (When `list2` repeats a matched line, the
code can insert the same tuple, sharing its sub-section, twice; here the two are separate values.) -/
def orderTop (t : Tables) (l1 l2 : List Item) (depth : Nat) : List Item :=
  let lines1 := l1.map Item.key
  let lines2 := l2.map Item.key
  let isMatch := fun s => t.orderless s depth && decide (s ∈ lines1) && decide (s ∈ lines2)
  let rest := l1.filter (fun i => !isMatch i.key)
  let env : OrderEnv :=
    { lines1, lines2, isMatch
      common := commonKeys (rest.map Item.key) lines2
      removed := fun s => (l1.find? (fun i => i.key = s)).getD default }
  let st := lines1.foldl (orderStep env) ⟨rest, 0, 0, [], none⟩
  let last := (lines2.drop st.offset2).filter (fun i => isMatch i && decide (i ∉ st.inserted))
  insertAll st.list1 st.offset1 (last.map env.removed)

/-- A non-empty sub-section, lines 752-755. -/
def children (i : Item) : Option (List Item) :=
  match i.sub with
  | some (a :: r) => some (a :: r)
  | _ => none

/-- The last item of `l` with the given key and a non-empty sub-section (the dictionary keeps the
last index), lines 754-755. -/
def lastWith (k : Str) (l : List Item) : Option (List Item) :=
  match l with
  | [] => none
  | i :: r =>
    match lastWith k r with
    | some s => some s
    | none => if i.key = k then children i else none

/-- The recursion of lines 756-759 on the items of `list1`; `rec` is applied to the sub-section of
the last item with a given key. -/
def orderKids (rec : List Item → List Item → List Item) (l2 : List Item) : List Item → List Item
  | [] => []
  | .mk k s i :: r =>
    let s' := match children (.mk k s i), lastWith k r, lastWith k l2 with
      | some c1, none, some c2 => some (rec c1 c2)
      | _, _, _ => s
    .mk k s' i :: orderKids rec l2 r

mutual
/-- Nesting depth. -/
def Item.height : Item → Nat
  | .mk _ s _ => Item.heightSub s + 1
def Item.heightSub : Option (List Item) → Nat
  | none => 0
  | some l => Item.heightList l
def Item.heightList : List Item → Nat
  | [] => 0
  | a :: r => max (Item.height a) (Item.heightList r)
end

/-- `handle_orderless`, with the depth of recursion bounded by the first argument. -/
def orderlessFuel (t : Tables) : Nat → Nat → List Item → List Item → List Item
  | 0, _, l1, _ => l1
  | n + 1, depth, l1, l2 => orderKids (orderlessFuel t n (depth + 1)) l2 (orderTop t l1 l2 depth)

/-- `handle_orderless`, lines 636-759: the new `list1`.  The recursion goes into sub-sections of
`list1`, so the nesting depth of `list1` is enough. -/
def handleOrderless (t : Tables) (l1 l2 : List Item) (depth : Nat) : List Item :=
  orderlessFuel t (Item.heightList l1) depth l1 l2

/-! ## handle_sibling_cammands, lines 781-806 -/

/-- Lines 787-803 for one tuple: the tuple without its siblings, and the siblings. -/
def takeSiblings : List (Str → Bool) → Item → Item × List Item
  | [], it => (it, [])
  | rx :: r, .mk k s i =>
    match s with
    | none => (.mk k s i, [])
    | some l =>
      if rx k then
        let rest := l.filter (fun c => !rx c.key)
        (.mk k (if rest = [] then none else some rest) i, l.filter (fun c => rx c.key))
      else takeSiblings r (.mk k s i)

/-- The loop of lines 784-806: the first argument counts the iterations left (`length` is fixed
before the loop).  Siblings are inserted right after the tuple. -/
def siblingLoop (t : Tables) (rec : List Item → List Item) : Nat → List Item → List Item
  | 0, l => l
  | _ + 1, [] => []
  | n + 1, it :: r =>
    let (it', sibs) := takeSiblings t.sibling it
    let it'' := match it' with
      | .mk k (some s) i => .mk k (some (rec s)) i
      | .mk k none i => .mk k none i
    it'' :: siblingLoop t rec n (sibs ++ r)

def siblingFuel (t : Tables) : Nat → List Item → List Item
  | 0, l => l
  | n + 1, l => siblingLoop t (siblingFuel t n) l.length l

/-- `handle_sibling_cammands`, lines 781-806; recursion is bounded by the nesting depth. -/
def handleSibling (t : Tables) (l : List Item) : List Item := siblingFuel t (Item.heightList l) l

/-! ## The diff, lines 389-419 -/

/-- The loop over `REPLACING_COMMANDS`, lines 414-416. -/
def replaceCommands (t : Tables) (s : Str) : Str :=
  t.replacing.foldl (fun s p => replaceAll p.1 p.2 s) s

/-- `running2list`, lines 413-419. -/
def running2list (t : Tables) (s1 s2 : Str) : List Item × List Item :=
  let l1 := config2list t (replaceCommands t s1)
  let l2 := config2list t (replaceCommands t s2)
  (handleOrderless t l1 l2 0, l2)

/-- `get_diff`, lines 389-397; the empty list stands for the `None` of line 397 as well. -/
def getDiff (t : Tables) (running1 running2 : Str) (reverse : Bool) : Option (List Item) :=
  let l := running2list t running1 running2
  let l1 := handleSibling t l.1
  let l2 := handleSibling t l.2
  if reverse then compare l2 l1 else compare l1 l2

/-- `__bool__`, lines 361-362. -/
def diffBool (t : Tables) (running1 running2 : Str) : Option Bool :=
  (getDiff t running1 running2 false).map (fun l => !l.isEmpty)

/-! ## Printing, lines 503-523 and 850-860 -/

/-- `indent` of one line, lines 853-859. -/
def indentLine : Str → Str
  | [] => []
  | '-' :: r => '-' :: ' ' :: ' ' :: r ++ ['\n']
  | '+' :: r => '+' :: ' ' :: ' ' :: r ++ ['\n']
  | l => ' ' :: ' ' :: l ++ ['\n']

/-- `indent`, lines 850-860. -/
def indent (s : Str) : Str := (splitLines s).flatMap indentLine

/-- The character of an info; `''` is a blank. -/
def Info.char : Info → Char
  | .ctx => ' ' | .add => '+' | .del => '-' | .same => '?'

/-- `diff_type` of `list2config`: `None`, or a mark. -/
abbrev DiffType := Option Info

/-- The prefix of a printed line, lines 513-517. -/
def linePrefix (dt : DiffType) (local_ : DiffType) : Str :=
  match dt, local_ with
  | none, _ => [' ', ' ']
  | some _, some i => [i.char, ' ']
  | some _, none => [' ', ' ']

/-- `local_diff_type`, lines 509-512. -/
def localType (dt : DiffType) (i : Info) : DiffType :=
  match dt with
  | some .ctx => some i
  | dt => dt

mutual
/-- `list2config`, lines 503-523. -/
def list2config (dt : DiffType) : List Item → Str
  | [] => []
  | a :: r => item2config dt a ++ list2config dt r
def item2config (dt : DiffType) : Item → Str
  | .mk k s i =>
    if k = [] then []
    else linePrefix dt (localType dt i) ++ k ++ ['\n'] ++ sub2config (localType dt i) s
def sub2config (dt : DiffType) : Option (List Item) → Str
  | none => []
  | some l => indent (list2config dt l)
end

/-- `__str__`, lines 364-365. -/
def diffStr (t : Tables) (running1 running2 : Str) : Option Str :=
  (getDiff t running1 running2 false).map (list2config (some .ctx))

/-! ## CLI, lines 399-411, 525-634, 769-848 -/

/-- `handle_command`, lines 624-634. -/
def handleCommand (t : Tables) (cmd : Str) : Str × Bool :=
  if "no no ".toList.isPrefixOf cmd then (strip (cmd.drop 6), false)
  else match t.shortNo.find? (fun s => s.isPrefixOf cmd) with
    | some s => (strip s, true)
    | none => (strip cmd, "no ".toList.isPrefixOf cmd)

/-- The positive and negative commands. -/
structure Cmds where
  pos : List Str
  neg : List Str

/-- `append_command`, lines 616-622. -/
def appendCommand (t : Tables) (cmd : Str) (c : Cmds) : Cmds :=
  match handleCommand t cmd with
  | (s, true) => { c with neg := c.neg ++ [s] }
  | (s, false) => { c with pos := c.pos ++ [s] }

/-- `remove_duplicate_cammands`, lines 768-779. -/
def removeDuplicates : List Str → List Str → List Str
  | _, [] => []
  | seen, a :: r => if a ∈ seen then removeDuplicates seen r else a :: removeDuplicates (a :: seen) r

/-- The pairs of an element and a later one, in the order of the two nested loops of lines 813-816
and 834-837. -/
def laterPairs : List α → List (α × α)
  | [] => []
  | a :: r => r.map (fun b => (a, b)) ++ laterPairs r

/-- `del l[idx]` for the collected positions. -/
def deleteAt (l : List Str) (idx : List Nat) : List Str :=
  (l.zipIdx.filter (fun p => p.2 ∉ idx)).map Prod.fst

/-- `remove_unnecessary_negative_commands`, lines 808-827. -/
def removeNegative (l : List Str) : List Str :=
  let cmds := l.zipIdx.filter (fun p => !p.1.contains '\n')
  deleteAt l ((laterPairs cmds).filterMap fun (p, q) =>
    if p.1 = q.1 ∨ p.1.length = q.1.length then none
    else if p.1.length < q.1.length then
      if p.1 = q.1.take p.1.length then some q.2 else none
    else if p.1.take q.1.length = q.1 then some p.2 else none)

/-- `remove_unnecessary_positive_commands`, lines 829-848. -/
def removePositive (t : Tables) (l : List Str) : List Str :=
  let cmds := l.zipIdx.filter (fun p => !p.1.contains '\n' && !t.coexist.contains p.1)
  deleteAt l ((laterPairs cmds).filterMap fun (p, q) =>
    if p.1 = q.1 ∨ p.1.length = q.1.length then none
    else if p.1.length < q.1.length then
      if p.1 = q.1.take p.1.length then some p.2 else none
    else if p.1.take q.1.length = q.1 then some q.2 else none)

/-- State of the handling of overwritable commands. -/
structure OverState where
  neg : List Str
  dict : List (Str × Nat)
  drop : List Nat

/-- Lines 574-601 for one regular expression and one positive command. -/
def overStep (rx : Str → Option Str) (st : OverState) (p : Str × Nat) : OverState :=
  match rx p.1 with
  | none => st
  | some m =>
    let exact := "no ".toList ++ lstrip m
    let neg := st.neg.eraseP (fun line => exact.isPrefixOf (lstrip line))
    let cmd := strip m
    match st.dict.lookup cmd with
    | some i => ⟨neg, (cmd, p.2) :: st.dict, i :: st.drop⟩
    | none => ⟨neg, (cmd, p.2) :: st.dict, st.drop⟩

/-- "Handle overwritable commands", lines 570-605.  (A position that is collected twice is deleted
once; in the code it would also delete the following command.  With the tables of the code no command
matches two expressions.) -/
def overwrite (t : Tables) (c : Cmds) : Cmds :=
  let st := t.overwritable.foldl (fun st rx => c.pos.zipIdx.foldl (overStep rx) st) ⟨c.neg, [], []⟩
  ⟨(c.pos.zipIdx.filter (fun p => p.2 ∉ st.drop)).map Prod.fst, st.neg⟩

/-- `'\n'.join`. -/
def joinLines : List Str → Str
  | [] => []
  | [a] => a
  | a :: r => a ++ '\n' :: joinLines r

/-- Lines 570-614, after the loop: positive and negative text. -/
def finishCli (t : Tables) (c : Cmds) : Str × Str :=
  let c := overwrite t c
  (joinLines (removePositive t (removeDuplicates [] c.pos)),
    joinLines (removeNegative (removeDuplicates [] c.neg)).reverse)

mutual
/-- `list2cli`, lines 525-614: the loop over the items.  `keys` is `positive_keys`. -/
def cliLoop (t : Tables) (keys : List Str) : List Item → Cmds → Cmds
  | [], c => c
  | a :: r, c => cliLoop t keys r (cliItem t keys a c)
def cliItem (t : Tables) (keys : List Str) : Item → Cmds → Cmds
  | .mk k s i, c => if k = [] then c else cliSub t keys k i s c
def cliSub (t : Tables) (keys : List Str) (k : Str) (i : Info) : Option (List Item) → Cmds → Cmds
  | none, c =>
    match i with
    | .add => appendCommand t k c
    | .del => if keys.any (fun key => k.isPrefixOf key) then c else appendCommand t ("no ".toList ++ k) c
    | _ => c
  | some l, c =>
    match i with
    | .ctx =>
      let keys' := (l.filter (fun x => x.info = .add && x.sub.isNone)).map Item.key
      let r := finishCli t (cliLoop t keys' l ⟨[], []⟩)
      ⟨if r.1 = [] then c.pos else c.pos ++ [k ++ '\n' :: rstrip (indent r.1)],
        if r.2 = [] then c.neg else c.neg ++ [k ++ '\n' :: rstrip (indent r.2)]⟩
    | .add =>
      let s := rstrip (list2config none l)
      { c with pos := c.pos ++ [if s = [] then k else k ++ '\n' :: s] }
    | .del => appendCommand t ("no ".toList ++ k) c
    | .same => c
end

/-- `positive_keys`, line 530. -/
def positiveKeys (l : List Item) : List Str :=
  (l.filter (fun x => x.info = .add && x.sub.isNone)).map Item.key

/-- `list2cli`, lines 525-614. -/
def list2cli (t : Tables) (l : List Item) : Str × Str :=
  finishCli t (cliLoop t (positiveKeys l) l ⟨[], []⟩)

/-- `get_cli`, lines 399-411. -/
def getCli (t : Tables) (running1 running2 : Str) (reverse : Bool) : Option Str :=
  (getDiff t running1 running2 reverse).map fun l =>
    if l = [] then []
    else
      let r := list2cli t l
      if r.1 ≠ [] then if r.2 ≠ [] then r.2 ++ "\n!\n".toList ++ r.1 else r.1 else r.2

end NcDiff.Running
