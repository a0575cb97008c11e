import Verif.Proof.Regex
import Verif.Proof.PyText
import Verif.Props.Tags
/-!
# C62: regular expressions

The texts of the expressions below are those of the code, character by character.  The theorems say that the model of
each place where the code searches with a regular expression gives what `re.search` gives, for every text.
-/

namespace NcDiff.Regex

open Running (Tok searchToks ciscoTables orderlessTable)

/-- `ORDERLESS_COMMANDS`, `src/ncdiff/runningconfig.py` lines 63-141. -/
def orderlessPatterns : List (String × Nat) := [
  (r"^ *aaa authentication ", 0),
  (r"^ *aaa accounting system default ", 0),
  (r"^ *aaa attribute list ", 0),
  (r"^ *aaa group server ", 0),
  (r"^ *radius server ", 0),
  (r"^ *logging host ", 0),
  (r"^ *flow exporter ", 0),
  (r"^ *flow record ", 0),
  (r"^ *flow monitor ", 0),
  (r"^ *flow file-export ", 0),
  (r"^ *exporter ", 1),
  (r"^ *dot1x ", 0),
  (r"^ *service-template ", 0),
  (r"^ *redundancy", 0),
  (r"^ *username ", 0),
  (r"^ *parameter-map type ", 0),
  (r"^ *match ipv4 ", 1),
  (r"^ *match ipv6 ", 1),
  (r"^ *match protocol ", 1),
  (r"^ *collect connection ", 1),
  (r"^ *l2nat instance ", 0),
  (r"^ *inside from host ", 1),
  (r"^ *outside from host ", 1),
  (r"^ *inside from network ", 1),
  (r"^ *outside from network ", 1),
  (r"^ *inside from range ", 1),
  (r"^ *outside from range ", 1),
  (r"^ *neighbor ", 1),
  (r"^ *neighbor ", 2),
  (r"^ *no neighbor ", 2),
  (r"^ *crypto keyring ", 0),
  (r"^ *crypto tls-tunnel ", 0),
  (r"^ *ip helper-address ", 1),
  (r"^ *route-target import ", 1),
  (r"^ *route-target export ", 1),
  (r"^ *default-router ", 1),
  (r"^ *dns-server ", 1),
  (r"^ *domain-name ", 1),
  (r"^ *option ", 1),
  (r"^ *lease ", 1),
  (r"^ *vlan group ", 0),
  (r"^ *ip ospf message-digest-key ", 1),
  (r"^ *ospfv3 neighbor ", 1),
  (r"^ *ospfv3 \d+ ipv(\d) neighbor", 1),
  (r"^ *ospfv3 \d+ neighbor ", 1),
  (r"^ *mobile-network pool ", 4),
  (r"^ *mobile-network v6pool ", 4),
  (r"^ *router ", 0),
  (r"^ *area ", 1),
  (r"^ *redistribute ", 1),
  (r"^ *redistribute ", 2),
  (r"^ *redistribute ", 3),
  (r"^ *distribute-list prefix-list ", 1),
  (r"^ *ip dns ", 0),
  (r"^ *ip route ", 0),
  (r"^ *ipv6 route ", 0),
  (r"^ *ip multicast-routing ", 0),
  (r"^ *ipv6 multicast-routing ", 0),
  (r"^ *ip pim vrf ", 0),
  (r"^ *ipv6 pim vrf ", 0),
  (r"^ *ip pim rp-address ", 0),
  (r"^ *ipv6 pim rp-address ", 0),
  (r"^ *ip access-list ", 0),
  (r"^ *ipv6 access-list ", 0),
  (r"^ *ip dhcp pool ", 0),
  (r"^ *ipv6 dhcp pool ", 0),
  (r"^ *bandwidth remaining ratio ", 2),
  (r"^ *ntp server ", 0),
  (r"^ *mpls mldp static ", 0),
  (r"^ *mpls ldp advertise-labels for ", 0),
  (r"^ *device-tracking binding ", 0),
  (r"^ *device classifier ", 0),
  (r"^ *\S+ tlv-type ", 1),
  (r"^ *mac Regex ", 1),
  (r"^ *netconf-yang", 0),
  (r"^ *summary-address ", 1),
  (r"^ *member vni ", 1)]

/-- `OVERWRITABLE_COMMANDS`, lines 149-155. -/
def overwritablePatterns : List String := [
  r"^ *username \S+ privilege [0-9]+ password ",
  r"^ *password ",
  r"^ *description ",
  r"^ *ip address( |$)",
  r"^ *ipv6 address( |$)"]

/-- `SIBLING_CAMMANDS` and `MISSING_INDENT_COMMANDS`, lines 164-166 and 184-186. -/
def siblingPatterns : List String := [r"^ *client "]

/-- `^ *` and symbols. -/
def patB (ts : List Tok) (p : String) : Bool :=
  match compile p with
  | some (.seq .bos (.seq (.many (.one ' ')) r)) => readsB (flat ts) r && detB (flat ts) && firstB (flat ts)
  | _ => false

theorem searchToks_search (ts : List Tok) (p : String) (s : Text) (h : patB ts p = true)
    (hn : Sym.spaceOrEnd ∈ flat ts → s.getLast? ≠ some '\n') :
    searchToks ts s = (search p s).map Prod.fst := by
  unfold patB at h
  split at h
  · rename_i r hc
    simp only [Bool.and_eq_true] at h
    rw [search, hc, Option.bind_some, searchToks_find ts r s h.1.1 h.1.2 h.2 hn]
  · simp at h

theorem orderless_pairs : List.Forall₂ (fun (t : List Tok × Nat) (p : String × Nat) =>
    t.2 = p.2 ∧ patB t.1 p.1 = true ∧ Sym.spaceOrEnd ∉ flat t.1) orderlessTable orderlessPatterns := by
  unfold orderlessTable orderlessPatterns
  repeat' apply List.Forall₂.cons
  all_goals first | exact List.Forall₂.nil | decide +kernel

/-- A command is found to be orderless at a depth exactly if one of the regular expressions of the table for that depth is
found in it. -/
theorem C62_orderless (line : Text) (depth : Nat) :
    ciscoTables.orderless line depth = true ↔
      ∃ p ∈ orderlessPatterns, p.2 = depth ∧ (search p.1 line).isSome = true := by
  have key : ∀ (a : List (List Tok × Nat)) (b : List (String × Nat)), List.Forall₂ (fun (t : List Tok × Nat)
      (p : String × Nat) => t.2 = p.2 ∧ patB t.1 p.1 = true ∧ Sym.spaceOrEnd ∉ flat t.1) a b →
      (a.any (fun p => p.2 = depth && (searchToks p.1 line).isSome) = true ↔
        ∃ p ∈ b, p.2 = depth ∧ (search p.1 line).isSome = true) := by
    intro a b h
    induction h with
    | nil => simp
    | cons h _ ih =>
      obtain ⟨h1, h2, h3⟩ := h
      rw [List.any_cons, Bool.or_eq_true, ih, searchToks_search _ _ line h2 (fun e => absurd e h3), h1]
      simp
  have := key _ _ orderless_pairs
  rw [← this]
  simp only [ciscoTables]

/-- What is matched by each expression of the table of commands that overwrite, for every text that does not end in a line
feed; the texts that the code searches are stripped at the end. -/
theorem C62_overwritable (s : Text) (h : s.getLast? ≠ some '\n') :
    ciscoTables.overwritable.map (fun f => f s) = overwritablePatterns.map fun p => (search p s).map Prod.fst := by
  simp only [ciscoTables, overwritablePatterns, List.map_cons, List.map_nil]
  refine List.cons_eq_cons.2 ⟨?_, List.cons_eq_cons.2 ⟨?_, List.cons_eq_cons.2 ⟨?_, List.cons_eq_cons.2 ⟨?_,
    List.cons_eq_cons.2 ⟨?_, rfl⟩⟩⟩⟩⟩
  all_goals exact searchToks_search _ _ _ (by decide +kernel) (fun _ => h)

/-- Without the condition the expressions with `$` find more than the model: `$` also matches before a line feed at the
end. -/
theorem C62_overwritable_needs_condition : ∃ s : Text,
    ciscoTables.overwritable.map (fun f => f s) ≠ overwritablePatterns.map fun p => (search p s).map Prod.fst :=
  ⟨"ip address\n".toList, by decide +kernel⟩

/-- Sibling commands and commands without indentation. -/
theorem C62_sibling (s : Text) :
    ciscoTables.sibling.map (fun f => f s) = siblingPatterns.map (fun p => (search p s).isSome) ∧
    ciscoTables.missingIndent.map (fun f => f s) = siblingPatterns.map (fun p => (search p s).isSome) := by
  have : (searchToks (Running.litPat "client ") s).isSome = (search r"^ *client " s).isSome := by
    rw [searchToks_search _ r"^ *client " s (by decide +kernel) (fun e => absurd e (by decide +kernel))]
    simp
  simp [ciscoTables, siblingPatterns, this]

theorem search_marks (c : Char) (p : String) (s : Text) (hp : patB [.lit [c]] p = true) :
    Running.startsWithMark c s = (search p s).isSome := by
  have h := searchToks_search [.lit [c]] p s hp (fun e => absurd e (by simp [flat]))
  have h2 : (search p s).isSome = ((search p s).map Prod.fst).isSome := by simp
  rw [h2, ← h]
  have e : s.drop ((s.takeWhile (· = ' ')).length) = s.dropWhile (· = ' ') := by
    induction s with
    | nil => rfl
    | cons x s ih =>
      by_cases hx : x = ' '
      · simpa [List.takeWhile_cons, List.dropWhile_cons, hx] using ih (searchToks_search _ _ _ hp
          (fun e => absurd e (by simp [flat]))) (by simp)
      · simp [List.takeWhile_cons, List.dropWhile_cons, hx]
  rw [searchToks, e, Running.startsWithMark]
  cases s.dropWhile (· = ' ') with
  | nil => simp [Running.matchToks]
  | cons x t =>
    by_cases hx : x = c
    · simp [Running.matchToks, hx]
    · have : ¬ c = x := fun e => hx e.symm
      simp [Running.matchToks, hx, this]

/-- Comment lines, `src/ncdiff/runningconfig.py` line 451, and the indentation, line 454. -/
theorem C62_comment (line : Text) :
    Running.startsWithMark '!' line = (search "^ *!" line).isSome ∧
    Running.startsWithMark '%' line = (search "^ *%" line).isSome ∧
    search "^ *" line = some (line.takeWhile (· = ' '), []) := by
  refine ⟨search_marks _ _ _ (by decide +kernel), search_marks _ _ _ (by decide +kernel), ?_⟩
  have hc : compile "^ *" = some (.seq .bos (.seq (.many (.one ' ')) .empty)) := by decide +kernel
  rw [search, hc, Option.bind_some, find_bos, ends_seq]
  have hr : line.take (run (.one ' ') line) = line.takeWhile (· = ' ') := take_run (.one ' ') line
  simp [ends, List.range_succ, hr]

/-- `Tag.COLON`, `Tag.BRACE` of `src/ncdiff/composer.py` lines 41-44 and the same expression in `config.py`, `model.py` and
`netconf.py`: the parts of a tag or of an identity.  A text with a line feed is not a tag. -/
theorem C62_tag (s : Text) (h : '\n' ∉ s) :
    (search r"^(.+):(.+)$" s).map Prod.snd = (Style.colon.split s).map (fun p => [p.1, p.2]) ∧
    (search r"^(.+):(.+)$" s).map Prod.snd = (splitLastColon s).map (fun p => [p.1, p.2]) ∧
    (search r"^\{(.+)\}(.+)$" s).map Prod.snd = (Style.brace.split s).map (fun p => [p.1, p.2]) ∧
    search r"^{(.+)}(.+)$" s = search r"^\{(.+)\}(.+)$" s := by
  have hc : compile r"^(.+):(.+)$" =
      some (.seq .bos (.seq dots (.seq (.chr (.one ':')) (.seq dots (.seq .eos .empty))))) := by decide +kernel
  have hb : compile r"^\{(.+)\}(.+)$" = some (.seq .bos (.seq (.chr (.one '{'))
      (.seq dots (.seq (.chr (.one '}')) (.seq dots (.seq .eos .empty)))))) := by decide +kernel
  have hb' : compile r"^{(.+)}(.+)$" = compile r"^\{(.+)\}(.+)$" := by decide +kernel
  have h1 : (search r"^(.+):(.+)$" s).map Prod.snd = (splitLastAt ':' s).map (fun p => [p.1, p.2]) := by
    rw [search, hc, Option.bind_some, find_bos, ends_split _ _ _ h]
    simp [Function.comp_def]
  refine ⟨h1, by rw [splitLastColon_eq]; exact h1, ?_, by rw [search, hb', search]⟩
  rw [search, hb, Option.bind_some, find_bos, ends_seq]
  cases s with
  | nil => simp [ends, Style.split]
  | cons c s =>
    have hs : '\n' ∉ s := fun e => h (List.mem_cons_of_mem _ e)
    by_cases hx : c = '{'
    · subst hx
      have := ends_split '}' s (0 + 1) hs
      have e : ends (.chr (.one '{')) 0 ('{' :: s) = [(1, [])] := by simp [ends, Cls.has]
      rw [e]
      simp only [List.flatMap_cons, List.flatMap_nil, List.append_nil, List.drop_one, List.tail_cons, List.head?_map,
        this, Option.map_map, Style.split]
      simp [Function.comp_def]
    · have e : ends (.chr (.one '{')) 0 (c :: s) = [] := by simp [ends, Cls.has, hx]
      rw [e]
      simp [Style.split, hx]

/-- The name of a model in a capability, `src/ncdiff/manager.py` lines 205-210. -/
theorem C62_capability (s : Text) :
    (search r"module=([a-zA-Z0-9-]+)\&{0,1}" s).map Prod.snd = (Offer.searchModule s).map fun n => [n] := by
  have hc : compile r"module=([a-zA-Z0-9-]+)\&{0,1}" = some moduleRe := by decide +kernel
  rw [search, hc, Option.bind_some]
  exact findFrom_module s 0

/-- Removing a prefix, `src/ncdiff/model.py` lines 465-471, for every prefix that is an identifier: the prefix is part of
the expression. -/
theorem C62_prefix (p : String) (hp : ∀ c ∈ p.toList, c.isAlphanum = true ∨ c = '-' ∨ c = '_' ∨ c = '.')
    (s : Text) (h : '\n' ∉ s) :
    (search ("^" ++ p ++ ":(.+)$") s).map Prod.snd = (Show.afterPrefix p.toList s).map fun x => [x] := by
  have hi : ∀ c ∈ p.toList, identChar c = true := by
    intro c hc
    rcases hp c hc with e | e | e | e <;> simp [identChar, e]
  rw [search, compile_prefix p hi, Option.bind_some, find_bos, Option.map_map]
  have := ends_prefix p.toList s h 0
  have e : (Prod.snd ∘ fun e : Nat × List Text => (s.take e.1, e.2)) = Prod.snd := rfl
  rw [e, ← List.head?_map, this]
  cases Show.afterPrefix p.toList s <;> rfl

/-- The prefix is not quoted in the expression: with a dot in the prefix, another prefix is removed as well. -/
theorem C62_prefix_not_quoted :
    search ("^" ++ "a.b" ++ ":(.+)$") "a-b:node".toList = some ("a-b:node".toList, ["node".toList]) := by
  decide +kernel

example : (search r"^ *ospfv3 \d+ ipv(\d) neighbor" "  ospfv3 12 ipv6 neighbor x".toList) =
    some ("  ospfv3 12 ipv6 neighbor".toList, ["6".toList]) := by decide +kernel
example : ciscoTables.orderless " eth0 tlv-type 3".toList 1 = true ∧
    ciscoTables.orderless " eth0 tlv-type 3".toList 0 = false := by decide +kernel
example : search r"^ *ip address( |$)" " ip address".toList = some (" ip address".toList, [[]]) := by decide +kernel
example : search r"^ *username \S+ privilege [0-9]+ password " "username a privilege 15 password 0 x".toList =
    some ("username a privilege 15 password ".toList, []) := by decide +kernel
example : '\n' ∉ "{urn:a}b}c:d".toList ∧
    search r"^\{(.+)\}(.+)$" "{urn:a}b}c:d".toList = some ("{urn:a}b}c:d".toList, ["urn:a}b".toList, "c:d".toList]) := by
  decide +kernel
example : search r"module=([a-zA-Z0-9-]+)\&{0,1}" "urn:x?module=&module=ab-c&revision=1".toList =
    some ("module=ab-c&".toList, ["ab-c".toList]) := by decide +kernel
/-- The search takes the leftmost place and the longest run, but it goes back when the rest does not match. -/
example : search r"^(.+):(.+)$" "a:b:".toList = some ("a:b:".toList, ["a".toList, "b:".toList]) := by decide +kernel

/-! ## Other functions on texts -/

/-- C62: lines are split as by `str.splitlines`. -/
theorem C62_splitlines (s : Text) (ls : List Text) : PyText.Lines s ls ↔ Running.splitLines s = ls := PyText.lines_iff s ls

example : PyText.Lines "a\r\nb\x0b\nc".toList ["a".toList, "b".toList, [], "c".toList] :=
  (C62_splitlines _ _).2 (by decide)

/-- C62: texts are replaced as by `str.replace`. -/
theorem C62_replace (old new s r : Text) (ho : old ≠ []) : PyText.Replaced old new s r ↔ Running.replaceAll old new s = r :=
  PyText.replaced_iff old new s r ho

example : PyText.Replaced "aa".toList "b".toList "aaaxaa".toList "baxb".toList ∧
    ∀ p ∈ ciscoTables.replacing, p.1 ≠ [] :=
  ⟨(C62_replace _ _ _ _ (by decide)).2 (by decide), by decide +kernel⟩

theorem replacedAll_iff : ∀ (ps : List (Text × Text)) (s r : Text), (∀ p ∈ ps, p.1 ≠ []) →
    (PyText.ReplacedAll ps s r ↔ ps.foldl (fun s p => Running.replaceAll p.1 p.2 s) s = r)
  | [], s, r, _ => ⟨fun h => by cases h; rfl, fun h => by cases h; exact .nil⟩
  | (old, new) :: ps, s, r, h => by
    rw [List.foldl_cons, ← replacedAll_iff ps _ r fun p hp => h p (by simp [hp])]
    constructor
    · rintro (_ | ⟨h1, h2⟩)
      rwa [← (C62_replace old new s _ (h (old, new) (by simp))).1 h1] at h2
    · exact fun h2 => .cons ((C62_replace old new s _ (h (old, new) (by simp))).2 rfl) h2

/-- C62: the texts that are compared are the given ones, in which the replacements of the table are made, one after
the other. -/
theorem C62_commands (s r : Text) : PyText.ReplacedAll [("exit-locator-set".toList, "exit".toList),
    ("exit-router-lisp".toList, "exit".toList), ("exit-address-family".toList, " exit-address-family".toList)] s r ↔
    Running.replaceCommands ciscoTables s = r :=
  replacedAll_iff _ s r (by decide +kernel)

example : PyText.ReplacedAll [("exit-locator-set".toList, "exit".toList),
    ("exit-router-lisp".toList, "exit".toList), ("exit-address-family".toList, " exit-address-family".toList)]
    "router lisp\n locator-set a\n  exit-locator-set\n exit-router-lisp".toList
    "router lisp\n locator-set a\n  exit\n exit".toList := (C62_commands _ _).2 (by decide +kernel)

/-- C62: white space is removed as by `str.strip`, `str.lstrip` and `str.rstrip`. -/
theorem C62_strip (s : Text) : PyText.Stripped true true s (Running.strip s) ∧
    PyText.Stripped true false s (Running.lstrip s) ∧ PyText.Stripped false true s (Running.rstrip s) :=
  ⟨PyText.strip_spec s, PyText.lstrip_spec s, PyText.rstrip_spec s⟩

example : Running.strip " \t a b\n".toList = "a b".toList := by decide

end NcDiff.Regex
