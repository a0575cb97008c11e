# Formal model of ncdiff in Lean 4 — design

## Trusted base

* Lean 4.33.0's kernel.  No axiom is added.  Every property theorem depends on at most the three
  standard axioms `propext`, `Classical.choice`, `Quot.sound`
  (`lean/Verif/Axioms.lean` prints them during the build).  No `sorry`, `native_decide`, `bv_decide`,
  `implemented_by`, `unsafe` or `partial`.
* The transcription of the Python code into Lean definitions.  The Python code cannot be run here, so this
  step is by reading.  Each definition cites file and lines in `/repo` and names its simplifications.
* The environment of the code: `lxml`, Python dictionaries/sets/strings, `re`, `queue.Queue`, the file
  system.  They are modelled (not verified) as described below.

## Layout

* `lean/Verif/Model/*`  — function-by-function model of the code (no proofs about properties).
* `lean/Verif/Spec/*`   — small, independent specifications of what the properties mean.
* `lean/Verif/Proof/*`  — lemmas.
* `lean/Verif/Props/*`  — one file per group of properties, only property theorems and the examples that
  show that their hypotheses are satisfiable.
* `properties.jsonl`, `MANIFEST.json`, `seeded/LOG.jsonl` — claims, status, mutation log.

## What is modelled and what is not

| code | model | not modelled |
|---|---|---|
| lxml elements | `Model/Xml.lean`: rose tree with tag, nsmap, attributes, text, children | tails, comments, PIs, ns re-declaration on moves |
| schema trees, `get_schema_node`, `Composer.keys`, `default_in_use` | `Model/Schema.lean` | schema trees are arbitrary inputs here; C65 takes them from `Model/Compile.lean` |
| `ref.py` | `Model/Ref.lean` | newlines inside values |
| `calculator.py` | `Model/Calculator.lean` | lru_cache (transparent, the arguments are immutable while cached) |
| `config.py` `ConfigDelta` as an object | `Model/DeltaObj.lean` | `replace_depth` that is no natural number, objects that `random.seed` does not take, texts of messages; module `random` is abstract |
| `netconf.py` `node_add`, `node_sub`, `get_config_replace` and helpers | `Model/NodeAdd.lean`, `Model/NodeSub.lean` | texts of error messages; in `add_attribute_by_xpath` (`Model/ReplaceXpath.lean`) the selection is arbitrary |
| `config.py`, `manager.py` `extract_config` | `Model/Config.lean`; `models` and `roots`: `Model/Roots.lean` | `ns_help`, `xpath` (a selection is an arbitrary set of nodes); `ConfigCompatibility` for configs of one device, see the next row for two; `random` is an arbitrary function |
| `config.py` `ConfigCompatibility`, reading of schema attributes | `Model/Compat.lean` | texts of messages, the order in which models are named |
| `model.py` `ModelCompiler.compile` (from validated statements), `depict_a_schema_node`, `set_access`, `set_leaf_datatype_value`; `manager.py` `execute` (filters of `get` and `get_config`) | `Model/Compile.lean` | pyang itself, statements of extensions, Tail-f annotations, cached files; the rest of `execute` |
| `model.py` `type_values`, `type_union_values` | `Model/Types.lean` | pyang, which resolves typedefs and finds restrictions |
| `__init__.py` `_parse_statement`, `Position` | `Model/YangParse.lean` | the tokenizer of pyang (represented by its tokens), `pos.line`, `pos.top`, flags of comments |
| `manager.py` `execute` (edit-config), `__init__.py` `_append`, `request`, `_wrap` | `Model/Send.lean` | ncclient (functions that are called are described in the file), serialisation, configs given as text |
| `manager.py` `get_statement`, `get_model_name`, `model.py` `CompilerContext.get_statement`, `get_child` | `Model/Statement.lean` | a device without compiler (`None`) |
| `model.py` Model: construction, names and printing; ModelDiff: printing | `Model/Show.lean` | comments in trees, the cache of widths |
| `manager.py` `namespaces`, `models_loadable`, `models_loaded`, `scan_models`, `load_model` | `Model/Offer.lean` | files as argument of `load_model`, log messages |
| `model.py` `read_xml`, `write_xml`, cache of compiled models, `build_dependencies`; `manager.py` `scan_models` | `Model/Cache.lean`: transition system | pyang and the rest of `compile` (arbitrary relations), serialisation |
| the same functions with several processes at the same time | `Model/Shared.lean`: transition system, one step is one operation on a file | pyang and the rest of `compile` (an arbitrary relation), serialisation and parsing (arbitrary functions), changes of the YANG files while others compile |
| `config.py` `Config.__init__`, operators, `filter`, `ConfigDelta`; `netconf.py` `NetconfParser`, `add`, `sub`: which trees are read, copied and changed | `Model/Objects.lean`: memory | what computations leave in their copies (arbitrary), objects of several devices, subclasses |
| `__init__.py` `xpath` of replies and notifications, `config.py` `Config.xpath`, `ns`, `ns_help` | `Model/Find.lean` | lxml's XPath engine, a parameter (specified in `Spec/XPath.lean` for location paths); expressions whose value is no list of nodes |
| `composer.py` `get_xpath`, prefixes of `Config.xpath` | `Model/XPath.lean`, `Model/SchemaPath.lean` (schema nodes, notation `Tag.YTOOL`, `model_ns`) | lxml's XPath engine (specified in `Spec/XPath.lean` for the expressions concerned) |
| `runningconfig.py` | `Model/RunningConfig.lean`; the object with the lists it keeps: `Model/DiffObject.lean` | the regular-expression engine of Python: the tables of regexes are predicates on lines, which C62 compares with `Spec/Regex.lean` |
| `manager.py` `convert_tag`, `convert_ns`, `_get_ns`; class `Tag` | `Model/Tags.lean` | newlines inside tags |
| `manager.py` `load_model`, `roots`, `get_schema_node` with its cache | `Model/Store.lean` | compilation, NETCONF transport; models are arbitrary inputs |
| `model.py` downloader | `Model/Download.lean`: transition system, file-operation sequence | pyang, content of YANG files |
| `model.py` table of dependencies (`load_context`, `update_dependencies`, `get_dependencies`) | `Model/Context.lean`: transition system | pyang: a file gives an entry, nothing, or an exception |
| `model.py` identities (`compile`, `type_identityref_values`) | `Model/Identity.lean` | the rest of `compile` (see the row above); loaded modules are arbitrary inputs |
| `model.py` ModelDiff | `Model/ModelDiff.lean`; `compare` is in `Model/NodeReport.lean`, printing in `Model/Show.lean` | lxml's XPath engine, a parameter of `compare` (specified in `Spec/XPath.lean` for location paths); attributes with namespaces |

Python exceptions are values (`Except Err`).  Object identity of XML nodes during in-place mutation is
modelled by handles (positions in the original child list).  Recursion is structural on the tree, so
there is no fuel and no depth bound.

## Plan per property

* **C01 round trip** — `nodeAdd other (nodeSub self other)`.  Known to be false in full generality, to be
  shown by concrete counterexamples (choice with a changed case; reversal of an ordered-by-user list;
  ...).  Proof of the positive part by induction over the target tree: characterise the children of the
  delta, then show that the child loop of `nodeAdd` ends in a list with the target's instances and, for
  ordered-by-user tags, in the target's order (invariant: the cells that belong to the target are sorted by
  target order after each insertion/move).
* **C02, C03, C04 comparison** — independent recursive specification `Incl` (instances, values, order of
  user-ordered siblings) and reordering specification; theorem `nodeLe = ok true ↔ Incl` by tree induction; order laws
  follow.
* **C05 pairing** — directly on `groupKids`.
* **C06, C07, C34** — from C01/C04 and the definitions of `ConfigDelta`.
* **C08, C09, C11, C12, C13** — invariants of the two loops of `nodeAdd`.
* **C10 merging** — tree induction on the added config.
* **C14, C15** — characterisation of the children of `nodeSub`'s result.
* **C16, C17, C18, C35** — tree inductions over `trimDefaults`, `nodeFilter`, `reorder`, `removeReadOnly`.
* **C19–C25 running-config** — list inductions; regex tables are arbitrary predicates, so the theorems hold
  for every table.  C19, C21 are false with duplicated lines (counterexamples), proved for distinct lines.
* **C26, C28** — table look-ups over arbitrary namespace tables.
* **C27** — invariant over histories of operations on the cache.
* **C29** — transition system with any number of workers; invariants over all interleavings (every
  wanted module is queued, held by a worker or asked for), a decreasing measure for termination,
  freedom from deadlock.
* **C30** — sequence of file operations around the threads; invariant over crash points and over any
  history of calls.  Unsafe cases ('force' mode, a device that changes back, lost requests) are
  theorems too.
* **C31, C32** — character-level model of `ref.py`: the tokenizer inverts printing (`tokenize_ok`), the
  conversion keeps the meaning of a value, and picks one spelling per meaning, so equal texts after conversion are
  equal meanings.  Values that the code changes are theorems too.
* **C33** — trees as sets of paths (`Spec/ModelDiff.lean`); the children of one level of the result are characterised by
  tree induction, marks and views by induction over paths.
* **C37** — transition system with any number of workers and node identities; every entry is in the table, held
  by a worker or in the queue (a permutation invariant), and a decreasing measure.  Races are theorems too.
* **C38** — induction over the sequence of identities that a history of compilations sees.
* **C39** — the induction of `Proof/SubMain.lean` carries a statement that depends on the depth (`Carry`); the effect is
  an induction along the shape with `Applied` (C08).
* **C40** — the same induction carries how each child of the delta was made (`Carried`); `DefaultAt` characterises
  `default_in_use` by paths.
* **C41, C42** — `Accepted` says what validation lets through and `CleanedTo` what it removes (`Dropped`), by
  induction on the tree as for C16; `RootsIn` lists the wrappers.
* **C43** — a further invariant of the loops of `node_sub` (`Late` in `Proof/SubCells.lean`): a marker stands only before
  children that come after a sibling of its tag; key leaves are never removed, so nothing stands before them.
* **C44** — a reader for XPath expressions, character by character, and their evaluation (`Spec/XPath.lean`); the text that
  `get_xpath` writes is read back token by token, and each step singles out one sibling.
* **C45** — schema trees as the compiler gives them are read into the tables of the model; trees with the same nodes at the same
  paths differ in the order of siblings only, so look-ups, keys and values agree, and with them validity and comparisons.
* **C46** — the tree is walked along a chain of statements in both directions; the attributes of a node are read back
  one by one.  The mode of the walk gives the access.
* **C47** — if no root is shared, the table of roots is the list of all roots, and the filter is a selection from it.
* **C48** — every line of a parsed text is a command on one line, so indenting printed text puts two blanks after the
  mark of each line; reading the lines follows the nesting.  What is shown is related to the two configs by induction
  on the account of C20.
* **C49** — the outcome of a call is computed once as an equivalence; copying is by induction on the config, and copies of
  copies are copies.
* **C50** — the XPath of a node is a sequence of segments, each of which names a tag (`Seg`); splitting at `/` gives the
  segments back, and following them is an equivalence with the specification (`follow_iff`).  A predicate of a list entry
  leaves a segment that contains `[`, which is no name (`follow_bad`).
* **C51** — the lines that are printed are a drawing of a tree of texts (`emitNode_eq`, `emitLines_eq`); drawings are
  injective (`draw_inj`, `page_inj`), and reading a text from left to right inverts writing it (`read_dressed`,
  `label_tells`).  Nodes of a difference are traced back to one of the models (`origin_of_at`).
* **C52** — the search for `module=` finds the first parameter (`searchModule_iff`); invariants over histories of a device
  object say what is remembered (`after_loadable`, `after_unread`, `after_fixed`).
* **C53** — an invariant of the transition system (`inv_step`): if the history can be trusted, everything in the folder belongs
  to the YANG files (`Sound`); a file that can be parsed is never overwritten without a download (`step_keeps`).
* **C54, C55** — a model of memory: a frame lemma per call (`Keep`), then induction over the calls; the values are those of
  `Model/Config.lean` (`run_shows`).
* **C56** — an invariant of the loop of `config2list` (`LineState`) that says what is pending, and induction over the nesting
  (`fold_eq`).
* **C57** — the text is the list of values joined with `|` (`Lists`), by mutual induction over types and members of unions; joining
  texts that are not empty joins the lists (`lists_union`).
* **C58** — what is known about a computed delta (`Diff`) speaks about the instances of the source only, so it carries over to
  every equal source (`Diff.stand`, by induction over `Diff`); the result of adding is again such a config (`stand_in`), which is
  the step of the induction over histories.
* **C59** — the generator is seeded before each use, so results do not depend on its state (`reorder_eq`, induction over the tree)
  and its state afterwards does not depend on the state before (`Forgets`); histories by induction.
* **C60** — the invariants of the round trip take a proposition `ω` that says whether order counts, so one induction gives
  both the strict and the loose result. The loops of the sum end in the fold over all moves, whether or not that is the
  order of the target; `Diff.settles` reads the order condition off a sum that equals the target, level by level.
* **C61** — the difference is computed for the source `R` but describes how to get from `clear T R` to `T`. The induction over
  `node_sub` therefore takes both (`Sheds`); `clear_compat` gives the conditions of the round trip for the cleared source, and
  `clear_delta` shows that the edit-config clears the same as the target.
* **C62** — (string methods: `Spec/PyText.lean`) `Spec/Regex.lean` lists all matches of an expression in the order in which Python tries them and reads the
  expressions from their text. A list of tokens in which every repetition is followed by a character outside its class has
  one way to match (`matchSyms_ends`); `(.+)X(.+)$` is an induction over the text (`ends_split`).
* **C63** — soundness by induction over the bound of the recursion (`sound`), completeness by induction over the grammar
  (`complete`), and the bound is enough because every step consumes a token (`no_fuel`).
* **C64** — `Spec/Refused.lean` says without running anything what can be wrong with a delta. Both loops of `node_add` get
  an invariant (`Inv1`, `Inv2`): which entries of the config and of the delta can be found among the children at each
  iteration. An iteration fails exactly if one of the listed things is wrong; induction over the delta.
* **C65** — `Spec/Yang.lean` defines proper modules and instance documents in terms of statements. `Proof/Yang.lean` shows that
  the schema look-up of a compiled device finds exactly the visible statements (those in choices and cases count for the
  level of the choice) and that an instance is a `RawConfig`; `Proof/Pruned.lean` shows that removing defaults and empty
  containers from a `RawConfig` gives a `PlainConfig`; C01 does the rest.
* **C66** — `Spec/KeyNames.lean` says what it means that a name stands in a key statement; `Proof/KeyNames.lean` shows that
  `re.split(' +', keys)` finds the names between spaces.
* **C67** — `Spec/Meaning.lean` says when two contents mean the same (RFC 7950: defaults, presence, order by the user), in
  terms of statements and elements only; `Proof/Meaning.lean` shows that trimming keeps the meaning, that validating takes
  nothing more away, and that among trimmed trees the meaning and the equality of configs are the same.
* **Identityrefs in C67–C73** — `Spec/Meaning.lean` has `Value`: the value of a leaf is its text, or the identity that it
  stands for (`identityOf` in `Spec/Yang.lean`: a namespace and a name, found with the prefixes of the leaf).
  `Proof/IdentityValue.lean` shows that the library takes two values for equal exactly if they stand for the same identity, if
  the module of the namespace has a name of its own (`OwnName`, part of `ValueOf`).  `Spellable` asks that the leaves of the
  source have prefixes for the identities of the target; `Props/Kinds.lean` has examples.  Instance-identifiers are in C31,
  C44 and C65 only.
* **C68** — `Spec/Server.lean` is a NETCONF server: it processes an edit-config node by node, in the order of the document.
  `Proof/ServerTag.lean` follows the instances with one tag (moving entries one after another ends in the order of the
  target), `Proof/ServerLevel.lean` the children of one node, `Proof/ServerMain.lean` a whole `Diff`, the relation between
  source, target and edit-config that was shown for all options (`calcSub_ok`).
* **C69** — `Spec/Overwrite.lean` says which commands and negations remain; `Proof/Overwrite.lean` shows it for the loop
  with its dictionary of positions, `Proof/OverwriteTable.lean` shows that the expressions of the code are apart.
* **C70** — `Spec/Cases.lean` is the server of C68 for modules with choices: before it processes a node of a case it removes
  the nodes of the other cases. `Proof/CasesPath.lean` finds the cases of the YANG statements in the compiled schema,
  `Proof/Cases.lean` shows that the server does the same as one that removes all of them first (`settle`) and then works as
  in C68, and `Proof/CasesDelta.lean` that the delta of the library is one between the settled source and the target.
* **C71** — `Spec/SameNodes.lean` relates edit-configs with the same nodes in another order. `Proof/ServeFlat.lean` shows that
  without order by the user the server treats each node of a level on its own (`serve_flat`), `Proof/ServeOrder.lean` that
  the same nodes in another order lead to the same nodes (`same_serve`), and `Proof/ServeShuffle.lean` the same for the removal
  of other cases (`same_settle`) and for reordered deltas.
* **C72** — `Spec/Explicit.lean` (`Sane`) says which data a server may have. `Proof/Explicit.lean` relates a server without
  explicit defaults to one with them, and shows that the second one follows the first (`serve_explicit`), since no operation
  but `create` can tell them apart; that `create` does not occur is `Proof/Vocabulary.lean`. `Proof/ExplicitMeaning.lean` shows
  that data that mean the same as a config, without explicit defaults, hold it (`holds_of_meaning`), and
  `Proof/ExplicitShed.lean` takes the explicit defaults away.
* **C40, second part** — `Spec/Vocabulary.lean` and `Proof/Vocabulary.lean`: the operations that can occur in an edit-config,
  for all inputs, without any condition on the schema or the configs.
* **C73** — `Proof/ExplicitCases.lean` extends the simulation of C72 to servers that remove the nodes of other cases.
  `Props/Reported.lean` puts C65, C67, C70 and C72 together: reports, configs, deltas, edit-configs and reports again.
* **C74** — `Spec/Roots.lean` says which places a tree has and what `models` and `roots` list. `Proof/Places.lean` follows every
  step of `node_sub`, `node_add`, trimming, validation and filtering; there are no conditions on the trees or on the schema.
* **C75** — `Model/Shared.lean` is a second transition system for the files of compiled models, with single reads and writes of
  bytes. The invariants: every file is what may be left of the result (`Torn`: bytes at the end are missing, others are zero), and
  every byte of a file is right or will be written by a process that has the file open (`Covered`).
  `Deterministic` is an assumption about the processes: the order of some elements of a compiled file follows the order of a
  set of strings, which is the same in two processes only if they have the same seed of the hash function.
* **C76** — laws of `+` with `<=` and `==`, for configs of documents and their sums. A sum is the least config that has everything
  of `b`, and of `a` what `b` does not overwrite (`merged_least`); associativity follows from two lemmas on what is kept. That sums
  are again configs to which C10 applies (`good_add`) is what makes the theorems free of hypotheses on the sums.
* **C77** — `get_xpath` of schema nodes in all notations and of config nodes in the notation of YTool (`Model/SchemaPath.lean`).
  `Spec/SchemaPath.lean` has a reader for such texts that knows nothing of `convert_tag`: it cuts the text at the slashes that are
  not in braces and looks up prefixes. `C77_false_documented` records that the example in the source is not what the code returns.
* **C78** — minimality of `node_sub` and `get_config_replace`: `OnlyChanges` in `Spec/Minimal.lean` says with an equivalence which
  of the nodes that both configs have are in the edit-config. The counterpart for nodes of one config is C15.
* **C79** — the frame of C68 and C70: `Richer` in `Spec/Keeps.lean` says that a server has the statements of the loaded modules
  and others besides, `Keeps` what an edit-config leaves alone, and `Undisturbed` combines it with C78: where the configs agree,
  the server has what it had.
* **C80** — C32 for the reading of literals in XPath 2.0, where a mark inside a literal is doubled (`doubled`, `render2` in
  `Spec/InstId.lean`).
* **C81** — (`Props/Apart.lean`, `Proof/Apart.lean`, `Proof/Commute.lean`): `nodeAdd` never looks at siblings with other names than that of the
  node it deals with, in spite of its global list of children and its positions: the run on the children splits by names
  (`nodeAdd_split`), can be put together again (`nodeAdd_join`), and for nodes that are merged into existing ones it is a map over the
  children (`nodeAdd_inplace`). `Independent` says when two deltas have nothing to do with each other and `UpToOrder` what the order of two
  siblings with different names may change, both without the model's helpers. Found on the way: when one delta empties a
  non-presence container and another removes an absent node from it, the order matters to `==` (`C81_emptied`).
* **C82** — (`Props/ThreeWay.lean`): three-way merging, from C01, C78 and the splitting by names of C81. `MergeOf` (`Spec/ThreeWay.lean`) says which
  configs have the changes of both sides. Names are compared at the top only; C83 goes below.
* **C83** — (`Props/MergeDeep.lean`): three-way merging at all levels. `DeepMerge` (`Spec/ThreeWay.lean`) says which configs have the changes of
  both sides: it follows the containers and list entries that both have changed, and asks there that keys and ordered-by-user lists are the
  same on all sides. The proof (`Proof/MergeDeep.lean`) builds, level by level, the tree that the delta from `b` to `y` leads to from `x`, and
  shows that this delta describes the difference (`Diff`) from `x` to it; C58's stand-in argument does the rest. Leaves are of plain types.
* **C84** — (`Props/MergeServer.lean`): C83 with the server of C68 (`Spec/Server.lean`) in place of `Config.__add__`: the second of two
  edit-configs reaches the server in a state it was not computed for. `Proof/MergeServer.lean` takes the tree that C83 builds, and C68's theorem
  about a server that gets a difference. `C84_false_with_replace` has a delta of type `replace` that undoes the changes of the other client.
* **C85** — (`Props/NodeReport.lean`): `ModelDiff.compare` with an engine that evaluates location paths as in `Spec/XPath.lean`. The text is
  injective (`C85_tells`), shows the nodes `At` the path of both trees (`C85_shows_nodes`), and merging the tables of prefixes does not change
  what a model's own prefixes select (`C85_own_prefixes`) unless they clash (`C85_clash_hides_node`).
* **C86** — (`Props/Find.lean`): `xpath` of replies and configs. What a path selects is stated with the tags on the way to a position; that
  every node can be found takes C28 (the table of prefixes covers all namespaces). `C86_config_as_help` compares the table that
  `Config.xpath` uses with the one that `ns_help` prints; `C86_help_not_understood` shows that they differ.
* **C87** — (`Props/DiffObject.lean`): `RunningConfigDiff` as an object with a cache; histories are lists of reads and assignments, and the
  invariant is that the cache has the lists of the texts at the first read. Equality goes through the printed text, so C48 and the
  injectivity of lines with depths (`entries_inj`) say what it means.
* **C88** — (`Props/Hoist.lean`): `hoistList` says without loops and indexes what moving siblings up means; `OneNest` is the shape of
  configs for which the loop of the code does that, and `C88_not_reached` has two texts of other shapes for which it does not.
* **C89** — (`Props/Layout.lean`): a line that does not count leaves the state of the parser as it is, at the outermost level already, so
  sections never see it. Taking white space from the ends of lines commutes with each step of the parser (`step_trim`).
* **C90** — (`Props/Width.lean`): `WrittenAs` relates a config to lines in which every section has a width of its own; the proof of C25 (two
  blanks for every level) is done again for it.
* **C91** — (`Props/ReplaceLines.lean`): a match cannot cross a line boundary (`prefix_line`), so replacing commutes with `splitlines`.

## How the theorems are tested with wrong programs

`seeded/LOG.jsonl` has one line per attempt.  An attempt takes a frozen copy of a commit (field `commit` where present) outside
`/verif`, edits one definition of the model, and rebuilds everything that depends on it.  An edit counts as found if the edited
definition itself still compiles and a theorem no longer does; `theorems_failed` names the first ones.  An edit that does not
compile is no evidence and is not counted.  An edit that leaves all theorems intact either changes nothing that the property says
(the line then says why), or the property was tightened, and the line names the theorem that now fails.

## Where the main results are

* `Spec/Config.lean`: `Valid`, `Incl`, `SameConfig`, `Rearranged` — what valid, included and equal configs are.
* `Spec/RoundTrip.lean`, `Spec/Transition.lean`: the conditions of the round trip (`PlainConfig`, `Compat`,
  `Transition`); `Spec/Shape.lean`: what a computed delta looks like (`DeletesMissing`, `OrderMarked`);
  `Spec/Replace.lean`: the same for deltas of type `replace` (`ReplacesAt`) and what they do (`Imposed`);
  `Spec/Prefer.lean`: which operations the preferences ask for (`Prefers`);
  `Spec/Validate.lean`: which configs are accepted (`Accepted`) and what is dropped (`CleanedTo`);
  `Spec/KeyOrder.lean`: keys in front (`KeysLead`);
  `Spec/XPath.lean`: what an XPath expression selects (`XPath.eval`); `Spec/Position.lean`: the node at a position;
  `Spec/Compat.lean`: which models configs of two devices use and when they are the same;
  `Spec/Compile.lean`: chains of statements, what a schema node says about a statement, roots that a request asks for;
  `Spec/Printed.lean`: how a printed running-config diff is read;
  `Spec/Send.lean`: copies of elements, which calls of `edit_config` are valid and for which datastore;
  `Spec/Statement.lean`: the statement at a path, the newest revision of a module, config nodes below list entries;
  `Spec/Show.lean`: drawings of trees, reading the text of a node, what a node is;
  `Spec/Offer.lean`: names in replies, parameters of capabilities, histories of a device object;
  `Spec/Cache.lean`: what a history says about the files of a folder;
  `Spec/Shared.lean`: what may be left of a file, folders that processes share;
  `Spec/SchemaPath.lean`: how the path of a schema node is read in each notation;
  `Spec/Keeps.lean`: servers with more models than were loaded, and what they keep;
  `Spec/Apart.lean`: deltas that are independent of each other, trees up to the order of siblings with different names;
  `Spec/ThreeWay.lean`: configs that have the changes of two others;
  `Spec/Minimal.lean`: which nodes of two configs a delta has to mention;
  `Spec/MergeLaws.lean`: configs that agree, modules and configs for the laws of sums;
  `Spec/Objects.lean`: which calls may change which tree, values without memory;
  `Spec/Lines.lean`: which lines of a text are commands;
  `Spec/Types.lean`: which values a type has. `Spec/Settle.lean`: when moving entries one after
  another ends in the order of the target; `Spec/StandIn.lean`: configs that
  equal the source of a delta; `Spec/DeltaObj.lean`: what the
  arguments and attributes of a delta mean; `Spec/Loose.lean`: the
  conditions of the round trip and sameness without order; `Spec/Choice.lean`:
  what a device removes when another case of a choice is set; `Spec/Regex.lean`: what
  `re.search` finds; `Spec/YangParse.lean`: the grammar of YANG statements; `Spec/Refused.lean`: what can be wrong
  with a delta; `Spec/Yang.lean`, `Spec/Instance.lean`: YANG modules and their instance documents.
* `Proof/Diff.lean`: a level-by-level difference, and that applying it reaches the target; `Proof/SubMain.lean`:
  `node_sub` computes such a difference; `Props/RoundTrip.lean` puts both together and has the counterexamples.
* `Spec/Merge.lean`, `Props/Merge.lean`: the sum of two plain configs as their union (`Within`, `HasAll`,
  `FromBoth`), and where it is not.
* `Spec/Tree.lean`, `Props/Tree.lean`: trees as lists of nodes with the way to each node; filtering, removing
  read-only nodes and reordering in these terms.
* `Spec/Insert.lean`, `Props/Insert.lean`: where entries with an `insert` attribute go (`Positioned`), change by change
  in the order in which they are applied, and which positions raise (`InsertFault`).
* `Spec/Tags.lean`, `Props/Tags.lean`: what the notations of a tag mean (`written`), prefix tables;
  `Spec/Store.lean`, `Props/Store.lean`: histories of loads and look-ups (`Reachable`), cache coherence.
* `Spec/Ref.lean`, `Props/Ref.lean`: what an identityref denotes (`DenotesId`); `Spec/InstId.lean`: grammar and meaning of
  instance-identifiers (`InstId.Tok`, `InstId.Means`). The round trip, the sums and C64 use the same grammar for the values of
  leaves (`LeafValueOk` in `Spec/Delta.lean`, `Writable` in `Spec/RoundTrip.lean`).  List keys may be identityrefs:
  entries are matched by the texts of their keys, so a prefix in a key has to mean the same module everywhere (`KeyOk`,
  `KeyHonest` in `Spec/Delta.lean`, executable in `Spec/CheckKey.lean`, used in `Proof/KeyText.lean`).
* `Spec/Paste.lean`: what a router does with lines that are pasted into it, among them lines that replace others
  (`Device.same`), short negations (`Device.short`) and commands that are in force unless negated (`Device.on`);
  `Props/Text.lean`: parsing of printed text, and that the commands
  of a running-config diff lead to the target.  `Proof/PasteTable.lean` shows that the tables of the code fit this device.

Status of each property is in `MANIFEST.json`; where only a part is proved the theorem name ends in
`_partial` and the note says what is missing.
