{"id": "C01", "title": "Delta round trip", "statement": "For configs c1 and c2 of the same device, applying the computed delta restores the target: c1 + (c2 - c1) raises no exception and the result == c2. This holds when both configs are plain (no edit-config attributes, no empty non-presence containers, text only in leaves, list keys of plain types or identityrefs written with the prefix of the module or, for the module of the key, without one, keys of ordered-by-user entries without apostrophe, identities and instance-identifiers in new values only of namespaces that have a prefix in the config they are written into), the entries of ordered-by-user lists end in the order of the target when they are moved one after another to behind their predecessors (new ones first, then those that stay, in the order of the source), no level changes from one case of a choice to another, and root leaf-lists do not occur together with preferred_replace='replace' (unless diff_type is 'replace' with replace_depth 0). The condition on the order is met when the entries that stay keep their relative order, and when some entries move together and none is new. Without one of these conditions there are pairs for which it fails.", "quantifier": "every schema, every pair of plain configs valid for it that are compatible in this sense, every setting of preferred_create / preferred_replace / preferred_delete, diff_type 'minimum', 'minimum-replace' and 'replace' with every replace_depth", "why_tests_cant": "The test-suite checks a few dozen hand-written pairs. The law ranges over trees of unbounded depth and width and over every interleaving of creates, deletes, moves and in-place edits at every level.", "anchors": ["src/ncdiff/netconf.py: NetconfCalculator.node_sub, get_config_replace, node_add, add, sub", "src/ncdiff/config.py: Config.__add__, Config.__sub__, ConfigDelta.nc"]}
{"id": "C02", "title": "Config equality is an equivalence relation", "statement": "For configs of one device that compare without exception, == is reflexive, symmetric and transitive, and != is its negation.", "quantifier": "every schema and every triple of configs with unique list keys", "why_tests_cant": "Symmetry and transitivity relate two or three arbitrary trees; no finite set of pairs settles them.", "anchors": ["src/ncdiff/calculator.py: BaseCalculator.eq, ne, _node_le", "src/ncdiff/config.py: Config.__eq__, Config.__ne__"]}
{"id": "C03", "title": "Config inclusion is a partial order", "statement": "<= is reflexive and transitive; c1 == c2 exactly when c1 <= c2 and c2 <= c1; c1 < c2 exactly when c1 <= c2 and not c2 <= c1; > and >= are < and <= with arguments swapped.", "quantifier": "every schema and every triple of configs with unique list keys", "why_tests_cant": "Transitivity must hold through ordered-by-user sibling checks at every depth, which involves three arbitrary trees at once.", "anchors": ["src/ncdiff/calculator.py: BaseCalculator.le, lt, ge, gt, _node_le", "src/ncdiff/config.py: Config.__le__, __lt__, __ge__, __gt__"]}
{"id": "C04", "title": "Equality ignores document order exactly where YANG says so", "statement": "Two configs are == exactly when, at every level, they have the same instances (leaf by name, leaf-list by name and value, list entry by name and key values) with equal values, and the instances of every ordered-by-user list or leaf-list come in the same order. The document order of anything else is irrelevant.", "quantifier": "every schema and every pair of configs with unique list keys", "why_tests_cant": "The claim is an if-and-only-if over all permutations of all siblings at all depths.", "anchors": ["src/ncdiff/calculator.py: BaseCalculator._node_le, _pair_children, _get_peers"]}
{"id": "C05", "title": "Sibling matching is a complete one-to-one partition", "statement": "When the children of two nodes are matched, either a ConfigError reports a duplicated instance, or every child of either node lands in exactly one of: only-in-first, only-in-second, matched pair; pairs have the same tag and the same list key or leaf-list value; no instance that exists on both sides is left unmatched; first-node order is kept.", "quantifier": "every pair of nodes with any number of children", "why_tests_cant": "Completeness and uniqueness quantify over all multisets of children on both sides.", "anchors": ["src/ncdiff/calculator.py: BaseCalculator._pair_children, _group_kids"]}
{"id": "C06", "title": "A config minus itself is an empty delta", "statement": "For every config c, the delta c - c is falsy, and c + (c - c) == c.", "quantifier": "every schema, every plain config (see C01), every setting of preferred_create / preferred_replace / preferred_delete, diff_type 'minimum', 'minimum-replace' and 'replace' with every replace_depth", "why_tests_cant": "Needs the delta computation to cancel at every depth, for every tree.", "anchors": ["src/ncdiff/netconf.py: NetconfCalculator.node_sub", "src/ncdiff/config.py: Config.__sub__, ConfigDelta.__bool__"]}
{"id": "C07", "title": "A delta is falsy only if the configs are equal", "statement": "bool(c2 - c1) is False exactly when c1 == c2, that is when c1 and c2 are rearrangements of each other; and if the edit-config of c2 - c1 has no content then c1 == c2.", "quantifier": "every schema and every pair of valid configs; the second part for the pairs of C01, whatever the order of their entries", "why_tests_cant": "Both directions are universally quantified over pairs of trees.", "anchors": ["src/ncdiff/config.py: ConfigDelta.__bool__"]}
{"id": "C08", "title": "edit-config operation semantics of +", "statement": "When a delta is applied: deleting an instance that does not exist raises ConfigDeltaError, creating an instance that already exists raises ConfigDeltaError, removing a missing instance is a no-op, an operation name outside merge/replace/create/delete/remove raises ConfigDeltaError; a successful delete or remove leaves no instance with that identity; a successful create/merge/replace leaves exactly one instance with that identity.", "quantifier": "every config, every delta and every position of the instance in the tree", "why_tests_cant": "The claim is per instance at any depth for any surrounding siblings; tests sample a few positions.", "anchors": ["src/ncdiff/netconf.py: NetconfCalculator.node_add, _node_add_with_peer_*, _node_add_without_peer_*"]}
{"id": "C09", "title": "Applying a delta never touches what the delta does not mention", "statement": "After c + d, every instance of c whose identity is not mentioned among the siblings in d is still present, unchanged, and the relative order of the unmentioned instances is the same as before.", "quantifier": "every config, every delta, every level of the tree", "why_tests_cant": "A frame property: it quantifies over all the untouched siblings and all deltas.", "anchors": ["src/ncdiff/netconf.py: NetconfCalculator.node_add"]}
{"id": "C10", "title": "Merging plain configs gives an upper bound", "statement": "For configs c1, c2 without edit-config attributes, c1 + c2 succeeds; every instance of c1 and of c2 is in the result and every instance of the result is in c1 or c2; leaves of c2 have their value of c2, and whatever is only in c1 is unchanged. c + c == c, c + empty == c and empty + c == c.", "quantifier": "every schema whose leaf-lists have no default values and every pair of configs with unique list keys (for the three equations also schemas with leaf-list defaults); identityref and instance-identifier values of c2 must be expressible with the prefixes declared in c1", "why_tests_cant": "Lattice-like laws over all pairs of trees.", "anchors": ["src/ncdiff/netconf.py: NetconfCalculator.node_add", "src/ncdiff/config.py: Config.__add__"]}
{"id": "C11", "title": "The sum carries no edit-config attributes", "statement": "If c carries no XML attributes then c + d carries none, whatever operation/insert/key/value attributes d has.", "quantifier": "every config and every delta, every node at every depth", "why_tests_cant": "Quantifies over every node of every result.", "anchors": ["src/ncdiff/calculator.py: BaseCalculator._del_attrib", "src/ncdiff/netconf.py: NetconfCalculator.node_add"]}
{"id": "C12", "title": "Sums keep instances unique", "statement": "If c has no duplicated instance at any level, the delta d has none either and deletes no list key, keys that are identityrefs use the prefixes of the modules for these modules, and c + d succeeds, then the result has no duplicated instance at any level. (If a prefix stands for different modules in keys of c and d, the result may have two entries with the same key.)", "quantifier": "every config and every such delta, with any mix of operations", "why_tests_cant": "An invariant of a recursive update; must hold for every delta.", "anchors": ["src/ncdiff/netconf.py: NetconfCalculator.node_add", "src/ncdiff/calculator.py: BaseCalculator._pair_children"]}
{"id": "C13", "title": "Insert positions are honoured", "statement": "Creating or moving an ordered-by-user entry with insert=first/last/before/after puts it, among its same-tag siblings, respectively first, last, immediately before or immediately after the first sibling that is named, and keeps the relative order of all others (an existing entry that names itself stays where it is); if the named sibling is absent or not named, ConfigDeltaError is raised. The changes of a delta take effect one after the other: first the new entries in the order of the delta, then the existing ones in the order of the config.", "quantifier": "every list of siblings, every insert attribute", "why_tests_cant": "Positions are relative to arbitrarily many siblings of arbitrarily many tags.", "anchors": ["src/ncdiff/netconf.py: NetconfCalculator._node_add_without_peer_list, _node_add_without_peer_leaflist, _node_add_with_peer_list, _node_add_with_peer_leaflist"]}
{"id": "C14", "title": "Deltas between user-ordered lists place every entry after its target predecessor", "statement": "In c2 - c1, the entries of an ordered-by-user list or leaf-list that exist in c2 appear in c2's order; the first has insert=first and each other has insert=after naming its immediate predecessor in c2. (Keys and leaf-list values that are the empty string are excluded: an entry behind one with an empty key is placed after 'None', and behind an empty leaf-list value there is no delta but a TypeError.)", "quantifier": "every schema and every pair of configs of C01, whatever the order of their entries, every setting of preferred_create / preferred_replace / preferred_delete, diff_type 'minimum', 'minimum-replace' and 'replace' with every replace_depth", "why_tests_cant": "Sequences are of unbounded length and any permutation can occur.", "anchors": ["src/ncdiff/netconf.py: NetconfCalculator.node_sub (ordered_by_user block)"]}
{"id": "C15", "title": "Deltas only delete what is missing in the target", "statement": "In c2 - c1, a delete/remove operation is put exactly on instances of c1 that have no counterpart in c2, and no instance that exists in c2 is deleted.", "quantifier": "every schema and every pair of configs of C01, whatever the order of their entries, every setting of preferred_create / preferred_replace / preferred_delete, diff_type 'minimum', 'minimum-replace' and 'replace' with every replace_depth", "why_tests_cant": "Wrong deletes lose configuration; the claim ranges over every instance at every depth.", "anchors": ["src/ncdiff/netconf.py: NetconfCalculator.node_sub, set_delete_operation"]}
{"id": "C16", "title": "remove_defaults is sound and idempotent", "statement": "Trimming defaults removes only leaves and leaf-lists whose value equals the schema default (and containers/lists emptied by that), keeps everything else in place, never removes a leaf without a default (such as a list key without one), and doing it twice is the same as doing it once. A list key that has a default in the schema can be lost.", "quantifier": "every schema and every config whose nodes are in the schema", "why_tests_cant": "Idempotence over arbitrary trees with mutation during iteration.", "anchors": ["src/ncdiff/config.py: Config._trim_defaults, trim_defaults, remove_defaults"]}
{"id": "C17", "title": "Filtering returns a sub-config with keys", "statement": "A filtered config has exactly the nodes of the original that are inside a selected node, contain a selected node or are key leaves of a list entry that contains a selected node, each with its content, its ancestors and in document order; so each list entry that it has keeps its key leaves.", "quantifier": "every config and every selection", "why_tests_cant": "Ranges over all subsets of nodes of all trees.", "anchors": ["src/ncdiff/config.py: Config.filter, _node_filter"]}
{"id": "C18", "title": "Reordering edit-config children is a permutation that keeps leading list keys first", "statement": "Reordering the edit-config of a ConfigDelta changes only document order: at the chosen depth the children of each node are a permutation of the previous ones, and key leaves that come first stay first and in their order; nothing else changes, so the reordered edit-config has the same nodes.", "quantifier": "every delta, every depth, every random seed", "why_tests_cant": "The seed drives an arbitrary shuffle; the claim is for all shuffles.", "anchors": ["src/ncdiff/config.py: ConfigDelta.reorder, reorder_children"]}
{"id": "C19", "title": "Identical running-configs produce no diff", "statement": "For equal running-config texts in which no section repeats a line (before or after sibling lines are moved up), RunningConfigDiff is falsy, its str() is empty and both cli and cli_reverse are empty. A text that repeats a line can differ from itself.", "quantifier": "every text without repeated lines in a section", "why_tests_cant": "Ranges over all texts, including duplicated lines and arbitrary nesting.", "anchors": ["src/ncdiff/runningconfig.py: RunningConfigDiff.get_diff, get_cli, handle_orderless"]}
{"id": "C20", "title": "Running-config list diff is a faithful alignment", "statement": "The list diff of two line lists only uses '-' for lines of the first list, '+' for lines of the second list; every line of the first list is reported as removed or matched, every line of the second as added or matched, in order; an empty diff means the lists are equal.", "quantifier": "every pair of nested line lists", "why_tests_cant": "Alignment over arbitrary repeated lines and nesting.", "anchors": ["src/ncdiff/runningconfig.py: ListDiff.compare"]}
{"id": "C21", "title": "Orderless commands: reordering loses nothing", "statement": "When no section repeats a line, aligning orderless commands only moves lines of the first list that are orderless: at every level no line is lost, duplicated or invented, and lines that are not orderless keep their relative order. A repeated orderless line can be lost.", "quantifier": "every pair of nested line lists at every depth", "why_tests_cant": "The index arithmetic has many interacting offsets; lost lines only show for specific duplicates and interleavings.", "anchors": ["src/ncdiff/runningconfig.py: RunningConfigDiff.handle_orderless"]}
{"id": "C22", "title": "Order of orderless commands does not matter", "statement": "If two running-configs without repeated lines differ only in the order of adjacent orderless commands, at any level, the diff is empty in both directions.", "quantifier": "every permutation of the orderless lines", "why_tests_cant": "All permutations of unboundedly many lines.", "anchors": ["src/ncdiff/runningconfig.py: RunningConfigDiff.handle_orderless, ListDiff.compare"]}
{"id": "C23", "title": "CLI clean-up keeps one witness of each command", "statement": "Duplicate removal keeps exactly the first occurrence of each command in order; removing unnecessary negative commands only drops a command when a strictly shorter prefix of it stays; removing unnecessary positive commands only drops a command when a strictly longer extension of it stays.", "quantifier": "every list of commands", "why_tests_cant": "Chains of prefixes of any length: the witness itself might be dropped.", "anchors": ["src/ncdiff/runningconfig.py: remove_duplicate_cammands, remove_unnecessary_negative_commands, remove_unnecessary_positive_commands"]}
{"id": "C24", "title": "Negation of a command", "statement": "Negating a removed 'no X' line yields the positive X; negating a positive line yields a negative command, which is 'no' and the line or a short form of it; an added line is kept; no command made from a line without a double 'no no ' starts with a double 'no no '.", "quantifier": "every command line", "why_tests_cant": "Ranges over all strings.", "anchors": ["src/ncdiff/runningconfig.py: RunningConfigDiff.handle_command, append_command, list2cli"]}
{"id": "C25", "title": "Running-config text parses back", "statement": "Rendering a list of lines with their sub-sections as indented text and parsing it gives the same list back.", "quantifier": "every well-formed nested line list", "why_tests_cant": "Unbounded nesting and width; parser is line/indentation driven.", "anchors": ["src/ncdiff/runningconfig.py: RunningConfigDiff.config2list, list2config, indent"]}
{"id": "C26", "title": "Tag conversion between notations is a bijection", "statement": "On a device whose namespaces are unique, converting a tag (written without repeating the namespace in force) from one notation (by name, prefix or URL; with or without omission) to another gives the text that means the same node there, and converting back returns the original. Namespaces shared by two modules and unknown namespaces raise instead of being guessed.", "quantifier": "every namespace table with unique names/prefixes/urls, every pair of notations, every default namespace and every tag", "why_tests_cant": "Ranges over all tables and tags.", "anchors": ["src/ncdiff/manager.py: ModelDevice.convert_tag, convert_ns", "src/ncdiff/composer.py: Tag"]}
{"id": "C27", "title": "Schema lookup cache is coherent", "statement": "At any point of any sequence of model loads, reloads and schema look-ups, a schema look-up returns (or raises) what an uncached look-up in the currently loaded models would, provided models of different names have no root in common. Loading never raises because of what was looked up before.", "quantifier": "every history of load_model and get_schema_node calls", "why_tests_cant": "Staleness needs particular histories.", "anchors": ["src/ncdiff/manager.py: ModelDevice.get_schema_node, load_model"]}
{"id": "C28", "title": "Assigned namespace prefixes are unambiguous", "statement": "The prefix table built for a config never maps a prefix to two namespaces. If the device's module prefixes are distinct, it covers every namespace declared in the config with exactly one prefix, has no others, and uses the modules' own prefixes.", "quantifier": "every config tree, every namespace table, every iteration order of the set of namespaces", "why_tests_cant": "Collisions appear only for particular combinations of prefixes.", "anchors": ["src/ncdiff/manager.py: ModelDevice._get_ns"]}
{"id": "C29", "title": "Model download processes the whole dependency closure under every schedule", "statement": "When download_all has joined its threads, every loadable module and every module that fetched modules include or import, directly or not, has been requested, and the file of each fetched module is complete. Work is never lost when a worker exits on an empty queue, the threads never deadlock, and downloading ends.", "quantifier": "every device (any dependency graph, refused and unparsable modules), every positive number of threads and every interleaving of their steps", "why_tests_cant": "Race conditions need specific schedules.", "anchors": ["src/ncdiff/model.py: DownloadWorker, ModelDownloader.download_all, download"]}
{"id": "C30", "title": "A crash during download is never mistaken for a complete download", "statement": "If calls of download_all in 'check' mode are interrupted at any point, the next one either downloads again or the YANG files on disk are complete for the recorded capabilities. (Not so if a call in 'force' mode dies, if the device changes its capabilities and changes them back, or if a request is lost to an unforeseen exception.)", "quantifier": "every crash point, every history of calls, every device, every schedule", "why_tests_cant": "Crash points between any two file operations.", "anchors": ["src/ncdiff/model.py: ModelDownloader.need_download, download_all"]}
{"id": "C31", "title": "identityref values compare independently of prefixes", "statement": "Two identityref values compare equal exactly if they denote the same identity, whatever XML prefixes they are written with; configs that differ only in prefixes are equal; and a value that is copied to another node denotes the same identity there. (Not so for keys of lists, which are compared as text.)", "quantifier": "every pair of nodes and prefix maps, every device with distinct module names", "why_tests_cant": "All prefix maps.", "anchors": ["src/ncdiff/ref.py: IdentityRef", "src/ncdiff/calculator.py: _parse_text, _same_text"]}
{"id": "C32", "title": "instance-identifier conversion only rewrites prefixes", "statement": "Converting an instance-identifier gives an instance-identifier with the same meaning: the same local names in the same namespaces, the same literals, in the same order; and two instance-identifiers compare equal exactly if they mean the same. (Not so for positions, for node names with a dot and for apostrophes inside of double quotes.)", "quantifier": "every instance-identifier made of steps and key predicates, every literal, every pair of prefix maps", "why_tests_cant": "A hand-written tokenizer over all strings.", "anchors": ["src/ncdiff/ref.py: InstanceIdentifier"]}
{"id": "C33", "title": "Model diff shows exactly what differs between two schema trees", "statement": "ModelDiff of two schema trees is falsy exactly if the trees have the same nodes with the same properties, in whatever order. A node is marked added exactly if only the second tree has it, deleted exactly if only the first has it, modified exactly if it is a leaf or leaf-list whose properties differ. The properties added, deleted and modified show exactly the leafs with that mark and their ancestors. (Not so if a container becomes a leaf, and inside of operations; a container is never marked modified; new empty containers are not shown.) If a node of one tree has two counterparts of the same name in the other tree, ModelError is raised instead of choosing one of them.", "quantifier": "every pair of schema trees in which siblings have distinct names", "why_tests_cant": "Unbounded trees.", "anchors": ["src/ncdiff/model.py: ModelDiff.compare_nodes, trim, __bool__"]}
{"id": "C34", "title": "Delta negation swaps source and target", "statement": "-(c2 - c1) is the delta c1 - c2 (with default preferences), negating twice gives c2 - c1, and c2 - (c2 - c1) == c1. Preferences of the delta are not carried over to its negation.", "quantifier": "every pair of valid configs and every preference setting; the last equation for the pairs of C01", "why_tests_cant": "Universally quantified law.", "anchors": ["src/ncdiff/config.py: ConfigDelta.__neg__"]}
{"id": "C35", "title": "extract_config removes exactly the read-only nodes", "statement": "Removing read-only data from a reply keeps all and only nodes whose schema ancestors-or-self are read-write, and keeps document order.", "quantifier": "every reply tree", "why_tests_cant": "Mutation during iteration over all trees.", "anchors": ["src/ncdiff/manager.py: ModelDevice.extract_config"]}
{"id": "C36", "title": "Pasting the CLI diff reaches the target config", "statement": "Typing the commands of diff.cli into a device that has the lines of running1 leaves exactly the lines of running2, and diff.cli_reverse leads back. On the device 'no X' removes X and what is below it, a short negation such as 'no ip address' or 'no transport input' removes every line it is short for, any other command adds its line, a command with an overwritable head (description, password, ip address, ...) replaces the other lines with that head, and commands below a section header act in that section. Any set of commands may be in force unless negated (ip routing, keepalive, ...): of these the config shows 'no X' or nothing, and 'no X' is undone by X. Holds when no section repeats a line or has two lines with the same overwritable head or two lines that the same negation removes, lines with an overwritable head have a value and no sub-section, the only negations are of commands in force otherwise that have no short negation and no overwritable head and they have no sub-section, no line starts with a diff mark, and in the diff no printed command starts another one of its section (negations and others taken apart) and no removed line starts an added line that does not replace it. Otherwise it is false: removing 'vlan 1' and 'vlan 10' prints only 'no vlan 1'; removing a secondary ip address prints 'no ip address', which removes the primary one too.", "quantifier": "every pair of running-config texts of any nesting, every table of special commands", "why_tests_cant": "The effect of a script on every device state that the text describes, for unbounded nesting and width.", "anchors": ["src/ncdiff/runningconfig.py: RunningConfigDiff.cli, cli_reverse, get_cli, list2cli, config2list"]}
{"id": "C37", "title": "The dependency table has what is in the YANG files, under every schedule", "statement": "When a compiler builds its dependency table from a folder of YANG files and returns, get_dependencies(module) reports exactly the imports of the module and exactly the modules that import or include it according to the files, nothing is reported twice or invented, and building always ends. Holds for one thread, and for any number of threads if the table exists before they start, when there is one file per module and no file makes the parser raise. Two threads that both find no table lose entries; a file that raises, or two threads that remove the entry of the same module, make the call wait for ever.", "quantifier": "every folder, every import graph, every number of threads, every interleaving of their steps", "why_tests_cant": "The table is created and updated by threads without a lock; a test sees one schedule.", "anchors": ["src/ncdiff/model.py: ContextWorker.run, CompilerContext.update_dependencies, load_context, ModelCompiler.get_dependencies"]}
{"id": "C38", "title": "The values offered for an identityref", "statement": "The values that a compiled schema lists for an identityref are identities that are directly derived from its base, written with the prefix of their module; all of them are listed if the base has no base itself and was seen before them, otherwise exactly the first one is missing. Holds when only the compiled module writes bases without prefix. The values depend on what the same compiler compiled before.", "quantifier": "every history of compilations, every set and order of modules and identities, every base", "why_tests_cant": "The table is accumulated over all compilations and depends on the order in which modules are loaded.", "anchors": ["src/ncdiff/model.py: ModelCompiler.compile, type_identityref_values"]}
{"id": "C39", "title": "A delta of type replace writes whole subtrees, whatever the device holds", "statement": "With diff_type='replace', what differs between the configs appears in the edit-config, at replace_depth or above, only as a removal or as a complete copy of the target's subtree with operation 'replace' (besides key leaves, and ordered-by-user entries that have not changed). Whatever valid config the edit-config is applied to, each such subtree is then in the result once and exactly as in the target, and what is removed is not in the result. With diff_type='minimum-replace' the edit-config is that of 'minimum' except that the nodes at replace_depth (or, with replace_xpath, the nodes that the XPath selects) carry an attribute operation='replace'; the attribute has no namespace, so adding the delta to a config has the same effect as without it.", "quantifier": "every pair of configs, every replace depth, every combination of preferences, every config that the delta is applied to", "why_tests_cant": "The config of the device at the time of the edit is not known when the delta is computed, and subtrees are arbitrary.", "anchors": ["src/ncdiff/netconf.py: NetconfCalculator.sub, get_config_replace, node_sub, add_attribute_at_depth, node_add"]}
{"id": "C40", "title": "The preferences decide the operations in the edit-config", "statement": "For diff types 'minimum' and 'minimum-replace': a node that only the target has carries no operation with preferred_create='merge', operation 'replace' with 'replace', and operation 'create' with 'create', except that a non-presence container carries none and everything in it is created instead, unless it exists by default. A node that only the source has carries 'remove' with preferred_delete='remove' and 'delete' with 'delete', except that for a non-presence container everything in it is deleted instead. A leaf that both have with different values carries 'replace' exactly with preferred_replace='replace', and with that preference a node is replaced as a whole exactly if both sides have a leaf-list in it whose values differ (as a sequence if ordered by the user, as a set otherwise). Nothing else in the edit-config carries an operation. For every diff type, and for any two trees, any schema and any random_depth: an operation that the options do not speak of occurs nowhere in the edit-config; with the default options the only operation is 'delete'.", "quantifier": "every pair of configs, every schema, every combination of preferences", "why_tests_cant": "The operations depend on every node of both configs and on the schema (presence, defaults, choices) at every level.", "anchors": ["src/ncdiff/netconf.py: NetconfCalculator.node_sub, set_create_operation, set_delete_operation, _same_leaf_list", "src/ncdiff/manager.py: ModelDevice.default_in_use"]}
{"id": "C41", "title": "A config is accepted exactly if the models allow it, and only outdated nodes are dropped", "statement": "Config(device, element) takes the roots from <config> or <data>, also inside <rpc-reply>, <edit-config> or <rpc><edit-config>. Its validation succeeds exactly if every node has a schema node, every list entry with content has all its keys, and no node with children carries an edit-config attribute. From an accepted config exactly these nodes are removed: obsolete nodes, deprecated nodes if remove_deprecated is set, and non-presence containers and list entries in which everything is removed; all else keeps its place and content. Building a config from the result again changes nothing, provided no list key is outdated. (Nodes without children are not searched for edit-config attributes, siblings given twice are not found, and an element in another wrapper is taken for an empty config.)", "quantifier": "every schema, every XML tree, both settings of remove_deprecated", "why_tests_cant": "Acceptance and removal depend on every node at every depth and on the status of every schema node; that nothing else is removed and that a second pass is stable are statements about all trees.", "anchors": ["src/ncdiff/config.py: Config.__init__, validate_config, _validate_node", "src/ncdiff/netconf.py: NetconfParser.retrieve_config"]}
{"id": "C42", "title": "Truth value of a config, and deltas that are given as an edit-config", "statement": "bool(config) is False exactly if the config has no content. ConfigDelta(config_src, delta=edit_config) is the delta from config_src to config_src + edit_config, and config_src + delta equals that config.", "quantifier": "every valid config, every edit-config that can be applied, every preference", "why_tests_cant": "The truth value is computed by comparing with an empty config, and the given edit-config is replaced by a computed one; that this does not change its effect has to hold for all trees.", "anchors": ["src/ncdiff/config.py: Config.__bool__, ConfigDelta.__init__"]}
{"id": "C43", "title": "Keys come first in the list entries of an edit-config", "statement": "If in the target every list entry begins with all its keys in the order of the key statement (as RFC 7950 section 7.8.5 requires), then so does every list entry in the edit-config of the delta, whether the entry is created, changed, replaced, moved or deleted, for every preference and diff type. (The library does not put keys in front itself: a target with a key in another place leads to such an edit-config.)", "quantifier": "every schema, every pair of valid configs, every preference and diff type", "why_tests_cant": "The delta inserts delete markers among the children that stay and removes children that did not change; that no marker ends up before a key has to hold for every interleaving of old and new siblings at every depth.", "anchors": ["src/ncdiff/netconf.py: BaseCalculator.node_sub, get_config_replace, set_delete_operation", "src/ncdiff/composer.py: Composer.keys"]}
{"id": "C44", "title": "The XPath of a node selects that node and no other", "statement": "For every node of a valid config, get_xpath(node) in each of the four path notations, read from the config root, selects exactly this node, so different nodes have different paths; with instance=False it selects the node and its siblings with the same tag; config.xpath('/nc:config' + get_xpath(node, type=Tag.LXML_XPATH)) is the list of that node alone. For the config root itself the call fails. Required: names are YANG identifiers of modules with unique namespaces, list keys are leaves of plain types, and keys and leaf-list values have a text without double quotes. (Values are not escaped: a key with a double quote gives a path that can select other entries; an empty leaf-list value gives the path of the value 'None'; the default notation is not usable with config.xpath.)", "quantifier": "every schema, every valid config, every node, every notation", "why_tests_cant": "That no other node is selected is a statement about all siblings at every depth and about all texts of keys and values; which characters break the quoting shows only over all strings.", "anchors": ["src/ncdiff/composer.py: Composer.get_xpath, Composer.keys", "src/ncdiff/manager.py: ModelDevice.get_xpath, convert_tag", "src/ncdiff/config.py: Config.xpath"]}
{"id": "C45", "title": "Configs of two devices: what compatibility means and what it guarantees", "statement": "Two configs of different devices pass the compatibility check (made by config + config and by ConfigDelta) if and only if every model that one of them uses is loadable on both devices, has the same prefix and URL there, and is loaded with the same nodes and attributes at the same schema paths; the order of siblings is ignored. Otherwise an exception is raised: ModelMissing for a model that is not loadable or not loaded, ModelIncompatible for a different prefix, URL or tree. For configs of one device only the presence of the models matters. If the check passes, each config is valid on the other device too, c1 == c2 and c2 == c1 agree, c1 <= c2 is the same on both devices, c1 + c2 is the union of both (C10) read with the schema of the first device, and c1 + (c2 - c1) equals c2 on both devices. Required: key names are unambiguous among the children of a list, and values are read alike (plain types, or the same table of namespaces). (Comparisons do not make the check: equality of configs of incompatible devices may depend on the side; an ambiguous key name or an identity of a module that only one device knows also makes outcomes differ; a loadable model without a prefix raises IndexError.)", "quantifier": "every pair of devices with any schema trees, every pair of configs", "why_tests_cant": "That sibling order in the schema has no influence, and that equal trees give equal look-ups, keys and comparisons at every depth, are statements about all pairs of schemas and all configs.", "anchors": ["src/ncdiff/config.py: ConfigCompatibility, Config.__add__, Config.__eq__, Config.__le__, ConfigDelta.__init__", "src/ncdiff/model.py: ModelDiff", "src/ncdiff/manager.py: ModelDevice.roots, namespaces"]}
{"id": "C46", "title": "A compiled model has one schema node for each YANG statement, with the right attributes and access", "statement": "Compiling a module (after parsing and validation by pyang) succeeds exactly if it is not a submodule, the namespace of each statement's module is known, and each leaf of type identityref has a base. The nodes of the resulting tree are in correspondence with the data definitions, operations and notifications of the module: each node is found at the path of names of a chain of statements, and each chain has such a node. A node tells whether its statement is a leaf, a leaf-list, a list etc., its children in order, key, presence, ordered-by user, status, mandatory, whether it is a key, its default, and whether its values are identities. Access is write for the input of operations, read-only for their output and for notifications, and otherwise as the config statement says. Several default values are read back if and only if none contains a comma. The keys of a list are the names in its key statement, in order, if these are separated by spaces. The features of a node are those of its statement and of the augment it comes from. The path of a leafref, written with as few prefixes as possible, still denotes the same path if a name without prefix is read with the prefix before it. If sibling statements have different names, the tree is a schema tree as C33 and C45 require. (Key names separated by a line break are not found, so adding an entry overwrites another one; two leafrefs to nodes of different modules may get the same text. A leaf-list with a single default 'a,b' loses the values a and b when a config is made; a type defined as identityref is not read as identityref, so the same identity with two prefixes differs.) Extension statements and Tail-f annotations are not covered.", "quantifier": "every tree of statements, every table of namespaces", "why_tests_cant": "A test compiles a few modules; the correspondence has to hold for statements nested in any way, of any module, in any mode.", "anchors": ["src/ncdiff/model.py: ModelCompiler.compile, depict_a_schema_node, set_access, set_leaf_datatype_value", "src/ncdiff/model.py: Model.convert_tree", "src/ncdiff/config.py: Config"]}
{"id": "C47", "title": "get and get_config with argument models ask for exactly the roots of these models", "statement": "get_config(models=...) sends a filter with exactly the roots of these models that have access read-write, and get(models=...) with exactly those that have access read-write or read-only; each root appears once. The request fails with ModelMissing if and only if a model is not loaded, and with ValueError if and only if all are loaded but there is no such root. Required: no two loaded models have a root in common. (Otherwise the model loaded last owns the root, and a request for the other one omits it or fails. The filter of get also contains the notifications of a model, as their access is read-only.)", "quantifier": "every device with any loaded models, every list of models", "why_tests_cant": "It depends on all loaded models at once, through the table of roots in which later models replace earlier ones.", "anchors": ["src/ncdiff/manager.py: ModelDevice.execute, ModelDevice.roots", "src/ncdiff/model.py: ModelCompiler.set_access"]}
{"id": "C48", "title": "The printed running-config diff can be read back", "statement": "str() of a RunningConfigDiff of any two texts is a sequence of lines. Each line is a mark (blank, + or -), a blank, two blanks for every level, and a command, and it belongs to the section of the nearest line above that is one level up. Read in this way, the lines are exactly those of the diff, in its order. A line with - is a line of the first config, a line with + one of the second, and a line without mark is in both; everything below a marked line has its mark. Every line that only the first config has is printed with -, every line that only the second has is printed with +. The text is empty if and only if the diff is falsy. Required for the statement about the configs: no section repeats a line, and no sibling commands (otherwise it holds for the aligned lists of lines). (When an orderless line is repeated, a line that only the first text has can be missing in the printed diff.)", "quantifier": "every two texts, every table of special commands", "why_tests_cant": "Marks and indentation are added level by level to text that was already printed; tests check a few nestings.", "anchors": ["src/ncdiff/runningconfig.py: RunningConfigDiff.__str__, list2config, indent, config2list", "src/ncdiff/runningconfig.py: ListDiff.compare"]}
{"id": "C49", "title": "edit_config sends the given config unchanged to the right datastore", "statement": "edit_config(config, ...) in the format xml sends a message if and only if the config is given once, as a Config by position or as an element, and is rooted in config; the target is given at most once; and the device has the capabilities that the target (url) and the options (rollback-on-error, test-option) need. The message is an rpc with one edit-config; its target is the datastore that was asked for, otherwise running if the device has writable-running and no candidate, and candidate if not; then follow the options that were given; its last child is a copy of the config: the same elements in the same order with the same tags, attributes (operations, positions) and texts, and every prefix declared in the config means the same in the copy, so that prefixed values keep their meaning. (A ConfigDelta instance instead of its nc is refused, contrary to an example in the documentation; a Config by keyword too. A target given by position is a TypeError on devices without candidate. A datastore given as second positional argument is taken as a format: an edit-config without config is sent. A prefix, or the default namespace, that the config does not declare is taken from the message. The options are not in the order of the schema of RFC 6241.)", "quantifier": "every config, every combination of arguments, every set of capabilities", "why_tests_cant": "The config is rebuilt element by element at every depth, twice, and the outcome depends on the combination of arguments and capabilities; tests have no device.", "anchors": ["src/ncdiff/manager.py: ModelDevice.execute", "src/ncdiff/__init__.py: _append, request, _wrap"]}
{"id": "C50", "title": "get_statement returns the YANG statement that a node comes from", "statement": "For a node of a compiled model, get_statement(node) returns the statement that the node was compiled from, and this is the only statement in the latest revision of the model with the path of the node: same name and namespace at every level. For a config node without list entries above it, get_statement returns the statement with the path of its tags, and None if there is none. get_model_name fails with ModelMissing exactly for a node below a root that no loaded model has, and otherwise names the model that was loaded last among those that have this root. (Below a list entry with a key, get_statement of a config node returns None, because the keys of the entry stay in the XPath; and a config node in a choice gives None, because its path has no choice and no case.)", "quantifier": "every module of statements, every node of it, every config and every node of it", "why_tests_cant": "The statement is found by writing a path of prefixed names and splitting it again; that no other statement is found has to hold for every nesting of statements and of config nodes. Tests look at single nodes.", "anchors": ["src/ncdiff/manager.py: ModelDevice.get_statement, get_model_name", "src/ncdiff/model.py: CompilerContext.get_statement, get_child", "src/ncdiff/composer.py: Composer.get_xpath, model_name"]}
{"id": "C51", "title": "The text of a model, and of a difference of models, shows every node and what it is", "statement": "str(model) returns exactly if every node has a type and is in a namespace that the model declares. The text draws the tree: first data nodes, then operations, then notifications, each node on one line below its parent and in the order of the model. Reading a line from left to right gives the access, name, mark (optional or list), keys, type and feature of the node; types of siblings begin in the same column. So two models with the same text have the same nodes with the same properties. A name in the text belongs to one tag only, and prefix_to_url gives that tag. If two models can be printed, so can their ModelDiff and its added, deleted and modified; there each line shows the mark of the node instead of its type, and an added node is named with the prefixes of the second model. (The prefix of the module must not have a dot: it is used as a regular expression, and two different nodes can then get the same line.)", "quantifier": "every tree with declared namespaces, every pair of such trees", "why_tests_cant": "The text is built from attributes, widths and rails; that nothing in it is ambiguous has to hold for every shape of tree and every name. Tests compare single texts.", "anchors": ["src/ncdiff/model.py: Model.__init__, __str__, emit_tree, emit_children, get_width, get_depth_str, get_flags_str, get_name_str, get_datatype_str, prefix_to_url, url_to_prefix, remove_model_prefix", "src/ncdiff/model.py: ModelDiff.emit_children, get_name_str, get_diff_str, added, deleted, modified"]}
{"id": "C52", "title": "models_loadable, models_loaded and namespaces tell what the device offers, and load_model obeys them", "statement": "If the device advertises NETCONF monitoring and answers well, models_loadable has the identifiers of the schemas in the reply, sorted. If neither monitoring nor the YANG library can be used, it has the module parameters of the capabilities, sorted; a parameter ends at the first character that is no letter, digit or hyphen. (If the YANG library is used, the code looks for the namespace of the capability, not for that of the module ietf-yang-library: a standard reply gives an empty list, and then no model can be loaded by name.) Once read, models_loadable stays the same and sends no more requests, whatever happens to the object. load_model(name) succeeds exactly if the name is in models_loadable, scan_models has been called and the module compiles; otherwise ValueError or the error of the compiler is raised and no model is loaded; models_loaded has the models loaded so far, sorted. namespaces raises ValueError before the first scan_models; the first time it can be read it has a row (name, prefix, namespace) for every module with a prefix, in the order of the last scan. It keeps these rows even if scan_models is called again.", "quantifier": "every list of capabilities, every reply, every history of reads, scans and loads", "why_tests_cant": "The value depends on which of three sources work and on what happened to the object before; tests try a few capabilities with one order of calls.", "anchors": ["src/ncdiff/manager.py: ModelDevice.namespaces, models_loadable, models_loaded, scan_models, load_model"]}
{"id": "C53", "title": "Compiled models that are kept in the folder belong to the YANG files", "statement": "Compiled models and the table of dependencies are kept as XML files in the folder of the YANG files. For every history of scan_models in any mode, load_model, restarts and processes that die while a file is written: a device object that has scanned since the last download gets a model, a table or an error that compiling the YANG files of the last download gives, provided no YANG file was edited, only such device objects compiled, and a download that died in mode 'check' was followed by a scan in mode 'check' with the same capabilities. As long as nothing is downloaded, the same module gives the same model again, for all device objects and after restarts. (So after a YANG file has been edited, scan_models(download='ignore') still leads to the old model. If two devices use the same folder, which is the default, a device that scanned first gets models made from the files of the other one and its own dependencies, and the other one then gets these too. A module with the name 'dependencies' is not compiled; the table is returned.)", "quantifier": "every history of events of any number of device objects on one folder, every crash point, every behaviour of the YANG compiler", "why_tests_cant": "What is in the folder depends on all earlier calls, also of other processes, and on where a process died; tests start with a fresh folder and load a model once.", "anchors": ["src/ncdiff/model.py: write_xml, read_xml, ModelCompiler._read_from_cache, _write_to_cache, build_dependencies, compile, ModelDownloader.need_download, download_all", "src/ncdiff/manager.py: ModelDevice.scan_models, load_model"]}
{"id": "C54", "title": "Operators do not change their operands, and results share nothing", "statement": "In any program that builds Config and ConfigDelta objects and uses +, -, comparisons, filter, nc, unary minus and ConfigDelta(...), in any order and also when calls raise, no Config changes its content and no ConfigDelta changes what it computes, as long as the program does not itself change the tree of a Config and does not give a Config object to the class Config again. Each result has a tree of its own: the element that nc gives, and elements that Config objects were made from, can be changed freely. What a call gives depends only on the present content of its operands. (Config(device, config) does not copy: both objects have one tree, and the checks of the new object change it. Config(device, config, remove_deprecated=True) removes nodes of config, and a delta that was made from config earlier gives another edit-config afterwards; nothing changes if config already passes these checks.)", "quantifier": "every sequence of calls on any number of objects of a device, whatever the calls leave in their copies", "why_tests_cant": "Which trees are shared depends on how all objects came about; a test looks at the result of a call, not at the other objects that it might have changed.", "anchors": ["src/ncdiff/config.py: Config.__init__, __add__, __sub__, __le__, __eq__, filter, trim_defaults, validate_config, ConfigDelta.__init__, nc, __neg__, __add__", "src/ncdiff/netconf.py: NetconfParser.ele, retrieve_config, NetconfCalculator.add, sub"]}
{"id": "C55", "title": "Operands of other kinds", "statement": "config + x is defined for configs, deltas and elements, config - x for configs and deltas, and comparisons for two configs. Everything else raises TypeError, also == and != with None or with a delta, except that delta + x is None for every x that is not a Config, in particular for two deltas. No operator changes anything that existed. delta + config has the same content as config + delta whenever the latter does not raise.", "quantifier": "every pair of operands, every state of memory", "why_tests_cant": "It is a statement about all combinations of operands; the silent None is only noticed later, where it is used.", "anchors": ["src/ncdiff/config.py: Config.__add__, __sub__, __le__, __lt__, __ge__, __gt__, __eq__, __ne__, ConfigDelta.__add__, __sub__, __lt__, __eq__, _cmperror"]}
{"id": "C56", "title": "Parsing a running-config loses no line", "statement": "For every text, however it is indented, the commands that RunningConfigDiff finds in it, read from top to bottom, are lines of the text without the blanks around them, in the order of the text and none twice. If the first command is not indented, no heading is indented, and there are no sections whose lines are not indented, they are all lines except blank ones, headings and remarks (lines that begin with ! or %). A section whose lines are not indented ends with !, and its lines are in the result as well. (Indented lines before the first line that is not indented are lost, and so are indented lines between the ! that ends such a section and the next line that is not indented: two texts that differ there have no diff.)", "quantifier": "every text and every table of commands", "why_tests_cant": "Irregular indentation is handled by moving lines between levels of a recursion; whether a line is lost depends on all lines before it, and a lost line is not seen in the diff.", "anchors": ["src/ncdiff/runningconfig.py: RunningConfigDiff.config2list"]}
{"id": "C57", "title": "The values listed for a leaf are those of its type", "statement": "For every type of a leaf or leaf-list, however typedefs and unions are nested in it, attribute values of its node in a loaded model, split at |, has exactly the values that can be listed: true and false for a boolean, the names of an enumeration, the identities for an identityref, for a union those of its types, and for a typedef without restrictions those of the type that it stands for; there is no such attribute if there is none. This holds if no value is empty or has a | in it. The base of an identityref is looked up from the module in which the type is written, not from that of the leaf. A choice lists the cases that have a statement of their own. (A typedef that is used with a restriction lists nothing, not even for an enumeration with fewer names.)", "quantifier": "every type statement, every nesting of typedefs and unions, every history of the compiler, every module", "why_tests_cant": "Types nest without bound, and a lost or merged value looks like a shorter list.", "anchors": ["src/ncdiff/model.py: ModelCompiler.set_leaf_datatype_value", "src/ncdiff/model.py: ModelCompiler.type_values", "src/ncdiff/model.py: ModelCompiler.type_union_values", "src/ncdiff/model.py: ModelCompiler.type_identityref_values"]}
{"id": "C58", "title": "A delta can be applied to every config that equals its source", "statement": "If c1' == c1 then c1' + (c2 - c1) == c2, for every pair of configs for which C01 holds, and for every choice of preferences: c1' may use other prefixes and have its system-ordered nodes in any order. So deltas can be chained: if each delta of a list leads from one config to the next, applying them one after another to a config that equals the first gives a config that equals the last; and a delta can be undone: (c1' + delta) - delta == c1'. Identityrefs and instance-identifiers must be writable with the prefixes of the leaves that they overwrite. (A config that has more than the source of the delta keeps it, so the result does not equal the target.)", "quantifier": "every pair of configs, every config that equals the source, every list of deltas, every preference", "why_tests_cant": "Configs that are equal but written differently, and lists of deltas, are unbounded; results of additions are written with a mix of prefixes that tests do not try.", "anchors": ["src/ncdiff/config.py: Config.__add__", "src/ncdiff/config.py: Config.__sub__", "src/ncdiff/netconf.py: NetconfCalculator.node_add", "src/ncdiff/netconf.py: NetconfCalculator.node_sub"]}
{"id": "C59", "title": "Arguments and attributes of a delta", "statement": "ConfigDelta(...) succeeds exactly if config_src is a Config, the three preferences are among the documented values, random_depth is None or a natural number, and there is a target: config_src + delta if a delta is given, else config_dst if it is compatible, else config_src. Preferences that are not documented raise ValueError, also when they are assigned later and nc is read. After every history of assignments and readings, nc gives the same edit-config as a new object with the current attributes, whatever the state of the random generator: a seed reproduces the order. After an assignment to random_seed the documentation holds until random_depth is assigned: None without random_depth, an integer with it, between 1000 and 9999 if it is generated. (For a new object that is false: no seed is generated, and so nothing is put into another order. Other diff types count as 'minimum' without notice. Reading nc may reseed the random generator of the whole program, so a seed that is generated afterwards is the same in every run.)", "quantifier": "every argument, every history of assignments, every state of the random generator", "why_tests_cant": "Histories of assignments and states of the shared generator are unbounded; tests seed it once.", "anchors": ["src/ncdiff/config.py: ConfigDelta.__init__", "src/ncdiff/config.py: ConfigDelta.nc", "src/ncdiff/config.py: ConfigDelta.random_seed", "src/ncdiff/config.py: ConfigDelta.reorder", "src/ncdiff/netconf.py: NetconfCalculator.__init__"]}
{"id": "C60", "title": "Which reorderings a delta brings about", "statement": "Whatever the order of the entries in c1 and c2, c1 + (c2 - c1) raises no exception and the result is c2 but for the order of children (other conditions as in C01, and no leaf-list ordered by the user has a default). With preferred_replace='merge' and a diff type other than 'replace' the result == c2 exactly if the order condition of C01 holds at every level that c1 and c2 share: so that condition cannot be weakened. (With a default the result may lose a leaf-list ordered by the user: an order that is not reached may be the default by chance, and defaults are trimmed.)", "quantifier": "every schema, every pair of configs of C01 without its order condition, every preference (the equivalence: preferred_replace 'merge')", "why_tests_cant": "All permutations of lists of any length, with any entries added and deleted, at any depth.", "anchors": ["src/ncdiff/netconf.py: NetconfCalculator.node_add", "src/ncdiff/netconf.py: NetconfCalculator.node_sub", "src/ncdiff/config.py: Config._trim_defaults"]}
{"id": "C61", "title": "Changing the case of a choice", "statement": "If the target of a delta has a node in another case of a choice than the source, (c2 - c1).nc does not mention the nodes of the old case. A device that removes all nodes of the other cases when it gets a node of a case (RFC 7950, 7.9) and then applies (c2 - c1).nc has c2 afterwards, and no delete in it meets a node that is not there any more; this is so at every depth. What the device removes for the delta is what it would remove for the whole of c2. It is required that each config has one case of a choice at most, and that no further choice lies between a node that disappears and the choice whose case changes: for a choice inside a case, and with diff='replace', the delta deletes nodes that the device has already removed.", "quantifier": "every schema, every pair of configs that satisfies the conditions, every preference, diff=None and diff='minimum-replace' with every depth", "why_tests_cant": "Which nodes belong to the other case depends on the schema and on both configs, at every depth; the removal happens on the device.", "anchors": ["src/ncdiff/netconf.py: NetconfCalculator.node_sub", "src/ncdiff/netconf.py: NetconfCalculator.get_config_replace", "src/ncdiff/config.py: ConfigDelta.nc"]}
{"id": "C62", "title": "What is decided by a regular expression or a string method is what Python finds", "statement": "For every text: a line of a running-config is treated as orderless at a depth exactly if one of the regular expressions of the table for that depth is found in it; the part of a command by which an earlier command is recognized as overwritten is the text that the expression matches (for commands that do not end in a line feed); sibling commands, commands without indentation, comment lines and the indentation are those that the expressions find; a tag or identity without line feed is split where '^(.+):(.+)$' or '^\\{(.+)\\}(.+)$' splits it, at the last separator that has something before and after it; the model named by a capability is the first run of letters, digits and hyphens that follows 'module='; the prefix of the model is removed from an identifier exactly if '^prefix:(.+)$' matches. The prefix is not quoted in that expression, so with a dot in a prefix another prefix is removed as well. Texts are split into lines, stripped and rewritten by the table of replaced commands as str.splitlines, str.strip, str.lstrip, str.rstrip and str.replace do.", "quantifier": "every line, command, tag, capability and identifier, every depth, every prefix that is a YANG identifier", "why_tests_cant": "A greedy expression that has to go back behaves differently from a simple scan on few inputs only; samples do not show that none exists.", "anchors": ["src/ncdiff/runningconfig.py: ORDERLESS_COMMANDS, OVERWRITABLE_COMMANDS, SIBLING_CAMMANDS, MISSING_INDENT_COMMANDS, REPLACING_COMMANDS, RunningConfigDiff.config2list", "src/ncdiff/composer.py: Tag", "src/ncdiff/manager.py: ModelDevice.models_loadable, ModelDevice.convert_tag", "src/ncdiff/model.py: Model.remove_model_prefix, Model.url_to_prefix", "src/ncdiff/ref.py: IdentityRef.parse_id"]}
{"id": "C63", "title": "Parsing of YANG modules and the places of statements", "statement": "Loading ncdiff replaces the method by which pyang parses statements. For every sequence of tokens the method ends; it returns a statement exactly if the tokens begin with a statement (keyword, optional argument, semicolon or block of statements, to any depth), consumes the tokens of that statement and no more, and otherwise raises Abort or Eof; there is one reading only. Comments make no difference unless they are kept. The attributes pos.first_line and pos.last_line of every statement in the tree, at any depth, enclose the tokens of that statement and no other token of the text. YANG 1.1 quoting is switched on exactly if a yang-version statement says 1.1. If comments are kept, they are statements of the tree and one comment before the module is dropped; the last line of a comment is then that of the statement before it, and a module after two comments is rejected.", "quantifier": "every sequence of tokens, every depth, with and without comments in the tree", "why_tests_cant": "The grammar is recursive and the places depend on all tokens before; files of models show some shapes only.", "anchors": ["src/ncdiff/__init__.py: _parse_statement", "src/ncdiff/__init__.py: Position"]}
{"id": "C64", "title": "Exactly when a delta can be applied", "statement": "Config + delta is computed exactly when nothing is wrong with the delta for that config, and otherwise the exception is one for something that is wrong. What can be wrong, at any depth below merges: something missing is deleted; something existing is created; an operation is unknown (ConfigDeltaError). An entry is placed before or after another and does not say which, or names one that is neither in the config (and, for an entry that exists, not deleted before its turn) nor created by the delta before it (ConfigDeltaError); or describes it in a form that cannot be read (SyntaxError). An existing leaf gets an identity or an instance-identifier with a namespace that has no prefix there (ConfigError). An empty non-presence container of the config is replaced or deleted (ValueError). Nothing else makes the sum fail; in particular a delta of merges, replacements and removals that places nothing before or after another entry and writes no identities and no instance-identifiers can be applied to every config without empty non-presence containers.", "quantifier": "every schema, every valid config, every valid delta with insert values first, last, before and after, every depth, any number of faults at the same time", "why_tests_cant": "Whether a place can be found depends on the order in which all other entries are created, moved and deleted; a test covers one order and one fault.", "anchors": ["src/ncdiff/netconf.py: NetconfCalculator.node_add", "src/ncdiff/netconf.py: NetconfCalculator._node_add_without_peer_list", "src/ncdiff/netconf.py: NetconfCalculator._node_add_with_peer_list", "src/ncdiff/config.py: Config.__add__"]}
{"id": "C65", "title": "From YANG modules to round trips", "statement": "If a device has loaded YANG modules, then every document with an instance of these modules (config, data, rpc-reply, edit-config or rpc) is accepted by Config, with and without validation; the config is the document without some nodes, none of which is a key of a list entry. For two such documents whose configs do not switch a choice to another case, do not reorder entries in a way that deltas cannot express, and whose changed references can be written, config1 + (config2 - config1) equals config2. For modules without choices, without order by the user and without identityrefs and instance-identifiers the last holds for any two documents. All conditions are on statements and XML, not on schema trees. It is false for modules with a choice at the top: their documents are refused with ModelMissing.", "quantifier": "all modules with any statements at any depth (distinct names on a level, keys are leaves of plain types without defaults, defaults and leaf-lists of plain types, no choice at the top, no leaf-list at the top if replacing is preferred), all instance documents, all preferences of the delta", "why_tests_cant": "Tests use some models and some configs; the claim is about every module that the compiler can meet and every pair of documents of it.", "anchors": ["src/ncdiff/model.py: ModelCompiler.compile", "src/ncdiff/model.py: ModelCompiler.depict_a_schema_node", "src/ncdiff/manager.py: ModelDevice.get_schema_node", "src/ncdiff/config.py: Config.__init__", "src/ncdiff/config.py: Config.__sub__", "src/ncdiff/config.py: Config.__add__"]}
{"id": "C66", "title": "Which leaves are the keys of a list", "statement": "For every YANG module, the leaves by which the library tells the entries of a list apart are those whose names stand in the key statement with a space or an end of the text on both sides. So if names are separated by one or more spaces, all keys are known, in the order of the key statement. RFC 7950 also allows tabs and line breaks between names: names next to them are not known as keys, and then the edit for a changed key of a list entry takes the device to a wrong config, and lists with more than one entry are refused with ConfigError.", "quantifier": "all modules, all lists in them at any depth, all texts of key statements", "why_tests_cant": "Tests use models with some spellings of key statements; a lost key shows only with the spelling and the list entries that differ in it.", "anchors": ["src/ncdiff/composer.py: Composer.keys", "src/ncdiff/model.py: ModelCompiler.depict_a_schema_node", "src/ncdiff/calculator.py: BaseCalculator._get_list_keys"]}
{"id": "C67", "title": "Configs are equal exactly if their documents mean the same", "statement": "For YANG modules without choices, the config built from a document means what the document means by RFC 7950: every leaf has the same value, counting its default if it is absent, where the value of an identityref is the identity that it stands for, whatever the prefix it is written with; every leaf-list has the same values, counting its defaults, and in the same order if the order is the user's; the same presence containers exist; every list has the same entries with the same content, in the same order if it is the user's; and containers without presence exist in any case. And two configs compare equal exactly if their documents mean the same in this sense; and, for modules with plain types only, config1 + delta means what the second document means. Conditions: no value is an instance-identifier, identityrefs are leaves that are neither keys nor have defaults, defaults are not empty, the defaults of leaf-lists have no commas, every list has a key, nothing is obsolete, and nothing is deprecated where deprecated nodes are removed. Without them it is false: a leaf in a case with its default value is taken for absent though absence means no case; two values a, b of a leaf-list are taken for the default a,b; and an empty leaf is not equal to an absent one whose default is the empty string.", "quantifier": "all modules of the kind, all documents of them, any nesting, defaults and orders", "why_tests_cant": "Tests compare some documents with some defaults; that no two documents of different meaning are ever taken for equal, and none of the same meaning for different, is about all pairs.", "anchors": ["src/ncdiff/config.py: Config.__init__, Config._trim_defaults, Config.validate_config, Config.__eq__", "src/ncdiff/calculator.py: BaseCalculator._node_le", "src/ncdiff/model.py: ModelCompiler.depict_a_schema_node"]}
{"id": "C68", "title": "A NETCONF server that gets the delta ends with the target", "statement": "For YANG modules without choices, and any two documents of them: a server that holds the first config and processes the edit-config of the delta node by node, in the order of the document and by the rules of RFC 6241 and RFC 7950 (merge, create, replace, delete, remove, insert with value and key), raises no error and then holds exactly the second config: the same values, presence containers and entries, in the same order where the order is the user's, and otherwise nothing but empty containers without presence. This is so for every order of the entries (also where config1 + delta in the library does not reach it), with every preferred operation and every type of delta; and for sequences of deltas, each computed between the next two configs. A container without presence that the server keeps although the config does not have it does no harm. Leaves may be identityrefs if the leaves of the first document have prefixes for the namespaces of the identities of the second; otherwise config1 + delta raises in the library. It is false for a server that has set a default value explicitly: the config is the same, but create is refused with data-exists.", "quantifier": "all modules of the kind, all pairs and sequences of documents, all options of deltas, all states of the server that hold the source", "why_tests_cant": "Tests apply some deltas with the code of the library; whether a server that follows the RFCs accepts every delta and ends with the target is about all pairs of configs and all orders of entries.", "anchors": ["src/ncdiff/netconf.py: NetconfCalculator.sub, NetconfCalculator.node_sub", "src/ncdiff/config.py: ConfigDelta.nc"]}
{"id": "C69", "title": "Of commands that overwrite one another the last is printed, and the negations they make needless are left out", "statement": "In each section of the printed commands, with the tables of the code and for all added and removed commands (apart from a bare 'ip address' or 'ipv6 address'): of the added commands with the same overwritable head (description, password, ip address, ipv6 address, username X privilege N password) exactly the last one remains, every other added command remains, and the order is kept; each added command with such a head takes away the first remaining negation that begins with 'no' and the same head, and every other negation remains, in its order. For other tables the same holds if no two expressions find the same and nothing found is the proper beginning of something else found. It is false that the commands reach the second config if a head may occur several times on the device: of a primary and a secondary ip address only the last one is printed. It is also false for the bare command: if 'no ip address' is removed from a later place than the one at which an address is added, only 'ip address' is printed and the new address is lost.", "quantifier": "all lists of added and removed commands, all tables that are apart", "why_tests_cant": "The handling depends on positions, on the order of the expressions and on what was seen before; a sample of two or three commands does not show what happens to the others.", "anchors": ["src/ncdiff/runningconfig.py: RunningConfigDiff.list2cli, OVERWRITABLE_COMMANDS"]}
{"id": "C70", "title": "A NETCONF server with choices that gets the delta ends with the target", "statement": "For YANG modules with choices, and any two documents of them that have one case of each choice at most: a server that holds the first config and processes the edit-config of the delta node by node, as in C68, and that removes all nodes of the other cases when it processes a node of a case that is not a deletion (RFC 7950, 7.9), raises no error and then holds exactly the second config; the same for sequences of deltas. For modules without choices the server is that of C68. It is required that no choice lies at the top of a module or directly in a case, and that the delta is not of type 'replace': in the last two of these cases the delta may delete a node that the server has already removed, and is refused with data-missing. A server that does not remove the nodes of the other cases keeps them: the delta does not delete them. Identityrefs are covered as in C68.", "quantifier": "all modules of the kind, all pairs and sequences of documents, all preferences, diff=None and diff='minimum-replace' with every depth, all states of the server that hold the source", "why_tests_cant": "A server removes nodes of other cases in the middle of the edit-config, at the first node of the new case; whether a later operation of the same delta meets a node that is gone depends on the schema, on both configs and on the order of the nodes.", "anchors": ["src/ncdiff/netconf.py: NetconfCalculator.node_sub", "src/ncdiff/netconf.py: NetconfCalculator.sub", "src/ncdiff/config.py: ConfigDelta.nc"]}
{"id": "C71", "title": "A server may process the siblings of a delta in any order", "statement": "For YANG modules without lists or leaf-lists ordered by the user: if the siblings of the edit-config of a delta change places in any way and at any depth, a server that holds the source still raises no error, and still ends with exactly the target. This covers deltas with random_depth, whatever the seed, and servers that do not keep the order of the document. It holds for modules with choices as in C70 (every diff type but 'replace') and for modules without choices as in C68 (every diff type). For lists ordered by the user it is false: an entry may be inserted after one that is not there yet, and the server refuses the edit-config. Identityrefs are covered as in C68.", "quantifier": "all modules of the kind, all pairs of documents, all options, all reorderings of siblings at all depths, all depths and orders of random_depth, all states of the server that hold the source", "why_tests_cant": "The number of orders grows with the factorial of the number of siblings at every level, and a test with one seed says nothing about another one.", "anchors": ["src/ncdiff/config.py: ConfigDelta.nc", "src/ncdiff/config.py: ConfigDelta.reorder", "src/ncdiff/config.py: ConfigDelta.reorder_children", "src/ncdiff/netconf.py: NetconfCalculator.node_sub"]}
{"id": "C72", "title": "A server may have leaves that are set to their default values", "statement": "For YANG modules without choices as in C68: a NETCONF server has some data that mean the same as the source document, where any leaves may or may not be set explicitly to their default values (RFC 6243: servers differ in this, and the library removes such leaves from every config). The edit-config of the delta from the source to any other document raises no error at this server, and afterwards its data mean the same as the target document. This holds for the config that a server itself reports, and for any sequence of deltas, each with its own options, for every diff type. The condition is that preferred_create is not 'create' (except with diff_type='replace'): with 'create' a server refuses to create a leaf that is explicitly set to its default. A server that has the default values of a leaf-list, and no others, is excluded: the library removes these values from the config, so the delta does not delete them, and the server ends with the default values and the new ones. Identityrefs are covered as in C68.", "quantifier": "all modules of the kind, all pairs of documents, all options but preferred_create='create', all states of the server that mean the same as the source, all sequences of deltas", "why_tests_cant": "Which leaves a server sets explicitly to their defaults depends on the server and its history; there are exponentially many such states for one config, and the config that the library sees is the same for all of them.", "anchors": ["src/ncdiff/config.py: Config.trim, _trim_defaults", "src/ncdiff/config.py: ConfigDelta.nc", "src/ncdiff/netconf.py: NetconfCalculator.node_sub", "src/ncdiff/manager.py: ModelDevice.default_in_use"]}
{"id": "C73", "title": "After the edit-config, whatever a server reports gives a config equal to the one wanted", "statement": "For YANG modules with choices as in C70: a NETCONF server reports its data in any document that means the same, with or without default values (RFC 6243). The config of the report is taken, the delta to the config of any other document is computed, and its edit-config is sent. Nothing raises, the server accepts the edit-config, and every document that the server may report afterwards gives a config that compares equal to the config that was wanted. The server may have leaves explicitly set to their defaults, which its reports show or hide. This can be repeated: it holds after sessions of any length. The conditions are those of C70 and C72 (preferred_create is not 'create', no leaf-list that is there with just its default values); for modules without choices diff_type='replace' is covered, too. Equality is that of the library, which treats a leaf with its default value as absent, also in a case of a choice (C67). Identityrefs are covered as in C68.", "quantifier": "all modules of the kind, all states of the server, all its reports before and after, all documents wanted, all options of the kind, all lengths of sessions", "why_tests_cant": "A test has one server with one way of reporting defaults; the states, the reports and the sessions are unbounded.", "anchors": ["src/ncdiff/config.py: Config.__init__", "src/ncdiff/config.py: Config.__eq__", "src/ncdiff/config.py: ConfigDelta.nc", "src/ncdiff/config.py: Config.trim, _trim_defaults", "src/ncdiff/netconf.py: NetconfCalculator.node_sub"]}
{"id": "C74", "title": "No operation invents nodes, and models and roots say what an edit-config touches", "statement": "Every node of an edit-config (delta.nc) is at a place (path of tags from the root) where the source or the target config has a node, for every schema, all options, every replace_xpath and every random order. Every node of a sum config + config, config + edit-config or config + delta is at a place of a summand (for a delta: of its source or target). A config has only nodes of the document it is built from, a filtered config only nodes of the config, and the config of a reply only nodes of the data of the reply. config.models and config.roots raise nothing exactly if every root belongs to a loaded model; models is then sorted, has no repetitions and holds exactly the models of the roots, and roots maps exactly the tags of the roots to their models. The same holds for delta.models and delta.roots with the roots of both configs. A delta that can be constructed always has them, and they cover every top node of its edit-config. The opposite delta has the same models, and the models of a sum are among those of the summands.", "quantifier": "all devices, all element trees, all options, all selections of nodes, all random orders", "why_tests_cant": "A test inspects the edit-configs of a few deltas; that nothing else ever appears concerns all pairs of configs and all options.", "anchors": ["src/ncdiff/config.py: Config.models, Config.roots", "src/ncdiff/config.py: ConfigDelta.models, ConfigDelta.roots", "src/ncdiff/config.py: ConfigDelta.nc, reorder", "src/ncdiff/netconf.py: NetconfCalculator.node_sub, get_config_replace", "src/ncdiff/netconf.py: NetconfCalculator.node_add", "src/ncdiff/config.py: Config.filter", "src/ncdiff/manager.py: extract_config"]}
{"id": "C75", "title": "Several processes may use one folder of models at the same time", "statement": "Any number of processes use the same folder, and each of them compiles models and reads and writes the files of compiled models byte by byte, in any interleaving; each of them may die at any point. If compiling the YANG files always gives the same result, and what is left of a file cannot be parsed or gives the same tree, then whatever compile returns in any process is the result for the YANG files, and every file that can be parsed gives it. As long as no process has died, a file that no process is writing is complete. No process waits for another: at any point a process can come to an end alone, and an idle process can compile any module, after which the file of the module can be parsed. If compiling can have two results, two processes that write at the same time may leave a mixture, which compile then returns in a third process.", "quantifier": "all numbers of processes, all interleavings of reads and writes, all crash points, all compilers and parsers", "why_tests_cant": "A test runs a few interleavings; a file that is cut to length 0 while another process writes it needs particular points in time.", "anchors": ["src/ncdiff/model.py: write_xml", "src/ncdiff/model.py: read_xml", "src/ncdiff/model.py: ModelCompiler.compile", "src/ncdiff/model.py: ModelCompiler.build_dependencies"]}
{"id": "C76", "title": "Sums of configs obey the laws of a union in which the later one wins", "statement": "For the configs that devices with given YANG modules report, and for sums of such configs: any two can be added; (a + b) + c == a + (b + c); b <= a + b; if a <= m and b <= m then a + b <= m; a + b == a if and only if b <= a; a + b == b + a if and only if the leaves that are in both a and b have the same values in both, and the same holds for a <= a + b. So the result of adding several configs does not depend on how they are grouped, and it depends on their order only through leaves that are given twice with different values.", "quantifier": "all YANG modules without order by the user, identityrefs, instance-identifiers and leaf-lists with defaults; all documents of these modules; all sums of any number of configs", "why_tests_cant": "The laws are about all triples of configs, with all ways in which lists, containers and leaves of the three overlap.", "anchors": ["src/ncdiff/config.py: Config.__add__", "src/ncdiff/config.py: Config.__le__", "src/ncdiff/config.py: Config.__eq__", "src/ncdiff/netconf.py: NetconfCalculator.node_add"]}
{"id": "C77", "title": "The path of a schema node identifies it in every notation", "statement": "For a node of a loaded model and each of the six notations of class Tag, get_xpath(schema_node, type=...) returns a text that has a name for every node on the way, with its module exactly if the notation always writes it or the module differs from that of the node above; in the notation YTOOL the name of the model comes first and its module counts as the one above the first node. The text can be read back: it stands for the path of the node, so two nodes of the loaded models have the same text only if they are the same node of the same model, and the text in a path notation, evaluated from the root of the model tree, selects this node alone. A config node has in the notation YTOOL the text of its schema node without the choices and cases on the way. With an unknown namespace the call fails with ValueError, and in the notation YTOOL below a root of no loaded model with ModelMissing. (The documentation in the source gives a different text for YTOOL: it repeats the prefix below a node of the same module, and the code does not.)", "quantifier": "all devices with unique namespaces, all model trees, all nodes of them, all six notations, all configs", "why_tests_cant": "Whether two nodes can share a path depends on all combinations of modules, prefixes and nesting; a test compares the texts of a few nodes.", "anchors": ["src/ncdiff/composer.py: Composer.get_xpath", "src/ncdiff/composer.py: Composer.model_ns", "src/ncdiff/composer.py: Composer.model_name", "src/ncdiff/manager.py: ModelDevice.get_xpath", "src/ncdiff/manager.py: ModelDevice.convert_tag"]}
{"id": "C78", "title": "The edit-config of a delta says nothing about what has not changed", "statement": "Of the nodes that both configs have, the edit-config of a delta has exactly those that differ, at every level that it goes through, and besides these only the keys of the list entries it is about and the entries of ordered-by-user lists and leaf-lists, which are written with their positions; an entry of an ordered-by-user list that has not changed is there with its keys only. In particular a whole tree that is the same in both configs is not in the edit-config, and the edit-config of the delta between equal configs is empty unless a root is an ordered-by-user list or leaf-list. This also holds if the target has other cases of choices than the source. With preferred_replace='replace' or diff type 'replace' a node that differs may be replaced as a whole, and then it is a copy of the target.", "quantifier": "all pairs of plain configs, all preferences, all diff types and depths (the part on choices: all diff types except 'replace')", "why_tests_cant": "A test shows that one unchanged node is left out of one delta; that no delta ever repeats anything unchanged is a statement about all trees.", "anchors": ["src/ncdiff/netconf.py: NetconfCalculator.node_sub", "src/ncdiff/netconf.py: NetconfCalculator.get_config_replace", "src/ncdiff/delta.py: ConfigDelta.nc"]}
{"id": "C79", "title": "A device keeps what the edit-config of a delta is not about", "statement": "A device usually knows more models than were loaded, and has data of them: under roots of their own, and inside the nodes of the loaded models, which they augment. If such a device holds the first of two configs besides this data and gets the edit-config of the delta to the second, it accepts it and then holds the second config; and every node that the edit-config is not about is exactly as it was, in the same order, at every level inside the nodes that are merged. With preferred_replace='merge' and diff type 'merge' or 'minimum-replace', where the two configs agree the device has exactly what it had, at every level and down to defaults that are set explicitly; and inside every container or list entry that both configs have, all data of models that were not loaded is kept. After any sequence of deltas the roots of models that were not loaded are as in the beginning. What is inside a node that the edit-config deletes or replaces is of course lost with it.", "quantifier": "all hosts and modules without choices as in C68 (acceptance and the first part also for modules with choices as in C70), all pairs of documents, all options, all devices whose models contain the loaded ones, everything such a device may hold besides the config, all sequences of deltas", "why_tests_cant": "What a device has besides the config is arbitrary, and so is where the other models put it.", "anchors": ["src/ncdiff/netconf.py: NetconfCalculator.node_sub", "src/ncdiff/delta.py: ConfigDelta.nc", "src/ncdiff/manager.py: ModelDevice.load_model"]}
{"id": "C80", "title": "Quotation marks inside literals of instance-identifiers", "statement": "If a quotation mark inside a literal of an instance-identifier is written twice where the literal stands in the same quotation marks (XPath 2.0), and a single mark of the other kind stands for itself, then converting an instance-identifier gives one with the same meaning, also for values with apostrophes and double quotes in any number and order; and two such instance-identifiers compare equal exactly if they mean the same. The only exception are values that end with the mark in which they are written: they raise ConfigError, or, if another literal follows, prefixes up to its beginning are not converted. A literal that is not closed, a value without quotation marks and, without values, a predicate that is not closed raise ConfigError, whatever comes before it.", "quantifier": "all instance-identifiers, all values of keys, all prefix maps, with and without a target node", "why_tests_cant": "The end of a literal is found by counting marks over an arbitrary text.", "anchors": ["src/ncdiff/ref.py: InstanceIdentifier.parse_quote", "src/ncdiff/ref.py: InstanceIdentifier.convert_literal"]}
{"id": "C81", "title": "What a delta does not name plays no part, and deltas that are independent of each other commute", "statement": "config + delta depends only on the top-level nodes with the names that the delta has: nodes with other names stay as they are and in their order, the delta is refused for the same reason or the nodes become the same if the nodes with other names are absent, and a delta can be applied exactly if its nodes with some names and then its nodes with the other names can be, with results that are the same up to the order of siblings with different names.  Two deltas are independent for a config if every name that both have at some place is that of a container, list or leaf there, whose nodes both merge without a place into nodes that the config has; if leaves that both have (such as keys) get the same value from both; and if they leave something in a non-presence container that both go into.  If both can be applied to the config, each can be applied after the other, the results of both orders are the same up to the order of siblings with different names, and == gives true.  A delta is refused after another one that is independent of it exactly if it is refused at once, and for the same reason if they have no top-level name in common.  The condition on containers is needed: when one delta deletes the only node of a container and the other removes a node that the container does not have, one order leaves an empty container behind and == tells the results apart.", "quantifier": "for all devices, valid configs, proper deltas (every operation and insert attribute at every depth outside the nodes both share) and all selections of names", "why_tests_cant": "Operators collect deltas from several sources and apply them in whatever order they arrive. A test fixes two deltas and one order; that no pair of unrelated deltas disturbs each other, at any depth and for any mix of operations, is a statement about all pairs and all configs.", "anchors": ["src/ncdiff/netconf.py: NetconfCalculator.add, node_add and its helpers", "src/ncdiff/config.py: Config.__add__, Config.__eq__"]}
{"id": "C82", "title": "Two changes of one config are merged by adding the deltas of both", "statement": "A config b was changed to x in one place and to y in another, and no top-level name is that of nodes that differ from b in both x and y.  Then ConfigDelta(b, x) and ConfigDelta(b, y) can be added to b one after the other, in either order, and both results equal (==) every config that has the nodes of x for the names that y has not changed and those of y for the names that x has not changed.  This holds for preferred_replace='merge' and for diff types other than 'replace', each delta with its own preferences, when the models have no ordered-by-user lists at the top.  If both changes delete the same node, the second delta is refused.", "quantifier": "for all devices without ordered-by-user lists at the top, all configs b, x, y and w between which deltas are computed, and all preferences and diff types but replacing", "why_tests_cant": "Whether two people may change one device at the same time is a question about all pairs of changes; a test merges one pair. It takes that no delta mentions what has not changed, that a sum does not look at what the delta does not mention, and that both together rebuild the nodes of each side, for every schema and config.", "anchors": ["src/ncdiff/config.py: ConfigDelta.nc, Config.__add__", "src/ncdiff/netconf.py: NetconfCalculator.add, sub, node_add, node_sub"]}
{"id": "C83", "title": "Changes inside the same containers and list entries are merged by adding the deltas of both", "statement": "A config b was changed to x in one place and to y in another.  Wherever both have changed the same node, the node is a container or a list entry that b, x and y all have, and inside it they have changed different things, again down to any depth; in such places the ordered-by-user lists and leaf-lists are the same in all of them.  Then ConfigDelta(b, x) and ConfigDelta(b, y) can be added to b one after the other, in either order, and both results equal (==) every config that has, for each node, what the side that changed it has (its new content, its presence or its absence), and what b has if no side changed it.  This holds for configs whose leaves are of types other than identityref and instance-identifier, for preferred_replace='merge', preferred_create 'merge' or 'create', each preferred_delete, and diff types other than 'replace'.", "quantifier": "for all devices, all configs b, x, y and w between which deltas are computed, any depth at which the changes of both sides meet, and all preferences and diff types but replacing", "why_tests_cant": "The two sides may meet at any depth of any schema, with lists, leaf-lists, containers that vanish when empty and keys that every delta repeats; a test merges one pair of changes. It takes an invariant of the recursion: a delta from b to y, applied to what equals x, describes the way to a tree that has the changes of both at this level and, in the containers and entries that both have changed, at all levels below.", "anchors": ["src/ncdiff/config.py: ConfigDelta.nc, Config.__add__", "src/ncdiff/netconf.py: NetconfCalculator.add, sub, node_add, node_sub"]}
{"id": "C84", "title": "Two clients that start from the same config do not undo the changes of each other on a server", "statement": "Two clients have read the config b from a server.  One sends the edit-config of ConfigDelta(b, x); then the other sends the edit-config of ConfigDelta(b, y), which was computed from b and not from what the server has by then.  Wherever x and y both differ from b in the same node, the node is a container or a list entry that all of them have, and inside it they differ in different things, down to any depth, with the same ordered-by-user lists and leaf-lists.  Then a server that follows RFC 6241 and RFC 7950 accepts both edit-configs and holds, in the end, every config that has the changes of both; it does not matter which client is the first.  This holds for modules without choices, identityrefs and instance-identifiers, and for deltas that do not replace: preferred_replace='merge', preferred_create 'merge' or 'create', each preferred_delete, and diff types other than 'replace'; a delta of diff type 'replace' can undo the changes of the other client.", "quantifier": "for all compiled YANG modules of this kind, all documents b, x, y and w of them, all states in which a server holds b, and all preferences and diff types but replacing", "why_tests_cant": "It relates what the library computes to what a server does with it in a state that the library has not seen; a test against one server with one pair of changes says nothing about other schemas, other meeting points of the changes, or containers and list entries that one client removes and recreates. It takes an induction over the delta that shows it to be a correct description of the way from a state it was not computed for.", "anchors": ["src/ncdiff/config.py: ConfigDelta.nc", "src/ncdiff/netconf.py: NetconfCalculator.sub, node_sub"]}
{"id": "C85", "title": "ModelDiff.compare shows the node that each model has at the path, and its text tells them apart", "statement": "Given a path of prefixed names below the root of two schema trees, ModelDiff.compare returns a text with the node that the first model has at this path and the node that the second model has there, or None for a model that has no node there; a prefix stands for what the second model says, or for what the first says if the second does not have it.  Two such texts are the same only if the expressions are the same and the nodes of both models have the same tag, the same text and the same attributes in the same order, where a missing text differs from the text None and a missing node from each node; the parts of one text for the two models are the same iff the nodes are the same in this sense.  This holds if tags, texts, and names and values of attributes have no line breaks and names of attributes no blanks.  Each expression that can be evaluated in both models with the prefixes of the model alone selects the same nodes in compare, unless one prefix has different URLs in the two models; in this case a node of the first model can be shown as None.", "quantifier": "for all pairs of schema trees with all tables of prefixes whose URLs are known, all paths of identifiers and all location paths whose predicates compare children or the text with literals", "why_tests_cant": "That different nodes have different texts is a statement about all pairs of nodes, and that merging two tables of prefixes does not change what is selected is one about all tables and all expressions. Tests with one prefix that both models share can not see a table that is merged in the wrong way.", "anchors": ["src/ncdiff/model.py: ModelDiff.compare"]}
{"id": "C86", "title": "Searching in replies and configs: every node can be found, and paths select what they name", "statement": "The method xpath of a reply or notification, called with a relative or an absolute path of prefixed names, returns exactly the nodes whose tags on the way from the root are those that the names stand for according to reply.ns, each once; if the caller gives namespaces, these count instead.  Every node of a reply can be found in this way with the prefixes of reply.ns, also if it is in a namespace that is unknown to the device (if modules have different prefixes which are not of the form that is invented for unknown namespaces).  Config.xpath returns for every expression that is evaluated with the prefixes of Config.ns, which ns_help prints, the same nodes if all namespaces of the config belong to modules of the device; otherwise it can refuse prefixes that ns_help prints.", "quantifier": "for all devices with distinct prefixes, all documents and all orders in which the set of their namespaces is iterated, all paths of identifiers, and for Config.xpath all location paths with predicates", "why_tests_cant": "The prefixes depend on the namespaces that a document happens to have and on the order of iteration of a set; a test sees one document and one order. That each node of each document can be found needs an argument about the whole table, and about expressions being read alike with two tables.", "anchors": ["src/ncdiff/__init__.py: xpath_rpcreply, xpath_notification, ns_help", "src/ncdiff/config.py: Config.xpath, Config.ns, Config.ns_help", "src/ncdiff/manager.py: ModelDevice.execute, take_notification, _get_ns"]}
{"id": "C87", "title": "A RunningConfigDiff gives the same answers in every order of use, and equality of two of them means equal diffs", "statement": "Whatever a program reads from a RunningConfigDiff (diff, diff_reverse, cli, cli_reverse, str(), bool()), as often as it likes and in any order, each read succeeds and gives what the two running-configs give alone.  If running1 or running2 are assigned, all answers are those for the texts that the object had when it was read for the first time; a later assignment has no effect.  Two objects are equal (==) iff their diffs have the same lines in the same order with the same marks and depths; this is an equivalence relation.  If no section of the diffs is empty, equal objects have the same diff and the same CLI; without this condition equal objects can have different CLIs.", "quantifier": "for all pairs of texts, all tables of special commands, and all sequences of reads and assignments of any length", "why_tests_cant": "The object keeps lists after the first use, so that an answer could depend on what was read before; tests try few orders of reads. That equal texts come from equal diffs is a statement about all pairs of diffs.", "anchors": ["src/ncdiff/runningconfig.py: RunningConfigDiff.get_diff, get_cli, __eq__, __str__, __bool__"]}
{"id": "C88", "title": "Clients that a device prints below another client are compared as its siblings", "statement": "Before two running-configs are compared, commands that look like children of a command of the same kind but are its siblings (client commands) are moved up. This loses no command and makes none, for every config. A config without such commands is not changed. If in each section at most one command has siblings below it, and these and what follows it have none below them (as devices print it), all of them become siblings in the order of the text, at every depth, and the diff in both directions is the diff of what the texts mean. Without this condition some siblings are not reached: with two clients that each have a client below, or with three levels of clients, the diff shows differences between texts that mean the same.", "quantifier": "for all configs of any depth and length, all tables for the first part, and all patterns for siblings for the other parts", "why_tests_cant": "The loop inserts into the list it walks through and stops after as many steps as the list was long at the start; which commands it reaches depends on the lengths and the nesting, of which tests have one shape.", "anchors": ["src/ncdiff/runningconfig.py: RunningConfigDiff.handle_sibling_cammands, SIBLING_CAMMANDS"]}
{"id": "C89", "title": "Headings, empty lines, remarks and white space at the ends of lines of a running-config do not count", "statement": "If two running-config texts (after the fixed replacements of exit-locator-set, exit-router-lisp and exit-address-family) have the same lines apart from the headings Building configuration and Current configuration, lines of white space, remarks (lines that begin with ! or % after blanks), and white space at the ends of lines, then all answers of a RunningConfigDiff (diff, cli, str(), bool(), in both directions) are the same for them, wherever these lines are. There are two exceptions. A line with nothing but ! counts if the text begins a section whose lines are not indented (client): there it ends the section, and leaving it out makes the next command a part of the section. A blank after a line with nothing but the word client counts: it makes the line begin such a section.", "quantifier": "for all texts; all tables of special commands, apart from the white space at the ends of lines, for which the tables are those of the code", "why_tests_cant": "Such lines and white space can be at any place in a text of any depth; tests put them at few places.", "anchors": ["src/ncdiff/runningconfig.py: RunningConfigDiff.config2list, running2list"]}
{"id": "C90", "title": "The width of the indentation of a running-config does not count", "statement": "If the lines of two running-config texts (apart from headings, empty lines and remarks, and after the fixed replacements) write down the same commands in the same sections, then all answers of a RunningConfigDiff (diff, cli, str(), bool(), in both directions) are the same for them, whatever number of blanks indents each section; the number can differ from section to section. Every config can be written with every width. The lines of one section have to be indented alike: a line with fewer blanks than the first line of its section is read as a part of the line above.", "quantifier": "for all configs of any depth, all widths of each section, and all tables of special commands; no command is a remark, a heading, or one of those whose sections are not indented", "why_tests_cant": "There are infinitely many widths and ways to combine them in sections of any depth; tests have texts with one or two widths.", "anchors": ["src/ncdiff/runningconfig.py: RunningConfigDiff.config2list"]}
{"id": "C91", "title": "The fixed replacements work line by line, and what ends a line does not count", "statement": "Before a running-config is read, exit-locator-set and exit-router-lisp are replaced by exit, and exit-address-family is indented by one more blank. The lines of the text after this are the lines of the text before, each replaced by itself: no line is lost, made, split or joined, and a line in which none of the three occurs is the same. So all answers of a RunningConfigDiff are the same for texts with the same lines, whatever ends the lines (LF, CR LF or another line boundary of Python) and whether or not the last line is ended. What is replaced need not be a word of its own: two texts that differ only by exit-locator-set-1 and exit-1 in a description have no difference.", "quantifier": "for all texts, and all tables of replacements without line boundaries and empty strings", "why_tests_cant": "The replacements are made in the whole text, where a match could begin in one line and end in the next; that this cannot happen is a statement about all texts.", "anchors": ["src/ncdiff/runningconfig.py: RunningConfigDiff.running2list, REPLACING_COMMANDS, config2list"]}
