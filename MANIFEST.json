{
 "claims": [
  {
   "property": "C01",
   "status": "proved",
   "theorems": [
    "NcDiff.C01_round_trip",
    "NcDiff.Demo.C01_false_for_other_case",
    "NcDiff.C01_order_kept",
    "NcDiff.C01_order_moved",
    "NcDiff.Demo.C01_false_for_reordered",
    "NcDiff.Demo.C01_false_for_moved_and_new",
    "NcDiff.Demo.C01_false_for_apostrophe",
    "NcDiff.Demo.C01_false_for_root_leaf_list",
    "NcDiff.Demo.C01_false_for_empty_container",
    "NcDiff.RefDemo.C01_false_for_prefixes_of_keys"
   ],
   "note": "For every device and all pairs of plain configs in the sense of structure Transition, all preferences, all diff types and replace depths. The condition on the order of entries is spelled out in Spec/Settle.lean; C01_order_kept and C01_order_moved give simpler conditions that imply it. The other theorems show that the conditions are needed. Values of leaves: any text for the plain types, qualified names for identityref, absolute paths of steps and key predicates without apostrophes inside of double quotes for instance-identifier."
  },
  {
   "property": "C02",
   "status": "proved",
   "theorems": [
    "NcDiff.C02_eq_equivalence"
   ],
   "note": "For every device and all valid configs."
  },
  {
   "property": "C03",
   "status": "proved",
   "theorems": [
    "NcDiff.C03_le_partial_order",
    "NcDiff.C03_outside"
   ],
   "note": "For every device and all valid configs."
  },
  {
   "property": "C04",
   "status": "proved",
   "theorems": [
    "NcDiff.C04_eq_iff_rearranged",
    "NcDiff.C04_eq_iff_same_instances"
   ],
   "note": "Rearrangement form needs list keys of plain types; see C31 for identityref keys."
  },
  {
   "property": "C05",
   "status": "proved",
   "theorems": [
    "NcDiff.C05_pairing_partition"
   ],
   "note": "For all lists of well-shaped children."
  },
  {
   "property": "C06",
   "status": "proved",
   "theorems": [
    "NcDiff.C06_self_difference"
   ],
   "note": "For every device and plain config, same preferences as C01."
  },
  {
   "property": "C07",
   "status": "proved",
   "theorems": [
    "NcDiff.C07_falsy_iff_equal",
    "NcDiff.C07_empty_edit_config",
    "NcDiff.Demo.C07_equal_with_edit_config"
   ],
   "note": "For all valid configs; the edit-config form for the pairs of C01, whatever the order of their entries. Its converse is false: third theorem."
  },
  {
   "property": "C08",
   "status": "proved",
   "theorems": [
    "NcDiff.C08_operations_applied",
    "NcDiff.C08_bad_operation_raises"
   ],
   "note": "Success: for every valid config and proper delta; what the delta does not mention stays and nothing else appears (list keys of plain types or identityrefs with the prefix of the module or none, no deleted key leaf, proper values). Failure: for every delta whose other operations can be applied."
  },
  {
   "property": "C09",
   "status": "proved",
   "theorems": [
    "NcDiff.C09_unmentioned_untouched"
   ],
   "note": "For every device, config and delta whose nodes have schema nodes and the right shape."
  },
  {
   "property": "C10",
   "status": "proved",
   "theorems": [
    "NcDiff.C10_merge_is_union",
    "NcDiff.C10_idempotent",
    "NcDiff.C10_empty_right",
    "NcDiff.C10_empty_left",
    "NcDiff.Demo.C10_false_for_leaf_list_defaults"
   ],
   "note": "Configs without edit-config attributes, defaults trimmed as in every Config; identityrefs of c2 must be writable with the prefixes of the leaves of c1 they overwrite. The last theorem shows why leaf-lists with defaults are left out of the union claim."
  },
  {
   "property": "C11",
   "status": "proved",
   "theorems": [
    "NcDiff.C11_sum_has_no_attributes"
   ],
   "note": "For every device, config and delta."
  },
  {
   "property": "C12",
   "status": "proved",
   "theorems": [
    "NcDiff.C12_sum_valid",
    "NcDiff.Demo.C12_false_for_duplicates_in_delta",
    "NcDiff.Demo.C12_false_for_deleted_keys",
    "NcDiff.RefDemo.C12_false_for_prefixes_of_keys"
   ],
   "note": "For every valid config and every proper delta. The three last theorems show that the conditions on the delta are needed."
  },
  {
   "property": "C13",
   "status": "proved",
   "theorems": [
    "NcDiff.C13_positions",
    "NcDiff.C13_new_entry",
    "NcDiff.C13_existing_entry",
    "NcDiff.C13_bad_insert_raises"
   ],
   "note": "Positions: for every valid config and proper delta, at every level, change by change in the order in which they are applied. Errors: a missing name in any delta that is otherwise applicable; an absent sibling when it is the only change at its level."
  },
  {
   "property": "C14",
   "status": "proved",
   "theorems": [
    "NcDiff.C14_order_marked",
    "NcDiff.Demo.C14_false_for_empty_key",
    "NcDiff.Demo.C14_false_for_empty_value"
   ],
   "note": "The last two theorems show that keys and values have to have text. For the pairs of C01 without its order condition, and all preferences, at all levels that the delta goes through."
  },
  {
   "property": "C15",
   "status": "proved",
   "theorems": [
    "NcDiff.C15_deletes_missing"
   ],
   "note": "For the pairs of C01 without its order condition, and all preferences, at all levels that the delta goes through."
  },
  {
   "property": "C16",
   "status": "proved",
   "theorems": [
    "NcDiff.C16_trim_sound_idempotent",
    "NcDiff.C16_no_default_stays",
    "NcDiff.Demo.C16_false_for_keys_with_default"
   ],
   "note": "For every device and config whose nodes have schema nodes. Keys with a default can be lost: third theorem."
  },
  {
   "property": "C17",
   "status": "proved",
   "theorems": [
    "NcDiff.C17_filter",
    "NcDiff.C17_keys_kept"
   ],
   "note": "For every config that can be built and every selection. The nodes that the XPath selects are an arbitrary input."
  },
  {
   "property": "C18",
   "status": "proved",
   "theorems": [
    "NcDiff.C18_reorder",
    "NcDiff.C18_reorder_difference",
    "NcDiff.Demo.C18_reordered_delta_fails"
   ],
   "note": "For every depth and every permutation that a seed can give. A reordered delta with insert attributes may be impossible to apply: third theorem."
  },
  {
   "property": "C19",
   "status": "proved",
   "theorems": [
    "NcDiff.Running.C19_identical_no_diff",
    "NcDiff.Running.Demo.C19_false_with_repeated_lines"
   ],
   "note": "For every table of commands and every text in which no section repeats a line (also after sibling lines are moved up). With a repeated line the claim is false: second theorem."
  },
  {
   "property": "C20",
   "status": "proved",
   "theorems": [
    "NcDiff.Running.C20_list_diff_faithful"
   ],
   "note": "For all pairs of nested lists, repeated lines included."
  },
  {
   "property": "C21",
   "status": "proved",
   "theorems": [
    "NcDiff.Running.C21_orderless_only_moves",
    "NcDiff.Running.Demo.C21_false_with_repeated_lines"
   ],
   "note": "For all lists without repeated lines in a section, every table and depth. With a repeated orderless line a line is lost: second theorem."
  },
  {
   "property": "C22",
   "status": "proved",
   "theorems": [
    "NcDiff.Running.C22_orderless_order_ignored"
   ],
   "note": "For all texts without repeated lines linked by swaps of adjacent orderless lines at any level."
  },
  {
   "property": "C23",
   "status": "proved",
   "theorems": [
    "NcDiff.Running.C23_first_occurrences",
    "NcDiff.Running.C23_negative",
    "NcDiff.Running.C23_positive"
   ],
   "note": "For all lists of commands; exact characterisation of what is dropped."
  },
  {
   "property": "C24",
   "status": "proved",
   "theorems": [
    "NcDiff.Running.C24_negation",
    "NcDiff.Running.C24_no_double_negation"
   ],
   "note": "For all tables and lines."
  },
  {
   "property": "C25",
   "status": "proved",
   "theorems": [
    "NcDiff.Running.C25_text_parses_back",
    "NcDiff.Running.C25_printed_section_parses_back"
   ],
   "note": "For every table and every nested list of lines that a device can print (no blank ends, comments, headers, or empty sections)."
  },
  {
   "property": "C26",
   "status": "proved",
   "theorems": [
    "NcDiff.C26_convert_tag",
    "NcDiff.C26_convert_tag_round_trip",
    "NcDiff.C26_convert_tag_injective",
    "NcDiff.C26_convert_ns",
    "NcDiff.C26_convert_ns_round_trip",
    "NcDiff.C26_ambiguous_raises",
    "NcDiff.C26_unknown_raises",
    "NcDiff.TagDemo.C26_redundant_prefix_is_dropped"
   ],
   "note": "For every namespace table, all notations of class Tag and every combination of their parts, every default namespace. A tag that repeats the namespace in force loses it: last theorem."
  },
  {
   "property": "C27",
   "status": "proved",
   "theorems": [
    "NcDiff.C27_cache_coherent",
    "NcDiff.C27_lookups_commute",
    "NcDiff.C27_lookup_is_uncached",
    "NcDiff.C27_reload_takes_effect",
    "NcDiff.C27_load_succeeds",
    "NcDiff.Demo.C27_shared_root_is_stale"
   ],
   "note": "For every history of loads and look-ups in which models of different names share no root; without this the cache is stale: last theorem. Loading never raises, in any history."
  },
  {
   "property": "C28",
   "status": "proved",
   "theorems": [
    "NcDiff.C28_no_ambiguous_prefix",
    "NcDiff.C28_covers",
    "NcDiff.C28_covers_tags",
    "NcDiff.C28_only_declared",
    "NcDiff.C28_module_prefix",
    "NcDiff.TagDemo.C28_shared_prefix_loses_namespace",
    "NcDiff.TagDemo.C28_invented_prefix_collides"
   ],
   "note": "For every config, every iteration order of the set of URLs and every device on which prefixes are distinct; otherwise a namespace can be lost: last two theorems."
  },
  {
   "property": "C29",
   "status": "proved",
   "theorems": [
    "NcDiff.Download.C29_closure",
    "NcDiff.Download.C29_complete",
    "NcDiff.Download.C29_no_work_lost",
    "NcDiff.Download.C29_terminates",
    "NcDiff.Download.Demo.C29_fetched_twice"
   ],
   "note": "For every device, every positive number of threads and every interleaving; includes termination and freedom from deadlock. A module may be fetched twice: last theorem."
  },
  {
   "property": "C30",
   "status": "proved",
   "theorems": [
    "NcDiff.Download.C30_crash_safe",
    "NcDiff.Download.C30_returns_complete",
    "NcDiff.Download.Demo.C30_force_is_unsafe",
    "NcDiff.Download.Demo.C30_changing_device_is_unsafe",
    "NcDiff.Download.Demo.C30_lost_request_is_unsafe"
   ],
   "note": "For every history of 'check' downloads from one device, each ending or dying at any point, as long as no request is lost to an unforeseen exception. The last three theorems show that the restrictions are needed."
  },
  {
   "property": "C31",
   "status": "proved",
   "theorems": [
    "NcDiff.C31_same_text",
    "NcDiff.C31_config",
    "NcDiff.C31_copied",
    "NcDiff.RefDemo.C31_false_for_list_keys"
   ],
   "note": "For every pair of nodes and prefix maps, and for whole configs. Keys of lists are compared as text: last theorem."
  },
  {
   "property": "C32",
   "status": "proved",
   "theorems": [
    "NcDiff.InstId.C32_convert",
    "NcDiff.InstId.C32_same_text",
    "NcDiff.RefDemo.C32_false_for_positions",
    "NcDiff.RefDemo.C32_false_for_dots",
    "NcDiff.RefDemo.C32_false_for_apostrophes",
    "NcDiff.RefDemo.C32_spaces_raise"
   ],
   "note": "For every instance-identifier made of steps and key predicates, any literals, all prefix maps. Positions, dots in node names and apostrophes inside double quotes are changed by the code: last theorems."
  },
  {
   "property": "C33",
   "status": "proved",
   "theorems": [
    "NcDiff.ModelDiff.C33_total",
    "NcDiff.ModelDiff.C33_ambiguous",
    "NcDiff.ModelDiff.C33_empty",
    "NcDiff.ModelDiff.C33_added",
    "NcDiff.ModelDiff.C33_deleted",
    "NcDiff.ModelDiff.C33_modified",
    "NcDiff.ModelDiff.C33_unmarked",
    "NcDiff.ModelDiff.C33_marks",
    "NcDiff.ModelDiff.C33_view_none",
    "NcDiff.ModelDiff.C33_view",
    "NcDiff.ModelDiff.Demo.C33_added_hides_empty_container",
    "NcDiff.ModelDiff.Demo.C33_changed_container_unmarked",
    "NcDiff.ModelDiff.Demo.C33_collapsed_not_deleted",
    "NcDiff.ModelDiff.Demo.C33_added_shows_deleted_in_rpc"
   ],
   "note": "For every pair of schema trees with distinct sibling tags. Marks in case a container becomes a leaf, changed containers, empty containers and operations: last four theorems."
  },
  {
   "property": "C34",
   "status": "proved",
   "theorems": [
    "NcDiff.C34_negation",
    "NcDiff.C34_subtract_delta",
    "NcDiff.Demo.C34_false_for_preferences"
   ],
   "note": "For all valid configs; preferences are dropped by negation: third theorem."
  },
  {
   "property": "C35",
   "status": "proved",
   "theorems": [
    "NcDiff.C35_read_only_removed"
   ],
   "note": "For every reply from which a config can be built."
  },
  {
   "property": "C36",
   "status": "proved",
   "theorems": [
    "NcDiff.Running.C36_commands_reach_target",
    "NcDiff.Running.cisco_heads",
    "NcDiff.Running.cisco_keep",
    "NcDiff.Running.cisco_free",
    "NcDiff.Running.Demo.C36_false_with_common_prefix",
    "NcDiff.Running.Demo.C36_false_for_secondary_address"
   ],
   "note": "For every table that fits the device, which the tables of the code do (cisco_heads, cisco_free), every set of commands that are in force unless negated, and every pair of texts whose lines do not exclude one another and whose diff has no command that starts another one. Without these conditions the claim is false: last two theorems."
  },
  {
   "property": "C37",
   "status": "proved",
   "theorems": [
    "NcDiff.Context.C37_complete",
    "NcDiff.Context.C37_dependencies",
    "NcDiff.Context.C37_sound",
    "NcDiff.Context.C37_terminates",
    "NcDiff.Context.C37_raising_file_hangs",
    "NcDiff.Context.Demo.C37_race",
    "NcDiff.Context.Demo.C37_same_module_hangs"
   ],
   "note": "For every folder and every interleaving, with one thread or with a table that exists at the start. The last three theorems are about the faults of the code: lost entries with two threads, and hanging."
  },
  {
   "property": "C38",
   "status": "proved",
   "theorems": [
    "NcDiff.Identity.C38_values",
    "NcDiff.Identity.C38_offered",
    "NcDiff.Identity.C38_unknown_prefix",
    "NcDiff.Identity.Demo.C38_first_of_derived_base_lost",
    "NcDiff.Identity.Demo.C38_direct_only",
    "NcDiff.Identity.Demo.C38_foreign_base_lost",
    "NcDiff.Identity.Demo.C38_depends_on_history"
   ],
   "note": "For every history of a compiler. The last four theorems show what YANG allows and the code does not list, and the dependence on history."
  },
  {
   "property": "C39",
   "status": "proved",
   "theorems": [
    "NcDiff.C39_replace_shape",
    "NcDiff.C39_replace_effect",
    "NcDiff.C39_minimum_replace",
    "NcDiff.C39_replace_xpath"
   ],
   "note": "All preferences and depths, for the transitions of C01 without its order condition. The effect is that of the sum before empty containers are removed, and needs RootSafe as C01 does. C39_replace_xpath is about the replace_xpath argument."
  },
  {
   "property": "C40",
   "status": "proved",
   "theorems": [
    "NcDiff.C40_preferences",
    "NcDiff.C40_vocabulary",
    "NcDiff.C40_vocabulary_default"
   ],
   "note": "C40_preferences is for the transitions of C01 without its order condition. That every such node is in the edit-config, and nothing else, is C15 and C39. C40_vocabulary needs only that the target carries no attributes."
  },
  {
   "property": "C41",
   "status": "proved",
   "theorems": [
    "NcDiff.C41_sources",
    "NcDiff.C41_foreign",
    "NcDiff.C41_accepts",
    "NcDiff.C41_result",
    "NcDiff.C41_new_config",
    "NcDiff.Demo.C41_false_for_outdated_keys",
    "NcDiff.Demo.C41_not_found"
   ],
   "note": "C41_false_for_outdated_keys and C41_not_found are witnesses for the exceptions named in the statement."
  },
  {
   "property": "C42",
   "status": "proved",
   "theorems": [
    "NcDiff.C42_bool",
    "NcDiff.C42_given_delta"
   ],
   "note": "The second part for the transitions of C01."
  },
  {
   "property": "C43",
   "status": "proved",
   "theorems": [
    "NcDiff.C43_keys_first",
    "NcDiff.C43_key_statement",
    "NcDiff.Demo.C43_not_sorted"
   ],
   "note": "C43_not_sorted is the witness for the last sentence of the statement."
  },
  {
   "property": "C44",
   "status": "proved",
   "theorems": [
    "NcDiff.C44_selects_node",
    "NcDiff.C44_selects_siblings",
    "NcDiff.C44_config_xpath",
    "NcDiff.C44_root",
    "NcDiff.C44_distinct",
    "NcDiff.Demo.C44_quotes",
    "NcDiff.Demo.C44_none",
    "NcDiff.Demo.C44_default_notation",
    "NcDiff.Demo.C44_without_root"
   ],
   "note": "The theorems in namespace Demo are the witnesses for the sentences in parentheses."
  },
  {
   "property": "C45",
   "status": "proved",
   "theorems": [
    "NcDiff.C45_check",
    "NcDiff.C45_errors",
    "NcDiff.C45_one_device",
    "NcDiff.C45_valid",
    "NcDiff.C45_compare",
    "NcDiff.C45_round_trip",
    "NcDiff.Demo.C45_unchecked",
    "NcDiff.Demo.C45_ambiguous_key",
    "NcDiff.Demo.C45_foreign_identity",
    "NcDiff.Demo.C45_no_row",
    "NcDiff.C45_sum",
    "NcDiff.C45_no_sum"
   ],
   "note": "The theorems in namespace Demo are the witnesses for the sentences in parentheses."
  },
  {
   "property": "C46",
   "status": "proved",
   "theorems": [
    "NcDiff.Compile.C46_total",
    "NcDiff.Compile.C46_nodes",
    "NcDiff.Compile.C46_all",
    "NcDiff.Compile.C46_read",
    "NcDiff.Compile.C46_order",
    "NcDiff.Compile.C46_schema",
    "NcDiff.Compile.C46_loaded",
    "NcDiff.Demo.C46_comma",
    "NcDiff.Demo.C46_line_break",
    "NcDiff.Demo.C46_leafref_clash",
    "NcDiff.Demo.C46_typedef"
   ],
   "note": "The theorems in namespace Demo are the witnesses for the sentences in parentheses. Access requires that operations and notifications are at the top of the module and that an operation has an input and an output only."
  },
  {
   "property": "C47",
   "status": "proved",
   "theorems": [
    "NcDiff.Compile.C47_filter",
    "NcDiff.Compile.C47_errors",
    "NcDiff.Demo.C47_notification",
    "NcDiff.Demo.C47_shared_root"
   ],
   "note": "The theorems in namespace Demo are the witnesses for the sentences in parentheses."
  },
  {
   "property": "C48",
   "status": "proved",
   "theorems": [
    "NcDiff.Running.C48_lines",
    "NcDiff.Running.C48_reading",
    "NcDiff.Running.C48_texts",
    "NcDiff.Running.Demo.C48_false_with_repeated_lines"
   ],
   "note": "C48_lines and C48_reading have no hypotheses; C48_reading is about the lists that are compared, C48_texts about the texts. The theorem in namespace Demo is the witness for the sentence in parentheses."
  },
  {
   "property": "C49",
   "status": "proved",
   "theorems": [
    "NcDiff.Send.C49_accepted",
    "NcDiff.Send.C49_sent",
    "NcDiff.Send.C49_scope",
    "NcDiff.Send.C49_other_format",
    "NcDiff.Send.Demo.C49_delta_object",
    "NcDiff.Send.Demo.C49_second_argument",
    "NcDiff.Send.Demo.C49_positional_target",
    "NcDiff.Send.Demo.C49_option_order",
    "NcDiff.Send.Demo.C49_unprefixed"
   ],
   "note": "The theorems in namespace Demo are the witnesses for the sentences in parentheses. Functions of ncclient that are called (new_ele, sub_ele, datastore_or_url, validated_element) are taken as described in Model/Send.lean; a config that is given as a text is not covered."
  },
  {
   "property": "C50",
   "status": "proved",
   "theorems": [
    "NcDiff.Statement.C50_schema",
    "NcDiff.Statement.C50_path",
    "NcDiff.Statement.C50_config",
    "NcDiff.Statement.C50_below",
    "NcDiff.Statement.C50_model_name",
    "NcDiff.Demo.C50_not_found"
   ],
   "note": "Hypotheses (Agree, Newest): the names are identifiers, siblings have different names, the namespaces of the device are unique and those of the modules, and the latest revision in the compiler context is validated. C50_below and C50_not_found are the sentences in parentheses."
  },
  {
   "property": "C51",
   "status": "proved",
   "theorems": [
    "NcDiff.Show.C51_model",
    "NcDiff.Show.C51_prints",
    "NcDiff.Show.C51_drawn",
    "NcDiff.Show.C51_same_text",
    "NcDiff.Show.C51_names",
    "NcDiff.Show.C51_diff_prints",
    "NcDiff.Show.C51_diff",
    "NcDiff.Show.Demo.C51_dotted_prefix"
   ],
   "note": "Hypotheses of the theorems about texts: names and prefixes are YANG identifiers, the prefix of the module has no dot, and keys, types and features do not contain the character that ends them (AllReadable, PlainPrefixes). Not covered: ModelDiff.compare, which needs an XPath engine. C51_dotted_prefix is the sentence in parentheses."
  },
  {
   "property": "C52",
   "status": "proved",
   "theorems": [
    "NcDiff.Offer.C52_monitoring",
    "NcDiff.Offer.C52_capabilities",
    "NcDiff.Offer.C52_library",
    "NcDiff.Offer.Demo.C52_library_empty",
    "NcDiff.Offer.C52_remembered",
    "NcDiff.Offer.C52_load",
    "NcDiff.Offer.C52_rows",
    "NcDiff.Offer.C52_namespaces",
    "NcDiff.Offer.C52_namespaces_kept",
    "NcDiff.Offer.Demo.C52_truncated"
   ],
   "note": "Not covered: load_model with the name of a file (the model then is what the file says, C51). Hypothesis of C52_monitoring: every identifier in the reply has text. C52_library and C52_library_empty are the sentence in parentheses."
  },
  {
   "property": "C53",
   "status": "proved",
   "theorems": [
    "NcDiff.Cache.C53_current",
    "NcDiff.Cache.C53_table",
    "NcDiff.Cache.C53_same",
    "NcDiff.Cache.C53_dependencies",
    "NcDiff.Cache.Demo.C53_shared_folder",
    "NcDiff.Cache.Demo.C53_edited"
   ],
   "note": "What pyang and compile make of YANG files is an arbitrary relation (C37, C38 and C46 are about it). A tree that is written and read again is taken to be the same, and a partly written XML file to be unreadable. C53_shared_folder, C53_edited and C53_dependencies are the sentences in parentheses."
  },
  {
   "property": "C54",
   "status": "proved",
   "theorems": [
    "NcDiff.Objects.C54_call",
    "NcDiff.Objects.C54_value",
    "NcDiff.Objects.C54_history",
    "NcDiff.Objects.C54_stable",
    "NcDiff.Objects.C54_new",
    "NcDiff.Objects.C54_nc",
    "NcDiff.Objects.C54_own",
    "NcDiff.Objects.C54_again",
    "NcDiff.Objects.Demo.C54_changes_argument"
   ],
   "note": "Memory is a list of trees that objects refer to by number; what a computation leaves in the copies it works on is arbitrary. All objects belong to one device. C54_changes_argument is the sentence in parentheses."
  },
  {
   "property": "C55",
   "status": "proved",
   "theorems": [
    "NcDiff.Objects.C55_keeps",
    "NcDiff.Objects.C55_kinds",
    "NcDiff.Objects.C55_commutes",
    "NcDiff.Objects.C55_values"
   ],
   "note": "Operands whose own classes know Config are not covered."
  },
  {
   "property": "C56",
   "status": "proved",
   "theorems": [
    "NcDiff.Running.C56_nothing_invented",
    "NcDiff.Running.C56_heard",
    "NcDiff.Running.C56_nothing_lost",
    "NcDiff.Running.C56_block",
    "NcDiff.Running.Demo.C56_lost",
    "NcDiff.Running.Demo.C56_heading"
   ],
   "note": "The tables of the code are a parameter. C56_lost is the sentence in parentheses; C56_heading shows why headings must not be indented."
  },
  {
   "property": "C57",
   "status": "proved",
   "theorems": [
    "NcDiff.Types.C57_values",
    "NcDiff.Types.C57_fails",
    "NcDiff.Types.C57_leaf",
    "NcDiff.Types.C57_identity",
    "NcDiff.Types.C57_restricted",
    "NcDiff.Compile.C46_nodes",
    "NcDiff.Types.Demo.C57_limits"
   ],
   "note": "What pyang finds out about a type statement (typedef, restrictions, members) is given. The cases of a choice are field `cases` of Describes in C46_nodes. C57_limits is the sentence in parentheses."
  },
  {
   "property": "C58",
   "status": "proved",
   "theorems": [
    "NcDiff.C58_equal_source",
    "NcDiff.C58_history",
    "NcDiff.C58_undo",
    "NcDiff.Demo.C58_false_for_other_source"
   ],
   "note": "StandIn says what c1' is: valid, without attributes, == c1. C58_history and C58_undo assume that the leaves of the targets have plain types, which implies the condition on identityrefs (MergeValues) of C58_equal_source. C58_false_for_other_source is the sentence in parentheses."
  },
  {
   "property": "C59",
   "status": "proved",
   "theorems": [
    "NcDiff.DeltaObj.C59_construct",
    "NcDiff.DeltaObj.C59_errors",
    "NcDiff.DeltaObj.C59_nc",
    "NcDiff.DeltaObj.C59_generator",
    "NcDiff.DeltaObj.C59_history",
    "NcDiff.DeltaObj.C59_anew",
    "NcDiff.DeltaObj.C59_assigned",
    "NcDiff.DeltaObj.C59_preferences",
    "NcDiff.DeltaObj.C59_seed",
    "NcDiff.DeltaObj.Demo.C59_seed_repeats",
    "NcDiff.DeltaObj.Demo.C59_seed_undocumented",
    "NcDiff.DeltaObj.Demo.C59_diff_type_unchecked"
   ],
   "note": "The random generator is abstract: three functions and a state. C59_nc links the objects to the deltas of all other theorems. The last three theorems are the sentences in parentheses."
  },
  {
   "property": "C60",
   "status": "proved",
   "theorems": [
    "NcDiff.C60_any_order",
    "NcDiff.C60_order_exact",
    "NcDiff.Demo.C60_false_for_ordered_default"
   ],
   "note": "C60_any_order for all preferences and diff types. C60_order_exact shows that the order condition AllSettle of C01 is necessary. The last theorem is the sentence in parentheses."
  },
  {
   "property": "C61",
   "status": "proved",
   "theorems": [
    "NcDiff.C61_change_case",
    "NcDiff.C61_cleared",
    "NcDiff.Choice.C61_false_for_replace",
    "NcDiff.Choice.C61_false_for_nested_choice"
   ],
   "note": "clear (Spec/Choice.lean) is what the device removes; it is written from RFC 7950 and does not use the definitions of node_sub. Deleting a node that is not there is an error in +, so the equation shows that no such delete is in the delta. The last two theorems are the last sentence."
  },
  {
   "property": "C62",
   "status": "proved",
   "theorems": [
    "NcDiff.Regex.C62_orderless",
    "NcDiff.Regex.C62_overwritable",
    "NcDiff.Regex.C62_overwritable_needs_condition",
    "NcDiff.Regex.C62_sibling",
    "NcDiff.Regex.C62_comment",
    "NcDiff.Regex.C62_tag",
    "NcDiff.Regex.C62_capability",
    "NcDiff.Regex.C62_prefix",
    "NcDiff.Regex.C62_prefix_not_quoted",
    "NcDiff.Regex.C62_splitlines",
    "NcDiff.Regex.C62_replace",
    "NcDiff.Regex.C62_commands",
    "NcDiff.Regex.C62_strip"
   ],
   "note": "Spec/PyText.lean describes the string methods. Spec/Regex.lean gives the syntax of the expressions and the order in which Python tries the matches; the expressions in the theorems are the texts of the code. \\d is taken for the digits 0 to 9 (in Python also other decimal digits)."
  },
  {
   "property": "C63",
   "status": "proved",
   "theorems": [
    "NcDiff.Parse.C63_parsed",
    "NcDiff.Parse.C63_accepted",
    "NcDiff.Parse.C63_total",
    "NcDiff.Parse.C63_unique",
    "NcDiff.Parse.C63_module",
    "NcDiff.Parse.C63_places",
    "NcDiff.Parse.C63_comment_ends_before_it_begins",
    "NcDiff.Parse.C63_two_comments_before_module"
   ],
   "note": "Spec/YangParse.lean is the grammar of RFC 7950 with places. The tokenizer of pyang is not part of the code and is represented by its tokens."
  },
  {
   "property": "C64",
   "status": "proved",
   "theorems": [
    "NcDiff.C64_applied_iff",
    "NcDiff.C64_reason",
    "NcDiff.C64_one_kind",
    "NcDiff.C64_kinds",
    "NcDiff.C64_always",
    "NcDiff.Demo.C64_empty_container"
   ],
   "note": "Spec/Refused.lean lists what can be wrong in terms of the two trees. Insert values other than first, last, before and after are excluded (see C13_unknown_insert_drops); names in key attributes are names of keys."
  },
  {
   "property": "C65",
   "status": "proved",
   "theorems": [
    "NcDiff.Compile.C65_accepted",
    "NcDiff.Compile.C65_round_trip",
    "NcDiff.Compile.C65_simple",
    "NcDiff.YangDemo.C65_false_for_top_choice"
   ],
   "note": "Spec/Yang.lean says what proper modules and instances are; the conditions that RFC 7950 does not have are marked there. The statements are those that pyang has validated, with uses and augments expanded. The condition Compat of C65_round_trip is on the two configs and is that of C01; C65_simple has none. Which nodes are removed from the document is C41."
  },
  {
   "property": "C66",
   "status": "proved",
   "theorems": [
    "NcDiff.Compile.C66_keys",
    "NcDiff.Compile.C66_order",
    "NcDiff.Compile.C66_names",
    "NcDiff.KeyDemo.C66_false_for_line_break"
   ],
   "note": "C66_keys is for key statements without prefixes, C66_order also for names with prefixes. The argument of the key statement is taken as pyang keeps it, with its line breaks. In C66_false_for_line_break the device is the model with the key statement on one line."
  },
  {
   "property": "C67",
   "status": "proved",
   "theorems": [
    "NcDiff.Compile.C67_config",
    "NcDiff.Compile.C67_equal",
    "NcDiff.Compile.C67_delta",
    "NcDiff.MeaningDemo.C67_false_for_case",
    "NcDiff.MeaningDemo.C67_false_for_comma",
    "NcDiff.MeaningDemo.C67_false_for_empty"
   ],
   "note": "Spec.Meaning says by RFC 7950 what two contents have in common, without the schema tree or any function of the library. Modules are as for C65. Defaults are those of the default statements of leaves and leaf-lists; defaults of derived types, which the library does not look at, are not modelled. C67_delta needs compatibility as C65_round_trip does, and modules with plain types only. Identityrefs: Value and valueOf in Spec/Meaning.lean, examples in Props/Kinds.lean. Instance-identifiers are not covered (C31, C44)."
  },
  {
   "property": "C68",
   "status": "proved",
   "theorems": [
    "NcDiff.Compile.C68_server",
    "NcDiff.Compile.C68_holds",
    "NcDiff.Compile.C68_history",
    "NcDiff.ServerDemo.C68_false_for_explicit_default",
    "NcDiff.KindsDemo.C68_unspellable"
   ],
   "note": "Spec.Server is the server: it knows the YANG statements and none of the functions of the library. Modules as for C67: no choices, no instance-identifiers. Spellable (Spec/Meaning.lean) asks that the identities of the second document can be written with the prefixes that the leaves of the first have; it holds without identityrefs (spellable_of_plain), and C68_unspellable shows what happens otherwise. Names in key attributes are read with the prefixes of the node; lxml names with braces are accepted. Reordering with random_depth is in C71. Not covered: a delta whose config node itself is replaced (excluded by TopSafe)."
  },
  {
   "property": "C69",
   "status": "proved",
   "theorems": [
    "NcDiff.Running.C69_positive",
    "NcDiff.Running.C69_negative",
    "NcDiff.Running.C69_cisco",
    "NcDiff.Running.C69_section",
    "NcDiff.Running.cisco_apart",
    "NcDiff.Running.OverwriteDemo.C69_false_for_secondary_address",
    "NcDiff.Running.OverwriteDemo.C69_false_for_bare_address"
   ],
   "note": "keepLast and spend (Spec.Overwrite) are recursions over the list and know no positions. The expressions are the functions of C62."
  },
  {
   "property": "C70",
   "status": "proved",
   "theorems": [
    "NcDiff.Compile.C70_server",
    "NcDiff.Compile.C70_holds",
    "NcDiff.Compile.C70_history",
    "NcDiff.Compile.C70_without_choices",
    "NcDiff.CasesDemo.C70_needs_removal",
    "NcDiff.CasesDemo.C70_false_for_replace",
    "NcDiff.CasesDemo.C70_false_for_nested_choice"
   ],
   "note": "Spec.Cases is the server of C68 with removal of the other cases; it reads cases from the YANG statements. The conclusion is that the server holds the config (Holds), not that its meaning with defaults is the same, because defaults in cases are not modelled by the library as RFC 7950 has them (C67_false_for_case). TopSafe as in C68; random_depth is in C71."
  },
  {
   "property": "C71",
   "status": "proved",
   "theorems": [
    "NcDiff.Compile.C71_any_order",
    "NcDiff.Compile.C71_any_order_plain",
    "NcDiff.Compile.C71_random",
    "NcDiff.OrderDemo.C71_false_for_user_order"
   ],
   "note": "Spec.SameNodes says which edit-configs have the same nodes in another order. The server is that of C68 and C70, and it may get them in any of these orders. The hypotheses are those of C70 and C68 and that no statement says ordered-by user. random.sample is any permutation."
  },
  {
   "property": "C72",
   "status": "proved",
   "theorems": [
    "NcDiff.Compile.C72_server",
    "NcDiff.Compile.C72_exchange",
    "NcDiff.Compile.C72_history",
    "NcDiff.ServerDemo.C68_false_for_explicit_default",
    "NcDiff.ServerDemo.Given.C72_false_for_leafList"
   ],
   "note": "Spec.Explicit (Sane) says which data a server may have: every instance once, no empty texts, no leaf-list with just its default values; nothing is asked of leaves. What data mean is SameMeaning of C66, and the server is that of C68. The two conditions that the English states are shown to be needed by the last two theorems."
  },
  {
   "property": "C73",
   "status": "proved",
   "theorems": [
    "NcDiff.Compile.C73_loop",
    "NcDiff.Compile.C73_loop_plain",
    "NcDiff.Compile.C73_session"
   ],
   "note": "Reports: a document that means the same (SameMeaning of C67) as the data of the server, with at most one case of each choice. The server is that of C70 (serveCases), and that of C68 (serve) in C73_loop_plain."
  },
  {
   "property": "C74",
   "status": "proved",
   "theorems": [
    "NcDiff.C74_edit_config",
    "NcDiff.C74_xpath",
    "NcDiff.C74_sum",
    "NcDiff.C74_apply",
    "NcDiff.C74_built",
    "NcDiff.C74_filter",
    "NcDiff.C74_extract",
    "NcDiff.C74_models",
    "NcDiff.C74_delta_models",
    "NcDiff.C74_covered",
    "NcDiff.C74_neg",
    "NcDiff.C74_sum_models"
   ],
   "note": "Places are paths of tags from the root (HasPath). Sets and dictionaries are lists; models is sorted, so the order of the set does not matter."
  },
  {
   "property": "C75",
   "status": "proved",
   "theorems": [
    "NcDiff.C75_correct",
    "NcDiff.C75_files",
    "NcDiff.C75_complete",
    "NcDiff.C75_progress",
    "NcDiff.C75_heals",
    "NcDiff.C75_mixed"
   ],
   "note": "The YANG files do not change. The compiler, the serialisation and the parser are arbitrary, with the hypotheses Robust and Deterministic; C75_mixed shows that Deterministic is needed. In the code the order of some elements of a compiled file follows the order of a set of strings, so that Deterministic holds for processes with the same seed of the hash function (PYTHONHASHSEED) or for modules without imports."
  },
  {
   "property": "C76",
   "status": "proved",
   "theorems": [
    "NcDiff.Compile.C76_total",
    "NcDiff.Compile.C76_associative",
    "NcDiff.Compile.C76_upper",
    "NcDiff.Compile.C76_least",
    "NcDiff.Compile.C76_absorbs",
    "NcDiff.Compile.C76_commutes",
    "NcDiff.Compile.C76_keeps"
   ],
   "note": "All hypotheses are about statements of YANG modules and documents (as in C65). Choices are allowed below the top of a module; a sum may then have nodes of several cases. Lists that are ordered by the user are not covered."
  },
  {
   "property": "C77",
   "status": "proved",
   "theorems": [
    "NcDiff.Statement.C77_spelled",
    "NcDiff.Statement.C77_reads",
    "NcDiff.Statement.C77_same_path",
    "NcDiff.Statement.C77_same_node",
    "NcDiff.Statement.C77_selects",
    "NcDiff.Statement.C77_missing",
    "NcDiff.Statement.C77_unknown",
    "NcDiff.Statement.C77_config",
    "NcDiff.SchemaPathDemo.C77_false_documented",
    "NcDiff.SchemaPathDemo.C77_false_choice"
   ],
   "note": "Names are YANG identifiers, namespaces are unique, URLs have no closing brace. Nodes below a root that two loaded models have are attributed to the model that was loaded last; C77_same_node is about nodes of the model that the device attributes the root to. The last two theorems are the counterexamples that the statement mentions."
  },
  {
   "property": "C78",
   "status": "proved",
   "theorems": [
    "NcDiff.C78_only_changes",
    "NcDiff.C78_cases",
    "NcDiff.C78_untouched",
    "NcDiff.C78_equal"
   ],
   "note": "For pairs of plain configs as in C15 and C14 (any order of entries); C78_cases for pairs that change cases of choices as in C61. C78_untouched and C78_equal are for preferred_replace='merge' and diff types other than 'replace'."
  },
  {
   "property": "C79",
   "status": "proved",
   "theorems": [
    "NcDiff.Compile.C79_server",
    "NcDiff.Compile.C79_cases",
    "NcDiff.Compile.C79_undisturbed",
    "NcDiff.Compile.C79_history",
    "NcDiff.Compile.C79_modules"
   ],
   "note": "The device is the server of C68 (C79_cases: C70) with the statements of further modules, at the top and at any depth; no case is added to a choice of a loaded model. C79_undisturbed is for preferred_replace='merge' and diff types other than 'replace', and for modules without choices."
  },
  {
   "property": "C80",
   "status": "proved",
   "theorems": [
    "NcDiff.InstId.C80_convert",
    "NcDiff.InstId.C80_same_text",
    "NcDiff.InstId.C80_readings",
    "NcDiff.InstId.C80_refused",
    "NcDiff.RefDemo.C80_false_for_marks_at_the_end"
   ],
   "note": "XPath 2.0 reading of literals; C32 is the reading of XPath 1.0. C80_readings: they agree where the mark is not inside. Restrictions on names as in C32."
  },
  {
   "property": "C81",
   "status": "proved",
   "theorems": [
    "NcDiff.C81_untouched",
    "NcDiff.C81_local",
    "NcDiff.C81_commute",
    "NcDiff.C81_accepted",
    "NcDiff.C81_same_error",
    "NcDiff.C81_parts",
    "NcDiff.C81_parts_eq",
    "NcDiff.Demo.Apart81.C81_emptied"
   ],
   "note": "C81_emptied is the counterexample when deltas may empty a container that both go into."
  },
  {
   "property": "C82",
   "status": "proved",
   "theorems": [
    "NcDiff.C82_three_way",
    "NcDiff.C82_either_order",
    "NcDiff.Demo.ThreeWay82.C82_false_for_conflicts"
   ],
   "note": "C82_false_for_conflicts shows why changes of the same names are excluded."
  },
  {
   "property": "C83",
   "status": "proved",
   "theorems": [
    "NcDiff.C83_merge_at_all_levels",
    "NcDiff.C83_either_order"
   ],
   "note": "Where both sides have changed a container or list entry, ordered-by-user lists and leaf-lists in it are the same on both sides (C82 has no such condition below the top). C82_false_for_conflicts shows that conflicting changes are refused."
  },
  {
   "property": "C84",
   "status": "proved",
   "theorems": [
    "NcDiff.Compile.C84_outdated_delta",
    "NcDiff.Compile.C84_either_order",
    "NcDiff.Clients84.C84_false_with_replace"
   ],
   "note": "Same conditions on the changes as C83, and those of C68 on modules and server. The first delta may have any options in C84_outdated_delta. C84_false_with_replace shows why deltas that replace are left out."
  },
  {
   "property": "C85",
   "status": "proved",
   "theorems": [
    "NcDiff.Report.C85_shows_nodes",
    "NcDiff.Report.C85_tells",
    "NcDiff.Report.C85_same_parts",
    "NcDiff.Report.C85_own_prefixes",
    "NcDiff.Report85.C85_clash_hides_node"
   ],
   "note": "XPath as in Spec/XPath.lean (location paths with predicates). C85_clash_hides_node shows why clashes of prefixes are excluded in C85_own_prefixes."
  },
  {
   "property": "C86",
   "status": "proved",
   "theorems": [
    "NcDiff.Find.C86_relative",
    "NcDiff.Find.C86_absolute",
    "NcDiff.Find.C86_every_node",
    "NcDiff.Find.C86_config_as_help",
    "NcDiff.Find86.C86_help_not_understood"
   ],
   "note": "XPath as in Spec/XPath.lean (location paths with predicates). C86_help_not_understood is the counterexample for configs with namespaces of no module: the docstring of Config.xpath says that self.ns is used, the code uses the namespaces of the device."
  },
  {
   "property": "C87",
   "status": "proved",
   "theorems": [
    "NcDiff.Running.C87_history",
    "NcDiff.Running.C87_looks_only",
    "NcDiff.Running.C87_equal_lines",
    "NcDiff.Running.C87_equal_diffs",
    "NcDiff.Running.C87_equivalence",
    "NcDiff.Object87.C87_assigned_too_late",
    "NcDiff.Object87.C87_equal_but_other_commands"
   ],
   "note": "Lists that are returned are values: a caller who changes one in place is not modelled. C87_assigned_too_late and C87_equal_but_other_commands are the negative parts of the statement."
  },
  {
   "property": "C88",
   "status": "proved",
   "theorems": [
    "NcDiff.Running.C88_nothing_lost",
    "NcDiff.Running.C88_unchanged",
    "NcDiff.Running.C88_as_meant",
    "NcDiff.Running.C88_diff",
    "NcDiff.Hoist88.C88_not_reached"
   ],
   "note": "The tables have one pattern for siblings, as the table of the code has; C88_nothing_lost holds for any number. C88_not_reached is the negative part of the statement."
  },
  {
   "property": "C89",
   "status": "proved",
   "theorems": [
    "NcDiff.Running.C89_idle",
    "NcDiff.Running.C89_silent",
    "NcDiff.Running.C89_trailing",
    "NcDiff.Running.C89_answers",
    "NcDiff.Running.C89_answers_silent",
    "NcDiff.Running.C89_answers_trailing",
    "NcDiff.Layout89.C89_end_of_block_counts",
    "NcDiff.Layout89.C89_blank_after_client"
   ],
   "note": "C89_answers leaves lines with nothing but ! in the texts and has no condition; C89_answers_silent leaves them out too, for texts without client lines that are not indented. C89_end_of_block_counts and C89_blank_after_client are the negative parts of the statement."
  },
  {
   "property": "C90",
   "status": "proved",
   "theorems": [
    "NcDiff.Running.C90_read",
    "NcDiff.Running.C90_lines",
    "NcDiff.Running.C90_answers",
    "NcDiff.Running.C90_every_width",
    "NcDiff.Width90.C90_ragged"
   ],
   "note": "Texts with client lines are not covered here (C56, C88 and C89 speak of them). C90_ragged is the negative part of the statement."
  },
  {
   "property": "C91",
   "status": "proved",
   "theorems": [
    "NcDiff.Running.C91_line_by_line",
    "NcDiff.Running.C91_cisco",
    "NcDiff.Running.C91_other_lines",
    "NcDiff.Running.C91_line_ends",
    "NcDiff.Running.C91_texts",
    "NcDiff.Replace91.C91_inside_a_word"
   ],
   "note": "C91_texts is C90 for texts in which nothing is replaced. C91_inside_a_word is the negative part of the statement."
  }
 ]
}