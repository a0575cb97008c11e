import Verif.Props.Compare
import Verif.Props.Sum
import Verif.Props.Delta
import Verif.Props.Running
import Verif.Props.Text
import Verif.Props.Trim
import Verif.Props.RoundTrip
import Verif.Props.Merge
import Verif.Props.Tree
import Verif.Props.Insert
import Verif.Props.Tags
import Verif.Props.Store
import Verif.Props.Download
import Verif.Props.Ref
import Verif.Props.ModelDiff
import Verif.Props.Context
import Verif.Props.Identity
import Verif.Props.Replace
import Verif.Props.Prefer
import Verif.Props.Validate
import Verif.Props.KeyOrder
import Verif.Props.XPath
import Verif.Props.Compat
import Verif.Props.Compile
import Verif.Props.Printed
import Verif.Props.Send
import Verif.Props.Statement
import Verif.Props.Show
import Verif.Props.Offer
import Verif.Props.Cache
import Verif.Props.Objects
import Verif.Props.Lines
import Verif.Props.Types
import Verif.Props.StandIn
import Verif.Props.DeltaObj
import Verif.Props.Exact
import Verif.Props.Choice
import Verif.Props.Regex
import Verif.Props.YangParse
import Verif.Props.Refused
import Verif.Props.Yang
import Verif.Props.KeyNames
import Verif.Props.Meaning
import Verif.Props.Server
import Verif.Props.Overwrite
import Verif.Props.Cases
import Verif.Props.SameNodes
import Verif.Props.Vocabulary
import Verif.Props.Explicit
import Verif.Props.Reported
import Verif.Props.Kinds
import Verif.Props.Roots
import Verif.Props.Shared
import Verif.Props.MergeLaws
import Verif.Props.SchemaPath
import Verif.Props.Minimal
import Verif.Props.Keeps
import Verif.Props.Quotes
import Verif.Props.Apart
import Verif.Props.ThreeWay
import Verif.Props.MergeDeep
import Verif.Props.MergeServer
import Verif.Props.NodeReport
import Verif.Props.Find
import Verif.Props.DiffObject
import Verif.Props.Hoist
import Verif.Props.Layout
import Verif.Props.Width
import Verif.Props.ReplaceLines
/-!
# Axioms used by the property theorems

Printed during the build: at most `propext`, `Classical.choice` and `Quot.sound`.
-/

#print axioms NcDiff.C01_round_trip
#print axioms NcDiff.Demo.C01_false_for_other_case
#print axioms NcDiff.C01_order_kept
#print axioms NcDiff.C01_order_moved
#print axioms NcDiff.Demo.C01_false_for_reordered
#print axioms NcDiff.Demo.C01_false_for_moved_and_new
#print axioms NcDiff.Demo.C01_false_for_apostrophe
#print axioms NcDiff.Demo.C01_false_for_root_leaf_list
#print axioms NcDiff.Demo.C01_false_for_empty_container
#print axioms NcDiff.RefDemo.C01_false_for_prefixes_of_keys
#print axioms NcDiff.C02_eq_equivalence
#print axioms NcDiff.C03_le_partial_order
#print axioms NcDiff.C03_outside
#print axioms NcDiff.C04_eq_iff_rearranged
#print axioms NcDiff.C04_eq_iff_same_instances
#print axioms NcDiff.C05_pairing_partition
#print axioms NcDiff.C06_self_difference
#print axioms NcDiff.C07_falsy_iff_equal
#print axioms NcDiff.C07_empty_edit_config
#print axioms NcDiff.Demo.C07_equal_with_edit_config
#print axioms NcDiff.C08_operations_applied
#print axioms NcDiff.C08_bad_operation_raises
#print axioms NcDiff.C09_unmentioned_untouched
#print axioms NcDiff.C10_merge_is_union
#print axioms NcDiff.C10_idempotent
#print axioms NcDiff.C10_empty_right
#print axioms NcDiff.C10_empty_left
#print axioms NcDiff.Demo.C10_false_for_leaf_list_defaults
#print axioms NcDiff.C11_sum_has_no_attributes
#print axioms NcDiff.C12_sum_valid
#print axioms NcDiff.Demo.C12_false_for_duplicates_in_delta
#print axioms NcDiff.Demo.C12_false_for_deleted_keys
#print axioms NcDiff.RefDemo.C12_false_for_prefixes_of_keys
#print axioms NcDiff.C13_positions
#print axioms NcDiff.C13_new_entry
#print axioms NcDiff.C13_existing_entry
#print axioms NcDiff.C13_bad_insert_raises
#print axioms NcDiff.C14_order_marked
#print axioms NcDiff.Demo.C14_false_for_empty_key
#print axioms NcDiff.Demo.C14_false_for_empty_value
#print axioms NcDiff.C15_deletes_missing
#print axioms NcDiff.C16_trim_sound_idempotent
#print axioms NcDiff.C16_no_default_stays
#print axioms NcDiff.Demo.C16_false_for_keys_with_default
#print axioms NcDiff.C17_filter
#print axioms NcDiff.C17_keys_kept
#print axioms NcDiff.C18_reorder
#print axioms NcDiff.C18_reorder_difference
#print axioms NcDiff.Demo.C18_reordered_delta_fails
#print axioms NcDiff.Running.C19_identical_no_diff
#print axioms NcDiff.Running.Demo.C19_false_with_repeated_lines
#print axioms NcDiff.Running.C20_list_diff_faithful
#print axioms NcDiff.Running.C21_orderless_only_moves
#print axioms NcDiff.Running.Demo.C21_false_with_repeated_lines
#print axioms NcDiff.Running.C22_orderless_order_ignored
#print axioms NcDiff.Running.C23_first_occurrences
#print axioms NcDiff.Running.C23_negative
#print axioms NcDiff.Running.C23_positive
#print axioms NcDiff.Running.C24_negation
#print axioms NcDiff.Running.C24_no_double_negation
#print axioms NcDiff.Running.C25_text_parses_back
#print axioms NcDiff.Running.C25_printed_section_parses_back
#print axioms NcDiff.C26_convert_tag
#print axioms NcDiff.C26_convert_tag_round_trip
#print axioms NcDiff.C26_convert_tag_injective
#print axioms NcDiff.C26_convert_ns
#print axioms NcDiff.C26_convert_ns_round_trip
#print axioms NcDiff.C26_ambiguous_raises
#print axioms NcDiff.C26_unknown_raises
#print axioms NcDiff.TagDemo.C26_redundant_prefix_is_dropped
#print axioms NcDiff.C27_cache_coherent
#print axioms NcDiff.C27_lookups_commute
#print axioms NcDiff.C27_lookup_is_uncached
#print axioms NcDiff.C27_reload_takes_effect
#print axioms NcDiff.C27_load_succeeds
#print axioms NcDiff.Demo.C27_shared_root_is_stale
#print axioms NcDiff.C28_no_ambiguous_prefix
#print axioms NcDiff.C28_covers
#print axioms NcDiff.C28_covers_tags
#print axioms NcDiff.C28_only_declared
#print axioms NcDiff.C28_module_prefix
#print axioms NcDiff.TagDemo.C28_shared_prefix_loses_namespace
#print axioms NcDiff.TagDemo.C28_invented_prefix_collides
#print axioms NcDiff.Download.C29_closure
#print axioms NcDiff.Download.C29_complete
#print axioms NcDiff.Download.C29_no_work_lost
#print axioms NcDiff.Download.C29_terminates
#print axioms NcDiff.Download.Demo.C29_fetched_twice
#print axioms NcDiff.Download.C30_crash_safe
#print axioms NcDiff.Download.C30_returns_complete
#print axioms NcDiff.Download.Demo.C30_force_is_unsafe
#print axioms NcDiff.Download.Demo.C30_changing_device_is_unsafe
#print axioms NcDiff.Download.Demo.C30_lost_request_is_unsafe
#print axioms NcDiff.C31_same_text
#print axioms NcDiff.C31_config
#print axioms NcDiff.C31_copied
#print axioms NcDiff.RefDemo.C31_false_for_list_keys
#print axioms NcDiff.InstId.C32_convert
#print axioms NcDiff.InstId.C32_same_text
#print axioms NcDiff.RefDemo.C32_false_for_positions
#print axioms NcDiff.RefDemo.C32_false_for_dots
#print axioms NcDiff.RefDemo.C32_false_for_apostrophes
#print axioms NcDiff.RefDemo.C32_spaces_raise
#print axioms NcDiff.ModelDiff.C33_total
#print axioms NcDiff.ModelDiff.C33_ambiguous
#print axioms NcDiff.ModelDiff.C33_empty
#print axioms NcDiff.ModelDiff.C33_added
#print axioms NcDiff.ModelDiff.C33_deleted
#print axioms NcDiff.ModelDiff.C33_modified
#print axioms NcDiff.ModelDiff.C33_unmarked
#print axioms NcDiff.ModelDiff.C33_marks
#print axioms NcDiff.ModelDiff.C33_view_none
#print axioms NcDiff.ModelDiff.C33_view
#print axioms NcDiff.ModelDiff.Demo.C33_added_hides_empty_container
#print axioms NcDiff.ModelDiff.Demo.C33_changed_container_unmarked
#print axioms NcDiff.ModelDiff.Demo.C33_collapsed_not_deleted
#print axioms NcDiff.ModelDiff.Demo.C33_added_shows_deleted_in_rpc
#print axioms NcDiff.C34_negation
#print axioms NcDiff.C34_subtract_delta
#print axioms NcDiff.Demo.C34_false_for_preferences
#print axioms NcDiff.C35_read_only_removed
#print axioms NcDiff.Running.C36_commands_reach_target
#print axioms NcDiff.Running.cisco_heads
#print axioms NcDiff.Running.cisco_keep
#print axioms NcDiff.Running.cisco_free
#print axioms NcDiff.Running.Demo.C36_false_with_common_prefix
#print axioms NcDiff.Running.Demo.C36_false_for_secondary_address
#print axioms NcDiff.Context.C37_complete
#print axioms NcDiff.Context.C37_dependencies
#print axioms NcDiff.Context.C37_sound
#print axioms NcDiff.Context.C37_terminates
#print axioms NcDiff.Context.C37_raising_file_hangs
#print axioms NcDiff.Context.Demo.C37_race
#print axioms NcDiff.Context.Demo.C37_same_module_hangs
#print axioms NcDiff.Identity.C38_values
#print axioms NcDiff.Identity.C38_offered
#print axioms NcDiff.Identity.C38_unknown_prefix
#print axioms NcDiff.Identity.Demo.C38_first_of_derived_base_lost
#print axioms NcDiff.Identity.Demo.C38_direct_only
#print axioms NcDiff.Identity.Demo.C38_foreign_base_lost
#print axioms NcDiff.Identity.Demo.C38_depends_on_history
#print axioms NcDiff.C39_replace_shape
#print axioms NcDiff.C39_replace_effect
#print axioms NcDiff.C39_minimum_replace
#print axioms NcDiff.C39_replace_xpath
#print axioms NcDiff.C40_preferences
#print axioms NcDiff.C40_vocabulary
#print axioms NcDiff.C40_vocabulary_default
#print axioms NcDiff.C41_sources
#print axioms NcDiff.C41_foreign
#print axioms NcDiff.C41_accepts
#print axioms NcDiff.C41_result
#print axioms NcDiff.C41_new_config
#print axioms NcDiff.Demo.C41_false_for_outdated_keys
#print axioms NcDiff.Demo.C41_not_found
#print axioms NcDiff.C42_bool
#print axioms NcDiff.C42_given_delta
#print axioms NcDiff.C43_keys_first
#print axioms NcDiff.C43_key_statement
#print axioms NcDiff.Demo.C43_not_sorted
#print axioms NcDiff.C44_selects_node
#print axioms NcDiff.C44_selects_siblings
#print axioms NcDiff.C44_config_xpath
#print axioms NcDiff.C44_root
#print axioms NcDiff.C44_distinct
#print axioms NcDiff.Demo.C44_quotes
#print axioms NcDiff.Demo.C44_none
#print axioms NcDiff.Demo.C44_default_notation
#print axioms NcDiff.Demo.C44_without_root
#print axioms NcDiff.C45_check
#print axioms NcDiff.C45_errors
#print axioms NcDiff.C45_one_device
#print axioms NcDiff.C45_valid
#print axioms NcDiff.C45_compare
#print axioms NcDiff.C45_round_trip
#print axioms NcDiff.Demo.C45_unchecked
#print axioms NcDiff.Demo.C45_ambiguous_key
#print axioms NcDiff.Demo.C45_foreign_identity
#print axioms NcDiff.Demo.C45_no_row
#print axioms NcDiff.C45_sum
#print axioms NcDiff.C45_no_sum
#print axioms NcDiff.Compile.C46_total
#print axioms NcDiff.Compile.C46_nodes
#print axioms NcDiff.Compile.C46_all
#print axioms NcDiff.Compile.C46_read
#print axioms NcDiff.Compile.C46_order
#print axioms NcDiff.Compile.C46_schema
#print axioms NcDiff.Compile.C46_loaded
#print axioms NcDiff.Demo.C46_comma
#print axioms NcDiff.Demo.C46_line_break
#print axioms NcDiff.Demo.C46_leafref_clash
#print axioms NcDiff.Demo.C46_typedef
#print axioms NcDiff.Compile.C47_filter
#print axioms NcDiff.Compile.C47_errors
#print axioms NcDiff.Demo.C47_notification
#print axioms NcDiff.Demo.C47_shared_root
#print axioms NcDiff.Running.C48_lines
#print axioms NcDiff.Running.C48_reading
#print axioms NcDiff.Running.C48_texts
#print axioms NcDiff.Running.Demo.C48_false_with_repeated_lines
#print axioms NcDiff.Send.C49_accepted
#print axioms NcDiff.Send.C49_sent
#print axioms NcDiff.Send.C49_scope
#print axioms NcDiff.Send.C49_other_format
#print axioms NcDiff.Send.Demo.C49_delta_object
#print axioms NcDiff.Send.Demo.C49_second_argument
#print axioms NcDiff.Send.Demo.C49_positional_target
#print axioms NcDiff.Send.Demo.C49_option_order
#print axioms NcDiff.Send.Demo.C49_unprefixed
#print axioms NcDiff.Statement.C50_schema
#print axioms NcDiff.Statement.C50_path
#print axioms NcDiff.Statement.C50_config
#print axioms NcDiff.Statement.C50_below
#print axioms NcDiff.Statement.C50_model_name
#print axioms NcDiff.Demo.C50_not_found
#print axioms NcDiff.Show.C51_model
#print axioms NcDiff.Show.C51_prints
#print axioms NcDiff.Show.C51_drawn
#print axioms NcDiff.Show.C51_same_text
#print axioms NcDiff.Show.C51_names
#print axioms NcDiff.Show.C51_diff_prints
#print axioms NcDiff.Show.C51_diff
#print axioms NcDiff.Show.Demo.C51_dotted_prefix
#print axioms NcDiff.Offer.C52_monitoring
#print axioms NcDiff.Offer.C52_capabilities
#print axioms NcDiff.Offer.C52_library
#print axioms NcDiff.Offer.Demo.C52_library_empty
#print axioms NcDiff.Offer.C52_remembered
#print axioms NcDiff.Offer.C52_load
#print axioms NcDiff.Offer.C52_rows
#print axioms NcDiff.Offer.C52_namespaces
#print axioms NcDiff.Offer.C52_namespaces_kept
#print axioms NcDiff.Offer.Demo.C52_truncated
#print axioms NcDiff.Cache.C53_current
#print axioms NcDiff.Cache.C53_table
#print axioms NcDiff.Cache.C53_same
#print axioms NcDiff.Cache.C53_dependencies
#print axioms NcDiff.Cache.Demo.C53_shared_folder
#print axioms NcDiff.Cache.Demo.C53_edited
#print axioms NcDiff.Objects.C54_call
#print axioms NcDiff.Objects.C54_value
#print axioms NcDiff.Objects.C54_history
#print axioms NcDiff.Objects.C54_stable
#print axioms NcDiff.Objects.C54_new
#print axioms NcDiff.Objects.C54_nc
#print axioms NcDiff.Objects.C54_own
#print axioms NcDiff.Objects.C54_again
#print axioms NcDiff.Objects.Demo.C54_changes_argument
#print axioms NcDiff.Objects.C55_keeps
#print axioms NcDiff.Objects.C55_kinds
#print axioms NcDiff.Objects.C55_commutes
#print axioms NcDiff.Objects.C55_values
#print axioms NcDiff.Running.C56_nothing_invented
#print axioms NcDiff.Running.C56_heard
#print axioms NcDiff.Running.C56_nothing_lost
#print axioms NcDiff.Running.C56_block
#print axioms NcDiff.Running.Demo.C56_lost
#print axioms NcDiff.Running.Demo.C56_heading
#print axioms NcDiff.Types.C57_values
#print axioms NcDiff.Types.C57_fails
#print axioms NcDiff.Types.C57_leaf
#print axioms NcDiff.Types.C57_identity
#print axioms NcDiff.Types.C57_restricted
#print axioms NcDiff.Compile.C46_nodes
#print axioms NcDiff.Types.Demo.C57_limits
#print axioms NcDiff.C58_equal_source
#print axioms NcDiff.C58_history
#print axioms NcDiff.C58_undo
#print axioms NcDiff.Demo.C58_false_for_other_source
#print axioms NcDiff.DeltaObj.C59_construct
#print axioms NcDiff.DeltaObj.C59_errors
#print axioms NcDiff.DeltaObj.C59_nc
#print axioms NcDiff.DeltaObj.C59_generator
#print axioms NcDiff.DeltaObj.C59_history
#print axioms NcDiff.DeltaObj.C59_anew
#print axioms NcDiff.DeltaObj.C59_assigned
#print axioms NcDiff.DeltaObj.C59_preferences
#print axioms NcDiff.DeltaObj.C59_seed
#print axioms NcDiff.DeltaObj.Demo.C59_seed_repeats
#print axioms NcDiff.DeltaObj.Demo.C59_seed_undocumented
#print axioms NcDiff.DeltaObj.Demo.C59_diff_type_unchecked
#print axioms NcDiff.C60_any_order
#print axioms NcDiff.C60_order_exact
#print axioms NcDiff.Demo.C60_false_for_ordered_default
#print axioms NcDiff.C61_change_case
#print axioms NcDiff.C61_cleared
#print axioms NcDiff.Choice.C61_false_for_replace
#print axioms NcDiff.Choice.C61_false_for_nested_choice
#print axioms NcDiff.Regex.C62_orderless
#print axioms NcDiff.Regex.C62_overwritable
#print axioms NcDiff.Regex.C62_overwritable_needs_condition
#print axioms NcDiff.Regex.C62_sibling
#print axioms NcDiff.Regex.C62_comment
#print axioms NcDiff.Regex.C62_tag
#print axioms NcDiff.Regex.C62_capability
#print axioms NcDiff.Regex.C62_prefix
#print axioms NcDiff.Regex.C62_prefix_not_quoted
#print axioms NcDiff.Regex.C62_splitlines
#print axioms NcDiff.Regex.C62_replace
#print axioms NcDiff.Regex.C62_commands
#print axioms NcDiff.Regex.C62_strip
#print axioms NcDiff.Parse.C63_parsed
#print axioms NcDiff.Parse.C63_accepted
#print axioms NcDiff.Parse.C63_total
#print axioms NcDiff.Parse.C63_unique
#print axioms NcDiff.Parse.C63_module
#print axioms NcDiff.Parse.C63_places
#print axioms NcDiff.Parse.C63_comment_ends_before_it_begins
#print axioms NcDiff.Parse.C63_two_comments_before_module
#print axioms NcDiff.C64_applied_iff
#print axioms NcDiff.C64_reason
#print axioms NcDiff.C64_one_kind
#print axioms NcDiff.C64_kinds
#print axioms NcDiff.C64_always
#print axioms NcDiff.Demo.C64_empty_container
#print axioms NcDiff.Compile.C65_accepted
#print axioms NcDiff.Compile.C65_round_trip
#print axioms NcDiff.Compile.C65_simple
#print axioms NcDiff.YangDemo.C65_false_for_top_choice
#print axioms NcDiff.Compile.C66_keys
#print axioms NcDiff.Compile.C66_order
#print axioms NcDiff.Compile.C66_names
#print axioms NcDiff.KeyDemo.C66_false_for_line_break
#print axioms NcDiff.Compile.C67_config
#print axioms NcDiff.Compile.C67_equal
#print axioms NcDiff.Compile.C67_delta
#print axioms NcDiff.MeaningDemo.C67_false_for_case
#print axioms NcDiff.MeaningDemo.C67_false_for_comma
#print axioms NcDiff.MeaningDemo.C67_false_for_empty
#print axioms NcDiff.Compile.C68_server
#print axioms NcDiff.Compile.C68_holds
#print axioms NcDiff.Compile.C68_history
#print axioms NcDiff.ServerDemo.C68_false_for_explicit_default
#print axioms NcDiff.KindsDemo.C68_unspellable
#print axioms NcDiff.Running.C69_positive
#print axioms NcDiff.Running.C69_negative
#print axioms NcDiff.Running.C69_cisco
#print axioms NcDiff.Running.C69_section
#print axioms NcDiff.Running.cisco_apart
#print axioms NcDiff.Running.OverwriteDemo.C69_false_for_secondary_address
#print axioms NcDiff.Running.OverwriteDemo.C69_false_for_bare_address
#print axioms NcDiff.Compile.C70_server
#print axioms NcDiff.Compile.C70_holds
#print axioms NcDiff.Compile.C70_history
#print axioms NcDiff.Compile.C70_without_choices
#print axioms NcDiff.CasesDemo.C70_needs_removal
#print axioms NcDiff.CasesDemo.C70_false_for_replace
#print axioms NcDiff.CasesDemo.C70_false_for_nested_choice
#print axioms NcDiff.Compile.C71_any_order
#print axioms NcDiff.Compile.C71_any_order_plain
#print axioms NcDiff.Compile.C71_random
#print axioms NcDiff.OrderDemo.C71_false_for_user_order
#print axioms NcDiff.Compile.C72_server
#print axioms NcDiff.Compile.C72_exchange
#print axioms NcDiff.Compile.C72_history
#print axioms NcDiff.ServerDemo.C68_false_for_explicit_default
#print axioms NcDiff.ServerDemo.Given.C72_false_for_leafList
#print axioms NcDiff.Compile.C73_loop
#print axioms NcDiff.Compile.C73_loop_plain
#print axioms NcDiff.Compile.C73_session
#print axioms NcDiff.C74_edit_config
#print axioms NcDiff.C74_xpath
#print axioms NcDiff.C74_sum
#print axioms NcDiff.C74_apply
#print axioms NcDiff.C74_built
#print axioms NcDiff.C74_filter
#print axioms NcDiff.C74_extract
#print axioms NcDiff.C74_models
#print axioms NcDiff.C74_delta_models
#print axioms NcDiff.C74_covered
#print axioms NcDiff.C74_neg
#print axioms NcDiff.C74_sum_models
#print axioms NcDiff.C75_correct
#print axioms NcDiff.C75_files
#print axioms NcDiff.C75_complete
#print axioms NcDiff.C75_progress
#print axioms NcDiff.C75_heals
#print axioms NcDiff.C75_mixed
#print axioms NcDiff.Compile.C76_total
#print axioms NcDiff.Compile.C76_associative
#print axioms NcDiff.Compile.C76_upper
#print axioms NcDiff.Compile.C76_least
#print axioms NcDiff.Compile.C76_absorbs
#print axioms NcDiff.Compile.C76_commutes
#print axioms NcDiff.Compile.C76_keeps
#print axioms NcDiff.Statement.C77_spelled
#print axioms NcDiff.Statement.C77_reads
#print axioms NcDiff.Statement.C77_same_path
#print axioms NcDiff.Statement.C77_same_node
#print axioms NcDiff.Statement.C77_selects
#print axioms NcDiff.Statement.C77_missing
#print axioms NcDiff.Statement.C77_unknown
#print axioms NcDiff.Statement.C77_config
#print axioms NcDiff.SchemaPathDemo.C77_false_documented
#print axioms NcDiff.SchemaPathDemo.C77_false_choice
#print axioms NcDiff.C78_only_changes
#print axioms NcDiff.C78_cases
#print axioms NcDiff.C78_untouched
#print axioms NcDiff.C78_equal
#print axioms NcDiff.Compile.C79_server
#print axioms NcDiff.Compile.C79_cases
#print axioms NcDiff.Compile.C79_undisturbed
#print axioms NcDiff.Compile.C79_history
#print axioms NcDiff.Compile.C79_modules
#print axioms NcDiff.InstId.C80_convert
#print axioms NcDiff.InstId.C80_same_text
#print axioms NcDiff.InstId.C80_readings
#print axioms NcDiff.InstId.C80_refused
#print axioms NcDiff.RefDemo.C80_false_for_marks_at_the_end
#print axioms NcDiff.C81_untouched
#print axioms NcDiff.C81_local
#print axioms NcDiff.C81_commute
#print axioms NcDiff.C81_accepted
#print axioms NcDiff.C81_same_error
#print axioms NcDiff.C81_parts
#print axioms NcDiff.C81_parts_eq
#print axioms NcDiff.Demo.Apart81.C81_emptied
#print axioms NcDiff.C82_three_way
#print axioms NcDiff.C82_either_order
#print axioms NcDiff.Demo.ThreeWay82.C82_false_for_conflicts
#print axioms NcDiff.C83_merge_at_all_levels
#print axioms NcDiff.C83_either_order
#print axioms NcDiff.Compile.C84_outdated_delta
#print axioms NcDiff.Compile.C84_either_order
#print axioms NcDiff.Clients84.C84_false_with_replace
#print axioms NcDiff.Report.C85_shows_nodes
#print axioms NcDiff.Report.C85_tells
#print axioms NcDiff.Report.C85_same_parts
#print axioms NcDiff.Report.C85_own_prefixes
#print axioms NcDiff.Report85.C85_clash_hides_node
#print axioms NcDiff.Find.C86_relative
#print axioms NcDiff.Find.C86_absolute
#print axioms NcDiff.Find.C86_every_node
#print axioms NcDiff.Find.C86_config_as_help
#print axioms NcDiff.Find86.C86_help_not_understood
#print axioms NcDiff.Running.C87_history
#print axioms NcDiff.Running.C87_looks_only
#print axioms NcDiff.Running.C87_equal_lines
#print axioms NcDiff.Running.C87_equal_diffs
#print axioms NcDiff.Running.C87_equivalence
#print axioms NcDiff.Object87.C87_assigned_too_late
#print axioms NcDiff.Object87.C87_equal_but_other_commands
#print axioms NcDiff.Running.C88_nothing_lost
#print axioms NcDiff.Running.C88_unchanged
#print axioms NcDiff.Running.C88_as_meant
#print axioms NcDiff.Running.C88_diff
#print axioms NcDiff.Hoist88.C88_not_reached
#print axioms NcDiff.Running.C89_idle
#print axioms NcDiff.Running.C89_silent
#print axioms NcDiff.Running.C89_trailing
#print axioms NcDiff.Running.C89_answers
#print axioms NcDiff.Running.C89_answers_silent
#print axioms NcDiff.Running.C89_answers_trailing
#print axioms NcDiff.Layout89.C89_end_of_block_counts
#print axioms NcDiff.Layout89.C89_blank_after_client
#print axioms NcDiff.Running.C90_read
#print axioms NcDiff.Running.C90_lines
#print axioms NcDiff.Running.C90_answers
#print axioms NcDiff.Running.C90_every_width
#print axioms NcDiff.Width90.C90_ragged
#print axioms NcDiff.Running.C91_line_by_line
#print axioms NcDiff.Running.C91_cisco
#print axioms NcDiff.Running.C91_other_lines
#print axioms NcDiff.Running.C91_line_ends
#print axioms NcDiff.Running.C91_texts
#print axioms NcDiff.Replace91.C91_inside_a_word
