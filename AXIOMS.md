# Axioms

What `#print axioms` says of every theorem listed in MANIFEST.json (made by tools/axioms.py).

## Classical.choice, Quot.sound, propext (386)

`Rudy.Address.C01_query_absolute_exact`, `Rudy.Address.C02_query_relative_exact`, `Rudy.Address.C03_query_range_absolute_exact`, `Rudy.Address.C03_query_range_relative_exact`, `Rudy.Address.C04_query_order_independent`, `Rudy.Address.C04_query_range_order_independent`, `Rudy.Symbols.C05_nearest_is_greatest`, `Rudy.Symbols.C05_none_iff`, `Rudy.Symbols.C06_get_function_last_wins`, `Rudy.Symbols.C06_lookup_name_none_iff`, `Rudy.Symbols.C06_lookup_name_sound`, `Rudy.Symbols.C06_lookup_name_complete`, `Rudy.Symbols.C06_symbols_by_file_last_wins`, `Rudy.Symbols.C06_find_closest_sound`, `Rudy.Symbols.C06_find_closest_complete`, `Rudy.Symbols.C06_closest_path_iff`, `Rudy.Resolve.C07_answer_is_closest`, `Rudy.Resolve.C07_none_iff`, `Rudy.Resolve.C07_exact_line_preferred`, `Rudy.Resolve.C07_no_panic`, `Rudy.Resolve.C08_range_is_hull`, `Rudy.Resolve.C09_distance_bound`, `Rudy.Symbols.C11_split_exact_partial`, `Rudy.Symbols.C11_roundtrip`, `Rudy.Symbols.C11_roundtrip_hash`, `Rudy.Symbols.C11_no_empty_segment_partial`, `Rudy.Symbols.C11_display_drops_hash`, `Rudy.Symbols.C12_legacy_hash_recognised`, `Rudy.Symbols.C13_symbol_order_lawful`, `Rudy.Symbols.C13_symbol_order_eq_iff`, `Rudy.Symbols.C13_type_order_lawful`, `Rudy.Expr.C15_no_panic_partial`, `Rudy.Expr.C16_round_trip_partial`, `Rudy.Expr.C16_grammar_complete`, `Rudy.Expr.C16_string_literal`, `Rudy.Expr.C17_prefix_partial`, `Rudy.Expr.C17_trailing_word_fails`, `Rudy.Expr.C18_decimal`, `Rudy.Expr.C18_hexadecimal`, `Rudy.Expr.C18_in_context`, `Rudy.Data.C19_reflexive`, `Rudy.Data.C19_antisymmetric`, `Rudy.Data.C19_transitive`, `Rudy.Data.C19_lt_transitive`, `Rudy.Data.C19_eq_iff_partial`, `Rudy.Data.C19_equal_pointers_fails`, `Rudy.Layout.C21_reflexive`, `Rudy.Layout.C21_same_location`, `Rudy.Layout.C21_not_transitive_fails`, `Rudy.Layout.C21_identifies_different_types_fails`, `Rudy.Data.C22_unsigned`, `Rudy.Data.C22_signed`, `Rudy.Data.C22_every_memory`, `Rudy.Data.C22_unsupported`, `Rudy.Data.C22_char`, `Rudy.Data.C23_field_access`, `Rudy.Data.C23_access_is_shown`, `Rudy.Data.C23_struct_fields`, `Rudy.Data.C23_field_order`, `Rudy.Data.C24_array`, `Rudy.Data.C24_array_reads`, `Rudy.Data.C24_vec`, `Rudy.Data.C24_vec_reads`, `Rudy.Data.C24_slice`, `Rudy.Data.C24_slice_reads`, `Rudy.Data.C24_string`, `Rudy.Data.C24_str_slice`, `Rudy.Data.C25_unit_variant`, `Rudy.Data.C25_struct_variant`, `Rudy.Data.C25_tuple_variant`, `Rudy.Data.C25_no_variant`, `Rudy.Data.C25_implicit_unit_variant`, `Rudy.Data.C25_implicit_variant`, `Rudy.Data.C25_implicit_no_variant`, `Rudy.Data.C25_single_variant_fails`, `Rudy.Data.C25_unreadable`, `Rudy.Data.C25_tuple_order_partial`, `Rudy.Data.C25_c_enum`, `Rudy.Data.C25_c_enum_no_variant`, `Rudy.Data.C26_complementary`, `Rudy.Data.C26_agreement_partial`, `Rudy.Data.C26_low_byte_fails`, `Rudy.Data.C26_untyped_tag`, `Rudy.Data.C26_niche_value_fails`, `Rudy.Data.C27_only_occupied`, `Rudy.Data.C27_entries`, `Rudy.Data.C28_inorder_partial`, `Rudy.Data.C28_key_order`, `Rudy.Data.C28_zero_sized_fails`, `Rudy.Data.C28_height_first_fails`, `Rudy.Data.C28_user_types_fails`, `Rudy.Data.C29_bounds`, `Rudy.Data.C29_slices_fail`, `Rudy.Data.C29_alias_elements_fail`, `Rudy.Data.C30_text_keys_partial`, `Rudy.Data.C31_str_reads_back`, `Rudy.Data.C31_str_stays_inside_partial`, `Rudy.Data.C31_offset_16_fails`, `Rudy.Data.C31_str_succeeds`, `Rudy.Data.C31_string_partial`, `Rudy.Data.C32_vec`, `Rudy.Data.C32_capacity`, `Rudy.Data.C32_slice`, `Rudy.Data.C32_array`, `Rudy.Data.C32_string`, `Rudy.Data.C32_string_capacity`, `Rudy.Data.C32_str_slice`, `Rudy.Data.C32_result_complementary`, `Rudy.Data.C32_result_tag_fails`, `Rudy.Data.C32_result_exact`, `Rudy.Data.C32_advertised_evaluates`, `Rudy.Data.C32_others_are_errors`, `Rudy.Vars.C33_variables_collected`, `Rudy.Vars.C33_one_crash_hides_all_fails`, `Rudy.Vars.C33_unique_name_found_partial`, `Rudy.Vars.C33_unknown_name`, `Rudy.Vars.C33_found_is_variable`, `Rudy.Vars.C33_listing_exact`, `Rudy.Vars.C33_listing_agrees_partial`, `Rudy.Vars.C33_first_binding_wins_fails`, `Rudy.Eval.C34_shallow_complete`, `Rudy.Server.C35_dialogue_partial`, `Rudy.Server.C35_count_partial`, `Rudy.Server.C35_ends_partial`, `Rudy.Server.C36_shutdown_lost_fails`, `Rudy.Eval.C37_once_partial`, `Rudy.Remap.C38_remapped_twice_fails`, `Rudy.Modules.C39_entry_in_its_module`, `Rudy.Modules.C39_offset_in_module_of_last_entry`, `Rudy.Modules.C39_offset_outside_units`, `Rudy.Modules.C39_module_entry_partial`, `Rudy.Modules.C39_find_by_path`, `Rudy.Modules.C39_unnamed_namespace_panics`, `Rudy.Discovery.C40_finds_exactly_the_matches`, `Rudy.Discovery.C40_crashes_iff`, `Rudy.Discovery.C40_path_pattern`, `Rudy.Discovery.C40_callable_iff_signature_known`, `Rudy.Discovery.C40_signature_text`, `Rudy.Discovery.C40_all_by_printed_name`, `Rudy.Discovery.C40_all_crashes_iff`, `Rudy.Walker.C42_walk_unit_follows_tree`, `Rudy.Walker.C42_walk_entry_follows_tree`, `Rudy.Walker.C42_visited_in_order`, `Rudy.Walker.C42_visited_exactly_once`, `Rudy.Walker.C42_walk_terminates`, `Rudy.Walker.C42_walk_file_in_order`, `Rudy.Walker.C42_failed_unit_ends_file`, `Rudy.Data.C43_never_panics_partial`, `Rudy.Discovery.C44_listed_are_methods`, `Rudy.Discovery.C44_methods_are_listed`, `Rudy.Discovery.C44_for_type_partial`, `Rudy.Discovery.C44_succeeds`, `Rudy.Discovery.C44_all_grouped_by_first_parameter`, `Rudy.TypeNames.C45_entry_name`, `Rudy.TypeNames.C45_print_parse_partial`, `Rudy.TypeNames.C45_names`, `Rudy.TypeNames.C45_names_unique`, `Rudy.TypeNames.C45_std_path_or_prelude`, `Rudy.TypeNames.C45_user_type_is_not_std`, `Rudy.TypeNames.C45_type_in_impl`, `Rudy.TypeNames.C45_pointer_print_fails`, `Rudy.TypeNames.C45_unsafe_print_fails`, `Rudy.TypeNames.C45_same_name_fails`, `Rudy.TypeNames.C45_user_type_matches_std_fails`, `Rudy.TypeNames.C45_mut_slice_fails`, `Rudy.Resolve.C46_address_lookup_exact_partial`, `Rudy.Resolve.C46_reported_function_contains_address`, `Rudy.Data.C47_pointer`, `Rudy.Data.C47_box`, `Rudy.Data.C47_rc`, `Rudy.Data.C47_dangling`, `Rudy.FnIndex.C53_by_name`, `Rudy.FnIndex.C53_by_address`, `Rudy.FnIndex.C53_function_found`, `Rudy.FnIndex.C53_units_before_failure_kept`, `Rudy.FnIndex.C53_unit_without_language_fails`, `Rudy.FnIndex.C53_crashes_iff`, `Rudy.FnIndex.C54_found_needs_name_and_code`, `Rudy.FnIndex.C54_method_code_missing_fails`, `Rudy.FnIndex.C54_enclosed_function_missing_fails`, `Rudy.Vars.C55_one_register_parameter_hides_all_fails`, `Rudy.TypeRes.C57_btree_map`, `Rudy.TypeRes.C58_enum_sound`, `Rudy.TypeNames.C61_found`, `Rudy.TypeNames.C61_not_found`, `Rudy.TypeNames.C61_error`, `Rudy.TypeNames.C61_own_name`, `Rudy.TypeNames.C61_no_module_fails`, `Rudy.SourceIndex.C62_known_iff`, `Rudy.SourceIndex.C62_files_of_source`, `Rudy.SourceIndex.C62_other_language_fails`, `Rudy.SourceIndex.C63_debug_file_iff`, `Rudy.SourceIndex.C63_functions_iff`, `Rudy.SourceIndex.C63_no_panic`, `Rudy.SourceIndex.C63_nearest_order_independent`, `Rudy.SourceIndex.C63_duplicate_object_fails`, `Rudy.SourceIndex.C64_chosen_file`, `Rudy.SourceIndex.C64_no_file_iff`, `Rudy.SourceIndex.C64_unique_partial_path`, `Rudy.SourceIndex.C64_answer`, `Rudy.SourceIndex.C64_complete`, `Rudy.SourceIndex.C64_no_panic`, `Rudy.SourceIndex.C65_round_trip_partial`, `Rudy.SourceIndex.C66_searched_iff`, `Rudy.Wire.C67_json`, `Rudy.Wire.C67_to_server`, `Rudy.Wire.C67_to_client`, `Rudy.Wire.C67_injective`, `Rudy.Wire.C67_session`, `Rudy.Wire.C67_wide`, `Rudy.Client.C68_alive_partial`, `Rudy.Client.C68_server_side`, `Rudy.Front.C69_other_target_fails`, `Rudy.Front.C70_expression_partial`, `Rudy.Calls.C71_unambiguous`, `Rudy.Calls.C71_function`, `Rudy.Calls.C71_method`, `Rudy.Calls.C71_answer`, `Rudy.Eval.C72_plain`, `Rudy.Eval.C72_method_count_fails`, `Rudy.Eval.C72_function`, `Rudy.Eval.C72_refused`, `Rudy.Eval.C72_method`, `Rudy.Calls.C73_numbered`, `Rudy.Calls.C73_x86_fails`, `Rudy.Calls.C73_narrow_fails`, `Rudy.Install.C75_numeric`, `Rudy.Install.C75_only`, `Rudy.Shown.C76_shown_partial`, `Rudy.Shown.C76_variable_partial`, `Rudy.Shown.C76_field_partial`, `Rudy.Shown.C76_nested_field_fails`, `Rudy.Shown.C76_local_partial`, `Rudy.Shown.C76_element_partial`, `Rudy.Remote.C77_answered`, `Rudy.Remote.C77_looking`, `Rudy.Remote.C77_no_process`, `Rudy.Remote.C77_read`, `Rudy.Remote.C77_address`, `Rudy.Remote.C77_pc`, `Rudy.Remote.C77_thread`, `Rudy.Remote.C77_base`, `Rudy.Remote.C77_no_frame`, `Rudy.Remote.C77_variable`, `Rudy.Remote.C77_register`, `Rudy.Remote.C77_register_named`, `Rudy.Remote.C77_expression`, `Rudy.Remote.C77_written`, `Rudy.Remote.C77_writes`, `Rudy.Remote.C77_allocated`, `Rudy.Remote.C77_called`, `Rudy.Remote.C77_called_at`, `Rudy.Remote.C77_failed`, `Rudy.Remote.C77_target_partial`, `Rudy.Remote.C77_remote_partial`, `Rudy.Remote.C77_empty_string_fails`, `Rudy.Remote.C77_short_read_fails`, `Rudy.Remote.C77_out_of_memory_fails`, `Rudy.Remote.C77_expression_fails`, `Rudy.Cache.C78_stable`, `Rudy.Cache.C78_not_retried_fails`, `Rudy.Cache.C78_rebuilt_in_lldb_fails`, `Rudy.Sessions.C79_progress`, `Rudy.Sessions.C79_finite`, `Rudy.Autostart.C80_needed`, `Rudy.Autostart.C80_pipe`, `Rudy.Wire.C81_json`, `Rudy.Wire.C81_one_meaning`, `Rudy.Wire.C81_server`, `Rudy.Wire.C81_client`, `Rudy.Shown.C82_function`, `Rudy.Shown.C82_returned_partial`, `Rudy.Shown.C82_method_returned_partial`, `Rudy.Remote.C82_debugger`, `Rudy.Remote.C82_unit_fails`, `Rudy.Shown.C83_distinct`, `Rudy.Shown.C83_shown_partial`, `Rudy.Shown.C83_long_fails`, `Rudy.Listing.C84_functions`, `Rudy.Listing.C84_all_functions`, `Rudy.Listing.C84_functions_error`, `Rudy.Listing.C84_methods_of_place`, `Rudy.Listing.C84_methods_of_place_error`, `Rudy.Listing.C84_methods_of_type`, `Rudy.Listing.C84_methods_of_type_error`, `Rudy.Listing.C84_value`, `Rudy.Listing.C84_value_error`, `Rudy.Listing.C84_crash`, `Rudy.Listing.C84_functions_of_program`, `Rudy.Listing.C84_methods_of_program`, `Rudy.Listing.C84_blank_in_pattern_fails`, `Rudy.TypeText.C85_read_back_partial`, `Rudy.TypeText.C85_same_name_same_type_partial`, `Rudy.TypeText.C85_named_as_in_rust_partial`, `Rudy.TypeText.C85_user_types_partial`, `Rudy.TypeText.C85_arrays_partial`, `Rudy.TypeText.C85_array_part_fails`, `Rudy.Shown.C86_read_partial`, `Rudy.Whole.C86_evaluated`, `Rudy.Whole.C86_referenced`, `Rudy.Whole.C86_place_partial`, `Rudy.Whole.C86_variable_partial`, `Rudy.Whole.C86_local_partial`, `Rudy.Whole.C86_empty_string_fails`, `Rudy.Whole.C87_undisturbed`, `Rudy.Whole.C88_load_address_ignored_fails`, `Rudy.Whole.C88_moved_variable_fails`, `Rudy.Whole.C89_function_any_partial`, `Rudy.Whole.C89_function_partial`, `Rudy.Whole.C89_method_any_partial`, `Rudy.Whole.C89_method_partial`, `Rudy.SourceIndex.C90_found_iff`, `Rudy.SourceIndex.C90_none_iff`, `Rudy.SourceIndex.C90_sound`, `Rudy.SourceIndex.C91_same_index`, `Rudy.TypeNames.C92_no_crash_any`, `Rudy.TypeNames.C92_no_crash`, `Rudy.TypeNames.C92_recognised`, `Rudy.Discovery.C93_accounts_for_every_function_partial`, `Rudy.Discovery.C93_agrees_with_the_listing_partial`, `Rudy.Discovery.C93_crashes_fails`, `Rudy.Declared.C94_found_partial`, `Rudy.Declared.C94_listed_partial`, `Rudy.Declared.C94_rwlock_fails`, `Rudy.Declared.C94_printed_partial`, `Rudy.Declared.C94_session_lost_fails`, `Rudy.Entries.C95_entry`, `Rudy.Entries.C95_children`, `Rudy.Entries.C95_well_formed`, `Rudy.Entries.C95_named`, `Rudy.Entries.C95_unnamed`, `Rudy.Entries.C95_foreign`, `Rudy.Entries.C95_user_type`, `Rudy.Entries.C95_total`, `Rudy.Entries.C95_unnamed_namespace_fails`, `Rudy.Image.C96_opens`, `Rudy.Image.C96_types`, `Rudy.Image.C96_printed_partial`, `Rudy.Image.C96_inside_line_fails`, `Rudy.Image.C97_line_unique`, `Rudy.Image.C97_functions_partial`, `Rudy.Image.C97_rwlock_fails`, `Rudy.Image.C98_variable_index_partial`, `Rudy.Image.C98_variable_key_partial`, `Rudy.Image.C98_place_printed_partial`, `Rudy.Image.C98_reference_fails`, `Rudy.Image.C98_deref_fails`, `Rudy.Image.C98_part_of_field_fails`, `Rudy.Image.C98_own_element_fails`, `Rudy.Image.C98_slice_element_fails`, `Rudy.Image.C98_tuple_fails`, `Rudy.Image.C99_methods_of_variable_partial`, `Rudy.Image.C99_functions_of_type_partial`, `Rudy.Image.C99_enumeration_fails`, `Rudy.Image.C99_methods_of_part_partial`, `Rudy.Image.C100_function_partial`, `Rudy.Image.C100_arity`, `Rudy.Image.C100_unknown`, `Rudy.Image.C100_no_result_fails`, `Rudy.Image.C100_method_partial`, `Rudy.Image.C100_method_unknown`, `Rudy.Image.C100_method_no_result_fails`, `Rudy.Image.C100_method_of_part_partial`, `Rudy.Image.C100_method_of_part_unknown`, `Rudy.Image.C101_no_variable`, `Rudy.Image.C101_missing`, `Rudy.Image.C102_builtin_partial`, `Rudy.Image.C102_arguments`, `Rudy.Image.C102_no_parts`, `Rudy.Image.C102_result_fails`, `Rudy.Image.C103_account_partial`, `Rudy.Image.C103_account_unique`, `Rudy.Image.C103_all_methods_partial`, `Rudy.Image.C103_outside_not_listed`, `Rudy.Image.C103_rwlock_fails`, `Rudy.Image.C104_method_of_part_partial`, `Rudy.Image.C104_method_refused`, `Rudy.Image.C104_function_partial`, `Rudy.Image.C104_method_partial`, `Rudy.Image.C104_refused`, `Rudy.Whole.C105_printed`, `Rudy.Whole.C105_agree`, `Rudy.Image.C106_inside_partial`, `Rudy.Image.C107_agrees_partial`, `Rudy.Image.C107_text`, `Rudy.Image.C107_none_fails`

## Quot.sound, propext (164)

`Rudy.Address.C01_built_exists`, `Rudy.Resolve.C07_dwarf5_file_numbers_fail`, `Rudy.Resolve.C08_registered_length`, `Rudy.Resolve.C08_register_total`, `Rudy.Resolve.C08_absolute_round_trip`, `Rudy.Resolve.C08_relative_round_trip`, `Rudy.Resolve.C09_global_minimum`, `Rudy.Resolve.C09_answers_iff`, `Rudy.Symbols.C12_hash_rule_partial`, `Rudy.Symbols.C14_match_iff_suffix`, `Rudy.Symbols.C14_match_monotone`, `Rudy.Symbols.C14_empty_module`, `Rudy.Expr.C15_non_ascii_string_fails`, `Rudy.Data.C19_kind_order`, `Rudy.Layout.C20_nested_array_size`, `Rudy.Layout.C20_size_no_panic_partial`, `Rudy.Layout.C21_symmetric`, `Rudy.Layout.C21_alias_matches_by_name`, `Rudy.Layout.C21_match_iff_same_shape_partial`, `Rudy.Layout.C21_transitive_partial`, `Rudy.Layout.C21_distinguishes`, `Rudy.Layout.C21_dereferenced_is_not_reference`, `Rudy.Data.C22_touches_only_its_bytes`, `Rudy.Data.C29_array_partial`, `Rudy.Data.C29_vec_partial`, `Rudy.Data.C30_returns_an_entry`, `Rudy.Data.C32_only_advertised`, `Rudy.Vars.C33_reported`, `Rudy.Eval.C34_plain_unchanged`, `Rudy.Server.C35_panic_fails`, `Rudy.Server.C36_bad_line`, `Rudy.Server.C36_bad_line_later`, `Rudy.Eval.C37_nested_calls_fail`, `Rudy.Remap.C38_unmapped_unchanged`, `Rudy.Remap.C38_first_mapping_rewrites_partial`, `Rudy.Remap.C38_whole_components`, `Rudy.Remap.C38_empty_source`, `Rudy.Remap.C38_dot_source`, `Rudy.Remap.C38_mappings_chain_fails`, `Rudy.Remap.C38_checked_file_is_read_partial`, `Rudy.Modules.C39_last_module_entry_fails`, `Rudy.Discovery.C40_bad_pattern_is_an_error`, `Rudy.Discovery.C40_exact_first_fails`, `Rudy.Discovery.C40_fuzzy_fails`, `Rudy.Discovery.C40_all_loses_instances_fails`, `Rudy.Discovery.C40_untyped_parameter_fails`, `Rudy.Parse.C41_first_matching_child`, `Rudy.Parse.C41_patterns_independent`, `Rudy.Parse.C41_groups_independent`, `Rudy.Parse.C41_missing_child`, `Rudy.Parse.C41_every_child_understood`, `Rudy.Parse.C41_member_by_name`, `Rudy.Parse.C41_field_path`, `Rudy.Parse.C41_field_path_overflow_panics`, `Rudy.Discovery.C44_one_bad_method_fails`, `Rudy.Discovery.C44_unreadable_type_fails`, `Rudy.Discovery.C44_c_enum_methods_fails`, `Rudy.Discovery.C44_boxed_self_fails`, `Rudy.Discovery.C44_impl_elsewhere_fails`, `Rudy.Discovery.C44_listed_twice_fails`, `Rudy.Discovery.C44_trait_name_fails`, `Rudy.Discovery.C44_trait_name_is_first_segment_fails`, `Rudy.Discovery.C44_free_function_listed_fails`, `Rudy.Resolve.C46_complete_fails`, `Rudy.Eval.C49_no_side_effects`, `Rudy.Eval.C50_variable_key`, `Rudy.Eval.C50_variable_index`, `Rudy.Eval.C51_one_frame`, `Rudy.Remap.C56_absolute_directory`, `Rudy.Remap.C56_relative_directory`, `Rudy.Remap.C56_absolute_name_fails`, `Rudy.TypeRes.C57_vec`, `Rudy.TypeRes.C57_string`, `Rudy.TypeRes.C57_hash_map`, `Rudy.TypeRes.C57_option`, `Rudy.TypeRes.C57_result`, `Rudy.TypeRes.C57_box`, `Rudy.TypeRes.C57_cell`, `Rudy.TypeRes.C57_unsafe_cell`, `Rudy.TypeRes.C57_rc`, `Rudy.TypeRes.C57_index_map_fails`, `Rudy.TypeRes.C58_struct`, `Rudy.TypeRes.C58_tuple`, `Rudy.TypeRes.C58_array`, `Rudy.TypeRes.C58_pointer`, `Rudy.TypeRes.C58_slice`, `Rudy.TypeRes.C58_str`, `Rudy.TypeRes.C58_c_enum`, `Rudy.TypeRes.C58_enum_complete`, `Rudy.TypeRes.C58_enum_variant_lost_fails`, `Rudy.TypeRes.C58_function`, `Rudy.TypeRes.C58_subroutine`, `Rudy.TypeRes.C58_function_pointer_fails`, `Rudy.TypeRes.C58_subroutine_return_fails`, `Rudy.TypeRes.C59_depth_independent`, `Rudy.TypeRes.C59_unique`, `Rudy.TypeRes.C59_cyclic_pointer_fails`, `Rudy.TypeRes.C59_user_types_stop`, `Rudy.TypeRes.C60_discriminant_offset_fails`, `Rudy.TypeRes.C60_discriminant_partial`, `Rudy.TypeRes.C60_no_discriminant`, `Rudy.TypeRes.C60_variant_offset_panics`, `Rudy.TypeNames.C61_split_where`, `Rudy.SourceIndex.C63_order_fails`, `Rudy.SourceIndex.C64_row_iff`, `Rudy.SourceIndex.C64_ambiguous_fails`, `Rudy.SourceIndex.C64_second_column_fails`, `Rudy.SourceIndex.C65_shared_address_fails`, `Rudy.SourceIndex.C66_no_workspace_fails`, `Rudy.SourceIndex.C66_nearest_manifest`, `Rudy.SourceIndex.C66_member_fails`, `Rudy.Wire.C67_one_line`, `Rudy.Client.C68_one_in_flight`, `Rudy.Client.C68_interrupt_ends_fails`, `Rudy.Front.C69_same_binary_partial`, `Rudy.Front.C70_words`, `Rudy.Front.C70_plain`, `Rudy.Front.C70_usage`, `Rudy.Eval.C72_sent_partial`, `Rudy.Eval.C72_types_fail`, `Rudy.Calls.C73_index`, `Rudy.Calls.C73_name`, `Rudy.Install.C74_installed`, `Rudy.Install.C74_cancelled`, `Rudy.Install.C74_declined`, `Rudy.Install.C74_history`, `Rudy.Install.C74_again`, `Rudy.Install.C74_source`, `Rudy.Install.C74_own_line_partial`, `Rudy.Install.C74_glued_fails`, `Rudy.Install.C74_commented_fails`, `Rudy.Install.C75_name_fails`, `Rudy.Cache.C78_new_session_sees_new_build`, `Rudy.Cache.C78_numbers_are_new`, `Rudy.Cache.C78_independent`, `Rudy.Sessions.C79_alone`, `Rudy.Sessions.C79_response`, `Rudy.Sessions.C79_independent`, `Rudy.Sessions.C79_stop`, `Rudy.Sessions.C79_shutdown_fails`, `Rudy.Sessions.C79_accept_fails`, `Rudy.Autostart.C80_outcome`, `Rudy.Autostart.C80_nothing_left`, `Rudy.Autostart.C80_setting`, `Rudy.Autostart.C80_slow_fails`, `Rudy.Autostart.C80_pipe_fails`, `Rudy.Shown.C83_lines`, `Rudy.TypeText.C85_same_name_fails`, `Rudy.Whole.C87_command`, `Rudy.Whole.C87_session`, `Rudy.Whole.C88_base_not_asked_fails`, `Rudy.SourceIndex.C91_underscore`, `Rudy.SourceIndex.C91_as_it_is`, `Rudy.TypeNames.C92_braces_refused`, `Rudy.Discovery.C93_instances_share_an_entry_fails`, `Rudy.Declared.C94_position`, `Rudy.Declared.C94_variable_read`, `Rudy.Declared.C94_crash`, `Rudy.Declared.C94_unlisted_file_fails`, `Rudy.Declared.C94_signatures_agree`, `Rudy.Image.C99_unnamed_parameter_fails`, `Rudy.Image.C99_boxed_self_fails`, `Rudy.Shown.C105_shown`, `Rudy.Shown.C105_less`

## none (3)

`Rudy.Resolve.C10_first_result_fails`, `Rudy.Autostart.C80_address`, `Rudy.Shown.C83_crlf_fails`

## propext (92)

`Rudy.Resolve.C07_address_to_location_of_row`, `Rudy.Resolve.C07_location_is_a_row`, `Rudy.Resolve.C10_returns_last`, `Rudy.Resolve.C10_first_if_single_partial`, `Rudy.Symbols.C11_empty_segment_possible`, `Rudy.Symbols.C11_arrow_is_not_a_bracket_fails`, `Rudy.Symbols.C12_only_hashes_dropped_fails`, `Rudy.Symbols.C12_plain_name_rejected`, `Rudy.Expr.C15_non_ascii_space_fails`, `Rudy.Expr.C16_non_ascii_fails`, `Rudy.Layout.C20_array_size`, `Rudy.Layout.C20_array_unknown`, `Rudy.Layout.C20_abi_size`, `Rudy.Layout.C20_size_total_fails`, `Rudy.Layout.C20_cell_size_ignores_contents`, `Rudy.Data.C22_every_number`, `Rudy.Data.C22_bool`, `Rudy.Data.C23_reads_no_memory`, `Rudy.Data.C24_cell_stride_fails`, `Rudy.Data.C25_tuple_order_fails`, `Rudy.Data.C30_quoted_keys_fail`, `Rudy.Data.C31_only_strings`, `Rudy.Vars.C33_shadowed_local_fails`, `Rudy.Vars.C33_undeclared_local_fails`, `Rudy.Eval.C34_terminates`, `Rudy.Eval.C34_bounded_depth`, `Rudy.Server.C36_first_line_fails`, `Rudy.Server.C36_command_during_event_fails`, `Rudy.Parse.C41_every_matching_child`, `Rudy.Parse.C41_optional`, `Rudy.Walker.C42_walk_no_panic`, `Rudy.Walker.C42_leading_null_panics`, `Rudy.Walker.C42_root_not_a_unit_refused`, `Rudy.Data.C43_vec_length_fails`, `Rudy.Data.C43_hashmap_mask_fails`, `Rudy.Data.C43_hashmap_ctrl_fails`, `Rudy.Data.C43_rc_pointer_fails`, `Rudy.Data.C43_unimplemented_fails`, `Rudy.Data.C43_unresolved_fails`, `Rudy.Data.C43_short_read_fails`, `Rudy.TypeNames.C45_shim_print_fails`, `Rudy.Data.C47_mutex`, `Rudy.Data.C47_alias`, `Rudy.Data.C47_cell_fails`, `Rudy.Eval.C48_outer_partial`, `Rudy.Eval.C48_inner_fails`, `Rudy.Eval.C50_terminates`, `Rudy.Eval.C50_numeric_key_fails`, `Rudy.Eval.C51_first_variable`, `Rudy.Eval.C52_one_bad_field_fails`, `Rudy.Vars.C55_frame_variable`, `Rudy.Vars.C55_no_location`, `Rudy.Vars.C55_register_variable_fails`, `Rudy.Vars.C55_pieces_fail`, `Rudy.Vars.C55_static_variable_fails`, `Rudy.Vars.C55_call_frame_fails`, `Rudy.TypeRes.C57_rwlock_fails`, `Rudy.TypeNames.C61_split`, `Rudy.SourceIndex.C64_column_fails`, `Rudy.SourceIndex.C66_order`, `Rudy.SourceIndex.C66_cargo_root`, `Rudy.Client.C68_response`, `Rudy.Client.C68_order`, `Rudy.Client.C68_progress`, `Rudy.Client.C68_terminates`, `Rudy.Client.C68_answered`, `Rudy.Client.C68_fifo`, `Rudy.Client.C68_interrupt_fails`, `Rudy.Front.C69_never_reopened`, `Rudy.Front.C69_dead_connection_fails`, `Rudy.Front.C69_first`, `Rudy.Front.C70_string_fails`, `Rudy.Front.C70_short`, `Rudy.Install.C74_home`, `Rudy.Install.C74_relative_fails`, `Rudy.Install.C75_exits`, `Rudy.Shown.C76_deep_fails`, `Rudy.Shown.C76_array_of_arrays_fails`, `Rudy.Cache.C78_mixed_builds_fails`, `Rudy.Sessions.C79_ends`, `Rudy.Shown.C82_method`, `Rudy.Shown.C82_synthetic`, `Rudy.Shown.C83_quotes_fail`, `Rudy.TypeText.C85_written_as_in_rust_partial`, `Rudy.TypeText.C85_pointer_fails`, `Rudy.TypeText.C85_one_tuple_fails`, `Rudy.TypeText.C85_usize_fails`, `Rudy.SourceIndex.C90_path_not_found`, `Rudy.TypeNames.C92_arrow_fails`, `Rudy.TypeNames.C92_impl`, `Rudy.Declared.C94_other_file_fails`, `Rudy.Entries.C95_decodes`
