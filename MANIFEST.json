{
 "claims": [
  {
   "property": "C01",
   "status": "proved",
   "theorems": [
    "Rudy.Address.C01_query_absolute_exact",
    "Rudy.Address.C01_built_exists"
   ],
   "note": "For every tree AddressTree::new may return (any outcome of the unstable sorts)."
  },
  {
   "property": "C02",
   "status": "proved",
   "theorems": [
    "Rudy.Address.C02_query_relative_exact"
   ],
   "note": ""
  },
  {
   "property": "C03",
   "status": "proved",
   "theorems": [
    "Rudy.Address.C03_query_range_absolute_exact",
    "Rudy.Address.C03_query_range_relative_exact"
   ],
   "note": ""
  },
  {
   "property": "C04",
   "status": "proved",
   "theorems": [
    "Rudy.Address.C04_query_order_independent",
    "Rudy.Address.C04_query_range_order_independent"
   ],
   "note": ""
  },
  {
   "property": "C05",
   "status": "proved",
   "theorems": [
    "Rudy.Symbols.C05_nearest_is_greatest",
    "Rudy.Symbols.C05_none_iff"
   ],
   "note": ""
  },
  {
   "property": "C06",
   "status": "proved",
   "theorems": [
    "Rudy.Symbols.C06_get_function_last_wins",
    "Rudy.Symbols.C06_lookup_name_none_iff",
    "Rudy.Symbols.C06_lookup_name_sound",
    "Rudy.Symbols.C06_lookup_name_complete",
    "Rudy.Symbols.C06_symbols_by_file_last_wins",
    "Rudy.Symbols.C06_find_closest_sound",
    "Rudy.Symbols.C06_find_closest_complete",
    "Rudy.Symbols.C06_closest_path_iff"
   ],
   "note": "Over every history of inserted symbol table entries."
  },
  {
   "property": "C07",
   "status": "partial",
   "theorems": [
    "Rudy.Resolve.C07_answer_is_closest",
    "Rudy.Resolve.C07_none_iff",
    "Rudy.Resolve.C07_exact_line_preferred",
    "Rudy.Resolve.C07_no_panic",
    "Rudy.Resolve.C07_dwarf5_file_numbers_fail",
    "Rudy.Resolve.C07_address_to_location_of_row",
    "Rudy.Resolve.C07_location_is_a_row"
   ],
   "note": "Proved for line tables of DWARF versions below 5 with no file listed twice in a unit; the claim is false of the code for DWARF 5, because file numbers are always read 1-based (C07_dwarf5_file_numbers_fail)."
  },
  {
   "property": "C08",
   "status": "proved",
   "theorems": [
    "Rudy.Resolve.C08_registered_length",
    "Rudy.Resolve.C08_register_total",
    "Rudy.Resolve.C08_absolute_round_trip",
    "Rudy.Resolve.C08_relative_round_trip",
    "Rudy.Resolve.C08_range_is_hull"
   ],
   "note": ""
  },
  {
   "property": "C09",
   "status": "proved",
   "theorems": [
    "Rudy.Resolve.C09_global_minimum",
    "Rudy.Resolve.C09_answers_iff",
    "Rudy.Resolve.C09_distance_bound"
   ],
   "note": ""
  },
  {
   "property": "C10",
   "status": "partial",
   "theorems": [
    "Rudy.Resolve.C10_returns_last",
    "Rudy.Resolve.C10_first_if_single_partial",
    "Rudy.Resolve.C10_first_result_fails"
   ],
   "note": "False of the code: lookup_address pops the last result although its message says it returns the first (C10_first_result_fails). Proved: the last one is returned, which is the first when there is at most one."
  },
  {
   "property": "C11",
   "status": "partial",
   "theorems": [
    "Rudy.Symbols.C11_split_exact_partial",
    "Rudy.Symbols.C11_roundtrip",
    "Rudy.Symbols.C11_roundtrip_hash",
    "Rudy.Symbols.C11_no_empty_segment_partial",
    "Rudy.Symbols.C11_empty_segment_possible",
    "Rudy.Symbols.C11_arrow_is_not_a_bracket_fails",
    "Rudy.Symbols.C11_display_drops_hash"
   ],
   "note": "Splitting is proved exact and the round trip holds for every symbol; that no segment is empty and that every angle bracket is a bracket is false of the code (C11_empty_segment_possible, C11_arrow_is_not_a_bracket_fails)."
  },
  {
   "property": "C12",
   "status": "partial",
   "theorems": [
    "Rudy.Symbols.C12_hash_rule_partial",
    "Rudy.Symbols.C12_legacy_hash_recognised",
    "Rudy.Symbols.C12_only_hashes_dropped_fails",
    "Rudy.Symbols.C12_plain_name_rejected"
   ],
   "note": "The exact rule is proved; the property itself is false of the code: any last segment starting with 'h' of at least the tested shape is dropped, and a plain one-segment name is rejected."
  },
  {
   "property": "C13",
   "status": "proved",
   "theorems": [
    "Rudy.Symbols.C13_symbol_order_lawful",
    "Rudy.Symbols.C13_symbol_order_eq_iff",
    "Rudy.Symbols.C13_type_order_lawful"
   ],
   "note": ""
  },
  {
   "property": "C14",
   "status": "proved",
   "theorems": [
    "Rudy.Symbols.C14_match_iff_suffix",
    "Rudy.Symbols.C14_match_monotone",
    "Rudy.Symbols.C14_empty_module"
   ],
   "note": ""
  },
  {
   "property": "C15",
   "status": "partial",
   "theorems": [
    "Rudy.Expr.C15_no_panic_partial",
    "Rudy.Expr.C15_non_ascii_string_fails",
    "Rudy.Expr.C15_non_ascii_space_fails"
   ],
   "note": "Proved for all ASCII text of any length and nesting, and for any text without string literals and exotic white space; false of the code otherwise: positions count characters but slices count bytes (C15_non_ascii_string_fails, C15_non_ascii_space_fails). Stack use is not modelled."
  },
  {
   "property": "C16",
   "status": "partial",
   "theorems": [
    "Rudy.Expr.C16_round_trip_partial",
    "Rudy.Expr.C16_grammar_complete",
    "Rudy.Expr.C16_non_ascii_fails",
    "Rudy.Expr.C16_string_literal"
   ],
   "note": "Proved for every ASCII input, with soundness and completeness against a separate grammar; false of the code for non-ASCII string literals (C16_non_ascii_fails)."
  },
  {
   "property": "C17",
   "status": "partial",
   "theorems": [
    "Rudy.Expr.C17_prefix_partial",
    "Rudy.Expr.C17_trailing_word_fails"
   ],
   "note": "False of the code: tokens after a complete expression are ignored (C17_trailing_word_fails). Proved: the result accounts for all the tokens before the ignored ones."
  },
  {
   "property": "C18",
   "status": "proved",
   "theorems": [
    "Rudy.Expr.C18_decimal",
    "Rudy.Expr.C18_hexadecimal",
    "Rudy.Expr.C18_in_context"
   ],
   "note": "Every digit string of any length, decimal and hexadecimal, alone and in context."
  },
  {
   "property": "C19",
   "status": "partial",
   "theorems": [
    "Rudy.Data.C19_reflexive",
    "Rudy.Data.C19_antisymmetric",
    "Rudy.Data.C19_transitive",
    "Rudy.Data.C19_lt_transitive",
    "Rudy.Data.C19_eq_iff_partial",
    "Rudy.Data.C19_equal_pointers_fails",
    "Rudy.Data.C19_kind_order"
   ],
   "note": "Reflexive, antisymmetric, transitive and total for all values; values that compare equal are equal except for the recorded types of unread pointers (C19_equal_pointers_fails refutes full equality)."
  },
  {
   "property": "C20",
   "status": "partial",
   "theorems": [
    "Rudy.Layout.C20_array_size",
    "Rudy.Layout.C20_array_unknown",
    "Rudy.Layout.C20_nested_array_size",
    "Rudy.Layout.C20_abi_size",
    "Rudy.Layout.C20_size_no_panic_partial",
    "Rudy.Layout.C20_size_total_fails",
    "Rudy.Layout.C20_cell_size_ignores_contents"
   ],
   "note": "Sizes are proved for every layout except bare str and IndexMap, where the code panics (C20_size_total_fails); C20_cell_size_ignores_contents: sizes of Cell/RefCell/Mutex ignore their contents."
  },
  {
   "property": "C21",
   "status": "partial",
   "theorems": [
    "Rudy.Layout.C21_reflexive",
    "Rudy.Layout.C21_symmetric",
    "Rudy.Layout.C21_same_location",
    "Rudy.Layout.C21_alias_matches_by_name",
    "Rudy.Layout.C21_match_iff_same_shape_partial",
    "Rudy.Layout.C21_transitive_partial",
    "Rudy.Layout.C21_distinguishes",
    "Rudy.Layout.C21_not_transitive_fails",
    "Rudy.Layout.C21_identifies_different_types_fails",
    "Rudy.Layout.C21_dereferenced_is_not_reference"
   ],
   "note": "Reflexive and symmetric for all types; transitive and exact on types without aliases; transitivity with aliases is false of the code, and array lengths and mutability are not distinguished (the two _fails theorems)."
  },
  {
   "property": "C22",
   "status": "proved",
   "theorems": [
    "Rudy.Data.C22_unsigned",
    "Rudy.Data.C22_signed",
    "Rudy.Data.C22_every_memory",
    "Rudy.Data.C22_every_number",
    "Rudy.Data.C22_unsupported",
    "Rudy.Data.C22_touches_only_its_bytes",
    "Rudy.Data.C22_bool",
    "Rudy.Data.C22_char"
   ],
   "note": "All widths and every memory; bool and char included. Float text is the standard library's and not modelled."
  },
  {
   "property": "C23",
   "status": "proved",
   "theorems": [
    "Rudy.Data.C23_field_access",
    "Rudy.Data.C23_access_is_shown",
    "Rudy.Data.C23_struct_fields",
    "Rudy.Data.C23_field_order",
    "Rudy.Data.C23_reads_no_memory"
   ],
   "note": ""
  },
  {
   "property": "C24",
   "status": "partial",
   "theorems": [
    "Rudy.Data.C24_array",
    "Rudy.Data.C24_array_reads",
    "Rudy.Data.C24_vec",
    "Rudy.Data.C24_vec_reads",
    "Rudy.Data.C24_slice",
    "Rudy.Data.C24_slice_reads",
    "Rudy.Data.C24_string",
    "Rudy.Data.C24_str_slice",
    "Rudy.Data.C24_cell_stride_fails"
   ],
   "note": "Exact for arrays, slices, Vec, String and &str with the element size the layout gives; C24_cell_stride_fails: that size is wrong for Cell/RefCell/Mutex elements."
  },
  {
   "property": "C25",
   "status": "partial",
   "theorems": [
    "Rudy.Data.C25_unit_variant",
    "Rudy.Data.C25_struct_variant",
    "Rudy.Data.C25_tuple_variant",
    "Rudy.Data.C25_no_variant",
    "Rudy.Data.C25_implicit_unit_variant",
    "Rudy.Data.C25_implicit_variant",
    "Rudy.Data.C25_implicit_no_variant",
    "Rudy.Data.C25_single_variant_fails",
    "Rudy.Data.C25_unreadable",
    "Rudy.Data.C25_tuple_order_partial",
    "Rudy.Data.C25_tuple_order_fails",
    "Rudy.Data.C25_c_enum",
    "Rudy.Data.C25_c_enum_no_variant"
   ],
   "note": "Choice of variant and shown value proved for every explicit discriminant and for enumerations that store none; tuple payloads keep declaration order up to ten fields and not beyond (C25_tuple_order_fails); an enumeration of one variant whose first four bytes are not 0 cannot be shown (C25_single_variant_fails)."
  },
  {
   "property": "C26",
   "status": "partial",
   "theorems": [
    "Rudy.Data.C26_complementary",
    "Rudy.Data.C26_agreement_partial",
    "Rudy.Data.C26_low_byte_fails",
    "Rudy.Data.C26_untyped_tag",
    "Rudy.Data.C26_niche_value_fails"
   ],
   "note": "Complementarity is proved for every width and value; agreement of display and is_some/is_none is proved for discriminants below 256 and is false of the code beyond (C26_low_byte_fails: a Box at a multiple of 256 is displayed as None); niche values other than 0 are ignored (C26_niche_value_fails)."
  },
  {
   "property": "C27",
   "status": "proved",
   "theorems": [
    "Rudy.Data.C27_only_occupied",
    "Rudy.Data.C27_entries"
   ],
   "note": "For well-formed tables; for any memory at all only occupied buckets are shown (C27_only_occupied)."
  },
  {
   "property": "C28",
   "status": "partial",
   "theorems": [
    "Rudy.Data.C28_inorder_partial",
    "Rudy.Data.C28_key_order",
    "Rudy.Data.C28_zero_sized_fails",
    "Rudy.Data.C28_height_first_fails",
    "Rudy.Data.C28_user_types_fails"
   ],
   "note": "Any height and fill, keys and values of non-zero size told by name and the root pointer first in the root; zero-sized values, keys or values of a user's own type and a height-first root are not shown or shown wrongly (the three _fails theorems)."
  },
  {
   "property": "C29",
   "status": "partial",
   "theorems": [
    "Rudy.Data.C29_array_partial",
    "Rudy.Data.C29_vec_partial",
    "Rudy.Data.C29_bounds",
    "Rudy.Data.C29_slices_fail",
    "Rudy.Data.C29_alias_elements_fail"
   ],
   "note": "Exact agreement for arrays and Vecs whose element type is not an alias, bounds for everything; false of the code for slices (indexing always fails) and for aliased element types."
  },
  {
   "property": "C30",
   "status": "partial",
   "theorems": [
    "Rudy.Data.C30_returns_an_entry",
    "Rudy.Data.C30_text_keys_partial",
    "Rudy.Data.C30_quoted_keys_fail"
   ],
   "note": "Exact for keys without quotes at their ends; keys that differ only in such quotes are confused by the code (C30_quoted_keys_fail)."
  },
  {
   "property": "C31",
   "status": "partial",
   "theorems": [
    "Rudy.Data.C31_str_reads_back",
    "Rudy.Data.C31_str_stays_inside_partial",
    "Rudy.Data.C31_offset_16_fails",
    "Rudy.Data.C31_str_succeeds",
    "Rudy.Data.C31_string_partial",
    "Rudy.Data.C31_only_strings"
   ],
   "note": "Read-back is proved for every string, memory and allocator. Staying inside the allocation is proved for fields inside the 16 (24) bytes of the value; a field offset of 16 passes the code's check and is written outside (C31_offset_16_fails). &str longer than 1 MiB are refused after having been written."
  },
  {
   "property": "C32",
   "status": "partial",
   "theorems": [
    "Rudy.Data.C32_vec",
    "Rudy.Data.C32_capacity",
    "Rudy.Data.C32_slice",
    "Rudy.Data.C32_array",
    "Rudy.Data.C32_string",
    "Rudy.Data.C32_string_capacity",
    "Rudy.Data.C32_str_slice",
    "Rudy.Data.C32_result_complementary",
    "Rudy.Data.C32_result_tag_fails",
    "Rudy.Data.C32_result_exact",
    "Rudy.Data.C32_advertised_evaluates",
    "Rudy.Data.C32_others_are_errors",
    "Rudy.Data.C32_only_advertised"
   ],
   "note": "Everything is proved except correctness of is_ok/is_err, which is false of the code for 4- and 8-byte tags (C32_result_tag_fails)."
  },
  {
   "property": "C33",
   "status": "partial",
   "theorems": [
    "Rudy.Vars.C33_variables_collected",
    "Rudy.Vars.C33_one_crash_hides_all_fails",
    "Rudy.Vars.C33_reported",
    "Rudy.Vars.C33_unique_name_found_partial",
    "Rudy.Vars.C33_unknown_name",
    "Rudy.Vars.C33_found_is_variable",
    "Rudy.Vars.C33_listing_exact",
    "Rudy.Vars.C33_listing_agrees_partial",
    "Rudy.Vars.C33_first_binding_wins_fails",
    "Rudy.Vars.C33_shadowed_local_fails",
    "Rudy.Vars.C33_undeclared_local_fails"
   ],
   "note": "Proved for functions none of whose variables crashes type resolution: which variables are collected, unique names are found, unknown names are not, what is found is a variable of the function, the listing is exact and agrees with lookup for unique names. Refuted: one variable that crashes hides all (C33_one_crash_hides_all_fails); of several bindings the first in document order is returned (C33_first_binding_wins_fails, C33_shadowed_local_fails, C33_undeclared_local_fails)."
  },
  {
   "property": "C34",
   "status": "proved",
   "theorems": [
    "Rudy.Eval.C34_plain_unchanged",
    "Rudy.Eval.C34_terminates",
    "Rudy.Eval.C34_bounded_depth",
    "Rudy.Eval.C34_shallow_complete"
   ],
   "note": "Pointer expansion: terminates on any closed (possibly cyclic) set of readable pointers, depends only on memory within eight steps, is complete for shallower values, and leaves pointer-free values alone."
  },
  {
   "property": "C35",
   "status": "partial",
   "theorems": [
    "Rudy.Server.C35_dialogue_partial",
    "Rudy.Server.C35_count_partial",
    "Rudy.Server.C35_ends_partial",
    "Rudy.Server.C35_panic_fails"
   ],
   "note": "Proved for sessions in which nothing panics, for every backend and every client input. Refuted in general: a non-ASCII string argument panics the session thread and the command gets no response."
  },
  {
   "property": "C36",
   "status": "partial",
   "theorems": [
    "Rudy.Server.C36_bad_line",
    "Rudy.Server.C36_bad_line_later",
    "Rudy.Server.C36_first_line_fails",
    "Rudy.Server.C36_command_during_event_fails",
    "Rudy.Server.C36_shutdown_lost_fails"
   ],
   "note": "An undecodable line after initialization is answered and has no other effect; sessions end only as described. Refuted: a bad first line, a binary that cannot be loaded, and commands (even shutdown) sent during an event are lost."
  },
  {
   "property": "C37",
   "status": "partial",
   "theorems": [
    "Rudy.Eval.C37_once_partial",
    "Rudy.Eval.C37_nested_calls_fail"
   ],
   "note": "Exactly once, in order, for expressions whose arguments contain no calls or only calls yielding a memory location. Refuted: n nested calls returning plain numbers are executed 2^n - 1 times."
  },
  {
   "property": "C38",
   "status": "partial",
   "theorems": [
    "Rudy.Remap.C38_unmapped_unchanged",
    "Rudy.Remap.C38_first_mapping_rewrites_partial",
    "Rudy.Remap.C38_whole_components",
    "Rudy.Remap.C38_empty_source",
    "Rudy.Remap.C38_dot_source",
    "Rudy.Remap.C38_mappings_chain_fails",
    "Rudy.Remap.C38_checked_file_is_read_partial",
    "Rudy.Remap.C38_remapped_twice_fails"
   ],
   "note": "Unmapped paths, first mapping when no later one applies to the result, whole components. Fails in general: mappings are chained (C38_mappings_chain_fails) and applied again when the file is read (C38_remapped_twice_fails)."
  },
  {
   "property": "C39",
   "status": "partial",
   "theorems": [
    "Rudy.Modules.C39_entry_in_its_module",
    "Rudy.Modules.C39_offset_in_module_of_last_entry",
    "Rudy.Modules.C39_offset_outside_units",
    "Rudy.Modules.C39_module_entry_partial",
    "Rudy.Modules.C39_find_by_path",
    "Rudy.Modules.C39_unnamed_namespace_panics",
    "Rudy.Modules.C39_last_module_entry_fails"
   ],
   "note": "For every file of well-formed Rust units (offsets ascending, named namespaces) and non-Rust units: every entry, every offset between entries, offsets outside units, and lookup by path. The entry that comes with the path is the module's own provided something in another module follows in the unit (C39_module_entry_partial); for the last module of a unit it is the entry of the unit (C39_last_module_entry_fails). A namespace without a name panics the index (C39_unnamed_namespace_panics)."
  },
  {
   "property": "C40",
   "status": "partial",
   "theorems": [
    "Rudy.Discovery.C40_finds_exactly_the_matches",
    "Rudy.Discovery.C40_crashes_iff",
    "Rudy.Discovery.C40_path_pattern",
    "Rudy.Discovery.C40_bad_pattern_is_an_error",
    "Rudy.Discovery.C40_callable_iff_signature_known",
    "Rudy.Discovery.C40_signature_text",
    "Rudy.Discovery.C40_all_by_printed_name",
    "Rudy.Discovery.C40_all_crashes_iff",
    "Rudy.Discovery.C40_exact_first_fails",
    "Rudy.Discovery.C40_fuzzy_fails",
    "Rudy.Discovery.C40_all_loses_instances_fails",
    "Rudy.Discovery.C40_untyped_parameter_fails"
   ],
   "note": "Which functions are found, that each is found once, which are callable and with which signature: proved for every history of the symbol index. Refuted: the documented 'exact matches first' and fuzzy matching, listing all functions (instances that print alike collapse), untyped parameters are dropped, a type whose resolution panics takes discovery down."
  },
  {
   "property": "C41",
   "status": "proved",
   "theorems": [
    "Rudy.Parse.C41_first_matching_child",
    "Rudy.Parse.C41_patterns_independent",
    "Rudy.Parse.C41_groups_independent",
    "Rudy.Parse.C41_missing_child",
    "Rudy.Parse.C41_every_matching_child",
    "Rudy.Parse.C41_every_child_understood",
    "Rudy.Parse.C41_member_by_name",
    "Rudy.Parse.C41_field_path",
    "Rudy.Parse.C41_field_path_overflow_panics",
    "Rudy.Parse.C41_optional"
   ],
   "note": "Parsers over entry trees as modelled combinators: first matching child per pattern, independence of the patterns of a tuple, no silent loss with try-for-each, field paths sum offsets (overflow panics, shown)."
  },
  {
   "property": "C42",
   "status": "proved",
   "theorems": [
    "Rudy.Walker.C42_walk_unit_follows_tree",
    "Rudy.Walker.C42_walk_entry_follows_tree",
    "Rudy.Walker.C42_visited_in_order",
    "Rudy.Walker.C42_visited_exactly_once",
    "Rudy.Walker.C42_walk_terminates",
    "Rudy.Walker.C42_walk_no_panic",
    "Rudy.Walker.C42_leading_null_panics",
    "Rudy.Walker.C42_walk_file_in_order",
    "Rudy.Walker.C42_root_not_a_unit_refused",
    "Rudy.Walker.C42_failed_unit_ends_file"
   ],
   "note": "Walking any unit (any tree, any sibling attributes and padding) runs any stateful visitor exactly as the recursive specification; which entries are visited, order, exactly once; termination and no panic on damaged units. Remaining observation: a unit starting with a null entry trips an assertion (C42_leading_null_panics)."
  },
  {
   "property": "C43",
   "status": "partial",
   "theorems": [
    "Rudy.Data.C43_never_panics_partial",
    "Rudy.Data.C43_vec_length_fails",
    "Rudy.Data.C43_hashmap_mask_fails",
    "Rudy.Data.C43_hashmap_ctrl_fails",
    "Rudy.Data.C43_rc_pointer_fails",
    "Rudy.Data.C43_unimplemented_fails",
    "Rudy.Data.C43_unresolved_fails",
    "Rudy.Data.C43_short_read_fails"
   ],
   "note": "Proved for the class Robust (scalars, pointers, structs, enums, options, strings, arrays, Box/Mutex/RefCell and aliases); false of the code for Vec, HashMap, Rc, tuples, Result, str and short reads (the _fails theorems)."
  },
  {
   "property": "C44",
   "status": "partial",
   "theorems": [
    "Rudy.Discovery.C44_listed_are_methods",
    "Rudy.Discovery.C44_methods_are_listed",
    "Rudy.Discovery.C44_for_type_partial",
    "Rudy.Discovery.C44_one_bad_method_fails",
    "Rudy.Discovery.C44_succeeds",
    "Rudy.Discovery.C44_unreadable_type_fails",
    "Rudy.Discovery.C44_c_enum_methods_fails",
    "Rudy.Discovery.C44_boxed_self_fails",
    "Rudy.Discovery.C44_impl_elsewhere_fails",
    "Rudy.Discovery.C44_listed_twice_fails",
    "Rudy.Discovery.C44_trait_name_fails",
    "Rudy.Discovery.C44_trait_name_is_first_segment_fails",
    "Rudy.Discovery.C44_all_grouped_by_first_parameter",
    "Rudy.Discovery.C44_free_function_listed_fails"
   ],
   "note": "Soundness and completeness relative to where the code looks (entries of the type in modules of the same path, impl blocks next to it) and grouping of all methods by first parameter: proved. Refuted: methods of enums without fields, self: Box<Self>, impl blocks in other modules, duplicates, one unreadable self type is an error for all, free functions listed as methods, trait label."
  },
  {
   "property": "C45",
   "status": "partial",
   "theorems": [
    "Rudy.TypeNames.C45_entry_name",
    "Rudy.TypeNames.C45_print_parse_partial",
    "Rudy.TypeNames.C45_names",
    "Rudy.TypeNames.C45_names_unique",
    "Rudy.TypeNames.C45_std_path_or_prelude",
    "Rudy.TypeNames.C45_user_type_is_not_std",
    "Rudy.TypeNames.C45_type_in_impl",
    "Rudy.TypeNames.C45_pointer_print_fails",
    "Rudy.TypeNames.C45_unsafe_print_fails",
    "Rudy.TypeNames.C45_shim_print_fails",
    "Rudy.TypeNames.C45_same_name_fails",
    "Rudy.TypeNames.C45_user_type_matches_std_fails",
    "Rudy.TypeNames.C45_mut_slice_fails"
   ],
   "note": "Proved for every nesting: names as the compiler writes them (spec relation Names: primitives, std and user paths with generics, references, slices, arrays, tuples, functions, trait objects, raw pointers, paths through {impl#n} and {vtable_type}) parse, print back and give the specified layout; std types with path or prelude form agree; user types outside std roots and types declared in impl blocks are never given a std layout; printing and reparsing is the identity on plain types; debug-info entries get the layout of their qualified name. Refuted by the code for raw pointers, unsafe fn and {{vtable.shim}} (printing), same-named user types, comparison of a user type with a std type of the same name, and &mut [T]. Tokenizer and parser library by contract (Lib)."
  },
  {
   "property": "C46",
   "status": "partial",
   "theorems": [
    "Rudy.Resolve.C46_address_lookup_exact_partial",
    "Rudy.Resolve.C46_reported_function_contains_address",
    "Rudy.Resolve.C46_complete_fails"
   ],
   "note": "Exact with respect to the debug files of the nearest symbols; completeness over all debug files is false of the code (C46_complete_fails)."
  },
  {
   "property": "C47",
   "status": "partial",
   "theorems": [
    "Rudy.Data.C47_pointer",
    "Rudy.Data.C47_box",
    "Rudy.Data.C47_rc",
    "Rudy.Data.C47_mutex",
    "Rudy.Data.C47_alias",
    "Rudy.Data.C47_dangling",
    "Rudy.Data.C47_cell_fails"
   ],
   "note": "Cell, RwLock and UnsafeCell panic (C47_cell_fails)."
  },
  {
   "property": "C48",
   "status": "partial",
   "theorems": [
    "Rudy.Eval.C48_outer_partial",
    "Rudy.Eval.C48_inner_fails"
   ],
   "note": "Holds for whole expressions, indexes and keys; refuted as object of a field, index or method and as argument."
  },
  {
   "property": "C49",
   "status": "proved",
   "theorems": [
    "Rudy.Eval.C49_no_side_effects"
   ],
   "note": "For every call-free expression, state and debugger."
  },
  {
   "property": "C50",
   "status": "partial",
   "theorems": [
    "Rudy.Eval.C50_terminates",
    "Rudy.Eval.C50_variable_key",
    "Rudy.Eval.C50_variable_index",
    "Rudy.Eval.C50_numeric_key_fails"
   ],
   "note": "Variables as keys and positions agree with literals, and reading them terminates. Refuted: a map is never indexed by a number literal."
  },
  {
   "property": "C51",
   "status": "proved",
   "theorems": [
    "Rudy.Eval.C51_one_frame",
    "Rudy.Eval.C51_first_variable"
   ],
   "note": "The program counter is fixed by the first variable and used for all of them."
  },
  {
   "property": "C52",
   "status": "partial",
   "theorems": [
    "Rudy.Eval.C52_one_bad_field_fails"
   ],
   "note": "Refuted: one unreadable field makes the whole struct an error."
  },
  {
   "property": "C53",
   "status": "partial",
   "theorems": [
    "Rudy.FnIndex.C53_by_name",
    "Rudy.FnIndex.C53_by_address",
    "Rudy.FnIndex.C53_function_found",
    "Rudy.FnIndex.C53_units_before_failure_kept",
    "Rudy.FnIndex.C53_unit_without_language_fails",
    "Rudy.FnIndex.C53_crashes_iff"
   ],
   "note": "Proved for every file whose units state a language, with readable linkage names and no range past the address space: names (last entry wins), addresses, each function found; and that building the index crashes exactly if some function's range, moved to its symbol, does not fit into the address space (C53_crashes_iff). Refuted in general: a unit without a language attribute ends the indexing (C53_unit_without_language_fails)."
  },
  {
   "property": "C54",
   "status": "partial",
   "theorems": [
    "Rudy.FnIndex.C54_found_needs_name_and_code",
    "Rudy.FnIndex.C54_method_code_missing_fails",
    "Rudy.FnIndex.C54_enclosed_function_missing_fails"
   ],
   "note": "Refuted: the code of methods described by a declaration plus a definition that refers to it is not found at any address; functions inside enumerations, unions or other functions are not indexed at all. Proved: what is found always comes from one entry with both linkage name and code; with C53_function_found the converse."
  },
  {
   "property": "C55",
   "status": "partial",
   "theorems": [
    "Rudy.Vars.C55_frame_variable",
    "Rudy.Vars.C55_no_location",
    "Rudy.Vars.C55_register_variable_fails",
    "Rudy.Vars.C55_pieces_fail",
    "Rudy.Vars.C55_static_variable_fails",
    "Rudy.Vars.C55_call_frame_fails",
    "Rudy.Vars.C55_one_register_parameter_hides_all_fails"
   ],
   "note": "Proved for frame-relative variables with a register frame base and for variables without location. Refuted: register and multi-piece locations panic, fixed addresses are shifted by the function's address, a call-frame-address frame base uses the stack pointer, one register parameter makes the whole listing panic."
  },
  {
   "property": "C56",
   "status": "partial",
   "theorems": [
    "Rudy.Remap.C56_absolute_directory",
    "Rudy.Remap.C56_relative_directory",
    "Rudy.Remap.C56_absolute_name_fails"
   ],
   "note": "Absolute and relative directories proved. Fails for files recorded with an absolute name (C56_absolute_name_fails)."
  },
  {
   "property": "C57",
   "status": "partial",
   "theorems": [
    "Rudy.TypeRes.C57_vec",
    "Rudy.TypeRes.C57_string",
    "Rudy.TypeRes.C57_hash_map",
    "Rudy.TypeRes.C57_option",
    "Rudy.TypeRes.C57_result",
    "Rudy.TypeRes.C57_btree_map",
    "Rudy.TypeRes.C57_box",
    "Rudy.TypeRes.C57_cell",
    "Rudy.TypeRes.C57_unsafe_cell",
    "Rudy.TypeRes.C57_rc",
    "Rudy.TypeRes.C57_rwlock_fails",
    "Rudy.TypeRes.C57_index_map_fails"
   ],
   "note": "Exact characterisation (iff) for Vec, String, HashMap, BTreeMap, Option, Result, Box, Rc/Arc, Mutex/RefCell/Cell, UnsafeCell. The crash-freedom part is false of the code: RwLock and IndexMap panic (C57_rwlock_fails, C57_index_map_fails)."
  },
  {
   "property": "C58",
   "status": "partial",
   "theorems": [
    "Rudy.TypeRes.C58_struct",
    "Rudy.TypeRes.C58_tuple",
    "Rudy.TypeRes.C58_array",
    "Rudy.TypeRes.C58_pointer",
    "Rudy.TypeRes.C58_slice",
    "Rudy.TypeRes.C58_str",
    "Rudy.TypeRes.C58_c_enum",
    "Rudy.TypeRes.C58_enum_sound",
    "Rudy.TypeRes.C58_enum_complete",
    "Rudy.TypeRes.C58_enum_variant_lost_fails",
    "Rudy.TypeRes.C58_function",
    "Rudy.TypeRes.C58_subroutine",
    "Rudy.TypeRes.C58_function_pointer_fails",
    "Rudy.TypeRes.C58_subroutine_return_fails"
   ],
   "note": "Exact characterisation of structs, tuples, arrays, slices, pointers, C enums; enums sound and complete when all variants are understood. False of the code for function types (arguments lost, return type looked up twice) and for variants that do not resolve, which are dropped silently (\u2026_fails theorems)."
  },
  {
   "property": "C59",
   "status": "partial",
   "theorems": [
    "Rudy.TypeRes.C59_depth_independent",
    "Rudy.TypeRes.C59_unique",
    "Rudy.TypeRes.C59_cyclic_pointer_fails",
    "Rudy.TypeRes.C59_user_types_stop"
   ],
   "note": "Depth independence and one-step recursive user types proved; termination is false for cyclic pointer entries (C59_cyclic_pointer_fails)."
  },
  {
   "property": "C60",
   "status": "partial",
   "theorems": [
    "Rudy.TypeRes.C60_discriminant_offset_fails",
    "Rudy.TypeRes.C60_discriminant_partial",
    "Rudy.TypeRes.C60_no_discriminant",
    "Rudy.TypeRes.C60_variant_offset_panics"
   ],
   "note": "False of the code: the offset of the discriminant member is ignored (C60_discriminant_offset_fails); the type, the offset-0 case and the implicit case are proved; variants at a non-zero offset panic in debug builds."
  },
  {
   "property": "C61",
   "status": "partial",
   "theorems": [
    "Rudy.TypeNames.C61_split",
    "Rudy.TypeNames.C61_split_where",
    "Rudy.TypeNames.C61_found",
    "Rudy.TypeNames.C61_not_found",
    "Rudy.TypeNames.C61_error",
    "Rudy.TypeNames.C61_own_name",
    "Rudy.TypeNames.C61_no_module_fails"
   ],
   "note": "Proved: which entry is found (first file, first entry), not found only if none matches, when it is an error, an entry with exactly the looked-up name is always matched. Refuted: types outside any namespace are never found."
  },
  {
   "property": "C62",
   "status": "proved",
   "theorems": [
    "Rudy.SourceIndex.C62_known_iff",
    "Rudy.SourceIndex.C62_files_of_source",
    "Rudy.SourceIndex.C62_other_language_fails"
   ],
   "note": "Holds; C62_other_language_fails records that sources of non-Rust units are unknown (a documented restriction, not a violation)."
  },
  {
   "property": "C63",
   "status": "partial",
   "theorems": [
    "Rudy.SourceIndex.C63_debug_file_iff",
    "Rudy.SourceIndex.C63_functions_iff",
    "Rudy.SourceIndex.C63_no_panic",
    "Rudy.SourceIndex.C63_nearest_order_independent",
    "Rudy.SourceIndex.C63_order_fails",
    "Rudy.SourceIndex.C63_duplicate_object_fails"
   ],
   "note": "Debug files, attribution and nearest lookup proved for every visiting order. Refuted parts: the function found by name among equal names depends on hash map order (C63_order_fails); of two objects under the same path and member the first is no debug file although its functions are indexed (C63_duplicate_object_fails)."
  },
  {
   "property": "C64",
   "status": "partial",
   "theorems": [
    "Rudy.SourceIndex.C64_chosen_file",
    "Rudy.SourceIndex.C64_no_file_iff",
    "Rudy.SourceIndex.C64_unique_partial_path",
    "Rudy.SourceIndex.C64_row_iff",
    "Rudy.SourceIndex.C64_answer",
    "Rudy.SourceIndex.C64_complete",
    "Rudy.SourceIndex.C64_no_panic",
    "Rudy.SourceIndex.C64_column_fails",
    "Rudy.SourceIndex.C64_ambiguous_fails",
    "Rudy.SourceIndex.C64_second_column_fails"
   ],
   "note": "Proved for DWARF 4 line tables (see C07 for DWARF 5). Refuted parts: columns are ignored (C64_column_fails, C64_second_column_fails); with an ambiguous partial path the first file is taken even if another one has the code (C64_ambiguous_fails)."
  },
  {
   "property": "C65",
   "status": "partial",
   "theorems": [
    "Rudy.SourceIndex.C65_round_trip_partial",
    "Rudy.SourceIndex.C65_shared_address_fails"
   ],
   "note": "Proved for debug information that says one thing about each address (structure Clean); refuted when two rows share an address (C65_shared_address_fails)."
  },
  {
   "property": "C66",
   "status": "proved",
   "theorems": [
    "Rudy.SourceIndex.C66_searched_iff",
    "Rudy.SourceIndex.C66_order",
    "Rudy.SourceIndex.C66_no_workspace_fails",
    "Rudy.SourceIndex.C66_nearest_manifest",
    "Rudy.SourceIndex.C66_cargo_root",
    "Rudy.SourceIndex.C66_member_fails"
   ],
   "note": "Proved as stated for what the code computes. Consequences a user may not expect are recorded as theorems: no workspace, no types (C66_no_workspace_fails); without cargo a member counts as the workspace (C66_member_fails)."
  },
  {
   "property": "C67",
   "status": "proved",
   "theorems": [
    "Rudy.Wire.C67_json",
    "Rudy.Wire.C67_one_line",
    "Rudy.Wire.C67_to_server",
    "Rudy.Wire.C67_to_client",
    "Rudy.Wire.C67_injective",
    "Rudy.Wire.C67_session",
    "Rudy.Wire.C67_wide"
   ],
   "note": "JSON by its grammar on both sides (natural numbers only), text as characters; every client message whose numbers fit 64 bits and every server message"
  },
  {
   "property": "C68",
   "status": "partial",
   "theorems": [
    "Rudy.Client.C68_response",
    "Rudy.Client.C68_order",
    "Rudy.Client.C68_one_in_flight",
    "Rudy.Client.C68_progress",
    "Rudy.Client.C68_terminates",
    "Rudy.Client.C68_answered",
    "Rudy.Client.C68_alive_partial",
    "Rudy.Client.C68_server_side",
    "Rudy.Client.C68_fifo",
    "Rudy.Client.C68_interrupt_fails",
    "Rudy.Client.C68_interrupt_ends_fails"
   ],
   "note": "Proved for every interleaving without interrupts, and per-connection order (C68_fifo) with them; C68_alive_partial assumes ASCII arguments and a backend that does not panic; with interrupts (Ctrl-C) the property is false of the code: C68_interrupt_fails, C68_interrupt_ends_fails"
  },
  {
   "property": "C69",
   "status": "partial",
   "theorems": [
    "Rudy.Front.C69_same_binary_partial",
    "Rudy.Front.C69_never_reopened",
    "Rudy.Front.C69_other_target_fails",
    "Rudy.Front.C69_dead_connection_fails",
    "Rudy.Front.C69_first"
   ],
   "note": "Holds while the executable of the target stays the same; false when another target is selected (C69_other_target_fails) and when the connection is gone (C69_dead_connection_fails)"
  },
  {
   "property": "C70",
   "status": "partial",
   "theorems": [
    "Rudy.Front.C70_words",
    "Rudy.Front.C70_expression_partial",
    "Rudy.Front.C70_string_fails",
    "Rudy.Front.C70_plain",
    "Rudy.Front.C70_short",
    "Rudy.Front.C70_usage"
   ],
   "note": "Expressions without string literals in any spacing, and any text with single blanks; white space in string literals is not kept (C70_string_fails)"
  },
  {
   "property": "C71",
   "status": "proved",
   "theorems": [
    "Rudy.Calls.C71_unambiguous",
    "Rudy.Calls.C71_function",
    "Rudy.Calls.C71_method",
    "Rudy.Calls.C71_answer"
   ],
   "note": "LLDB's evaluation of the expression is a parameter"
  },
  {
   "property": "C72",
   "status": "partial",
   "theorems": [
    "Rudy.Eval.C72_sent_partial",
    "Rudy.Eval.C72_plain",
    "Rudy.Eval.C72_types_fail",
    "Rudy.Eval.C72_method_count_fails",
    "Rudy.Eval.C72_function",
    "Rudy.Eval.C72_refused",
    "Rudy.Eval.C72_method"
   ],
   "note": "Callee, every argument passed (C72_function, C72_method with the specification Passes) and result size proved for all expressions; false of the code as to parameter types (C72_types_fail) and the number of method parameters (C72_method_count_fails)"
  },
  {
   "property": "C73",
   "status": "partial",
   "theorems": [
    "Rudy.Calls.C73_index",
    "Rudy.Calls.C73_name",
    "Rudy.Calls.C73_numbered",
    "Rudy.Calls.C73_x86_fails",
    "Rudy.Calls.C73_narrow_fails"
   ],
   "note": "Proved when the numbering is that of LLDB's register sets; false of the code for x86-64 DWARF numbers (C73_x86_fails) and narrow registers by number (C73_narrow_fails)"
  },
  {
   "property": "C74",
   "status": "partial",
   "theorems": [
    "Rudy.Install.C74_installed",
    "Rudy.Install.C74_cancelled",
    "Rudy.Install.C74_declined",
    "Rudy.Install.C74_history",
    "Rudy.Install.C74_again",
    "Rudy.Install.C74_source",
    "Rudy.Install.C74_own_line_partial",
    "Rudy.Install.C74_glued_fails",
    "Rudy.Install.C74_commented_fails",
    "Rudy.Install.C74_home",
    "Rudy.Install.C74_relative_fails"
   ],
   "note": "False of the code for init files whose last line is not ended (C74_glued_fails), for imports that are commented out (C74_commented_fails) and for relative directories (C74_relative_fails); the rest is proved for all histories"
  },
  {
   "property": "C75",
   "status": "partial",
   "theorems": [
    "Rudy.Install.C75_numeric",
    "Rudy.Install.C75_only",
    "Rudy.Install.C75_exits",
    "Rudy.Install.C75_name_fails"
   ],
   "note": "Exact for numeric IPv4 addresses (C75_numeric, C75_only); host names and bare IPv6 addresses are refused although a server can be started with them (C75_name_fails)"
  },
  {
   "property": "C76",
   "status": "partial",
   "theorems": [
    "Rudy.Shown.C76_shown_partial",
    "Rudy.Shown.C76_variable_partial",
    "Rudy.Shown.C76_field_partial",
    "Rudy.Shown.C76_nested_field_fails",
    "Rudy.Shown.C76_deep_fails",
    "Rudy.Shown.C76_array_of_arrays_fails",
    "Rudy.Shown.C76_local_partial",
    "Rudy.Shown.C76_element_partial"
   ],
   "note": "Composes type resolution, memory reading, expansion and formatting, by induction over the value: proved for every description of plain types, String, &str, Vec, slice, array, references, pointers, Box, Rc, Arc, Mutex, RefCell, Option, struct, enums, field-less enums, HashMap, BTreeMap nested up to four levels of containers; for variables wherever they are kept (C76_variable_partial), for locals described in the debug information by a frame-base or register location (C76_local_partial), for fields and for elements of a Vec, slice or array (C76_element_partial). False of the code for deeper values (addresses are printed), for x.f.g where f is of a user's type, and for arrays of arrays of user types (the _fails theorems)."
  },
  {
   "property": "C77",
   "status": "partial",
   "theorems": [
    "Rudy.Remote.C77_answered",
    "Rudy.Remote.C77_looking",
    "Rudy.Remote.C77_no_process",
    "Rudy.Remote.C77_read",
    "Rudy.Remote.C77_address",
    "Rudy.Remote.C77_pc",
    "Rudy.Remote.C77_thread",
    "Rudy.Remote.C77_base",
    "Rudy.Remote.C77_no_frame",
    "Rudy.Remote.C77_variable",
    "Rudy.Remote.C77_register",
    "Rudy.Remote.C77_register_named",
    "Rudy.Remote.C77_expression",
    "Rudy.Remote.C77_written",
    "Rudy.Remote.C77_writes",
    "Rudy.Remote.C77_allocated",
    "Rudy.Remote.C77_called",
    "Rudy.Remote.C77_called_at",
    "Rudy.Remote.C77_failed",
    "Rudy.Remote.C77_target_partial",
    "Rudy.Remote.C77_remote_partial",
    "Rudy.Remote.C77_empty_string_fails",
    "Rudy.Remote.C77_short_read_fails",
    "Rudy.Remote.C77_out_of_memory_fails",
    "Rudy.Remote.C77_expression_fails"
   ],
   "note": "Every question is answered, looking changes nothing, and memory, program counter, frame, variables and registers are passed on exactly; writes, allocations and calls happen as asked or are reported as failed; the server's view satisfies the contract of a remote process used by C31 (C77_remote_partial). False of the code with LLDB: reading 0 bytes is refused by LLDB, so an empty String cannot be shown (C77_empty_string_fails); a short read or write is passed on as complete (C77_short_read_fails); allocation failures and expression errors are reported in ways the _fails theorems state."
  },
  {
   "property": "C78",
   "status": "partial",
   "theorems": [
    "Rudy.Cache.C78_stable",
    "Rudy.Cache.C78_new_session_sees_new_build",
    "Rudy.Cache.C78_numbers_are_new",
    "Rudy.Cache.C78_independent",
    "Rudy.Cache.C78_mixed_builds_fails",
    "Rudy.Cache.C78_not_retried_fails",
    "Rudy.Cache.C78_rebuilt_in_lldb_fails"
   ],
   "note": "Stability of answers, new sessions seeing the new build, and independence of sessions are proved for every history. False of the code: object files are loaded lazily, so a session can mix builds (C78_mixed_builds_fails); a failed load is never retried (C78_not_retried_fails); in LLDB a rebuilt program is still answered from the old build (C78_rebuilt_in_lldb_fails). Files overwritten in place while mapped are not modelled."
  },
  {
   "property": "C79",
   "status": "proved",
   "theorems": [
    "Rudy.Sessions.C79_alone",
    "Rudy.Sessions.C79_response",
    "Rudy.Sessions.C79_progress",
    "Rudy.Sessions.C79_independent",
    "Rudy.Sessions.C79_ends",
    "Rudy.Sessions.C79_stop",
    "Rudy.Sessions.C79_finite",
    "Rudy.Sessions.C79_shutdown_fails",
    "Rudy.Sessions.C79_accept_fails"
   ],
   "note": "For every number of sessions and every interleaving. That a shutdown or a failing accept does end the others is C79_shutdown_fails, C79_accept_fails. Not modelled: salsa blocking one thread while another computes the same query, and passing on its panic."
  },
  {
   "property": "C80",
   "status": "proved",
   "theorems": [
    "Rudy.Autostart.C80_needed",
    "Rudy.Autostart.C80_outcome",
    "Rudy.Autostart.C80_nothing_left",
    "Rudy.Autostart.C80_address",
    "Rudy.Autostart.C80_setting",
    "Rudy.Autostart.C80_slow_fails",
    "Rudy.Autostart.C80_pipe",
    "Rudy.Autostart.C80_pipe_fails"
   ],
   "note": "Proved for every behaviour of the network, the process and time. Limits recorded as theorems: a server that takes longer than five seconds is killed again and again (C80_slow_fails), and the output of a server started this way is never read, so that it blocks in the end (C80_pipe_fails)."
  },
  {
   "property": "C81",
   "status": "proved",
   "theorems": [
    "Rudy.Wire.C81_json",
    "Rudy.Wire.C81_one_meaning",
    "Rudy.Wire.C81_server",
    "Rudy.Wire.C81_client"
   ],
   "note": "JSON by its grammar, natural numbers only; a repeated field (an error for serde, the last one for Python) is outside the model"
  },
  {
   "property": "C82",
   "status": "partial",
   "theorems": [
    "Rudy.Shown.C82_function",
    "Rudy.Shown.C82_method",
    "Rudy.Shown.C82_synthetic",
    "Rudy.Shown.C82_returned_partial",
    "Rudy.Shown.C82_method_returned_partial",
    "Rudy.Remote.C82_debugger",
    "Rudy.Remote.C82_unit_fails"
   ],
   "note": "False of functions that return nothing: what is left in the register is shown as a usize (C82_unit_fails). Values nested at most four levels, as in C76; registers of floating-point results are LLDB's business and not modelled."
  },
  {
   "property": "C83",
   "status": "partial",
   "theorems": [
    "Rudy.Shown.C83_lines",
    "Rudy.Shown.C83_distinct",
    "Rudy.Shown.C83_shown_partial",
    "Rudy.Shown.C83_long_fails",
    "Rudy.Shown.C83_quotes_fail",
    "Rudy.Shown.C83_crlf_fails"
   ],
   "note": "Proved for values printed in full: at most ten elements, texts on one line, keys that show where they end. False otherwise: more than ten elements are only counted (C83_long_fails), texts are not escaped (C83_quotes_fail), and CR LF in a text inside a collection becomes LF (C83_crlf_fails)."
  },
  {
   "property": "C84",
   "status": "partial",
   "theorems": [
    "Rudy.Listing.C84_functions",
    "Rudy.Listing.C84_all_functions",
    "Rudy.Listing.C84_functions_error",
    "Rudy.Listing.C84_methods_of_place",
    "Rudy.Listing.C84_methods_of_place_error",
    "Rudy.Listing.C84_methods_of_type",
    "Rudy.Listing.C84_methods_of_type_error",
    "Rudy.Listing.C84_value",
    "Rudy.Listing.C84_value_error",
    "Rudy.Listing.C84_crash",
    "Rudy.Listing.C84_functions_of_program",
    "Rudy.Listing.C84_methods_of_program",
    "Rudy.Listing.C84_blank_in_pattern_fails"
   ],
   "note": "Proved for function, method and value commands, from the typed line to the printed text. False for a pattern with a blank: only its first word is searched for (C84_blank_in_pattern_fails). Evaluation and type lookup by name are parameters here (C31, C76, C82 say what they give)."
  },
  {
   "property": "C85",
   "status": "partial",
   "theorems": [
    "Rudy.TypeText.C85_written_as_in_rust_partial",
    "Rudy.TypeText.C85_read_back_partial",
    "Rudy.TypeText.C85_same_name_same_type_partial",
    "Rudy.TypeText.C85_named_as_in_rust_partial",
    "Rudy.TypeText.C85_user_types_partial",
    "Rudy.TypeText.C85_arrays_partial",
    "Rudy.TypeText.C85_array_part_fails",
    "Rudy.TypeText.C85_same_name_fails",
    "Rudy.TypeText.C85_pointer_fails",
    "Rudy.TypeText.C85_one_tuple_fails",
    "Rudy.TypeText.C85_usize_fails"
   ],
   "note": "Proved for all types but raw pointers, tuples of one, functions without parameters and shared references to empty arrays; user types are known by their names. False for raw pointers (C85_pointer_fails), tuples of one (C85_one_tuple_fails), usize/isize (C85_usize_fails), arrays inside other types (C85_array_part_fails) and types of the same name in different modules (C85_same_name_fails)."
  },
  {
   "property": "C86",
   "status": "partial",
   "theorems": [
    "Rudy.Shown.C86_read_partial",
    "Rudy.Whole.C86_evaluated",
    "Rudy.Whole.C86_referenced",
    "Rudy.Whole.C86_place_partial",
    "Rudy.Whole.C86_variable_partial",
    "Rudy.Whole.C86_local_partial",
    "Rudy.Whole.C86_empty_string_fails"
   ],
   "note": "Proved for values nested at most four levels deep in which no text is empty (C86_place_partial, C86_variable_partial, C86_local_partial); false for empty Strings, which LLDB cannot read (C86_empty_string_fails). The types the debug information resolves to are those the variable's layout is stated in (TypesFrom)."
  },
  {
   "property": "C87",
   "status": "proved",
   "theorems": [
    "Rudy.Whole.C87_command",
    "Rudy.Whole.C87_session",
    "Rudy.Whole.C87_undisturbed"
   ],
   "note": "C87_command for one command, C87_session for a session with any client, C87_undisturbed for what is typed in LLDB."
  },
  {
   "property": "C88",
   "status": "partial",
   "theorems": [
    "Rudy.Whole.C88_base_not_asked_fails",
    "Rudy.Whole.C88_load_address_ignored_fails",
    "Rudy.Whole.C88_moved_variable_fails"
   ],
   "note": "False of the code: the load address is never asked for (C88_base_not_asked_fails), what is printed does not depend on it (C88_load_address_ignored_fails), and in a program that was moved no variable is found (C88_moved_variable_fails). For programs loaded where their file says, C86 and C89."
  },
  {
   "property": "C89",
   "status": "partial",
   "theorems": [
    "Rudy.Whole.C89_function_any_partial",
    "Rudy.Whole.C89_function_partial",
    "Rudy.Whole.C89_method_any_partial",
    "Rudy.Whole.C89_method_partial"
   ],
   "note": "Proved for numbers and variables as arguments of functions and of methods of a variable (C89_function_partial, C89_method_partial) and for any arguments of functions, in terms of what C72 passes for them (C89_function_any_partial); results with a size, nested at most four levels deep, without empty texts. Other results: C82."
  },
  {
   "property": "C90",
   "status": "proved",
   "theorems": [
    "Rudy.SourceIndex.C90_found_iff",
    "Rudy.SourceIndex.C90_none_iff",
    "Rudy.SourceIndex.C90_sound",
    "Rudy.SourceIndex.C90_path_not_found"
   ],
   "note": "A static cannot be asked for by its path (C90_path_not_found)."
  },
  {
   "property": "C91",
   "status": "proved",
   "theorems": [
    "Rudy.SourceIndex.C91_underscore",
    "Rudy.SourceIndex.C91_as_it_is",
    "Rudy.SourceIndex.C91_same_index"
   ],
   "note": "The demangler is a parameter; names mangled the newer way (_R) depend on it alone."
  },
  {
   "property": "C92",
   "status": "partial",
   "theorems": [
    "Rudy.TypeNames.C92_no_crash_any",
    "Rudy.TypeNames.C92_no_crash",
    "Rudy.TypeNames.C92_recognised",
    "Rudy.TypeNames.C92_arrow_fails",
    "Rudy.TypeNames.C92_braces_refused",
    "Rudy.TypeNames.C92_impl"
   ],
   "note": "Proved for text of identifiers, decimal numbers, punctuation and brackets; for other text under the hypothesis that tokenizing does not crash. Fails (C92_arrow_fails): a function type with a result beside an argument that cannot be read makes the name of the map unreadable, because the > of the arrow is counted as a bracket."
  },
  {
   "property": "C93",
   "status": "partial",
   "theorems": [
    "Rudy.Discovery.C93_accounts_for_every_function_partial",
    "Rudy.Discovery.C93_agrees_with_the_listing_partial",
    "Rudy.Discovery.C93_crashes_fails",
    "Rudy.Discovery.C93_instances_share_an_entry_fails"
   ],
   "note": "Proved for all histories and worlds in which reading the declarations of the functions of the indexed files does not crash: the printed names accounted for are exactly those of the functions in force, each verdict means what it says, and the listing of all methods agrees. When it does crash is C93_crashes_fails (an equivalence). Not kept by the code: instances of a generic function print alike and share one entry (C93_instances_share_an_entry_fails), which is about the last in name order."
  },
  {
   "property": "C94",
   "status": "partial",
   "theorems": [
    "Rudy.Declared.C94_position",
    "Rudy.Declared.C94_variable_read",
    "Rudy.Declared.C94_crash",
    "Rudy.Declared.C94_found_partial",
    "Rudy.Declared.C94_listed_partial",
    "Rudy.Declared.C94_unlisted_file_fails",
    "Rudy.Declared.C94_rwlock_fails",
    "Rudy.Declared.C94_other_file_fails",
    "Rudy.Declared.C94_signatures_agree",
    "Rudy.Declared.C94_printed_partial",
    "Rudy.Declared.C94_session_lost_fails"
   ],
   "note": "Exact for single entries (C94_variable_read, C94_position, C94_crash); functions: found by name if the name is bound once and no type crashes the resolution (C94_found_partial), the listing by lines (C94_listed_partial), and from the entries to the text rd print x prints, user types included (C94_printed_partial; values as in C86). False of the code: one variable of type RwLock makes every lookup in its function crash (C94_rwlock_fails) and ends the session (C94_session_lost_fails), a variable of a file the unit does not list is dropped (C94_unlisted_file_fails), and lines of different files are compared for variables declared by macros (C94_other_file_fails)."
  },
  {
   "property": "C95",
   "status": "partial",
   "theorems": [
    "Rudy.Entries.C95_entry",
    "Rudy.Entries.C95_children",
    "Rudy.Entries.C95_decodes",
    "Rudy.Entries.C95_well_formed",
    "Rudy.Entries.C95_named",
    "Rudy.Entries.C95_unnamed",
    "Rudy.Entries.C95_foreign",
    "Rudy.Entries.C95_user_type",
    "Rudy.Entries.C95_total",
    "Rudy.Entries.C95_unnamed_namespace_fails"
   ],
   "note": "Refuted for files with a namespace that has no name (C95_unnamed_namespace_fails: the module index crashes, and with it every type); proved for all other files. That the offset of an entry decides its unit is a simplification of the model."
  },
  {
   "property": "C96",
   "status": "partial",
   "theorems": [
    "Rudy.Image.C96_opens",
    "Rudy.Image.C96_types",
    "Rudy.Image.C96_printed_partial",
    "Rudy.Image.C96_inside_line_fails"
   ],
   "note": "Proved from the contents of the executable for variables at an offset from the frame base, stopped exactly at the start of a row of the line table, where the types of the function's variables are understood and no other function extends over the program counter. Refuted inside a line (C96_inside_line_fails): after a call, as in every frame but the innermost, no variable is known. Debug information in the executable itself (no object map)."
  },
  {
   "property": "C97",
   "status": "partial",
   "theorems": [
    "Rudy.Image.C97_line_unique",
    "Rudy.Image.C97_functions_partial",
    "Rudy.Image.C97_rwlock_fails"
   ],
   "note": "C97_functions_partial: proved for the functions whose parameters and results have described types that are called in a known way (the types of C85 and C94 and the structures and enumerations of the program); it is false for functions that take an RwLock, for which the whole list fails (C97_rwlock_fails). C97_line_unique: the specification leaves no choice of the line."
  },
  {
   "property": "C98",
   "status": "partial",
   "theorems": [
    "Rudy.Image.C98_variable_index_partial",
    "Rudy.Image.C98_variable_key_partial",
    "Rudy.Image.C98_place_printed_partial",
    "Rudy.Image.C98_reference_fails",
    "Rudy.Image.C98_deref_fails",
    "Rudy.Image.C98_part_of_field_fails",
    "Rudy.Image.C98_own_element_fails",
    "Rudy.Image.C98_slice_element_fails",
    "Rudy.Image.C98_tuple_fails"
   ],
   "note": "Proved for variables, fields, elements of Vec and arrays, entries of maps with text keys, and their combinations, wherever the code looks into the value (Place says where); an index or key may be the value of another variable or a part of it (C98_variable_index_partial, C98_variable_key_partial). False of the code for the rest, with proofs: fields and elements behind references and smart pointers, *v, parts of fields of the user's own types, elements of the user's own types, elements of slices; printing tuples and results crashes the session."
  },
  {
   "property": "C99",
   "status": "partial",
   "theorems": [
    "Rudy.Image.C99_methods_of_variable_partial",
    "Rudy.Image.C99_functions_of_type_partial",
    "Rudy.Image.C99_enumeration_fails",
    "Rudy.Image.C99_unnamed_parameter_fails",
    "Rudy.Image.C99_boxed_self_fails",
    "Rudy.Image.C99_methods_of_part_partial"
   ],
   "note": "Proved for structures, tuples and enumerations whose neighbours in the module are describable types, for variables and for parts of variables (C99_methods_of_part_partial: there only the name of the type is known, which must not be mistakable for another). False of the code, hence partial: a C-like enumeration gets no functions of its own (C99_enumeration_fails); an unnamed first parameter of the type counts as self (C99_unnamed_parameter_fails); self: Box<Self>, Rc<Self> and Arc<Self> are not listed (C99_boxed_self_fails); a type after which nothing of another module comes in its unit gets no trait methods."
  },
  {
   "property": "C100",
   "status": "partial",
   "theorems": [
    "Rudy.Image.C100_function_partial",
    "Rudy.Image.C100_arity",
    "Rudy.Image.C100_unknown",
    "Rudy.Image.C100_no_result_fails",
    "Rudy.Image.C100_method_partial",
    "Rudy.Image.C100_method_unknown",
    "Rudy.Image.C100_method_no_result_fails",
    "Rudy.Image.C100_method_of_part_partial",
    "Rudy.Image.C100_method_of_part_unknown"
   ],
   "note": "Proved for functions, and methods of variables and of parts of variables of the user's own types, with numbers, variables and their parts as arguments and results of which the size is known; false for functions and methods that return nothing (C100_no_result_fails, C100_method_no_result_fails); the number of arguments of methods is not checked by the code (C72_method_count_fails); for texts as arguments of functions and methods see C104."
  },
  {
   "property": "C101",
   "status": "proved",
   "theorems": [
    "Rudy.Image.C101_no_variable",
    "Rudy.Image.C101_missing"
   ],
   "note": "C101_no_variable and C101_missing; Missing (Proof/Missing.lean) says what is not there: a field, an element at or beyond the length of a Vec or array, an element or entry of what has none, a key that no entry has, and any place on top of one"
  },
  {
   "property": "C102",
   "status": "partial",
   "theorems": [
    "Rudy.Image.C102_builtin_partial",
    "Rudy.Image.C102_arguments",
    "Rudy.Image.C102_no_parts",
    "Rudy.Image.C102_result_fails"
   ],
   "note": "C102_builtin_partial has Result with tags of one and two bytes only: for four and eight bytes the property is false of the code (C102_result_fails; the same defect as C32_result_tag_fails). C102_arguments and C102_no_parts are the errors. Options must store their discriminant in the tag or a niche that is 0 for None (DiscStored)"
  },
  {
   "property": "C103",
   "status": "partial",
   "theorems": [
    "Rudy.Image.C103_account_partial",
    "Rudy.Image.C103_account_unique",
    "Rudy.Image.C103_all_methods_partial",
    "Rudy.Image.C103_outside_not_listed",
    "Rudy.Image.C103_rwlock_fails"
   ],
   "note": "Proved for programs whose functions have described types; false of the code where a function takes an RwLock: account and list crash (C103_rwlock_fails). Where the path of the code is not the user's own nothing is listed (C103_outside_not_listed); functions that print the same share an entry of the account (the last is told, as stated)."
  },
  {
   "property": "C104",
   "status": "partial",
   "theorems": [
    "Rudy.Image.C104_method_of_part_partial",
    "Rudy.Image.C104_method_refused",
    "Rudy.Image.C104_function_partial",
    "Rudy.Image.C104_method_partial",
    "Rudy.Image.C104_refused"
   ],
   "note": "Proved for calls of functions and of methods of variables and of parts of variables, with numbers, texts, variables and parts of variables as arguments in any order; the receiver's type must have a name that tells it from all others if it is a part. An allocator is assumed that has room and keeps blocks apart; the memory that is read for the places is assumed to be in use."
  },
  {
   "property": "C105",
   "status": "proved",
   "theorems": [
    "Rudy.Shown.C105_shown",
    "Rudy.Shown.C105_less",
    "Rudy.Whole.C105_printed",
    "Rudy.Whole.C105_agree"
   ],
   "note": "Reads of no bytes are assumed to give no bytes (or see C77, C86 for debuggers that refuse them). The theorem at the level of the evaluator also covers expressions with methods that call nothing."
  },
  {
   "property": "C106",
   "status": "partial",
   "theorems": [
    "Rudy.Image.C106_inside_partial"
   ],
   "note": "C106_inside_partial: proved for the places the debugger finds parts of (Place, as in C98) and values nested at most four deep; for other parts the debugger shows an error (C98_part_of_field_fails, C98_reference_fails, C98_own_element_fails, C98_slice_element_fails)."
  },
  {
   "property": "C107",
   "status": "partial",
   "theorems": [
    "Rudy.Image.C107_agrees_partial",
    "Rudy.Image.C107_text",
    "Rudy.Image.C107_none_fails"
   ],
   "note": "Proved of Vec, slices (with the length behind the pointer), arrays, texts and options, for executables and values as in C98, C102. False for an option of which the payload is itself shown as None (C107_none_fails). Results are left out: they are never shown (C85), and their methods are wrong for tags of four bytes (C102_result_fails). capacity() has no counterpart in what is shown."
  }
 ]
}