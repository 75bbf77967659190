{
 "claims": [
  {
   "property": "C01",
   "status": "proved",
   "theorems": [
    "Verif.C01_symbol_roundtrip",
    "Verif.C01_symbol_injective",
    "Verif.C01_canonical_text",
    "Verif.C01_leading_space_ambiguous",
    "Verif.C01_empty_field_ambiguous"
   ],
   "note": ""
  },
  {
   "property": "C02",
   "status": "proved",
   "theorems": [
    "Verif.C02_global_not_local"
   ],
   "note": ""
  },
  {
   "property": "C03",
   "status": "proved",
   "theorems": [
    "Verif.C03_same_answer",
    "Verif.C03_history_independent"
   ],
   "note": ""
  },
  {
   "property": "C04",
   "status": "partial",
   "theorems": [
    "Verif.C04_reference_equals_definition_partial",
    "Verif.C04_interface_method_differs",
    "Verif.C04_derived_struct_wrong_owner",
    "Verif.C04_alias_receiver_differs",
    "Verif.C04_exact"
   ],
   "note": "interface methods, fields of derived struct types, alias receivers and variables after a parenthesised type deviate (proved counterexamples); C04_exact says for every entity exactly when the two symbols are equal"
  },
  {
   "property": "C05",
   "status": "proved",
   "theorems": [
    "Verif.C05_distinct_entities_distinct_symbols",
    "Verif.C05_composed"
   ],
   "note": ""
  },
  {
   "property": "C06",
   "status": "proved",
   "theorems": [
    "Verif.C06_kind_matches_last_descriptor",
    "Verif.C06_unspecified",
    "Verif.C06_kind_exact",
    "Verif.C06_composed"
   ],
   "note": ""
  },
  {
   "property": "C07",
   "status": "proved",
   "theorems": [
    "Verif.C07_range_well_formed",
    "Verif.C07_range_from_name",
    "Verif.C07_conversion",
    "Verif.C07_quotes_left_out",
    "Verif.C07_quotes_only"
   ],
   "note": ""
  },
  {
   "property": "C08",
   "status": "proved",
   "theorems": [
    "Verif.C08_import_and_package_clause",
    "Verif.C08_vendored_path_overruns"
   ],
   "note": ""
  },
  {
   "property": "C09",
   "status": "proved",
   "theorems": [
    "Verif.C09_locals_numbered",
    "Verif.C09_whole_run"
   ],
   "note": ""
  },
  {
   "property": "C10",
   "status": "proved",
   "theorems": [
    "Verif.C10_local_reference",
    "Verif.C10_local_reference_converse",
    "Verif.C10_whole_run",
    "Verif.C10_whole_run_converse"
   ],
   "note": ""
  },
  {
   "property": "C11",
   "status": "proved",
   "theorems": [
    "Verif.C11_whole_run",
    "Verif.C11_locals_described"
   ],
   "note": ""
  },
  {
   "property": "C12",
   "status": "proved",
   "theorems": [
    "Verif.C12_definitions",
    "Verif.C12_whole_run"
   ],
   "note": ""
  },
  {
   "property": "C13",
   "status": "proved",
   "theorems": [
    "Verif.C13_references",
    "Verif.C13_one_identifier",
    "Verif.C13_whole_run"
   ],
   "note": ""
  },
  {
   "property": "C14",
   "status": "proved",
   "theorems": [
    "Verif.C14_no_crash"
   ],
   "note": ""
  },
  {
   "property": "C15",
   "status": "proved",
   "theorems": [
    "Verif.C15_whole_run",
    "Verif.C15_definition_and_reference_agree"
   ],
   "note": ""
  },
  {
   "property": "C16",
   "status": "proved",
   "theorems": [
    "Verif.C16_whole_run",
    "Verif.C16_whole_run_converse",
    "Verif.C16_deprecated",
    "Verif.C16_uncollected_not_deprecated",
    "Verif.C16_definition"
   ],
   "note": ""
  },
  {
   "property": "C17",
   "status": "proved",
   "theorems": [
    "Verif.C17_enclosing_range",
    "Verif.C17_whole_run"
   ],
   "note": ""
  },
  {
   "property": "C18",
   "status": "proved",
   "theorems": [
    "Verif.C18_table_after_registrations",
    "Verif.C18_set_get"
   ],
   "note": ""
  },
  {
   "property": "C19",
   "status": "proved",
   "theorems": [
    "Verif.C19_listed_iff",
    "Verif.C19_partition"
   ],
   "note": ""
  },
  {
   "property": "C20",
   "status": "proved",
   "theorems": [
    "Verif.C20_history_independent",
    "Verif.C20_classification",
    "Verif.C20_collected_entity",
    "Verif.C20_panics_iff",
    "Verif.C20_answer"
   ],
   "note": ""
  },
  {
   "property": "C21",
   "status": "proved",
   "theorems": [
    "Verif.C21_package_collected",
    "Verif.C21_type_declarations",
    "Verif.C21_type_paths"
   ],
   "note": ""
  },
  {
   "property": "C22",
   "status": "partial",
   "theorems": [
    "Verif.C22_var_names_exact",
    "Verif.C22_var_names_partial",
    "Verif.C22_paren_type_leaks_scope"
   ],
   "note": "a spec whose declared type the visitor does not handle (e.g. one in parentheses) leaves its scope open for the later specs of its declaration (proved counterexample); C22_var_names_exact says what happens in all cases, and when the property holds"
  },
  {
   "property": "C23",
   "status": "proved",
   "theorems": [
    "Verif.C23_functions_and_methods",
    "Verif.C23_receiver_path_unique"
   ],
   "note": ""
  },
  {
   "property": "C24",
   "status": "partial",
   "theorems": [
    "Verif.C24_embedded_field_position_partial",
    "Verif.C24_embedded_in_var_struct_misplaced",
    "Verif.C24_whole_package_partial",
    "Verif.C24_var_struct_exact"
   ],
   "note": "embedded fields of struct types written in var declarations are recorded where the field begins: C24_var_struct_exact says when they are found; counterexample *E"
  },
  {
   "property": "C25",
   "status": "partial",
   "theorems": [
    "Verif.C25_key_iff",
    "Verif.C25_identical_types_partial",
    "Verif.C25_written_differently",
    "Verif.C25_key_shape",
    "Verif.C25_anonymous_field_path",
    "Verif.C25_sharing"
   ],
   "note": "identical types share symbols only if they are written alike: aliases, parameter names and embedded interfaces change the key (C25_written_differently, with the pair struct{F any} / struct{F interface{}}); sha256 and strconv.Quote are parameters, a hash collision between the two texts is excluded by hypothesis"
  },
  {
   "property": "C26",
   "status": "proved",
   "theorems": [
    "Verif.C26_identical_types_equal_fingerprints"
   ],
   "note": ""
  },
  {
   "property": "C27",
   "status": "proved",
   "theorems": [
    "Verif.C27_equal_fingerprints_identical_types",
    "Verif.C27_function_local_types_collide",
    "Verif.C27_interfaces_collide",
    "Verif.C27_tricky_exactly_vague"
   ],
   "note": ""
  },
  {
   "property": "C28",
   "status": "proved",
   "theorems": [
    "Verif.C28_parse_infallible"
   ],
   "note": ""
  },
  {
   "property": "C29",
   "status": "partial",
   "theorems": [
    "Verif.C29_match_exact_partial",
    "Verif.C29_types_match_exact_partial",
    "Verif.C29_ground",
    "Verif.C29_two_patterns_crash",
    "Verif.C29_two_patterns_missed",
    "Verif.C29_two_patterns_wrong",
    "Verif.C29_linear",
    "Verif.C29_types_linear",
    "Verif.C29_no_infinite_match",
    "Verif.C29_no_infinite_match_instance",
    "Verif.C29_keyword_name_crash"
   ],
   "note": "proved exactly when one side has no type parameters (C29_match_exact_partial), and when both have them if no type parameter occurs twice in a side (C29_linear); otherwise the code can crash, miss a match or report a wrong one (C29_two_patterns_crash, _missed, _wrong)"
  },
  {
   "property": "C30",
   "status": "proved",
   "theorems": [
    "Verif.C30_prefilters_lose_nothing"
   ],
   "note": ""
  },
  {
   "property": "C31",
   "status": "proved",
   "theorems": [
    "Verif.C31_whole_run",
    "Verif.C31_added_relationships_are_real",
    "Verif.C31_type_relationships_are_real",
    "Verif.C31_method_relationships_are_real"
   ],
   "note": ""
  },
  {
   "property": "C32",
   "status": "partial",
   "theorems": [
    "Verif.C32_whole_run_partial",
    "Verif.C32_every_implementation_partial",
    "Verif.C32_embedding_across_packages_lost",
    "Verif.C32_exact_types",
    "Verif.C32_exact_methods"
   ],
   "note": "types whose package-private interface method is promoted from an embedded type of another package are lost (proved counterexample); C32_exact_types and C32_exact_methods say exactly what is emitted"
  },
  {
   "property": "C33",
   "status": "proved",
   "theorems": [
    "Verif.C33_order_independent",
    "Verif.C33_never_crashes"
   ],
   "note": ""
  },
  {
   "property": "C34",
   "status": "proved",
   "theorems": [
    "Verif.C34_sorted_duplicate_free"
   ],
   "note": ""
  },
  {
   "property": "C35",
   "status": "proved",
   "theorems": [
    "Verif.C35_whole_run",
    "Verif.C35_external_symbols",
    "Verif.C35_written_once"
   ],
   "note": ""
  },
  {
   "property": "C36",
   "status": "proved",
   "theorems": [
    "Verif.C36_counter_reaches_total"
   ],
   "note": ""
  },
  {
   "property": "C37",
   "status": "partial",
   "theorems": [
    "Verif.C37_every_package_has_identity"
   ],
   "note": "proved, except that the pseudo package builtin has an empty version if no Go version could be determined (proved to be the only exception)"
  },
  {
   "property": "C38",
   "status": "partial",
   "theorems": [
    "Verif.C38_normalising_is_idempotent_partial",
    "Verif.C38_not_idempotent"
   ],
   "note": "proved for non-empty module paths, no module named std behind a replacement, no doubled std/ prefix and a plain project version; C38_not_idempotent proves it false when the project version is a pseudo-version"
  },
  {
   "property": "C39",
   "status": "proved",
   "theorems": [
    "Verif.C39_pseudo_version_becomes_revision",
    "Verif.C39_revision_unique"
   ],
   "note": "module version meaning the version the module (or its replacement, or its local go.mod) comes with; versions delivered empty are the subject of C48"
  },
  {
   "property": "C40",
   "status": "proved",
   "theorems": [
    "Verif.C40_build_metadata_dropped",
    "Verif.C40_other_versions_kept"
   ],
   "note": ""
  },
  {
   "property": "C41",
   "status": "proved",
   "theorems": [
    "Verif.C41_driver_configured",
    "Verif.C41_options_taken_over",
    "Verif.C41_driver_packages_belong_to_module"
   ],
   "note": ""
  },
  {
   "property": "C42",
   "status": "proved",
   "theorems": [
    "Verif.C42_standard_library"
   ],
   "note": ""
  },
  {
   "property": "C43",
   "status": "proved",
   "theorems": [
    "Verif.C43_closed_under_imports",
    "Verif.C43_roots_represented",
    "Verif.C43_only_reachable"
   ],
   "note": ""
  },
  {
   "property": "C44",
   "status": "partial",
   "theorems": [
    "Verif.C44_largest_variant_wins_partial",
    "Verif.C44_all_variants_met",
    "Verif.C44_std_last_variant_wins"
   ],
   "note": "proved for import paths without std/ prefix; C44_std_last_variant_wins proves it false while indexing the standard library"
  },
  {
   "property": "C45",
   "status": "proved",
   "theorems": [
    "Verif.C45_loading_terminates"
   ],
   "note": ""
  },
  {
   "property": "C46",
   "status": "partial",
   "theorems": [
    "Verif.C46_project_packages_are_among_all",
    "Verif.C46_same_object_partial",
    "Verif.C46_stale_variant"
   ],
   "note": "same keys, non-nil values and builtin proved for all loads; same object proved if the largest variant is among the matched packages; C46_stale_variant proves it false otherwise"
  },
  {
   "property": "C47",
   "status": "proved",
   "theorems": [
    "Verif.C47_nested_iff",
    "Verif.C47_symmetric",
    "Verif.C47_unknown_directory"
   ],
   "note": ""
  },
  {
   "property": "C48",
   "status": "proved",
   "theorems": [
    "Verif.C48_unversioned_packages",
    "Verif.C48_replaced_unversioned"
   ],
   "note": ""
  },
  {
   "property": "C49",
   "status": "proved",
   "theorems": [
    "Verif.C49_message_order",
    "Verif.C49_success_is_complete"
   ],
   "note": ""
  },
  {
   "property": "C50",
   "status": "proved",
   "theorems": [
    "Verif.C50_write_failure",
    "Verif.C50_cut_off"
   ],
   "note": ""
  },
  {
   "property": "C51",
   "status": "proved",
   "theorems": [
    "Verif.C51_one_document_per_file",
    "Verif.C51_order_deterministic"
   ],
   "note": ""
  },
  {
   "property": "C52",
   "status": "proved",
   "theorems": [
    "Verif.C52_successful_run_decodes",
    "Verif.C52_file_decodes",
    "Verif.C52_cut_between_messages",
    "Verif.C52_cut_inside_message",
    "Verif.C52_translation_faithful",
    "Verif.C52_reader_view",
    "Verif.C52_reader_view_metadata",
    "Verif.C52_reader_view_external"
   ],
   "note": ""
  },
  {
   "property": "C53",
   "status": "proved",
   "theorems": [
    "Verif.C53_no_interleaving",
    "Verif.C53_mutual_exclusion",
    "Verif.C53_no_deadlock",
    "Verif.C53_all_written"
   ],
   "note": ""
  },
  {
   "property": "C54",
   "status": "proved",
   "theorems": [
    "Verif.C54_incomplete_output",
    "Verif.C54_failed_run_leaves_nothing",
    "Verif.C54_all_or_nothing"
   ],
   "note": ""
  },
  {
   "property": "C55",
   "status": "proved",
   "theorems": [
    "Verif.C55_nothing_missing"
   ],
   "note": ""
  },
  {
   "property": "C56",
   "status": "proved",
   "theorems": [
    "Verif.C56_listing"
   ],
   "note": ""
  },
  {
   "property": "C57",
   "status": "proved",
   "theorems": [
    "Verif.C57_relevance",
    "Verif.C57_package_docs"
   ],
   "note": ""
  },
  {
   "property": "C58",
   "status": "proved",
   "theorems": [
    "Verif.C58_clause_definition",
    "Verif.C58_described_once",
    "Verif.C58_one_description",
    "Verif.C58_definitions",
    "Verif.C58_whole_index"
   ],
   "note": ""
  },
  {
   "property": "C59",
   "status": "proved",
   "theorems": [
    "Verif.C59_human_elapsed",
    "Verif.C59_bound_tight"
   ],
   "note": ""
  },
  {
   "property": "C60",
   "status": "proved",
   "theorems": [
    "Verif.C60_progress",
    "Verif.C60_count_complete",
    "Verif.C60_silent_after_return",
    "Verif.C60_no_deadlock",
    "Verif.C60_only_ticker_repeats",
    "Verif.C60_supply_start",
    "Verif.C60_can_return",
    "Verif.C60_with_progress",
    "Verif.C60_text"
   ],
   "note": "no deadlock, return always possible, only ticker steps can repeat; scheduling fairness itself is outside the model; a worker that leaves early (write error) still ends in n/n"
  },
  {
   "property": "C61",
   "status": "proved",
   "theorems": [
    "Verif.C61_log_level",
    "Verif.C61_negative_crashes"
   ],
   "note": "for counters from 0 on; C61_negative_crashes proves that a negative counter makes the program panic"
  },
  {
   "property": "C62",
   "status": "proved",
   "theorems": [
    "Verif.C62_same_name",
    "Verif.C62_ssh",
    "Verif.C62_infer",
    "Verif.C62_errors"
   ],
   "note": "url.Parse is a parameter with the documented behaviour on plain addresses as hypothesis; an instance is given"
  },
  {
   "property": "C63",
   "status": "proved",
   "theorems": [
    "Verif.C63_module_version",
    "Verif.C63_errors"
   ],
   "note": "commit ids of at least 12 characters; C63_errors proves that a shorter answer of git makes the program panic"
  },
  {
   "property": "C64",
   "status": "partial",
   "theorems": [
    "Verif.C64_module_name_partial",
    "Verif.C64_failure_swallowed",
    "Verif.C64_no_directive"
   ],
   "note": "C64_failure_swallowed and C64_no_directive prove that a failed resolution is not reported and that a go.mod without module directive makes the program panic"
  },
  {
   "property": "C65",
   "status": "partial",
   "theorems": [
    "Verif.C65_outside_repository",
    "Verif.C65_closest_partial",
    "Verif.C65_inside_repository",
    "Verif.C65_stat_error",
    "Verif.C65_wrong_inside"
   ],
   "note": "false of the code inside a repository (C65_inside_repository, C65_wrong_inside); proved where the search runs at all"
  },
  {
   "property": "C66",
   "status": "proved",
   "theorems": [
    "Verif.C66_deprecated_iff",
    "Verif.C66_any_line_not_paragraph"
   ],
   "note": ""
  },
  {
   "property": "C67",
   "status": "proved",
   "theorems": [
    "Verif.C67_requote",
    "Verif.C67_no_quotes_unchanged",
    "Verif.C67_unterminated_quote_dropped"
   ],
   "note": ""
  },
  {
   "property": "C68",
   "status": "partial",
   "theorems": [
    "Verif.C68_whole_run_partial",
    "Verif.C68_lost",
    "Verif.C68_no_empty_no_duplicate",
    "Verif.C68_type_spec_documentation",
    "Verif.C68_value_spec_documentation",
    "Verif.C68_field_func_documentation"
   ],
   "note": "false of the code for the specs of a var or const group after one whose value contains a var or const declaration in a function literal (C68_lost); proved for everything else, for whole runs against the comments of the source files (C68_whole_run_partial)"
  },
  {
   "property": "C69",
   "status": "proved",
   "theorems": [
    "Verif.C69_same_documents",
    "Verif.C69_same_index",
    "Verif.C69_same_output"
   ],
   "note": ""
  },
  {
   "property": "C70",
   "status": "proved",
   "theorems": [
    "Verif.C70_symbols_of_own_package"
   ],
   "note": ""
  },
  {
   "property": "C71",
   "status": "partial",
   "theorems": [
    "Verif.C71_type_parameter_kind_never_reported"
   ],
   "note": "false of the code: the theorem proves that the kind is never reported"
  },
  {
   "property": "C72",
   "status": "proved",
   "theorems": [
    "Verif.C72_module_path"
   ],
   "note": ""
  },
  {
   "property": "C73",
   "status": "proved",
   "theorems": [
    "Verif.C73_leads_to_file",
    "Verif.C73_below_root",
    "Verif.C73_injective",
    "Verif.C73_documents"
   ],
   "note": ""
  },
  {
   "property": "C74",
   "status": "proved",
   "theorems": [
    "Verif.C74_never_crashes"
   ],
   "note": ""
  },
  {
   "property": "C75",
   "status": "proved",
   "theorems": [
    "Verif.C75_definitions_described"
   ],
   "note": ""
  },
  {
   "property": "C76",
   "status": "proved",
   "theorems": [
    "Verif.C76_packages_listing",
    "Verif.C76_failure_prints_nothing",
    "Verif.C76_missing_text",
    "Verif.C76_missing_documents",
    "Verif.C76_packages_output",
    "Verif.C76_quiet_output"
   ],
   "note": ""
  },
  {
   "property": "C77",
   "status": "proved",
   "theorems": [
    "Verif.C77_defaults_crash_iff",
    "Verif.C77_defaults"
   ],
   "note": ""
  },
  {
   "property": "C78",
   "status": "proved",
   "theorems": [
    "Verif.C78_exit_status",
    "Verif.C78_causes",
    "Verif.C78_status_tells_completeness"
   ],
   "note": ""
  },
  {
   "property": "C79",
   "status": "partial",
   "theorems": [
    "Verif.C79_determines_partial",
    "Verif.C79_never_empty",
    "Verif.C79_recorded",
    "Verif.C79_type_name",
    "Verif.C79_package_name",
    "Verif.C79_type_name_determined",
    "Verif.C79_layout",
    "Verif.C79_no_tabs",
    "Verif.C79_generic_definition",
    "Verif.C79_alias_constraint",
    "Verif.C79_backtick",
    "Verif.C79_whole_run_partial"
   ],
   "note": "types.ObjectString is re-modelled, gofmt, strconv.Quote and strconv.Unquote are parameters; C79_determines_partial covers everything written on one line; for struct and interface definitions C79_layout reduces the text to the layout of gofmt; false for the type parameters of defined types (C79_generic_definition) and for struct tags containing back-ticks (C79_backtick); type parameters named like a declared type of the package are excluded"
  },
  {
   "property": "C80",
   "status": "proved",
   "theorems": [
    "Verif.C80_determines",
    "Verif.C80_import",
    "Verif.C80_never_empty",
    "Verif.C80_recorded",
    "Verif.C80_whole_run"
   ],
   "note": "types.ObjectString is re-modelled; type parameters named like a declared type are excluded; local constants are shown without their value"
  },
  {
   "property": "C81",
   "status": "proved",
   "theorems": [
    "Verif.C81_identity_unique",
    "Verif.C81_identity"
   ],
   "note": ""
  },
  {
   "property": "C82",
   "status": "proved",
   "theorems": [
    "Verif.C82_succeeds_iff",
    "Verif.C82_every_file_indexed",
    "Verif.C82_never_crashes",
    "Verif.C82_run_ends",
    "Verif.C82_go_command_fails",
    "Verif.C82_causes"
   ],
   "note": ""
  },
  {
   "property": "C83",
   "status": "proved",
   "theorems": [
    "Verif.C83_every_symbol_identified",
    "Verif.C83_symbols_of_run"
   ],
   "note": ""
  },
  {
   "property": "C84",
   "status": "proved",
   "theorems": [
    "Verif.C84_program",
    "Verif.C84_exact_relationships",
    "Verif.C84_types",
    "Verif.C84_external_symbols"
   ],
   "note": ""
  },
  {
   "property": "C85",
   "status": "proved",
   "theorems": [
    "Verif.C85_same_outcome",
    "Verif.C85_same_output",
    "Verif.C85_same_index"
   ],
   "note": ""
  },
  {
   "property": "C86",
   "status": "proved",
   "theorems": [
    "Verif.C86_indexed_as_delivered"
   ],
   "note": ""
  },
  {
   "property": "C87",
   "status": "proved",
   "theorems": [
    "Verif.C87_document",
    "Verif.C87_index",
    "Verif.C87_determined",
    "Verif.C87_program"
   ],
   "note": ""
  },
  {
   "property": "C88",
   "status": "proved",
   "theorems": [
    "Verif.C88_command",
    "Verif.C88_ends"
   ],
   "note": ""
  },
  {
   "property": "C89",
   "status": "partial",
   "theorems": [
    "Verif.C89_every_schedule",
    "Verif.C89_at_any_time",
    "Verif.C89_index_part",
    "Verif.C89_standard_output_partial",
    "Verif.C89_progress_in_output",
    "Verif.C89_order",
    "Verif.C89_same_text"
   ],
   "note": "false of the code without --quiet (C89_progress_in_output; in the example the output cannot be decoded); proved with --quiet, and for the bytes of the index in general (C89_index_part)"
  },
  {
   "property": "C90",
   "status": "proved",
   "theorems": [
    "Verif.C90_linearizable",
    "Verif.C90_mutual_exclusion",
    "Verif.C90_table_only_inside",
    "Verif.C90_no_deadlock",
    "Verif.C90_steps_bounded",
    "Verif.C90_schedule_independent"
   ],
   "note": ""
  },
  {
   "property": "C91",
   "status": "partial",
   "theorems": [
    "Verif.C91_utf8_partial",
    "Verif.C91_marshal",
    "Verif.C91_signature_partial",
    "Verif.C91_anonymous",
    "Verif.C91_program",
    "Verif.C91_command",
    "Verif.C91_needs_utf8",
    "Verif.C91_raw_tag"
   ],
   "note": "false of the code for a field whose type is a struct literal with a tag like \"\\xff\": the tag is unquoted, its signature is not UTF-8 and the whole index fails (C91_raw_tag, evaluated for a whole run in TextSample); proved for all programs whose names, comments, paths, versions and signatures are UTF-8 (C91_utf8_partial, C91_program, C91_command), and for the signatures of all objects if the tags in field types are UTF-8 (C91_signature_partial; gofmt is assumed to keep UTF-8, strconv.Quote to produce it)"
  },
  {
   "property": "C92",
   "status": "proved",
   "theorems": [
    "Verif.C92_every_schedule",
    "Verif.C92_at_any_time",
    "Verif.C92_race_free",
    "Verif.C92_accesses_noted",
    "Verif.C92_nothing_left",
    "Verif.C92_can_end",
    "Verif.C92_no_infinite_schedule"
   ],
   "note": ""
  },
  {
   "property": "C93",
   "status": "proved",
   "theorems": [
    "Verif.C93_index",
    "Verif.C93_program"
   ],
   "note": ""
  },
  {
   "property": "C94",
   "status": "proved",
   "theorems": [
    "Verif.C94_index",
    "Verif.C94_same_run",
    "Verif.C94_same_index"
   ],
   "note": ""
  },
  {
   "property": "C95",
   "status": "proved",
   "theorems": [
    "Verif.C95_document",
    "Verif.C95_nothing_new",
    "Verif.C95_only_marks",
    "Verif.C95_interface_method_differs"
   ],
   "note": "the exceptions named in the property are real: C95_interface_method_differs evaluates two runs in which the reference to a method of an interface has another symbol and that to a function gets a deprecation mark; the objects that the package uses may be others in the two runs (dependencies come from export data), which Spec/Modularity.lean spells out"
  },
  {
   "property": "C96",
   "status": "proved",
   "theorems": [
    "Verif.C96_document",
    "Verif.C96_comment_differs"
   ],
   "note": "edits are compared in one numbering of positions and syntax nodes (C94: the numbering does not matter); the exception for deprecation comments is evaluated in C96_comment_differs; relationships are compared under the hypothesis that the implemented interfaces are the same"
  },
  {
   "property": "C97",
   "status": "proved",
   "theorems": [
    "Verif.C97_reports",
    "Verif.C97_no_silent_loss",
    "Verif.C97_shown"
   ],
   "note": "of the texts of the records only kind, level, position and package are modelled; the occurrence of an identifier with uses is C13, which C97_no_silent_loss combines with the log"
  },
  {
   "property": "C98",
   "status": "proved",
   "theorems": [
    "Verif.C98_index",
    "Verif.C98_same_index",
    "Verif.C98_succeeds"
   ],
   "note": ""
  },
  {
   "property": "C99",
   "status": "proved",
   "theorems": [
    "Verif.C99_one_entity",
    "Verif.C99_apart",
    "Verif.C99_own_symbol",
    "Verif.C99_not_displaced",
    "Verif.C99_described",
    "Verif.C99_reference",
    "Verif.C99_determined"
   ],
   "note": "the hypotheses (Spec/Places.lean) are syntactic: distinct places of identifiers and embedded fields, and specs of var/const declarations are value specs; the files must have no syntax errors (go/parser puts placeholders for missing identifiers at positions of other tokens)"
  },
  {
   "property": "C100",
   "status": "proved",
   "theorems": [
    "Verif.C100_distinct",
    "Verif.C100_apart",
    "Verif.C100_one_description",
    "Verif.C100_one_definition",
    "Verif.C100_not_external",
    "Verif.C100_whole_run",
    "Verif.C100_shared"
   ],
   "note": "what the statement excludes does share symbols (C100_shared): several init functions, fields of identical anonymous types in one body, and everything inside of variable declarations (parameters of function literals are described as package-level entities under the name of the variable)"
  },
  {
   "property": "C101",
   "status": "proved",
   "theorems": [
    "Verif.C101_options",
    "Verif.C101_symbols",
    "Verif.C101_versions_from_elsewhere"
   ],
   "note": "kong's reading of arguments and environment variables is a parameter; C101_versions_from_elsewhere is the last sentence: with --module-root in another repository, version and remote are still those of the working directory"
  },
  {
   "property": "C102",
   "status": "proved",
   "theorems": [
    "Verif.C102_panics_iff",
    "Verif.C102_ends"
   ],
   "note": "the loader recovers its own panics (C82); a broken go.mod of a dependency is an error, not a panic; memory exhaustion and stack depth are outside of the model"
  },
  {
   "property": "C103",
   "status": "proved",
   "theorems": [
    "Verif.C103_listing_succeeds_iff",
    "Verif.C103_packages_printed",
    "Verif.C103_missing_printed",
    "Verif.C103_index_success_means",
    "Verif.C103_index_succeeds_iff"
   ],
   "note": "C103_index_success_means holds without hypotheses about disk and texts; the converse (C103_index_succeeds_iff) needs that writing never fails and that all texts are UTF-8 (C91)"
  },
  {
   "property": "C104",
   "status": "proved",
   "theorems": [
    "Verif.C104_conflict_cause",
    "Verif.C104_conflict_reported",
    "Verif.C104_no_conflicts",
    "Verif.C104_index_warnings",
    "Verif.C104_silent",
    "Verif.C104_module_warning",
    "Verif.C104_loading_silent"
   ],
   "note": ""
  },
  {
   "property": "C105",
   "status": "proved",
   "theorems": [
    "Verif.C105_error_line",
    "Verif.C105_bad_arguments",
    "Verif.C105_quiet",
    "Verif.C105_not_started",
    "Verif.C105_listing",
    "Verif.C105_index"
   ],
   "note": "records of level Debug are left out, so the statement is exact unless -V is given twice; of the texts of the log records the kind and the values are kept; C105_error_line, C105_bad_arguments, C105_quiet and C105_not_started need no hypotheses about the packages"
  },
  {
   "property": "C106",
   "status": "proved",
   "theorems": [
    "Verif.C106_told",
    "Verif.C106_silent_identity",
    "Verif.C106_load",
    "Verif.C106_failed_load",
    "Verif.C106_visits",
    "Verif.C106_left_out"
   ],
   "note": "of the texts of the records the kind and the values are kept; what packages.Load itself logs (loader.go:37) is not covered; for the records of the collecting visitors see C108"
  },
  {
   "property": "C107",
   "status": "proved",
   "theorems": [
    "Verif.C107_text_of_fingerprint",
    "Verif.C107_text_parses",
    "Verif.C107_text_injective"
   ],
   "note": ""
  },
  {
   "property": "C108",
   "status": "proved",
   "theorems": [
    "Verif.C108_told",
    "Verif.C108_told_before_panic",
    "Verif.C108_silent_exact",
    "Verif.C108_silent_package",
    "Verif.C108_embedded"
   ],
   "note": "of the texts of the records the kind and the position are kept; a syntax error in place of an embedded element is not told apart from a union"
  },
  {
   "property": "C109",
   "status": "proved",
   "theorems": [
    "Verif.C109_updates",
    "Verif.C109_lookups",
    "Verif.C109_race_causes",
    "Verif.C109_race_free",
    "Verif.C109_race_read_during_add",
    "Verif.C109_race_predeclared",
    "Verif.C109_no_deadlock",
    "Verif.C109_steps_bounded",
    "Verif.C109_schedule_independent",
    "Verif.C109_answers"
   ],
   "note": ""
  },
  {
   "property": "C110",
   "status": "proved",
   "theorems": [
    "Verif.C110_same_symbol",
    "Verif.C110_by_declarations",
    "Verif.C110_no_places",
    "Verif.C110_named",
    "Verif.C110_index",
    "Verif.C110_place_in_symbol"
   ],
   "note": "the exception is part of the statement: C110_place_in_symbol shows that it is needed, C110_no_places that it is the only one; what counts as the same anonymous type is the fingerprint key, which is a parameter of the model"
  },
  {
   "property": "C111",
   "status": "proved",
   "theorems": [
    "Verif.C111_reference",
    "Verif.C111_leads_right",
    "Verif.C111_whole_runs",
    "Verif.C111_symbol",
    "Verif.C111_external",
    "Verif.C111_implemented",
    "Verif.C111_packages"
   ],
   "note": "the conditions are those of C04_exact and part of the statement (`ok` in C111_reference); that the two runs see the same declaration is the hypothesis EntityDecl, which relates the type checker's object of the second run to the syntax of the first"
  }
 ]
}