# Axioms each theorem depends on

Generated by `tools/axioms.py` from `#print axioms`.

## none (1 theorems)

`C54_stale`

## propext (65 theorems)

`C01_any_short_circuit`, `C01_any_empty`, `C02_all_empty`, `C04_not_nil`, `C06_has_no_default`, `C07_empty`, `C07_null_exact`, `C11_refuted`, `C14_refuted`, `C15_unknown_format`, `C22_only_slices`, `C25_refuted`, `C26_refuted`, `C31_refuted`, `C35_refuted`, `C37_refuted`, `C37_dependency_partial`, `C40_refuted`, `C42_refuted`, `C43_refuted`, `C45_target`, `C45_unregistered`, `C45_cache_set`, `C46_lookups_do_not_matter`, `C47_failure_not_remembered`, `C50_cycle`, `C50_self`, `C51_verdict`, `C51_error`, `C51_effect`, `C52_valid`, `C52_failure`, `C54_refuted`, `C54_flag_partial`, `C55_refuted`, `C57_refuted`, `C61_nil`, `C73_lookup_atomic`, `C74_refuted`, `C87_refuted`, `C95_kind`, `C95_nil`, `C95_keys`, `C95_maybe`, `C96_unwritable`, `C99_combinators`, `C101_refuted`, `C102_cycle`, `C102_untouched`, `C102_own_number`, `C102_own_integer`, `C102_registered`, `C104_written`, `C104_time`, `C104_null`, `C105_nil_maybe`, `C105_interface_keys`, `C105_refuted`, `C110_manual_nil`, `C110_number`, `C110_string`, `C112_unseen`, `C112_refuted`, `C112_twice_scalars`, `C126_items`

## propext, Quot.sound (63 theorems)

`C01_any_exact`, `C01_any_accepts_iff`, `C02_all_accepts_iff`, `C02_all_accepts_iff_readOnly`, `C02_all_first_error`, `C03_oneOf_general`, `C04_not_exact`, `C04_not_rejects`, `C04_double_negation`, `C08_boolean_exact`, `C17_refuted`, `C28_refuted`, `C28_unique_partial`, `C35_refuted_tried`, `C43_panics_iff`, `C45_cache`, `C45_objects`, `C45_nil`, `C46_last_writer_wins`, `C47_succeeds_after_registration`, `C49_reference_free`, `C51_abort`, `C52_succeeds_iff`, `C53_reset`, `C53_absent`, `C56_panics`, `C59_refuted`, `C64_later_ignored`, `C87_guarded_partial`, `C87_writers`, `C87_readers`, `C90_conservative`, `C91_getter_errors`, `C91_set_missing`, `C91_listed_nil`, `C97_frame`, `C97_readonly`, `C98_separate`, `C99_array`, `C101_sticky`, `C102_order`, `C102_own_string`, `C102_own_array`, `C102_own_object`, `C102_own_combinators`, `C102_own_others`, `C103_place`, `C103_filled`, `C104_payload`, `C104_same_iff`, `C104_refuted`, `C104_struct`, `C107_file`, `C112_pointer`, `C114_weaker`, `C116_replaced`, `C116_everywhere`, `C117_not`, `C117_not_not`, `C117_order`, `C119_one_way`, `C126_product`, `C128_valid`

## propext, Classical.choice, Quot.sound (408 theorems)

`C03_oneOf_exact`, `C05_reduce_preserves`, `C06_never_filled`, `C09_enum_exact`, `C09_enum_container`, `C10_string_exact`, `C10_string_total`, `C11_exact`, `C11_lengths_partial`, `C11_ascii_partial`, `C12_hostname_exact`, `C13_ip_exact`, `C14_ipv6_partial`, `C16_number_exact`, `C16_number_total`, `C17_exact`, `C17_interval_partial`, `C18_integer_exact`, `C18_integer_plain`, `C18_kind_irrelevant`, `C19_exact`, `C19_exact_unsigned`, `C19_never_rejects`, `C19_refuted`, `C19_integer_bounds_partial`, `C20_multipleOf_exact`, `C21_enum_float64_only`, `C21_enum_no_floats`, `C22_length_rejects`, `C23_items_exact`, `C23_items_all_orders`, `C24_positional_exact`, `C25_additional_partial`, `C25_exact`, `C26_default_partial`, `C26_explicit_nil_partial`, `C26_exact`, `C27_unique_exact`, `C27_equal_rejected`, `C28_strings_partial`, `C28_exact`, `C29_count_rejected`, `C29_count_irrelevant`, `C30_required_declared`, `C31_exact`, `C31_required_partial`, `C32_undeclared_rejected`, `C32_additional_accepts`, `C33_all_orders`, `C33_every_pattern`, `C34_exact`, `C34_local`, `C35_object_partial`, `C35_tree_partial`, `C35_json_partial`, `C35_defaults_partial`, `C35_defaults_json_partial`, `C35_structs_partial`, `C35_unseen_partial`, `C35_unseen_json_partial`, `C36_prop_dependencies`, `C37_exact`, `C37_converse_refuted`, `C38_schema_dependency_defaults`, `C38_schema_dependency`, `C39_fills_defaults`, `C39_then_dependencies`, `C40_extension_partial`, `C40_json_partial`, `C41_read_only`, `C41_inert`, `C42_default_free_partial`, `C42_json_partial`, `C42_defaults_partial`, `C42_defaults_json_partial`, `C42_structs_partial`, `C43_nil_maps_partial`, `C43_accepts_iff`, `C43_panics_always_iff`, `C44_no_panic`, `C44_json`, `C44_structs`, `C45_context`, `C46_len`, `C47_sticky`, `C47_was_registered`, `C48_no_deadlock`, `C48_completes`, `C49_guarded`, `C49_guarded_returns`, `C52_round_trip`, `C52_converts_total`, `C53_history`, `C53_required`, `C53_as_missing`, `C55_valid_partial`, `C55_succeeds_iff`, `C55_time_partial`, `C56_names`, `C56_visible`, `C57_names_panics_iff`, `C57_names_iff`, `C57_value_iff`, `C57_names_partial`, `C57_value_partial`, `C58_extracted`, `C58_found`, `C58_no_race`, `C58_progress`, `C58_released`, `C59_nested`, `C59_same_verdict_partial`, `C59_all_orders_partial`, `C60_any_by_value`, `C60_any_panics`, `C60_any_stored`, `C60_any_filled`, `C60_any_value`, `C60_nested`, `C60_by_value_not_accepted`, `C60_by_value_panics`, `C60_by_pointer`, `C60_pointer_field`, `C60_misfit`, `C60_filled`, `C61_no_dangling_ctx`, `C61_no_dangling`, `C62_terminates`, `C62_finite_document`, `C62_endless`, `C63_sound`, `C63_exact`, `C63_defaults`, `C63_characters`, `C63_whole`, `C63_min_edge`, `C63_max_edge`, `C63_trimmed`, `C64_refuted`, `C64_first_partial`, `C65_refuted`, `C65_number_enum_rejects_all`, `C65_listed_partial`, `C65_untyped_partial`, `C65_accepted`, `C65_unlisted`, `C65_ignored`, `C66_schema`, `C66_validator`, `C67_union`, `C67_no_suggestion`, `C67_unconstrained`, `C68_deterministic`, `C68_alias_needed`, `C68_patterns_needed`, `C69_constraint`, `C69_program`, `C70_bounds_partial`, `C70_decimals_iff`, `C70_number_partial`, `C70_object_partial`, `C70_enum_partial`, `C70_combinators_partial`, `C70_not_partial`, `C70_multipleOf_refuted`, `C70_numberEnum_refuted`, `C70_fraction_refuted`, `C70_decimals_refuted`, `C70_properties_refuted`, `C70_dependency_refuted`, `C70_items_refuted`, `C70_combinators_refuted`, `C70_enum_refuted`, `C70_not_refuted`, `C70_noStrings_refuted`, `C70_listed_refuted`, `C70_default_refuted`, `C71_literals_partial`, `C71_directives_partial`, `C71_percent_refuted`, `C71_names`, `C71_property`, `C71_reference`, `C71_reference_refuted`, `C71_verbatim`, `C71_listed`, `C72_declarations`, `C72_program`, `C72_runs_iff`, `C72_clash`, `C74_exclusive_partial`, `C75_generated`, `C75_defaults`, `C76_order`, `C76_repeat`, `C76_refuted`, `C77_together_partial`, `C77_refuted`, `C78_status`, `C78_output_partial`, `C78_failure_partial`, `C78_truncated_refuted`, `C78_written_refuted`, `C79_names_partial`, `C79_exact`, `C79_refuted`, `C80_complete`, `C80_command`, `C80_defaults`, `C81_necessary`, `C81_succeeds`, `C81_conforming`, `C82_success`, `C82_answer_partial`, `C82_refuted`, `C83_defaults`, `C83_answer`, `C84_isolated`, `C84_once`, `C84_exclusive`, `C85_no_deadlock`, `C85_completes`, `C86_no_deadlock`, `C86_waits`, `C86_released`, `C88_verdict`, `C88_returns`, `C88_same`, `C89_answers`, `C89_answered`, `C90_shows`, `C90_valid`, `C91_set_refused`, `C92_status`, `C92_listens`, `C92_server_harmless`, `C93_status`, `C93_output`, `C93_failure`, `C93_program`, `C94_same`, `C94_accepts`, `C94_valid`, `C95_empty`, `C95_time`, `C96_files`, `C96_again`, `C97_tree`, `C97_shared`, `C97_layout`, `C97_alias`, `C97_default`, `C97_cycle`, `C98_tree`, `C98_finishes`, `C98_same`, `C99_string`, `C99_number`, `C99_integer`, `C99_array_items`, `C99_array_positional`, `C99_object`, `C99_answers`, `C100_refuted`, `C100_exact`, `C101_lookup`, `C102_tree`, `C102_has_tree`, `C102_as_references`, `C102_frame`, `C102_everywhere`, `C102_in_place`, `C102_guarded`, `C103_cause`, `C103_blocks`, `C103_iff`, `C103_decoded`, `C105_same_partial`, `C105_conservative`, `C105_valid`, `C105_enum`, `C105_enum_plain`, `C105_keys`, `C105_default`, `C105_default_taken`, `C105_nil_element`, `C106_separate`, `C106_tree`, `C106_fixed`, `C106_progress`, `C106_ends`, `C106_late`, `C106_names`, `C106_nil`, `C107_decides`, `C107_again`, `C107_test`, `C107_reproduced`, `C108_table`, `C108_any_order`, `C108_text`, `C108_command_ends`, `C108_command`, `C108_gentest`, `C108_server`, `C108_status_varies`, `C108_alias_needed`, `C109_outcomes`, `C109_validate`, `C109_default`, `C109_verdict`, `C110_guess`, `C110_guess_table`, `C110_number_calls`, `C110_string_calls`, `C110_manual`, `C110_reference`, `C110_object`, `C110_dependency`, `C110_schema_dependency`, `C110_array`, `C110_maybe`, `C110_maybe_default`, `C111_readable`, `C111_some`, `C111_validator`, `C111_true`, `C111_quoted`, `C112_twice_empty`, `C112_twice_iff`, `C112_twice_overwritten`, `C113_kept`, `C113_survives_iff`, `C113_program`, `C113_stable`, `C113_again_panics`, `C113_number_minimum_iff`, `C113_integer_minimum_iff`, `C113_integer_maximum_iff`, `C114_enforced`, `C114_accepts_valid`, `C114_command`, `C114_server`, `C115_references`, `C115_command`, `C115_file`, `C115_refuted`, `C116_exact`, `C116_reduce`, `C116_reduce_seen`, `C117_flat`, `C117_order_seen`, `C118_messages`, `C118_place`, `C118_built`, `C118_schema`, `C119_reported`, `C119_possible`, `C119_fault`, `C119_leftmost`, `C119_declared_first`, `C119_decoded`, `C120_same`, `C120_default`, `C120_rename`, `C120_unmentioned`, `C120_built`, `C120_buildable`, `C120_schema`, `C121_fixed`, `C121_schema`, `C121_accepts`, `C121_buildable`, `C122_stricter`, `C122_rejects`, `C122_json`, `C122_decoded`, `C123_fixed`, `C123_narrower`, `C123_decoded`, `C124_within`, `C124_default`, `C124_attained`, `C125_sorted`, `C125_repeated`, `C125_words`, `C125_adds`, `C125_confused`, `C125_zeros`, `C126_tree`, `C126_nested`, `C126_settled`, `C126_recursive`, `C126_doubling`, `C126_all`, `C126_oneOf`, `C126_any`, `C126_declared`, `C127_stays`, `C127_optional`, `C127_unmentioned`, `C127_decoded`, `C127_fixed`, `C127_schema`, `C127_schema_defaults`, `C127_accepts`, `C128_build`, `C128_left_out`
