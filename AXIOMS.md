# Axioms of the property theorems

Generated by `scripts/axioms.py` from `#print axioms`.

## none

* `Fbx.C03_type_code_roundtrip`
* `Fbx.C03_type_code_injective`
* `Fbx.C03_encoding_roundtrip`
* `Fbx.C59_conversions`
* `Fbx.C59_cast`
* `Fbx.C98_steady`
* `Fbx.C98_faulty`

## propext

* `Fbx.C03_type_code_iff`
* `Fbx.C03_encoding`
* `Fbx.C04_strict_eq_iff`
* `Fbx.C05_getters_or_type`
* `Fbx.C05_from`
* `Fbx.C06_forest_unique`
* `Fbx.C12_close_panics_after_io_error`
* `Fbx.C12_the_error_is_io`
* `Fbx.C38_elements_endless`
* `Fbx.C43_new_sibling_of_root`
* `Fbx.C48_starved`
* `Fbx.C59_cause`
* `Fbx.C59_io`
* `Fbx.C59_io_only`
* `Fbx.C59_header_hides`
* `Fbx.C59_message_values`
* `Fbx.C59_message_fixed`
* `Fbx.C63_cursor_moved`
* `Fbx.C80_everything`
* `Fbx.C80_by_name`
* `Fbx.C84_rule_needed`
* `Fbx.C93_unflushed_lost`

## Quot.sound, propext

* `Fbx.C01_header_ok_iff`
* `Fbx.C01_header_mismatch`
* `Fbx.C01_header_short`
* `Fbx.C02_parser_versions`
* `Fbx.C02_any_parser`
* `Fbx.C04_strict_eq_equivalence`
* `Fbx.C05_getters`
* `Fbx.C05_type`
* `Fbx.C07_marker`
* `Fbx.C08_close_none`
* `Fbx.C08_finalize_open`
* `Fbx.C08_open_count`
* `Fbx.C11_finalize_no_panic`
* `Fbx.C14_binary_agree`
* `Fbx.C16_rest_not_pulled`
* `Fbx.C24_any_parser`
* `Fbx.C37_hooks_unused`
* `Fbx.C37_same_as_unbuffered`
* `Fbx.C37_agree_partial`
* `Fbx.C43_insert_after_can_make_a_cycle`
* `Fbx.C45_attribute_editing`
* `Fbx.C45_root`
* `Fbx.C45_invalid`
* `Fbx.C59_kind`
* `Fbx.C59_chain`
* `Fbx.C59_messages`
* `Fbx.C59_message_version`
* `Fbx.C64_eq_and_strict_eq`
* `Fbx.C66_same_bytes`
* `Fbx.C66_results`
* `Fbx.C72_next_attribute`
* `Fbx.C72_no_hidden_error`
* `Fbx.C76_layout`
* `Fbx.C84_taken`
* `Fbx.C84_confined`
* `Fbx.C86_call`
* `Fbx.C86_finalize`
* `Fbx.C86_flush`
* `Fbx.C86_tree`
* `Fbx.C86_new`
* `Fbx.C86_session`
* `Fbx.C86_no_silent_failure`
* `Fbx.C87_zlib`
* `Fbx.C93_any`
* `Fbx.C93_any_flushed`
* `Fbx.C93_any_tree`
* `Fbx.C93_any_flushed_tree`
* `Fbx.C93_any_calls`
* `Fbx.C95_file`
* `Fbx.C98_bufreader`

## Classical.choice, Quot.sound, propext

* `Fbx.C02_writer_versions`
* `Fbx.C02_writer_unsupported`
* `Fbx.C04_eq_iff`
* `Fbx.C04_strict_eq_implies_eq`
* `Fbx.C06_layout`
* `Fbx.C07_no_marker_warnings`
* `Fbx.C07_marker_bytes`
* `Fbx.C08_session_unclosed`
* `Fbx.C09_long_name`
* `Fbx.C09_short_name`
* `Fbx.C09_only_long`
* `Fbx.C10_close_errors`
* `Fbx.C10_append_errors`
* `Fbx.C10_no_truncation`
* `Fbx.C10_field_exact`
* `Fbx.C11_success_iff`
* `Fbx.C11_no_panic`
* `Fbx.C12_no_panic_without_io_error`
* `Fbx.C13_trailing`
* `Fbx.C13_previous_content`
* `Fbx.C15_agree_iff`
* `Fbx.C15_disagree`
* `Fbx.C16_first_error`
* `Fbx.C16_elements_before`
* `Fbx.C17_rejected_node_shows`
* `Fbx.C17_marker_after_rejection`
* `Fbx.C17_rejection_changes_document`
* `Fbx.C18_aligned`
* `Fbx.C19_footer_round_trip`
* `Fbx.C19_long_padding`
* `Fbx.C20_footer_acceptance`
* `Fbx.C21_round_trip`
* `Fbx.C22_no_warnings`
* `Fbx.C23_write_success`
* `Fbx.C23_round_trip`
* `Fbx.C23_any_tree`
* `Fbx.C23_no_warnings`
* `Fbx.C23_root_attributes_lost`
* `Fbx.C24_no_panic`
* `Fbx.C24_release`
* `Fbx.C24_overflow_panic`
* `Fbx.C25_balanced`
* `Fbx.C25_depth`
* `Fbx.C25_end_of_file`
* `Fbx.C25_depth_after_failure`
* `Fbx.C26_failure_is_sticky`
* `Fbx.C26_end_is_sticky`
* `Fbx.C27_terminates`
* `Fbx.C28_skip_equals_drain`
* `Fbx.C28_within_file`
* `Fbx.C29_panics_iff`
* `Fbx.C29_skip_can_panic`
* `Fbx.C30_written_files`
* `Fbx.C30_round_trip`
* `Fbx.C30_any_tree`
* `Fbx.C30_compressed_derails`
* `Fbx.C30_same_while_nothing_is_skipped_partial`
* `Fbx.C30_plain_source_derails`
* `Fbx.C31_position`
* `Fbx.C31_monotone`
* `Fbx.C32_unread_attributes`
* `Fbx.C33_trees`
* `Fbx.C33_agrees_until_exhausted`
* `Fbx.C33_end_only_after_terminator`
* `Fbx.C33_never_taken_for_complete`
* `Fbx.C33_end_node_is_no_evidence`
* `Fbx.C34_accepted`
* `Fbx.C34_advisory`
* `Fbx.C34_handlers_agree`
* `Fbx.C34_objection`
* `Fbx.C34_footer_not_aborted`
* `Fbx.C35_counts`
* `Fbx.C36_accepts`
* `Fbx.C36_direct_and_type`
* `Fbx.C36_next_attribute`
* `Fbx.C37_differs`
* `Fbx.C38_no_panic`
* `Fbx.C38_lower`
* `Fbx.C38_upper_partial`
* `Fbx.C38_after_error`
* `Fbx.C38_fused_partial`
* `Fbx.C38_upper_fails`
* `Fbx.C38_endless`
* `Fbx.C38_not_fused`
* `Fbx.C38_elements_partial`
* `Fbx.C39_end_offset`
* `Fbx.C39_marker_elsewhere`
* `Fbx.C39_overrun`
* `Fbx.C40_document`
* `Fbx.C40_nodes_strict_eq`
* `Fbx.C40_strict_eq`
* `Fbx.C40_equivalence`
* `Fbx.C41_tour`
* `Fbx.C41_traversal`
* `Fbx.C41_one_way`
* `Fbx.C42_children_by_name`
* `Fbx.C43_reachable_well_formed`
* `Fbx.C43_append`
* `Fbx.C43_prepend`
* `Fbx.C43_append_refuses`
* `Fbx.C43_insert_after`
* `Fbx.C43_detach`
* `Fbx.C43_create_node`
* `Fbx.C43_append_new`
* `Fbx.C43_prepend_new`
* `Fbx.C43_insert_new_after`
* `Fbx.C43_insert_new_before`
* `Fbx.C44_insert_before_inserts_after`
* `Fbx.C44_insert_before_never_inserts_before`
* `Fbx.C46_load`
* `Fbx.C46_bad_parser`
* `Fbx.C47_rewriting`
* `Fbx.C47_load_write_load`
* `Fbx.C47_equal_trees_same_bytes`
* `Fbx.C48_read_exact`
* `Fbx.C48_skip`
* `Fbx.C48_read_to_end`
* `Fbx.C48_read_exact_any`
* `Fbx.C48_skip_any`
* `Fbx.C48_read_to_end_any`
* `Fbx.C49_component`
* `Fbx.C49_event_errors`
* `Fbx.C49_load_errors`
* `Fbx.C50_ids_and_names_persist`
* `Fbx.C51_decomposition`
* `Fbx.C51_order`
* `Fbx.C52_any_tree`
* `Fbx.C52_document`
* `Fbx.C53_tree_macro`
* `Fbx.C53_tree_macro_eq`
* `Fbx.C53_same_file`
* `Fbx.C53_layout`
* `Fbx.C53_round_trip`
* `Fbx.C54_failed_append`
* `Fbx.C54_file`
* `Fbx.C54_reads_empty`
* `Fbx.C54_forged`
* `Fbx.C55_next_event`
* `Fbx.C55_ahead`
* `Fbx.C55_markers`
* `Fbx.C56_lag`
* `Fbx.C56_skipped_bytes_are_lost`
* `Fbx.C56_ends_too_late`
* `Fbx.C57_load`
* `Fbx.C57_node`
* `Fbx.C58_client`
* `Fbx.C58_tree`
* `Fbx.C58_written`
* `Fbx.C59_any_tree`
* `Fbx.C59_any_source`
* `Fbx.C59_message_kind`
* `Fbx.C59_message_variant`
* `Fbx.C60_stops`
* `Fbx.C60_other`
* `Fbx.C60_own`
* `Fbx.C60_type`
* `Fbx.C61_next_event`
* `Fbx.C61_load`
* `Fbx.C61_client`
* `Fbx.C61_tree`
* `Fbx.C62_kept`
* `Fbx.C62_open`
* `Fbx.C62_open_nameless`
* `Fbx.C62_between`
* `Fbx.C62_finalize`
* `Fbx.C62_new`
* `Fbx.C62_open_tree`
* `Fbx.C62_between_tree`
* `Fbx.C62_finalize_tree`
* `Fbx.C62_unfinished`
* `Fbx.C62_unfinished_tree`
* `Fbx.C62_torn_field`
* `Fbx.C63_between`
* `Fbx.C63_adding`
* `Fbx.C63_adding_end`
* `Fbx.C63_moving`
* `Fbx.C63_moving_all`
* `Fbx.C64_eq_nodes`
* `Fbx.C64_eq_doc`
* `Fbx.C64_eq_edits`
* `Fbx.C64_same_program`
* `Fbx.C64_eq_self`
* `Fbx.C64_eq_symm_trans`
* `Fbx.C64_loaded`
* `Fbx.C65_anywhere`
* `Fbx.C65_session`
* `Fbx.C65_describes`
* `Fbx.C65_layout`
* `Fbx.C65_round_trip`
* `Fbx.C66_flush_failed`
* `Fbx.C67_text`
* `Fbx.C67_pretty`
* `Fbx.C67_total`
* `Fbx.C67_shows`
* `Fbx.C67_strict_eq`
* `Fbx.C67_text_iff_strict_eq`
* `Fbx.C68_names`
* `Fbx.C68_values`
* `Fbx.C68_tree`
* `Fbx.C68_nodes`
* `Fbx.C69_open`
* `Fbx.C69_calls`
* `Fbx.C69_calls_from`
* `Fbx.C69_tree`
* `Fbx.C70_same_document`
* `Fbx.C70_same_footer`
* `Fbx.C71_session`
* `Fbx.C71_flushed`
* `Fbx.C71_tree`
* `Fbx.C71_failing`
* `Fbx.C71_failing_flushed`
* `Fbx.C71_failing_tree`
* `Fbx.C71_calls`
* `Fbx.C71_document`
* `Fbx.C72_load`
* `Fbx.C72_client`
* `Fbx.C72_type_loader`
* `Fbx.C73_events`
* `Fbx.C73_beyond`
* `Fbx.C74_prints`
* `Fbx.C74_ends`
* `Fbx.C74_written`
* `Fbx.C74_type_unwraps`
* `Fbx.C75_parser`
* `Fbx.C75_file`
* `Fbx.C75_tree`
* `Fbx.C75_any_tree`
* `Fbx.C75_end`
* `Fbx.C76_calls`
* `Fbx.C76_finalize`
* `Fbx.C76_accepted`
* `Fbx.C76_left_out`
* `Fbx.C77_calls`
* `Fbx.C77_from`
* `Fbx.C78_loaded`
* `Fbx.C78_edited`
* `Fbx.C78_new`
* `Fbx.C78_again`
* `Fbx.C78_ids`
* `Fbx.C79_parsed`
* `Fbx.C79_loaded`
* `Fbx.C79_lawful`
* `Fbx.C79_stored`
* `Fbx.C79_checksum`
* `Fbx.C79_damage_unnoticed`
* `Fbx.C79_plain_derails`
* `Fbx.C80_client`
* `Fbx.C80_pruned`
* `Fbx.C80_filtered`
* `Fbx.C80_reloaded`
* `Fbx.C81_parser`
* `Fbx.C81_file`
* `Fbx.C81_sources`
* `Fbx.C82_finalize`
* `Fbx.C82_reads`
* `Fbx.C82_structure`
* `Fbx.C82_extra_marker`
* `Fbx.C83_thorough`
* `Fbx.C83_all`
* `Fbx.C83_before`
* `Fbx.C83_declared`
* `Fbx.C83_reached`
* `Fbx.C84_shown`
* `Fbx.C84_reads`
* `Fbx.C84_history`
* `Fbx.C84_attribute`
* `Fbx.C84_slurp`
* `Fbx.C85_stops`
* `Fbx.C85_documents`
* `Fbx.C85_any_tree`
* `Fbx.C85_broken_footer`
* `Fbx.C86_packing`
* `Fbx.C87_values`
* `Fbx.C87_tree`
* `Fbx.C87_reached`
* `Fbx.C88_passed_over`
* `Fbx.C88_every_history`
* `Fbx.C88_skipped_node`
* `Fbx.C89_files`
* `Fbx.C89_exactly`
* `Fbx.C89_calls`
* `Fbx.C89_used_up`
* `Fbx.C90_skip_at_once`
* `Fbx.C90_skip_later`
* `Fbx.C90_beyond`
* `Fbx.C91_no_panic`
* `Fbx.C91_depth`
* `Fbx.C91_position`
* `Fbx.C91_failure_is_sticky`
* `Fbx.C91_end_is_sticky`
* `Fbx.C91_failed_skip`
* `Fbx.C91_skip_failure_goes_on`
* `Fbx.C91_skip_failure_steady`
* `Fbx.C92_same`
* `Fbx.C92_enough`
* `Fbx.C92_end`
* `Fbx.C93_bufwriter`
* `Fbx.C93_flushed`
* `Fbx.C93_tree`
* `Fbx.C93_unflushed`
* `Fbx.C93_same`
* `Fbx.C94_crash`
* `Fbx.C94_crash_session`
* `Fbx.C94_crash_flushed`
* `Fbx.C94_crash_tree`
* `Fbx.C94_unfinished`
* `Fbx.C94_unfinished_tree`
* `Fbx.C94_whole`
* `Fbx.C94_kept`
* `Fbx.C95_calls`
* `Fbx.C95_tree`
* `Fbx.C95_bufreader`
* `Fbx.C95_buffered`
* `Fbx.C95_buffered_tree`
* `Fbx.C96_loads`
* `Fbx.C96_round_trip`
* `Fbx.C96_copy`
* `Fbx.C96_buffered`
* `Fbx.C97_passage`
* `Fbx.C97_footer`
* `Fbx.C97_plain`
* `Fbx.C97_buffered`
* `Fbx.C98_tree`
* `Fbx.C98_no_wrong_tree`
* `Fbx.C98_calls`
* `Fbx.C98_loaders`
* `Fbx.C98_direct`
* `Fbx.C98_buffered_tree`
* `Fbx.C98_skip_astray`
* `Fbx.C99_round_trip`
* `Fbx.C99_copy`
* `Fbx.C99_passage`
* `Fbx.C99_buffered`
