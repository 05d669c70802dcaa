{
 "claims": [
  {
   "property": "C01",
   "status": "proved",
   "theorems": [
    "Fbx.C01_header_ok_iff",
    "Fbx.C01_header_mismatch",
    "Fbx.C01_header_short"
   ],
   "note": ""
  },
  {
   "property": "C02",
   "status": "proved",
   "theorems": [
    "Fbx.C02_parser_versions",
    "Fbx.C02_writer_versions",
    "Fbx.C02_writer_unsupported",
    "Fbx.C02_any_parser"
   ],
   "note": ""
  },
  {
   "property": "C03",
   "status": "proved",
   "theorems": [
    "Fbx.C03_type_code_roundtrip",
    "Fbx.C03_type_code_iff",
    "Fbx.C03_type_code_injective",
    "Fbx.C03_encoding",
    "Fbx.C03_encoding_roundtrip"
   ],
   "note": ""
  },
  {
   "property": "C04",
   "status": "proved",
   "theorems": [
    "Fbx.C04_strict_eq_iff",
    "Fbx.C04_strict_eq_equivalence",
    "Fbx.C04_eq_iff",
    "Fbx.C04_strict_eq_implies_eq"
   ],
   "note": ""
  },
  {
   "property": "C05",
   "status": "proved",
   "theorems": [
    "Fbx.C05_getters",
    "Fbx.C05_getters_or_type",
    "Fbx.C05_type",
    "Fbx.C05_from"
   ],
   "note": ""
  },
  {
   "property": "C06",
   "status": "proved",
   "theorems": [
    "Fbx.C06_layout",
    "Fbx.C06_forest_unique"
   ],
   "note": ""
  },
  {
   "property": "C07",
   "status": "proved",
   "theorems": [
    "Fbx.C07_no_marker_warnings",
    "Fbx.C07_marker",
    "Fbx.C07_marker_bytes"
   ],
   "note": ""
  },
  {
   "property": "C08",
   "status": "proved",
   "theorems": [
    "Fbx.C08_close_none",
    "Fbx.C08_finalize_open",
    "Fbx.C08_open_count",
    "Fbx.C08_session_unclosed"
   ],
   "note": ""
  },
  {
   "property": "C09",
   "status": "proved",
   "theorems": [
    "Fbx.C09_long_name",
    "Fbx.C09_short_name",
    "Fbx.C09_only_long"
   ],
   "note": ""
  },
  {
   "property": "C10",
   "status": "proved",
   "theorems": [
    "Fbx.C10_close_errors",
    "Fbx.C10_append_errors",
    "Fbx.C10_no_truncation",
    "Fbx.C10_field_exact"
   ],
   "note": ""
  },
  {
   "property": "C11",
   "status": "proved",
   "theorems": [
    "Fbx.C11_success_iff",
    "Fbx.C11_no_panic",
    "Fbx.C11_finalize_no_panic"
   ],
   "note": ""
  },
  {
   "property": "C12",
   "status": "proved",
   "theorems": [
    "Fbx.C12_close_panics_after_io_error",
    "Fbx.C12_the_error_is_io",
    "Fbx.C12_no_panic_without_io_error"
   ],
   "note": ""
  },
  {
   "property": "C13",
   "status": "proved",
   "theorems": [
    "Fbx.C13_trailing",
    "Fbx.C13_previous_content"
   ],
   "note": ""
  },
  {
   "property": "C14",
   "status": "proved",
   "theorems": [
    "Fbx.C14_binary_agree"
   ],
   "note": ""
  },
  {
   "property": "C15",
   "status": "proved",
   "theorems": [
    "Fbx.C15_agree_iff",
    "Fbx.C15_disagree"
   ],
   "note": ""
  },
  {
   "property": "C16",
   "status": "proved",
   "theorems": [
    "Fbx.C16_rest_not_pulled",
    "Fbx.C16_first_error",
    "Fbx.C16_elements_before"
   ],
   "note": ""
  },
  {
   "property": "C17",
   "status": "proved",
   "theorems": [
    "Fbx.C17_rejected_node_shows",
    "Fbx.C17_marker_after_rejection",
    "Fbx.C17_rejection_changes_document"
   ],
   "note": "the claim fails: witness session and parse; sink untouched by the failing call proved"
  },
  {
   "property": "C18",
   "status": "proved",
   "theorems": [
    "Fbx.C18_aligned"
   ],
   "note": ""
  },
  {
   "property": "C19",
   "status": "proved",
   "theorems": [
    "Fbx.C19_footer_round_trip",
    "Fbx.C19_long_padding"
   ],
   "note": ""
  },
  {
   "property": "C20",
   "status": "proved",
   "theorems": [
    "Fbx.C20_footer_acceptance"
   ],
   "note": ""
  },
  {
   "property": "C21",
   "status": "proved",
   "theorems": [
    "Fbx.C21_round_trip"
   ],
   "note": ""
  },
  {
   "property": "C22",
   "status": "proved",
   "theorems": [
    "Fbx.C22_no_warnings"
   ],
   "note": ""
  },
  {
   "property": "C23",
   "status": "proved",
   "theorems": [
    "Fbx.C23_write_success",
    "Fbx.C23_round_trip",
    "Fbx.C23_any_tree",
    "Fbx.C23_no_warnings",
    "Fbx.C23_root_attributes_lost"
   ],
   "note": "C23_root_attributes_lost is the witness for attributes of the root, which are not written"
  },
  {
   "property": "C24",
   "status": "proved",
   "theorems": [
    "Fbx.C24_no_panic",
    "Fbx.C24_release",
    "Fbx.C24_any_parser",
    "Fbx.C24_overflow_panic"
   ],
   "note": "C24_no_panic names the only possible panics of any history; C24_overflow_panic is the witness of the exception for builds with overflow checks"
  },
  {
   "property": "C25",
   "status": "proved",
   "theorems": [
    "Fbx.C25_balanced",
    "Fbx.C25_depth",
    "Fbx.C25_end_of_file",
    "Fbx.C25_depth_after_failure"
   ],
   "note": ""
  },
  {
   "property": "C26",
   "status": "proved",
   "theorems": [
    "Fbx.C26_failure_is_sticky",
    "Fbx.C26_end_is_sticky"
   ],
   "note": ""
  },
  {
   "property": "C27",
   "status": "proved",
   "theorems": [
    "Fbx.C27_terminates"
   ],
   "note": ""
  },
  {
   "property": "C28",
   "status": "proved",
   "theorems": [
    "Fbx.C28_skip_equals_drain",
    "Fbx.C28_within_file"
   ],
   "note": ""
  },
  {
   "property": "C29",
   "status": "proved",
   "theorems": [
    "Fbx.C29_panics_iff",
    "Fbx.C29_skip_can_panic"
   ],
   "note": "the statement gives the exact condition for the panic; C29_skip_can_panic is a witness that it can be met"
  },
  {
   "property": "C30",
   "status": "partial",
   "theorems": [
    "Fbx.C30_written_files",
    "Fbx.C30_round_trip",
    "Fbx.C30_any_tree",
    "Fbx.C30_compressed_derails",
    "Fbx.C30_same_while_nothing_is_skipped_partial",
    "Fbx.C30_plain_source_derails"
   ],
   "note": "false in general (C30_plain_source_derails and C30_compressed_derails are counterexamples); proved for all histories in which no call has bytes to skip, and for files left by the writer read by clients that leave nothing unread"
  },
  {
   "property": "C31",
   "status": "proved",
   "theorems": [
    "Fbx.C31_position",
    "Fbx.C31_monotone"
   ],
   "note": ""
  },
  {
   "property": "C32",
   "status": "proved",
   "theorems": [
    "Fbx.C32_unread_attributes"
   ],
   "note": ""
  },
  {
   "property": "C33",
   "status": "proved",
   "theorems": [
    "Fbx.C33_trees",
    "Fbx.C33_agrees_until_exhausted",
    "Fbx.C33_end_only_after_terminator",
    "Fbx.C33_never_taken_for_complete",
    "Fbx.C33_end_node_is_no_evidence"
   ],
   "note": ""
  },
  {
   "property": "C34",
   "status": "proved",
   "theorems": [
    "Fbx.C34_accepted",
    "Fbx.C34_advisory",
    "Fbx.C34_handlers_agree",
    "Fbx.C34_objection",
    "Fbx.C34_footer_not_aborted"
   ],
   "note": "a handler's error about a footer warning is wrapped in EndFbx(Err) and does not abort the parser (C34_footer_not_aborted); C34_objection covers both cases"
  },
  {
   "property": "C35",
   "status": "proved",
   "theorems": [
    "Fbx.C35_counts"
   ],
   "note": ""
  },
  {
   "property": "C36",
   "status": "proved",
   "theorems": [
    "Fbx.C36_accepts",
    "Fbx.C36_direct_and_type",
    "Fbx.C36_next_attribute"
   ],
   "note": ""
  },
  {
   "property": "C37",
   "status": "proved",
   "theorems": [
    "Fbx.C37_hooks_unused",
    "Fbx.C37_same_as_unbuffered",
    "Fbx.C37_differs",
    "Fbx.C37_agree_partial"
   ],
   "note": "the code deviates: C37_differs is a witness, C37_hooks_unused shows the buffered hooks are never used by the iterators, C37_agree_partial is the agreement for loaders without such hooks"
  },
  {
   "property": "C38",
   "status": "partial",
   "theorems": [
    "Fbx.C38_no_panic",
    "Fbx.C38_lower",
    "Fbx.C38_upper_partial",
    "Fbx.C38_after_error",
    "Fbx.C38_fused_partial",
    "Fbx.C38_upper_fails",
    "Fbx.C38_endless",
    "Fbx.C38_not_fused",
    "Fbx.C38_elements_partial",
    "Fbx.C38_elements_endless"
   ],
   "note": "lower bound proved; the upper bound is false (C38_upper_fails, C38_endless, C38_elements_endless) and proved for successful items; fused only with fused loaders (C38_not_fused)"
  },
  {
   "property": "C39",
   "status": "proved",
   "theorems": [
    "Fbx.C39_end_offset",
    "Fbx.C39_marker_elsewhere",
    "Fbx.C39_overrun"
   ],
   "note": ""
  },
  {
   "property": "C40",
   "status": "proved",
   "theorems": [
    "Fbx.C40_document",
    "Fbx.C40_nodes_strict_eq",
    "Fbx.C40_strict_eq",
    "Fbx.C40_equivalence"
   ],
   "note": ""
  },
  {
   "property": "C41",
   "status": "proved",
   "theorems": [
    "Fbx.C41_tour",
    "Fbx.C41_traversal",
    "Fbx.C41_one_way"
   ],
   "note": ""
  },
  {
   "property": "C42",
   "status": "proved",
   "theorems": [
    "Fbx.C42_children_by_name"
   ],
   "note": ""
  },
  {
   "property": "C43",
   "status": "proved",
   "theorems": [
    "Fbx.C43_reachable_well_formed",
    "Fbx.C43_append",
    "Fbx.C43_prepend",
    "Fbx.C43_append_refuses",
    "Fbx.C43_insert_after",
    "Fbx.C43_detach",
    "Fbx.C43_create_node",
    "Fbx.C43_append_new",
    "Fbx.C43_prepend_new",
    "Fbx.C43_insert_new_after",
    "Fbx.C43_insert_new_before",
    "Fbx.C43_new_sibling_of_root",
    "Fbx.C43_insert_after_can_make_a_cycle"
   ],
   "note": "C43_insert_after_can_make_a_cycle and C43_new_sibling_of_root show why the calls must be legal"
  },
  {
   "property": "C44",
   "status": "proved",
   "theorems": [
    "Fbx.C44_insert_before_inserts_after",
    "Fbx.C44_insert_before_never_inserts_before"
   ],
   "note": "the code deviates from its documentation: insert_before is proved to insert after the sibling, in every state"
  },
  {
   "property": "C45",
   "status": "proved",
   "theorems": [
    "Fbx.C45_attribute_editing",
    "Fbx.C45_root",
    "Fbx.C45_invalid"
   ],
   "note": ""
  },
  {
   "property": "C46",
   "status": "proved",
   "theorems": [
    "Fbx.C46_load",
    "Fbx.C46_bad_parser"
   ],
   "note": ""
  },
  {
   "property": "C47",
   "status": "proved",
   "theorems": [
    "Fbx.C47_rewriting",
    "Fbx.C47_load_write_load",
    "Fbx.C47_equal_trees_same_bytes"
   ],
   "note": ""
  },
  {
   "property": "C48",
   "status": "proved",
   "theorems": [
    "Fbx.C48_read_exact",
    "Fbx.C48_skip",
    "Fbx.C48_read_to_end",
    "Fbx.C48_read_exact_any",
    "Fbx.C48_skip_any",
    "Fbx.C48_read_to_end_any",
    "Fbx.C48_starved"
   ],
   "note": "C48_starved shows why a source that interrupts every read is excluded; reads inside libflate and raw reads of user loaders are outside"
  },
  {
   "property": "C49",
   "status": "proved",
   "theorems": [
    "Fbx.C49_component",
    "Fbx.C49_event_errors",
    "Fbx.C49_load_errors"
   ],
   "note": ""
  },
  {
   "property": "C50",
   "status": "proved",
   "theorems": [
    "Fbx.C50_ids_and_names_persist"
   ],
   "note": ""
  },
  {
   "property": "C51",
   "status": "proved",
   "theorems": [
    "Fbx.C51_decomposition",
    "Fbx.C51_order"
   ],
   "note": ""
  },
  {
   "property": "C52",
   "status": "proved",
   "theorems": [
    "Fbx.C52_any_tree",
    "Fbx.C52_document"
   ],
   "note": ""
  },
  {
   "property": "C53",
   "status": "proved",
   "theorems": [
    "Fbx.C53_tree_macro",
    "Fbx.C53_tree_macro_eq",
    "Fbx.C53_same_file",
    "Fbx.C53_layout",
    "Fbx.C53_round_trip"
   ],
   "note": ""
  },
  {
   "property": "C54",
   "status": "proved",
   "theorems": [
    "Fbx.C54_failed_append",
    "Fbx.C54_file",
    "Fbx.C54_reads_empty",
    "Fbx.C54_forged"
   ],
   "note": "C54_reads_empty and C54_forged are witnesses of what the file looks like after a failed append"
  },
  {
   "property": "C55",
   "status": "proved",
   "theorems": [
    "Fbx.C55_next_event",
    "Fbx.C55_ahead",
    "Fbx.C55_markers"
   ],
   "note": ""
  },
  {
   "property": "C56",
   "status": "proved",
   "theorems": [
    "Fbx.C56_lag",
    "Fbx.C56_skipped_bytes_are_lost",
    "Fbx.C56_ends_too_late"
   ],
   "note": "the positions of a plain source lag behind; C56_ends_too_late is a witness of the effect"
  },
  {
   "property": "C57",
   "status": "proved",
   "theorems": [
    "Fbx.C57_load",
    "Fbx.C57_node"
   ],
   "note": ""
  },
  {
   "property": "C58",
   "status": "proved",
   "theorems": [
    "Fbx.C58_client",
    "Fbx.C58_tree",
    "Fbx.C58_written"
   ],
   "note": ""
  },
  {
   "property": "C59",
   "status": "proved",
   "theorems": [
    "Fbx.C59_kind",
    "Fbx.C59_conversions",
    "Fbx.C59_cause",
    "Fbx.C59_chain",
    "Fbx.C59_io",
    "Fbx.C59_io_only",
    "Fbx.C59_header_hides",
    "Fbx.C59_any_tree",
    "Fbx.C59_any_source",
    "Fbx.C59_messages",
    "Fbx.C59_message_kind",
    "Fbx.C59_message_values",
    "Fbx.C59_message_version",
    "Fbx.C59_message_variant",
    "Fbx.C59_cast",
    "Fbx.C59_message_fixed"
   ],
   "note": "C59_header_hides is the exception named in the statement; C59_any_tree is for sources that can seek everywhere, C59_any_source for all"
  },
  {
   "property": "C60",
   "status": "proved",
   "theorems": [
    "Fbx.C60_stops",
    "Fbx.C60_other",
    "Fbx.C60_own",
    "Fbx.C60_type"
   ],
   "note": ""
  },
  {
   "property": "C61",
   "status": "proved",
   "theorems": [
    "Fbx.C61_next_event",
    "Fbx.C61_load",
    "Fbx.C61_client",
    "Fbx.C61_tree"
   ],
   "note": ""
  },
  {
   "property": "C62",
   "status": "proved",
   "theorems": [
    "Fbx.C62_kept",
    "Fbx.C62_open",
    "Fbx.C62_open_nameless",
    "Fbx.C62_between",
    "Fbx.C62_finalize",
    "Fbx.C62_new",
    "Fbx.C62_open_tree",
    "Fbx.C62_between_tree",
    "Fbx.C62_finalize_tree",
    "Fbx.C62_unfinished",
    "Fbx.C62_unfinished_tree",
    "Fbx.C62_torn_field"
   ],
   "note": "C62_open_nameless and C62_torn_field are the witnesses of the two exceptions named in the statement"
  },
  {
   "property": "C63",
   "status": "proved",
   "theorems": [
    "Fbx.C63_between",
    "Fbx.C63_adding",
    "Fbx.C63_adding_end",
    "Fbx.C63_moving",
    "Fbx.C63_moving_all",
    "Fbx.C63_cursor_moved"
   ],
   "note": "C63_cursor_moved is the witness of the case named last in the statement"
  },
  {
   "property": "C64",
   "status": "proved",
   "theorems": [
    "Fbx.C64_eq_nodes",
    "Fbx.C64_eq_doc",
    "Fbx.C64_eq_edits",
    "Fbx.C64_same_program",
    "Fbx.C64_eq_self",
    "Fbx.C64_eq_symm_trans",
    "Fbx.C64_eq_and_strict_eq",
    "Fbx.C64_loaded"
   ],
   "note": ""
  },
  {
   "property": "C65",
   "status": "proved",
   "theorems": [
    "Fbx.C65_anywhere",
    "Fbx.C65_session",
    "Fbx.C65_describes",
    "Fbx.C65_layout",
    "Fbx.C65_round_trip"
   ],
   "note": ""
  },
  {
   "property": "C66",
   "status": "proved",
   "theorems": [
    "Fbx.C66_same_bytes",
    "Fbx.C66_results",
    "Fbx.C66_flush_failed"
   ],
   "note": ""
  },
  {
   "property": "C67",
   "status": "proved",
   "theorems": [
    "Fbx.C67_text",
    "Fbx.C67_pretty",
    "Fbx.C67_total",
    "Fbx.C67_shows",
    "Fbx.C67_strict_eq",
    "Fbx.C67_text_iff_strict_eq"
   ],
   "note": ""
  },
  {
   "property": "C68",
   "status": "proved",
   "theorems": [
    "Fbx.C68_names",
    "Fbx.C68_values",
    "Fbx.C68_tree",
    "Fbx.C68_nodes"
   ],
   "note": ""
  },
  {
   "property": "C69",
   "status": "proved",
   "theorems": [
    "Fbx.C69_open",
    "Fbx.C69_calls",
    "Fbx.C69_calls_from",
    "Fbx.C69_tree"
   ],
   "note": ""
  },
  {
   "property": "C70",
   "status": "proved",
   "theorems": [
    "Fbx.C70_same_document",
    "Fbx.C70_same_footer"
   ],
   "note": ""
  },
  {
   "property": "C71",
   "status": "proved",
   "theorems": [
    "Fbx.C71_session",
    "Fbx.C71_flushed",
    "Fbx.C71_tree",
    "Fbx.C71_failing",
    "Fbx.C71_failing_flushed",
    "Fbx.C71_failing_tree",
    "Fbx.C71_calls",
    "Fbx.C71_document"
   ],
   "note": ""
  },
  {
   "property": "C72",
   "status": "proved",
   "theorems": [
    "Fbx.C72_load",
    "Fbx.C72_client",
    "Fbx.C72_next_attribute",
    "Fbx.C72_no_hidden_error",
    "Fbx.C72_type_loader"
   ],
   "note": ""
  },
  {
   "property": "C73",
   "status": "proved",
   "theorems": [
    "Fbx.C73_events",
    "Fbx.C73_beyond"
   ],
   "note": ""
  },
  {
   "property": "C74",
   "status": "proved",
   "theorems": [
    "Fbx.C74_prints",
    "Fbx.C74_ends",
    "Fbx.C74_written",
    "Fbx.C74_type_unwraps"
   ],
   "note": ""
  },
  {
   "property": "C75",
   "status": "proved",
   "theorems": [
    "Fbx.C75_parser",
    "Fbx.C75_file",
    "Fbx.C75_tree",
    "Fbx.C75_any_tree",
    "Fbx.C75_end"
   ],
   "note": ""
  },
  {
   "property": "C76",
   "status": "proved",
   "theorems": [
    "Fbx.C76_calls",
    "Fbx.C76_finalize",
    "Fbx.C76_accepted",
    "Fbx.C76_layout",
    "Fbx.C76_left_out"
   ],
   "note": ""
  },
  {
   "property": "C77",
   "status": "proved",
   "theorems": [
    "Fbx.C77_calls",
    "Fbx.C77_from"
   ],
   "note": ""
  },
  {
   "property": "C78",
   "status": "proved",
   "theorems": [
    "Fbx.C78_loaded",
    "Fbx.C78_edited",
    "Fbx.C78_new",
    "Fbx.C78_again",
    "Fbx.C78_ids"
   ],
   "note": ""
  },
  {
   "property": "C79",
   "status": "proved",
   "theorems": [
    "Fbx.C79_parsed",
    "Fbx.C79_loaded",
    "Fbx.C79_lawful",
    "Fbx.C79_stored",
    "Fbx.C79_checksum",
    "Fbx.C79_damage_unnoticed",
    "Fbx.C79_plain_derails"
   ],
   "note": ""
  },
  {
   "property": "C80",
   "status": "proved",
   "theorems": [
    "Fbx.C80_client",
    "Fbx.C80_pruned",
    "Fbx.C80_filtered",
    "Fbx.C80_reloaded",
    "Fbx.C80_everything",
    "Fbx.C80_by_name"
   ],
   "note": ""
  },
  {
   "property": "C81",
   "status": "proved",
   "theorems": [
    "Fbx.C81_parser",
    "Fbx.C81_file",
    "Fbx.C81_sources"
   ],
   "note": ""
  },
  {
   "property": "C82",
   "status": "proved",
   "theorems": [
    "Fbx.C82_finalize",
    "Fbx.C82_reads",
    "Fbx.C82_structure",
    "Fbx.C82_extra_marker"
   ],
   "note": ""
  },
  {
   "property": "C83",
   "status": "proved",
   "theorems": [
    "Fbx.C83_thorough",
    "Fbx.C83_all",
    "Fbx.C83_before",
    "Fbx.C83_declared",
    "Fbx.C83_reached"
   ],
   "note": ""
  },
  {
   "property": "C84",
   "status": "proved",
   "theorems": [
    "Fbx.C84_shown",
    "Fbx.C84_taken",
    "Fbx.C84_reads",
    "Fbx.C84_history",
    "Fbx.C84_attribute",
    "Fbx.C84_confined",
    "Fbx.C84_slurp",
    "Fbx.C84_rule_needed"
   ],
   "note": ""
  },
  {
   "property": "C85",
   "status": "proved",
   "theorems": [
    "Fbx.C85_stops",
    "Fbx.C85_documents",
    "Fbx.C85_any_tree",
    "Fbx.C85_broken_footer"
   ],
   "note": ""
  },
  {
   "property": "C86",
   "status": "proved",
   "theorems": [
    "Fbx.C86_call",
    "Fbx.C86_finalize",
    "Fbx.C86_flush",
    "Fbx.C86_tree",
    "Fbx.C86_new",
    "Fbx.C86_session",
    "Fbx.C86_no_silent_failure",
    "Fbx.C86_packing"
   ],
   "note": ""
  },
  {
   "property": "C87",
   "status": "proved",
   "theorems": [
    "Fbx.C87_zlib",
    "Fbx.C87_values",
    "Fbx.C87_tree",
    "Fbx.C87_reached"
   ],
   "note": ""
  },
  {
   "property": "C88",
   "status": "proved",
   "theorems": [
    "Fbx.C88_passed_over",
    "Fbx.C88_every_history",
    "Fbx.C88_skipped_node"
   ],
   "note": ""
  },
  {
   "property": "C89",
   "status": "proved",
   "theorems": [
    "Fbx.C89_files",
    "Fbx.C89_exactly",
    "Fbx.C89_calls",
    "Fbx.C89_used_up"
   ],
   "note": ""
  },
  {
   "property": "C90",
   "status": "proved",
   "theorems": [
    "Fbx.C90_skip_at_once",
    "Fbx.C90_skip_later",
    "Fbx.C90_beyond"
   ],
   "note": ""
  },
  {
   "property": "C91",
   "status": "proved",
   "theorems": [
    "Fbx.C91_no_panic",
    "Fbx.C91_depth",
    "Fbx.C91_position",
    "Fbx.C91_failure_is_sticky",
    "Fbx.C91_end_is_sticky",
    "Fbx.C91_failed_skip",
    "Fbx.C91_skip_failure_goes_on",
    "Fbx.C91_skip_failure_steady"
   ],
   "note": ""
  },
  {
   "property": "C92",
   "status": "proved",
   "theorems": [
    "Fbx.C92_same",
    "Fbx.C92_enough",
    "Fbx.C92_end"
   ],
   "note": ""
  },
  {
   "property": "C93",
   "status": "proved",
   "theorems": [
    "Fbx.C93_any",
    "Fbx.C93_any_flushed",
    "Fbx.C93_any_tree",
    "Fbx.C93_any_flushed_tree",
    "Fbx.C93_any_calls",
    "Fbx.C93_bufwriter",
    "Fbx.C93_flushed",
    "Fbx.C93_tree",
    "Fbx.C93_unflushed",
    "Fbx.C93_same",
    "Fbx.C93_unflushed_lost"
   ],
   "note": ""
  },
  {
   "property": "C94",
   "status": "proved",
   "theorems": [
    "Fbx.C94_crash",
    "Fbx.C94_crash_session",
    "Fbx.C94_crash_flushed",
    "Fbx.C94_crash_tree",
    "Fbx.C94_unfinished",
    "Fbx.C94_unfinished_tree",
    "Fbx.C94_whole",
    "Fbx.C94_kept"
   ],
   "note": ""
  },
  {
   "property": "C95",
   "status": "proved",
   "theorems": [
    "Fbx.C95_calls",
    "Fbx.C95_tree",
    "Fbx.C95_file",
    "Fbx.C95_bufreader",
    "Fbx.C95_buffered",
    "Fbx.C95_buffered_tree"
   ],
   "note": ""
  },
  {
   "property": "C96",
   "status": "proved",
   "theorems": [
    "Fbx.C96_loads",
    "Fbx.C96_round_trip",
    "Fbx.C96_copy",
    "Fbx.C96_buffered"
   ],
   "note": ""
  },
  {
   "property": "C97",
   "status": "proved",
   "theorems": [
    "Fbx.C97_passage",
    "Fbx.C97_footer",
    "Fbx.C97_plain",
    "Fbx.C97_buffered"
   ],
   "note": ""
  },
  {
   "property": "C98",
   "status": "proved",
   "theorems": [
    "Fbx.C98_tree",
    "Fbx.C98_no_wrong_tree",
    "Fbx.C98_calls",
    "Fbx.C98_loaders",
    "Fbx.C98_direct",
    "Fbx.C98_steady",
    "Fbx.C98_faulty",
    "Fbx.C98_bufreader",
    "Fbx.C98_buffered_tree",
    "Fbx.C98_skip_astray"
   ],
   "note": ""
  },
  {
   "property": "C99",
   "status": "proved",
   "theorems": [
    "Fbx.C99_round_trip",
    "Fbx.C99_copy",
    "Fbx.C99_passage",
    "Fbx.C99_buffered"
   ],
   "note": ""
  }
 ]
}