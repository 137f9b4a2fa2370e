# Axioms

Output of `#print axioms` for every theorem in `MANIFEST.json`.

| theorem | axioms |
|---|---|
| Enc.C01_utf8_roundtrip | propext, Classical.choice, Quot.sound |
| Enc.C01_utf8_standard | propext, Classical.choice, Quot.sound |
| Enc.C01_utf8_text_roundtrip | propext, Classical.choice, Quot.sound |
| Enc.C02_progress | propext, Classical.choice, Quot.sound |
| Enc.C02_loop_terminates | propext, Classical.choice, Quot.sound |
| Enc.C02_valid_iff | propext, Classical.choice, Quot.sound |
| Enc.C02_invalid_iff | propext, Classical.choice, Quot.sound |
| Enc.C02_stable | propext, Classical.choice, Quot.sound |
| Enc.C02_resume | propext, Classical.choice, Quot.sound |
| Enc.C02_stray_reports_truncated | propext, Classical.choice, Quot.sound |
| Enc.C02_truncated_only_at_end | propext, Classical.choice, Quot.sound |
| Enc.C03_utf16_roundtrip | propext, Classical.choice, Quot.sound |
| Enc.C03_utf16_standard | propext, Classical.choice, Quot.sound |
| Enc.C03_utf16_progress | propext, Quot.sound |
| Enc.C03_utf16_decode_exact | propext, Classical.choice, Quot.sound |
| TConv.C04_whole | propext, Classical.choice, Quot.sound |
| TConv.C04_prefix_partial | propext, Classical.choice, Quot.sound |
| TConv.C04_complete_partial | propext, Classical.choice, Quot.sound |
| TConv.C04_pipe_partial | propext, Classical.choice, Quot.sound |
| TConv.C04_pipe_loses | propext |
| TConv.C04_stray_assert | propext, Classical.choice, Quot.sound |
| TConv.C04_read_partial | propext, Classical.choice, Quot.sound |
| TConv.C04_read_sound | propext, Classical.choice, Quot.sound |
| TConv.C04_read_utf16 | propext, Classical.choice, Quot.sound |
| TConv.C04_read_odd | propext |
| TConv.C04_unicode_roundtrip | propext, Classical.choice, Quot.sound |
| Stream.C05_any_calls | propext, Quot.sound |
| Stream.C05_complete | propext, Quot.sound |
| Stream.C05_write | propext, Classical.choice, Quot.sound |
| Stream.C05_read | propext, Classical.choice, Quot.sound |
| Label.C06_varint_roundtrip | propext, Classical.choice, Quot.sound |
| Label.C06_varint_length | propext, Classical.choice, Quot.sound |
| Label.C06_varint_prefix_free | propext, Classical.choice, Quot.sound |
| Label.C06_varint_denotes | propext, Classical.choice, Quot.sound |
| Label.C07_labels_stay_valid | propext, Classical.choice, Quot.sound |
| Label.C07_labels_equal_iff | propext, Classical.choice, Quot.sound |
| Label.C07_find_exact | propext, Classical.choice, Quot.sound |
| Num.C08_print_canonical | propext, Classical.choice, Quot.sound |
| Num.C08_roundtrip | propext, Classical.choice, Quot.sound |
| Num.C08_signed_roundtrip_partial | propext, Classical.choice, Quot.sound |
| Num.C08_print_signed_min_is_ub | none |
| Num.C09_parse_unsigned_exact | propext, Classical.choice, Quot.sound |
| Num.C09_parse_narrow_unsigned_exact | propext, Classical.choice, Quot.sound |
| Num.C09_parse_signed_exact_partial | propext, Classical.choice, Quot.sound |
| Num.C09_parse_signed_min_is_ub | none |
| Num.C09_parse_narrow_signed_exact_partial | propext, Classical.choice, Quot.sound |
| Esc.C10_roundtrip_partial | propext, Classical.choice, Quot.sound |
| Esc.C10_control_characters | propext |
| Esc.C10_multiline | propext, Classical.choice, Quot.sound |
| Esc.C10_empty_string | none |
| Esc.C11_no_markup | propext, Classical.choice, Quot.sound |
| Esc.C11_resolve_unique | propext |
| Esc.C11_roundtrip_partial | propext, Classical.choice, Quot.sound |
| Esc.C11_overlong_not_restored | propext |
| Esc.C12_roundtrip | propext, Quot.sound |
| Esc.C12_injective | propext, Quot.sound |
| Esc.C13_chunked_roundtrip | propext, Classical.choice, Quot.sound |
| Esc.C13_empty_write_asserts | propext, Classical.choice, Quot.sound |
| Esc.C13_terminator_in_plain_mode | propext |
| Esc.C14_roundtrip_partial | propext, Quot.sound |
| Esc.C14_trailing_backslash_lost | none |
| Esc.C14_empty_argument_vanishes | none |
| Str.C15_compare_sign_partial | propext, Classical.choice, Quot.sound |
| Str.C15_equal_exact | propext, Classical.choice, Quot.sound |
| Str.C15_total_order_partial | propext, Classical.choice, Quot.sound |
| Str.C15_huge_strings_misordered | propext |
| Str.C15_result_not_unit | propext |
| Str.C16_split_exact | propext, Quot.sound |
| Str.C16_join_exact | propext |
| Str.C16_split_join | propext, Quot.sound |
| Str.C16_trim_exact | propext, Quot.sound |
| Str.C16_white_exact | propext, Classical.choice, Quot.sound |
| Str.C16_trim_one_side | propext, Quot.sound |
| Str.C16_trim_idempotent | propext, Quot.sound |
| Sort.C17_sorts | propext, Classical.choice, Quot.sound |
| Sort.C17_any_comparison | propext, Classical.choice, Quot.sound |
| Sort.C17_unique | propext |
| Sort.C17_canonical | propext, Classical.choice, Quot.sound |
| Sort.C17_reflexive_comparison_diverges | propext, Quot.sound |
| Arr.C18_step_partial | propext, Classical.choice, Quot.sound |
| Arr.C18_history_partial | propext, Classical.choice, Quot.sound |
| Arr.C18_quick_multiset | propext, Quot.sound |
| Arr.C18_quick_overlap_corrupts | propext, Quot.sound |
| Arr.C18_copy | propext, Classical.choice, Quot.sound |
| Arr.C18_self_assignment_faults | propext, Classical.choice, Quot.sound |
| Pool.C19_step | propext, Classical.choice, Quot.sound |
| Pool.C19_history | propext, Classical.choice, Quot.sound |
| Pool.C19_reuse | propext, Classical.choice, Quot.sound |
| Pool.C19_growth_limit | propext, Classical.choice, Quot.sound |
| HMap.C20_small_map_partial | propext, Classical.choice, Quot.sound |
| HMap.C20_sizes | propext, Classical.choice, Quot.sound |
| HMap.C20_no_erase_partial | propext, Classical.choice, Quot.sound |
| HMap.C20_may_hang | propext, Quot.sound |
| HMap.C20_erase_loses | propext, Quot.sound |
| BTree.C21_sorted_multiset | propext, Classical.choice, Quot.sound |
| BTree.C21_balanced | propext, Classical.choice, Quot.sound |
| BTree.C21_insert | propext, Classical.choice, Quot.sound |
| BTree.C21_queue_partial | propext, Classical.choice, Quot.sound |
| BTree.C21_not_a_queue | propext, Quot.sound |
| BTree.C21_capacity_one | propext, Quot.sound |
| Path.C22_total | propext, Classical.choice, Quot.sound |
| Path.C22_meaning_partial | propext, Classical.choice, Quot.sound |
| Path.C22_meaning_posix_partial | propext, Classical.choice, Quot.sound |
| Path.C22_two_up | propext, Classical.choice, Quot.sound |
| Path.C22_root_lost | propext, Classical.choice, Quot.sound |
| Path.C22_drive_relative | propext, Classical.choice, Quot.sound |
| Path.C22_drive_name | propext, Classical.choice, Quot.sound |
| Path.C22_normal_form | propext, Classical.choice, Quot.sound |
| Path.C22_idempotent_partial | propext, Classical.choice, Quot.sound |
| Path.C22_not_idempotent | propext, Classical.choice, Quot.sound |
| Path.C22_trailing | propext, Classical.choice, Quot.sound |
| Path.C22_anchor_wins | propext, Classical.choice, Quot.sound |
| Path.C23_relative | propext, Classical.choice, Quot.sound |
| Path.C23_absolute_partial | propext, Classical.choice, Quot.sound |
| Path.C23_counterexample | propext, Classical.choice, Quot.sound |
| Path.C24_split | propext, Classical.choice, Quot.sound |
| Path.C24_split_unique | propext, Classical.choice, Quot.sound |
| Path.C24_ext | propext, Classical.choice, Quot.sound |
| Path.C24_splitFull | propext, Classical.choice, Quot.sound |
| Path.C24_splitFull_meaning | propext, Classical.choice, Quot.sound |
| Stream.C25_refines | propext, Classical.choice, Quot.sound |
| Stream.C25_read_remaining | propext, Classical.choice, Quot.sound |
| Stream.C25_wide_request_partial | propext, Quot.sound |
| Stream.C25_wide_request_loses_data | propext, Quot.sound |
| Stream.C26_pipe | propext, Quot.sound |
| Stream.C26_result | propext, Quot.sound |
| Stream.C26_memory | propext, Quot.sound |
| Stream.C26_view | propext, Classical.choice, Quot.sound |
| Stream.C26_flush_after_failed_request_asserts | none |
| Stream.C26_huge_write_overruns | propext, Quot.sound |
| Stream.C27_write | propext, Quot.sound |
| Stream.C27_read | propext, Quot.sound |
| Stream.C27_read_returns | propext, Quot.sound |
| Spooky.C28_stream | propext, Classical.choice, Quot.sound |
| Spooky.C28_cut | propext, Classical.choice, Quot.sound |
| Spooky.C28_compute | propext, Classical.choice, Quot.sound |
| Spooky.C28_get_harmless | propext, Classical.choice, Quot.sound |
| Spooky.C28_short_tail | propext, Quot.sound |
| Bits.C29_roundUp64_least | propext, Classical.choice, Quot.sound |
| Bits.C29_roundUp64_out_of_range | propext, Classical.choice, Quot.sound |
| Bits.C29_roundUp32_least | propext, Classical.choice, Quot.sound |
| Bits.C29_isPowerOf2_exact | propext, Classical.choice, Quot.sound |
| Bits.C29_isPowerOf2_zero | propext, Classical.choice, Quot.sound |
| Bits.C29_align_least | propext, Classical.choice, Quot.sound |
| Bits.C29_isAligned_exact | propext, Classical.choice, Quot.sound |
| Bits.C29_countSetBits_exact | propext, Classical.choice, Quot.sound |
| Bits.C30_deavalanche32_avalanche32 | propext, Quot.sound |
| Bits.C30_avalanche32_deavalanche32 | propext, Quot.sound |
| Bits.C30_deavalanche64_avalanche64 | propext, Quot.sound |
| Bits.C30_avalanche64_deavalanche64 | propext, Quot.sound |
| Bits.C30_avalanche_bijective | propext, Quot.sound |
| Date.C31_from_partial | propext, Classical.choice, Quot.sound |
| Date.C31_roundtrip_partial | propext, Classical.choice, Quot.sound |
| Date.C31_days | propext, Classical.choice, Quot.sound |
| Date.C31_days_overflow | propext, Classical.choice, Quot.sound |
| Date.C31_date_roundtrip | propext, Classical.choice, Quot.sound |
| Date.C31_to_partial | propext, Classical.choice, Quot.sound |
| Date.C31_before_epoch | propext, Quot.sound |
| Date.C31_weekday_wrong | propext, Classical.choice, Quot.sound |
| FLoc.C32_partial | propext, Classical.choice, Quot.sound |
| FLoc.C32_ascii | propext, Classical.choice, Quot.sound |
| FLoc.C32_end_of_chunk | propext, Classical.choice, Quot.sound |
| FLoc.C32_inside_character | propext, Classical.choice, Quot.sound |
| FLoc.C32_counterexample | propext, Quot.sound |
| Liquid.C33_partial | propext, Quot.sound |
| Liquid.C33_outputs_partial | propext, Quot.sound |
| Liquid.C33_no_tags | propext, Quot.sound |
| Liquid.C33_content_iff | propext, Classical.choice, Quot.sound |
| Liquid.C33_percent_counterexample | propext, Quot.sound |
| Liquid.C33_less_counterexample | propext, Quot.sound |
| Liquid.C33_unfinished | propext, Quot.sound |
| Pylon.C34_roundtrip_partial | propext, Classical.choice, Quot.sound |
| Pylon.C34_distinct_names | propext, Classical.choice, Quot.sound |
| Pylon.C34_control_characters | propext |
| Pylon.C34_byte_ff | propext |
| Pylon.C34_word_at_end_hangs | propext |
| Pylon.C34_repeated_name | propext |
| Pylon.C34_total | propext, Classical.choice, Quot.sound |
| Pylon.C34_words | propext, Classical.choice, Quot.sound |
| Pylon.C34_words_exact | propext, Classical.choice, Quot.sound |
| Pylon.C35_history | propext, Classical.choice, Quot.sound |
| Pylon.C35_never_stuck | propext, Classical.choice, Quot.sound |
| Pylon.C35_remove_frame | propext, Classical.choice, Quot.sound |
| Pylon.C35_copy_asserts | propext |
| Pylon.C35_copy_unchecked | propext, Classical.choice, Quot.sound |
| Cook.C36_once | propext, Quot.sound |
| Cook.C36_everything_referenced | propext, Quot.sound |
| Cook.C36_completes | propext, Classical.choice, Quot.sound |
| Cook.C36_loop_asserts | propext |
| Cook.C36_isCooked_spoils | propext |
| Cook.C36_vanished_dependency | propext |
| Conc.Spin.C37_mutual_exclusion | propext, Quot.sound |
| Conc.Spin.C37_try | propext, Quot.sound |
| Conc.Spin.C37_unlock_releases | propext, Quot.sound |
| Conc.Spin.C37_progress | propext, Quot.sound |
| Conc.Lazy.C38_constructed_once | propext, Classical.choice, Quot.sound |
| Conc.Lazy.C38_mutual_exclusion | propext, Classical.choice, Quot.sound |
| Conc.Lazy.C38_can_enter | propext, Classical.choice, Quot.sound |
| Conc.Event.C39_returns_signalled | propext, Classical.choice, Quot.sound |
| Conc.Event.C39_no_lost_wakeup | propext, Classical.choice, Quot.sound |
| Conc.Event.C39_signal_wakes | propext, Classical.choice, Quot.sound |
| Conc.Event.C39_signalled_on_return | propext, Classical.choice, Quot.sound |
| Conc.Event.C39_bounded | propext, Classical.choice, Quot.sound |
| Conc.Event.C39_all_return | propext, Classical.choice, Quot.sound |
| Conc.MemLog.C40_unique_partial | propext, Classical.choice, Quot.sound |
| Conc.MemLog.C40_no_gaps_partial | propext, Classical.choice, Quot.sound |
| Conc.MemLog.C40_window | propext, Classical.choice, Quot.sound |
| Conc.MemLog.C40_first_pages | propext, Classical.choice, Quot.sound |
| Conc.MemLog.C40_deleted_page | propext, Classical.choice, Quot.sound |
| Schema.C41_schema_partial | propext, Classical.choice, Quot.sound |
| Schema.C41_schema | propext, Classical.choice, Quot.sound |
| Schema.C41_never_recursive | propext, Classical.choice, Quot.sound |
| Schema.C41_recursion_lost | propext, Classical.choice, Quot.sound |
| Schema.C41_list_node | propext |
| Schema.C41_switch_crash | propext |
| Schema.C41_any_owned | propext |
| Build.C42_once | propext, Classical.choice, Quot.sound |
| Build.C42_exact | propext, Classical.choice, Quot.sound |
| Build.C42_rejects | propext, Classical.choice, Quot.sound |
| Build.C42_again | propext, Classical.choice, Quot.sound |
| Build.C42_cycle | propext, Quot.sound |
| Build.C42_add | propext, Quot.sound |
| Build.C42_clash | propext, Quot.sound |
| Fs.Walk.C43_walk_partial | propext, Classical.choice, Quot.sound |
| Fs.Walk.C43_list | propext, Quot.sound |
| Fs.Walk.C43_once_partial | propext, Classical.choice, Quot.sound |
| Fs.Walk.C43_two_up | propext |
| Fs.Walk.C43_empty | propext |
| Fs.Walk.C43_dangling | none |
| Fs.C44_makeDirs | propext, Classical.choice, Quot.sound |
| Fs.C44_makeDirs_slash | propext |
| Fs.C44_makeDirs_file | propext |
| Fs.C44_makeDirs_adds | propext, Quot.sound |
| Fs.C44_makeDirs_tells | propext, Quot.sound |
| Fs.C44_makeDirs_denied | propext |
| Fs.C44_makeDirs_exists_false | propext |
| Fs.C44_unchanged | propext, Classical.choice, Quot.sound |
| Fs.C44_saved | propext, Classical.choice, Quot.sound |
| Fs.C44_crash_partial | propext, Classical.choice, Quot.sound |
| Fs.C44_crash_loses | propext, Classical.choice, Quot.sound |
| Fs.C44_short_write | propext |
| Fs.C44_blocked | propext, Quot.sound |
| Esc.C45_format_exact | propext, Quot.sound |
| Web.C46_extensions | propext, Classical.choice, Quot.sound |
| Web.C46_static_partial | propext, Classical.choice, Quot.sound |
| Web.C46_static_windows_partial | propext, Classical.choice, Quot.sound |
| Web.C46_static_escape | propext, Classical.choice, Quot.sound |
| Web.C46_above_root | propext, Classical.choice, Quot.sound |
| Web.C46_windows_drive | propext, Classical.choice, Quot.sound |
| Web.C46_source_partial | propext, Classical.choice, Quot.sound |
| Web.C46_source_escape | propext, Classical.choice, Quot.sound |
| Web.C46_virtual_partial | propext, Classical.choice, Quot.sound |
| Web.C46_virtual_escape | propext, Classical.choice, Quot.sound |
| Web.C47_conversation_partial | propext, Classical.choice, Quot.sound |
| Web.C47_unique | propext, Classical.choice, Quot.sound |
| Web.C47_error_page | propext, Classical.choice, Quot.sound |
| Esc.C48_first_occurrence_partial | propext, Quot.sound |
| Esc.C48_single_byte | propext, Quot.sound |
| Esc.C48_found_sound | propext, Quot.sound |
| Esc.C48_false_start_misses | propext |
| Enc.C49_utf8_back_exact | propext, Classical.choice, Quot.sound |
| Enc.C49_utf8_back | propext, Classical.choice, Quot.sound |
| Enc.C49_utf16_back | propext, Classical.choice, Quot.sound |
| Enc.C49_reversed_total | propext, Quot.sound |
| Enc.C49_reversed_text | propext, Classical.choice, Quot.sound |
| Str.C50_starts_ends_with | propext, Quot.sound |
| Str.C50_find_first | propext, Quot.sound |
| Str.C50_rfind_last | propext, Quot.sound |
| Str.C50_subStr_checked_partial | propext, Classical.choice, Quot.sound |
| Str.C50_subStr_wraps | none |
| Str.C50_case_conversion | propext, Quot.sound |
| Str.C50_concat_repeat_partial | propext |
| Str.C50_repeat_overflow | none |
| Esc.C51_identifier_exact | propext, Quot.sound |
| Esc.C51_empty_identifier_accepted | none |
| Esc.C51_whitespace | propext, Quot.sound |
| Stream.C52_capture_crashes | propext, Quot.sound |
| Stream.C52_capture_partial | propext, Classical.choice, Quot.sound |
| Arr.C53_find | propext, Classical.choice, Quot.sound |
| Arr.C53_rfind_partial | propext, Quot.sound |
| Arr.C53_rfind_empty_asserts | propext |
| Arr.C53_view_equality | propext, Classical.choice, Quot.sound |
| Path.C54_from | propext |
| Path.C54_names | propext |
| Path.C54_backslash | propext, Classical.choice, Quot.sound |
| Conc.Race.C55_exact | propext, Classical.choice, Quot.sound |
| Conc.Race.C55_any | propext, Classical.choice, Quot.sound |
| Conc.Groups.C56_all_registered | propext, Classical.choice, Quot.sound |
| Conc.Groups.C56_lock_free | propext, Classical.choice, Quot.sound |
| Persist.C57_asset_roundtrip_partial | propext, Classical.choice, Quot.sound |
| Persist.C57_pointer_order_asserts | propext, Quot.sound |
| Persist.C57_nested_owner_asserts | propext, Classical.choice, Quot.sound |
| Persist.C57_empty_object_confused | propext, Classical.choice, Quot.sound |
| Persist.C58_evolution_partial | propext, Classical.choice, Quot.sound |
| Persist.C58_number_kept | propext, Classical.choice, Quot.sound |
| Persist.C58_bool_from_u64 | propext, Quot.sound |
| Persist.C58_switch_order | propext, Quot.sound |
| Persist.C58_pointer_dropped_asserts | propext, Quot.sound |
| Persist.C58_enum_from_number | propext, Quot.sound |
| Enc.C59_bytes | propext, Quot.sound |
| Markdown.C60_reads | propext, Classical.choice, Quot.sound |
| Markdown.C60_empty_item_asserts | propext, Classical.choice, Quot.sound |
| Markdown.C61_reading | propext, Classical.choice, Quot.sound |
| Markdown.C61_simple | propext, Classical.choice, Quot.sound |
| Markdown.C61_total | propext, Classical.choice, Quot.sound |
| Markdown.C61_intraword | propext, Classical.choice, Quot.sound |
| Markdown.C61_link_escape | propext, Classical.choice, Quot.sound |
| Markdown.C62_lists | propext, Classical.choice, Quot.sound |
| Markdown.C62_list_after_code_false | propext, Classical.choice, Quot.sound |
| Markdown.C62_kept | propext, Classical.choice, Quot.sound |
| Markdown.C62_in_order | propext, Classical.choice, Quot.sound |
| Markdown.C62_flat | propext, Classical.choice, Quot.sound |
| Markdown.C62_flat_asserts | propext, Classical.choice, Quot.sound |
| Markdown.C62_code_columns | propext, Quot.sound |
| Markdown.C62_order_false | propext, Classical.choice, Quot.sound |
| Markdown.C62_quote_false | propext, Classical.choice, Quot.sound |
| Markdown.C62_nested_false | propext, Classical.choice, Quot.sound |
| Markdown.C62_total_false | propext, Classical.choice, Quot.sound |
| Crowbar.C63_token | propext, Classical.choice, Quot.sound |
| Crowbar.C63_cover | propext, Classical.choice, Quot.sound |
| Crowbar.C63_total | propext, Classical.choice, Quot.sound |
| Crowbar.C63_string_text | propext, Quot.sound |
| Crowbar.C63_string_ends | propext, Quot.sound |
| Crowbar.C64_roundtrip | propext, Classical.choice, Quot.sound |
| Crowbar.C64_as_in_C_partial | propext, Classical.choice, Quot.sound |
| Crowbar.C64_prefix_swallows | propext, Classical.choice, Quot.sound |
| Crowbar.C64_text_injective | propext, Classical.choice, Quot.sound |
| Crowbar.C65_roundtrip | propext, Classical.choice, Quot.sound |
| Crowbar.C65_unclosed_parameters_hang | propext, Classical.choice, Quot.sound |
| Crowbar.C65_recovery_skips | propext, Quot.sound |
| Crowbar.C65_recovery_stops | propext, Quot.sound |
| Crowbar.C65_recovery_single | propext |
| Crowbar.C65_no_error_complete | propext, Classical.choice, Quot.sound |
| Crowbar.C65_hole_reported | propext, Classical.choice, Quot.sound |
| Crowbar.C65_ends_partial | propext, Classical.choice, Quot.sound |
| Crowbar.C65_block_ends | propext, Classical.choice, Quot.sound |
| Crowbar.C65_expression_ends | propext, Classical.choice, Quot.sound |
| Crowbar.C66_reads | propext, Classical.choice, Quot.sound |
| Crowbar.C66_labels | propext, Classical.choice, Quot.sound |
| Crowbar.C66_expand_partial | propext, Classical.choice, Quot.sound |
| Crowbar.C66_expand_exact | propext, Classical.choice, Quot.sound |
| Crowbar.C66_parser | propext |
| Crowbar.C66_expand_false | propext, Quot.sound |
| Crowbar.C67_output_is_meaning | propext, Classical.choice, Quot.sound |
| Crowbar.C67_safe | propext, Classical.choice, Quot.sound |
| Crowbar.C67_careful | propext, Classical.choice, Quot.sound |
| Crowbar.C67_strict_meaning | propext, Quot.sound |
| Crowbar.C67_meaning_unique | propext, Quot.sound |
| Crowbar.C67_run_unique | propext, Quot.sound |
| Crowbar.C67_stack | propext, Quot.sound |
| Crowbar.C67_from_text | propext, Classical.choice, Quot.sound |
| Crowbar.C67_copy_of_newest_undefined | propext, Classical.choice, Quot.sound |
| Crowbar.C67_string_assignment_empties_source | propext, Quot.sound |
| Crowbar.C67_parameter_aliases_newest | propext, Quot.sound |
| Crowbar.C67_returned_variable_undefined | propext, Quot.sound |
| Crowbar.C67_string_argument_empties_source | propext, Quot.sound |
| Num.C68_reads_partial | propext, Classical.choice, Quot.sound |
| Num.C68_only | propext, Classical.choice, Quot.sound |
| Num.C68_integers | propext, Classical.choice, Quot.sound |
| Num.C68_radixes | propext, Classical.choice, Quot.sound |
| Num.C68_leading_point | propext, Classical.choice, Quot.sound |
| PyRef.C69_roundtrip_partial | propext, Classical.choice, Quot.sound |
| PyRef.C69_file_partial | propext, Classical.choice, Quot.sound |
| PyRef.C69_injective | propext, Classical.choice, Quot.sound |
| PyRef.C69_numbers_not_exported | propext |
| PyRef.C69_null_not_exported | propext |
| PyRef.C69_unnamed_value | propext |
| PyRef.C69_import_fits | propext, Classical.choice, Quot.sound |
| PyRef.C69_members | propext, Classical.choice, Quot.sound |
| PyRef.C69_unknown_names | propext, Classical.choice, Quot.sound |
| PyRef.C69_integer | propext, Classical.choice, Quot.sound |
| PyRef.C69_bool | propext, Classical.choice, Quot.sound |
| PyRef.C69_string_keeps | propext, Classical.choice, Quot.sound |
| PyRef.C69_fixed_array | propext, Classical.choice, Quot.sound |
| Ref.Atomic.C70_threads | propext, Classical.choice, Quot.sound |
| Ref.Atomic.C70_dual_race | propext |
| Ref.Atomic.C70_dual_partial | propext, Classical.choice, Quot.sound |
| Ref.C70_reachable_alive | propext, Quot.sound |
| Ref.C70_no_leak | propext, Quot.sound |
| Ref.C70_clear_exact | propext, Classical.choice, Quot.sound |
| Ref.C70_move_exact | propext, Classical.choice, Quot.sound |
| Ref.C70_step | propext, Classical.choice, Quot.sound |
| Ref.C70_history | propext, Classical.choice, Quot.sound |
| Ref.C70_pop_undefined | propext, Classical.choice, Quot.sound |
| Ref.C70_circle | propext, Classical.choice, Quot.sound |
| Ref.C70_limit | propext, Quot.sound |
| TFmt.C71_roundtrip | propext, Classical.choice, Quot.sound |
| TFmt.C71_utf8_any_bytes | propext, Quot.sound |
| TFmt.C71_detect_bom | propext, Classical.choice, Quot.sound |
| TFmt.C71_detect_utf8 | propext, Classical.choice, Quot.sound |
| TFmt.C71_detect_ascii16 | propext, Classical.choice, Quot.sound |
| TFmt.C71_detect_latin | propext, Classical.choice, Quot.sound |
| TFmt.C71_detect_blind | propext, Classical.choice, Quot.sound |
| TFmt.C71_detect_total | propext, Classical.choice, Quot.sound |
| TFmt.C71_import_pipe | propext, Classical.choice, Quot.sound |
| TFmt.C71_load_fails_iff | propext, Classical.choice, Quot.sound |
| TFmt.C71_load_saved | propext, Classical.choice, Quot.sound |
| TFmt.C71_resave | propext, Classical.choice, Quot.sound |
| TFmt.C71_late_newline | propext, Classical.choice, Quot.sound |
| TFmt.C71_bytes_not_converted | propext |
| TFmt.C71_bytes_mark | propext |
| TFmt.C71_mark_lost | propext, Classical.choice, Quot.sound |
| TFmt.C71_stray_hides | propext, Classical.choice, Quot.sound |
| TFmt.C71_escape_misread | propext, Quot.sound |
| Cpp.C72_call_ends | propext, Classical.choice, Quot.sound |
| Cpp.C72_lossless | propext, Classical.choice, Quot.sound |
| Cpp.C72_located | propext, Classical.choice, Quot.sound |
| Cpp.C72_ends | propext, Classical.choice, Quot.sound |
| Cpp.C72_self_macro_never_ends | propext, Classical.choice, Quot.sound |
| Cpp.C72_roundtrip | propext, Classical.choice, Quot.sound |
| Cpp.C72_longest | propext, Classical.choice, Quot.sound |
| Cpp.C72_angles | propext, Classical.choice, Quot.sound |
| Cpp.C72_string | propext, Classical.choice, Quot.sound |
| Cpp.C72_comment_stars | propext, Classical.choice, Quot.sound |
| Cpp.C72_raw_unfinished | propext, Classical.choice, Quot.sound |
| Cpp.C72_raw_missed | propext, Classical.choice, Quot.sound |
| Cpp.C72_raw_partial | propext, Classical.choice, Quot.sound |
| Cpp.C72_zero_minus | propext, Classical.choice, Quot.sound |
| Cpp.C72_number_cut | propext, Classical.choice, Quot.sound |
| Cpp.C72_directive_lost | propext, Classical.choice, Quot.sound |
| Cpp.C72_define | propext, Classical.choice, Quot.sound |
| Cpp.C72_macro_misplaced | propext, Classical.choice, Quot.sound |
| Cpp.C72_end_location | propext, Classical.choice, Quot.sound |
| Cpp.C72_macro_args | propext, Classical.choice, Quot.sound |
| Seq.C73_contents | propext, Classical.choice, Quot.sound |
| Seq.C73_count | propext, Classical.choice, Quot.sound |
| Seq.C73_count_wraps | propext, Classical.choice, Quot.sound |
| Seq.C73_append | propext, Classical.choice, Quot.sound |
| Seq.C73_stable | propext, Classical.choice, Quot.sound |
| Seq.C73_destructed | propext, Classical.choice, Quot.sound |
| Seq.C73_truncate_leaks | propext, Classical.choice, Quot.sound |
| Seq.C73_array | propext, Classical.choice, Quot.sound |
| Seq.C73_read | propext, Classical.choice, Quot.sound |
| Seq.C73_truncate_saved | propext, Classical.choice, Quot.sound |
| Seq.C73_pop_too_many | propext, Classical.choice, Quot.sound |
| Seq.C73_empty_tail | propext, Classical.choice, Quot.sound |
| Seq.C73_normalized_fails | propext, Classical.choice, Quot.sound |
| Seq.C73_large_items | propext, Quot.sound |
| CppParse.C74_tokens_in_order | propext, Classical.choice, Quot.sound |
| CppParse.C74_whole_file_partial | propext, Classical.choice, Quot.sound |
| CppParse.C74_whole_list | propext, Classical.choice, Quot.sound |
| CppParse.C74_operator_silent | propext, Classical.choice, Quot.sound |
| CppParse.C74_limit | propext, Classical.choice, Quot.sound |
| CppParse.C74_tried_params_hang | propext, Classical.choice, Quot.sound |
| CppParse.C74_texts_hang | propext, Classical.choice, Quot.sound |
| CppParse.C74_texts_assert | propext, Classical.choice, Quot.sound |
| CppParse.C74_texts_refused | propext, Classical.choice, Quot.sound |
| CppParse.C74_comment_twice | propext, Classical.choice, Quot.sound |
| CppParse.C74_function_pointer | propext, Classical.choice, Quot.sound |
| CppParse.C74_typedef_lost | propext, Quot.sound |
| CppParse.C74_base_comma | propext, Classical.choice, Quot.sound |
| CppParse.C75_declarations_parse_partial | propext, Classical.choice, Quot.sound |
| CppParse.C75_texts_parse_partial | propext, Classical.choice, Quot.sound |
| CppParse.C75_one_tree | propext, Classical.choice, Quot.sound |
| CppParse.C75_body_opaque | propext, Classical.choice, Quot.sound |
| Image.C76_size | propext, Classical.choice, Quot.sound |
| Image.C76_colour_bytes | propext, Classical.choice, Quot.sound |
| Image.C76_pixels | propext, Classical.choice, Quot.sound |
| Image.C76_crop | propext, Classical.choice, Quot.sound |
| Image.C76_crop_crop | propext, Quot.sound |
| Image.C76_copy | propext, Classical.choice, Quot.sound |
| Image.C76_copy_empty_asserts | propext, Classical.choice, Quot.sound |
| Image.C76_flip_partial | propext, Classical.choice, Quot.sound |
| Image.C76_flip_in_place_wrong | propext, Classical.choice, Quot.sound |
| Image.C76_flip_twice | propext, Classical.choice, Quot.sound |
| Image.C76_copy32 | propext, Classical.choice, Quot.sound |
| Image.C76_clear_partial | propext, Classical.choice, Quot.sound |
| Image.C76_clear_bottom_up_does_nothing | propext, Classical.choice, Quot.sound |
| Image.C76_convert | propext, Classical.choice, Quot.sound |
| Image.C76_half_partial | propext, Classical.choice, Quot.sound |
| Image.C76_half_small | propext, Classical.choice, Quot.sound |
| Image.C76_half_exact | propext, Classical.choice, Quot.sound |
| Image.C76_half_wrong | propext, Quot.sound |
| Image.C76_half_checked | propext, Classical.choice, Quot.sound |
| Image.C76_srgb_partial | propext, Classical.choice, Quot.sound |
| Image.C76_srgb_undefined | propext, Quot.sound |
| Image.C76_colour_word | propext, Classical.choice, Quot.sound |
| Image.C76_colour_reversed_wrong | propext, Quot.sound |
| Geom.C77_dot | propext |
| Geom.C77_cross | propext |
| Geom.C77_signs | propext |
| Geom.C77_vector | propext, Classical.choice, Quot.sound |
| Geom.C77_dot_vector | propext, Quot.sound |
| Geom.C77_plane_turn | propext, Classical.choice, Quot.sound |
| Geom.C77_plane_group | propext, Classical.choice, Quot.sound |
| Geom.C77_plane_negate_wrong | propext |
| Geom.C77_plane_space | propext |
| Geom.C77_checks | propext |
| Geom.C77_rot_vector | propext, Quot.sound |
| Geom.C77_rot_axis | propext, Quot.sound |
| Geom.C77_rot_product | propext, Quot.sound |
| Geom.C77_rot_inverse | propext, Quot.sound |
| Geom.C77_rot_identity | propext, Quot.sound |
| Geom.C77_rot_handed | propext, Quot.sound |
| Geom.C77_rot_matrix | propext, Classical.choice, Quot.sound |
| Geom.C77_rot_two | propext |
| Geom.C77_rot_basis | propext, Classical.choice, Quot.sound |
| Geom.C77_rot_plane | propext, Quot.sound |
| Geom.C77_rot_each | propext, Quot.sound |
| Geom.C77_rot_order | propext, Classical.choice, Quot.sound |
| Geom.C77_pos_product | propext, Quot.sound |
| Geom.C77_pos_rot | propext, Quot.sound |
| Geom.C77_pos_inverse | propext, Quot.sound |
| Geom.C77_pos_identity | propext |
| Geom.C77_pos_matrix_wrong | propext, Classical.choice, Quot.sound |
| Geom.C77_reflections | propext, Quot.sound |
| Geom.C77_box_points | propext, Classical.choice, Quot.sound |
| Geom.C77_box_intersect | propext, Classical.choice, Quot.sound |
| Geom.C77_box_contains_partial | propext, Classical.choice, Quot.sound |
| Geom.C77_box_contains_empty | propext, Quot.sound |
| Geom.C77_box_union_partial | propext, Classical.choice, Quot.sound |
| Geom.C77_box_wrong | propext, Quot.sound |
| Geom.C77_box_point_partial | propext, Classical.choice, Quot.sound |
| Geom.C77_box_solid | propext, Classical.choice, Quot.sound |
| Geom.C77_box_expand | propext, Classical.choice, Quot.sound |
| Xform.C78_axis_angle | propext, Classical.choice, Quot.sound |
| Xform.C78_quat_rotates | propext, Classical.choice, Quot.sound |
| Xform.C78_quat_product | propext, Classical.choice, Quot.sound |
| Xform.C78_quat_inverse | propext, Classical.choice, Quot.sound |
| Xform.C78_quat_forms | propext, Classical.choice, Quot.sound |
| Xform.C78_quat_matrix | propext, Classical.choice, Quot.sound |
| Xform.C78_quat_sign | propext, Classical.choice, Quot.sound |
| Xform.C78_matrix_vector | propext, Classical.choice, Quot.sound |
| Xform.C78_matrix_product | propext, Classical.choice, Quot.sound |
| Xform.C78_matrix_forms | propext, Classical.choice, Quot.sound |
| Xform.C78_matrix_effect | propext, Classical.choice, Quot.sound |
| Xform.C78_matrix_turn | propext, Classical.choice, Quot.sound |
| Xform.C78_matrix_transpose | propext, Classical.choice, Quot.sound |
| Xform.C78_inverted_ortho | propext, Classical.choice, Quot.sound |
| Xform.C78_projection_partial | propext, Classical.choice, Quot.sound |
| Xform.C78_projection_wrong | propext, Classical.choice, Quot.sound |
| Xform.C78_projection_fov | propext, Classical.choice, Quot.sound |
| Xform.C78_ortho | propext, Classical.choice, Quot.sound |
| Xform.C78_closer | propext, Classical.choice, Quot.sound |
| Xform.C78_mix | propext, Classical.choice, Quot.sound |
| Xform.C78_mix_sign | propext, Classical.choice, Quot.sound |
| Xform.C78_unit_vectors_partial | propext, Classical.choice, Quot.sound |
| Xform.C78_unit_vectors_opposite | propext, Classical.choice, Quot.sound |
| Xform.C78_unit_vectors_wrong | propext, Classical.choice, Quot.sound |
| Xform.C78_from_matrix | propext, Classical.choice, Quot.sound |
| Xform.C78_quat_round_trip | propext, Classical.choice, Quot.sound |
| Xform.C78_quatpos_round_trip | propext, Classical.choice, Quot.sound |
| Xform.C78_quatpos | propext, Classical.choice, Quot.sound |
| Xform.C78_quatpos_matrix | propext, Classical.choice, Quot.sound |
| Xform.C78_quatpos_mix | propext, Classical.choice, Quot.sound |
| Xform.C78_quatpos_wrong | propext, Classical.choice, Quot.sound |
| Xform.C78_quatposscale | propext, Classical.choice, Quot.sound |
| Xform.C78_scalepos | propext, Classical.choice, Quot.sound |
| Xform.C78_scalepos_wrong | propext, Classical.choice, Quot.sound |
| Xform.C78_matrix_rotations | propext, Classical.choice, Quot.sound |
| Xform.C78_any_perp | propext, Classical.choice, Quot.sound |
| Xform.C78_make_basis | propext, Classical.choice, Quot.sound |
| Xform.C78_make_basis_one | propext, Classical.choice, Quot.sound |
| Xform.C78_look_at | propext, Classical.choice, Quot.sound |
| Xform.C78_look_at_wrong | propext, Classical.choice, Quot.sound |
| Xform.C78_approach | propext, Classical.choice, Quot.sound |
| Xform.C78_cubic | propext, Classical.choice, Quot.sound |
| Xform.C78_cubic_range | propext, Classical.choice, Quot.sound |
| Xform.C78_cubic_derivative_partial | propext, Classical.choice, Quot.sound |
| Xform.C78_cubic_derivative_wrong | propext, Classical.choice, Quot.sound |
| Xform.C78_simple_cubic | propext, Classical.choice, Quot.sound |
| Xform.C78_mix_unmix | propext, Classical.choice, Quot.sound |
| Rand.C79_period | propext, Classical.choice, Quot.sound |
| Rand.C79_never_zero | propext, Classical.choice, Quot.sound |
| Rand.C79_zero_stuck | propext, Quot.sound |
| Rand.C79_all_states | propext, Classical.choice, Quot.sound |
| Rand.C79_one_cycle | propext, Classical.choice, Quot.sound |
| Rand.C79_counts | propext, Classical.choice, Quot.sound |
| Rand.C79_equidistributed | propext, Classical.choice, Quot.sound |
| Rand.C79_low_bits | propext, Classical.choice, Quot.sound |
| Rand.C79_widths | propext, Quot.sound |
| Rand.C79_predictable | propext, Classical.choice, Quot.sound |
| Rand.C79_seeds_differ | propext, Classical.choice, Quot.sound |
| Rand.C79_clocks_matter | propext, Classical.choice, Quot.sound |
| Rand.C79_nearest | propext, Classical.choice, Quot.sound |
| Rand.C79_monotone | propext, Classical.choice, Quot.sound |
| Rand.C79_fraction | propext, Classical.choice, Quot.sound |
| Rand.C79_fraction_one | propext, Classical.choice, Quot.sound |
| Rand.C79_fraction_reaches_one | propext, Classical.choice, Quot.sound |
| Proc.C80_streams | propext, Quot.sound |
| Proc.C80_inherits | propext, Quot.sound |
| Proc.C80_parent | propext, Quot.sound |
| Proc.C80_succeeds | propext, Classical.choice, Quot.sound |
| Proc.C80_output_ends | propext, Classical.choice, Quot.sound |
| Proc.C80_errors_end | propext, Classical.choice, Quot.sound |
| Proc.C80_input_ends | propext, Classical.choice, Quot.sound |
| Proc.C80_input_broken | propext, Classical.choice, Quot.sound |
| Proc.C80_race | propext, Quot.sound |
| Proc.C80_closed_input | propext, Quot.sound |
| Proc.C80_arguments | propext, Quot.sound |
| Proc.C80_zero_byte | none |
| Proc.C80_folder | propext, Quot.sound |
| Proc.C80_join | propext |
| Proc.C80_code_256 | propext |
| Proc.C80_join_once | propext |
| Proc.C80_destroy | propext |
| Audio.C81_saturating | propext, Classical.choice, Quot.sound |
| Audio.C81_platforms | propext, Classical.choice, Quot.sound |
| Audio.C81_format | propext, Classical.choice, Quot.sound |
| Audio.C81_subregion | propext, Classical.choice, Quot.sound |
| Audio.C81_zero | propext, Classical.choice, Quot.sound |
| Audio.C81_size_wraps | propext, Quot.sound |
| Audio.C81_mix | propext, Classical.choice, Quot.sound |
| Audio.C81_overlap | propext, Quot.sound |
| Audio.C81_leveled | propext, Classical.choice, Quot.sound |
| Audio.C81_leveled_range | propext, Classical.choice, Quot.sound |
| Audio.C81_leveled_defined | propext, Classical.choice, Quot.sound |
| Audio.C81_dyn_any | propext, Classical.choice, Quot.sound |
| Audio.C81_dyn | propext, Classical.choice, Quot.sound |
| Audio.C81_dyn_defined | propext, Classical.choice, Quot.sound |
| Audio.C81_dyn_wraps | propext, Quot.sound |
| Audio.C81_blocks | propext, Quot.sound |
| Audio.C81_mix_regions | propext, Classical.choice, Quot.sound |
| Audio.C81_no_overshoot | propext, Classical.choice, Quot.sound |
| Audio.C81_lerp | propext, Quot.sound |
| Audio.C81_pitched | propext, Classical.choice, Quot.sound |
| Audio.C81_pitched_defined | propext, Classical.choice, Quot.sound |
| Audio.C81_pitched_blocks | propext, Classical.choice, Quot.sound |
| Audio.C81_pitched_wrong | propext, Quot.sound |
| Inst.C82_ends | propext, Classical.choice, Quot.sound |
| Inst.C82_once | propext, Classical.choice, Quot.sound |
| Inst.C82_complete | propext, Classical.choice, Quot.sound |
| Inst.C82_edges | propext, Classical.choice, Quot.sound |
| Inst.C82_externs | propext, Classical.choice, Quot.sound |
| Inst.C82_data | propext, Classical.choice, Quot.sound |
| Inst.C82_no_loop | propext, Classical.choice, Quot.sound |
| Inst.C82_succeeds | propext, Classical.choice, Quot.sound |
| Inst.C82_loop_reported | propext, Quot.sound |
| Inst.C82_twice_reported | propext, Quot.sound |
| Inst.C82_extern_loop | propext, Quot.sound |
| Inst.C82_reports | propext, Classical.choice, Quot.sound |
| Inst.C82_writable | propext, Classical.choice, Quot.sound |
| Inst.C82_container | propext, Classical.choice, Quot.sound |
| Inst.C82_one_container | propext, Classical.choice, Quot.sound |
| Inst.C82_acyclic | propext, Classical.choice, Quot.sound |
| Inst.C82_propagates | propext, Classical.choice, Quot.sound |
| Inst.C82_shared_leaks | propext, Quot.sound |
| Inst.C82_shared_late | propext, Quot.sound |
| Inst.C82_shared_ignored | propext, Quot.sound |
| Names.C83_split | propext, Quot.sound |
| Names.C83_split_refused | propext, Classical.choice, Quot.sound |
| Names.C83_module | propext, Classical.choice, Quot.sound |
| Names.C83_module_reports | propext, Classical.choice, Quot.sound |
| Names.C83_module_full | propext, Classical.choice, Quot.sound |
| Names.C83_module_short_partial | propext, Classical.choice, Quot.sound |
| Names.C83_module_short_ambiguous | propext |
| Names.C83_extern | propext, Classical.choice, Quot.sound |
| Names.C83_extern_superfluous | propext, Classical.choice, Quot.sound |
| Names.C83_extern_asserts | propext, Classical.choice, Quot.sound |
| Names.C83_extern_full | propext, Classical.choice, Quot.sound |
| Names.C83_extern_short_partial | propext, Classical.choice, Quot.sound |
| Names.C83_extern_short_repo | propext |
| Names.C83_provider | propext, Classical.choice, Quot.sound |
| Names.C83_provider_asserts | propext, Classical.choice, Quot.sound |
| Names.C83_provider_full_partial | propext, Classical.choice, Quot.sound |
| Names.C83_provider_full_ambiguous | propext |
| Names.C83_provider_short_partial | propext, Classical.choice, Quot.sound |
| Names.C83_child | propext, Classical.choice, Quot.sound |
| Names.C83_in_module | propext, Classical.choice, Quot.sound |
| Names.C83_in_extern | propext, Classical.choice, Quot.sound |
| Names.C83_scope | propext, Classical.choice, Quot.sound |
| Names.C83_add_module | propext, Quot.sound |
| Names.C83_add_provider | propext, Classical.choice, Quot.sound |
| Names.C83_extern_twice | propext, Quot.sound |
| Names.C83_add_keeps | propext, Classical.choice, Quot.sound |
| Docs.C84_sidebar_partial | propext, Classical.choice, Quot.sound |
| Docs.C84_sidebar_total | propext, Classical.choice, Quot.sound |
| Docs.C84_link_breaks | propext, Classical.choice, Quot.sound |
| Docs.C84_absolute | propext, Classical.choice, Quot.sound |
| Docs.C84_only_html | propext, Classical.choice, Quot.sound |
| Docs.C84_page_partial | propext, Classical.choice, Quot.sound |
| Docs.C84_inside_partial | propext, Classical.choice, Quot.sound |
| Docs.C84_escape | propext, Classical.choice, Quot.sound |
| Docs.C84_relative_root | propext, Classical.choice, Quot.sound |
| Docs.C84_windows_drive | propext, Classical.choice, Quot.sound |
| Docs.C84_content_only | propext, Classical.choice, Quot.sound |
| Own.C85_clear | propext, Classical.choice, Quot.sound |
| Own.C85_assign | propext, Classical.choice, Quot.sound |
| Own.C85_release | propext, Quot.sound |
| Own.C85_create | propext, Classical.choice, Quot.sound |
| Own.C85_move_partial | propext, Classical.choice, Quot.sound |
| Own.C85_move_iff | propext, Classical.choice, Quot.sound |
| Own.C85_move_next | propext, Classical.choice, Quot.sound |
| Own.C85_once | propext, Classical.choice, Quot.sound |
| Own.C85_proper | propext, Classical.choice, Quot.sound |
| Own.C85_clear_vars | propext, Classical.choice, Quot.sound |
| Own.C85_no_leak_partial | propext, Classical.choice, Quot.sound |
| Own.C85_cycle_leaks | propext, Classical.choice, Quot.sound |
| Own.C85_functor_safe | propext, Classical.choice, Quot.sound |
| Own.C85_functor_no_leak_partial | propext, Classical.choice, Quot.sound |
| Own.C85_functor_leaks | propext, Classical.choice, Quot.sound |
| Own.C85_functor_move | propext |
| Rm.C86_remove_partial | propext, Classical.choice, Quot.sound |
| Rm.C86_links_out | propext, Quot.sound |
| Rm.C86_nothing_else | propext, Classical.choice, Quot.sound |
| Rm.C86_missing | propext, Quot.sound |
| Rm.C86_delete | propext, Classical.choice, Quot.sound |
| Rm.C86_dangling | propext, Classical.choice, Quot.sound |
| Rm.C86_order | propext, Classical.choice, Quot.sound |
| Rm.C86_top_link | propext, Classical.choice, Quot.sound |
| Rm.C86_two_up | propext, Classical.choice, Quot.sound |
| Clean.C87_succeeds | propext, Classical.choice, Quot.sound |
| Clean.C87_cut | propext, Classical.choice, Quot.sound |
| Clean.C87_replaces | propext, Classical.choice, Quot.sound |
| Clean.C87_code_partial | propext, Classical.choice, Quot.sound |
| Clean.C87_idempotent_partial | propext, Classical.choice, Quot.sound |
| Clean.C87_header | propext, Classical.choice, Quot.sound |
| Clean.C87_comment_cut | propext, Classical.choice, Quot.sound |
| Clean.C87_line_shared | propext, Classical.choice, Quot.sound |
| Clean.C87_no_code | propext, Classical.choice, Quot.sound |
| Clean.C87_text_lost | propext, Classical.choice, Quot.sound |
| Clean.C87_garbage_lost | propext, Classical.choice, Quot.sound |
| Cmd.C88_order | propext, Classical.choice, Quot.sound |
| Cmd.C88_command_partial | propext, Classical.choice, Quot.sound |
| Cmd.C88_options_order | propext, Classical.choice, Quot.sound |
| Cmd.C88_one | propext, Classical.choice, Quot.sound |
| Cmd.C88_unknown_option | propext, Classical.choice, Quot.sound |
| Cmd.C88_option_twice | propext, Classical.choice, Quot.sound |
| Cmd.C88_abbreviation | propext, Classical.choice, Quot.sound |
| Cmd.C88_one_letter | propext, Classical.choice, Quot.sound |
| Cmd.C88_ambiguous | propext, Classical.choice, Quot.sound |
| Cmd.C88_no_words | propext, Classical.choice, Quot.sound |
| Cmd.C88_empty_ignores | propext, Classical.choice, Quot.sound |
| Cmd.C88_rpc | propext, Classical.choice, Quot.sound |
| Cmd.C88_finalized | propext, Classical.choice, Quot.sound |
| Cmd.C88_shared_alone | propext, Classical.choice, Quot.sound |
| Conv.C89_convert_partial | propext, Classical.choice, Quot.sound |
| Conv.C89_recipe | propext, Quot.sound |
| Conv.C89_member_missing | propext, Quot.sound |
| Conv.C89_array_wrong | propext, Quot.sound |
| Title.C90_grammar | propext, Quot.sound |
| Title.C90_roundtrip | propext, Quot.sound |
| Title.C90_text | propext, Quot.sound |
| Title.C90_html_partial | propext, Classical.choice, Quot.sound |
| Title.C90_backslash_silent | propext, Quot.sound |
| Title.C90_unknown_name | propext, Quot.sound |
| Cpu.C91_cores_partial | propext, Classical.choice, Quot.sound |
| Cpu.C91_each_once | propext, Classical.choice, Quot.sound |
| Cpu.C91_same_core | propext, Quot.sound |
| Cpu.C91_fallback | propext |
| Cpu.C91_any | propext, Classical.choice, Quot.sound |
| Cpu.C91_overflow | propext, Classical.choice, Quot.sound |
| Cpu.C91_bind | propext, Classical.choice, Quot.sound |
| Cpu.C91_mixed | propext |
| Cpu.C91_packages_only | propext, Quot.sound |
| DocEx.C92_extract_partial | propext, Quot.sound |
| DocEx.C92_page | propext, Quot.sound |
| DocEx.C92_each_once | propext, Classical.choice, Quot.sound |
| DocEx.C92_list_left_open | propext, Quot.sound |
| DocEx.C92_two_members_assert | propext, Quot.sound |
| DocEx.C92_comments_assert | propext |
| DocEx.C92_stray | propext, Quot.sound |
| DocLink.C93_lookup | propext, Classical.choice, Quot.sound |
| DocLink.C93_colons | propext, Quot.sound |
| DocLink.C93_roundtrip | propext, Classical.choice, Quot.sound |
| DocLink.C93_destination | propext, Classical.choice, Quot.sound |
| DocLink.C93_span | propext, Classical.choice, Quot.sound |
| DocLink.C93_leading_colon | propext, Classical.choice, Quot.sound |
| DocLink.C93_hidden | propext, Classical.choice, Quot.sound |
| DocLink.C93_bases_ignored | none |
| DocLink.C93_global_function | propext |
| DocLink.C93_same_name | propext, Quot.sound |
| DocText.C94_shown_partial | propext, Classical.choice, Quot.sound |
| DocText.C94_names | propext, Classical.choice, Quot.sound |
| DocText.C94_fails | propext, Classical.choice, Quot.sound |
| DocText.C94_heading_code | propext |
| DocText.C94_page_link | propext, Classical.choice, Quot.sound |
| DocText.C94_other_link | propext, Classical.choice, Quot.sound |
| DocText.C94_colon | propext, Classical.choice, Quot.sound |
| Toc.C95_names | propext, Classical.choice, Quot.sound |
| Toc.C95_order | propext, Quot.sound |
| Toc.C95_order_distinct | propext, Classical.choice, Quot.sound |
| Toc.C95_clean | propext, Classical.choice, Quot.sound |
| Toc.C95_unnamable | propext, Classical.choice, Quot.sound |
| Toc.C95_made_partial | propext, Quot.sound |
| Toc.C95_made_once | propext, Quot.sound |
| Toc.C95_lost | propext |
| Toc.C95_contents | propext, Quot.sound |
| Toc.C95_address | propext, Classical.choice, Quot.sound |
| Gen.C96_generate_partial | propext, Quot.sound |
| Gen.C96_again | propext, Quot.sound |
| Gen.C96_fails | propext, Classical.choice, Quot.sound |
| Gen.C96_end_of_file | propext, Classical.choice, Quot.sound |
| Gen.C96_one_each | propext |
| Gen.C96_mark | propext, Quot.sound |
| Reg.C97_written | propext, Classical.choice, Quot.sound |
| Reg.C97_only | propext |
| Reg.C97_registered_partial | propext, Classical.choice, Quot.sound |
| Reg.C97_balance | propext, Quot.sound |
| Reg.C97_reported | propext, Classical.choice, Quot.sound |
| Reg.C97_lost_at_end | propext, Classical.choice, Quot.sound |
| Sig.C98_roundtrip | propext, Classical.choice, Quot.sound |
| Sig.C98_distinct | propext, Classical.choice, Quot.sound |
| Sig.C98_add | propext, Quot.sound |
| Sig.C98_order | propext, Quot.sound |
| Sig.C98_noticed | propext, Classical.choice, Quot.sound |
| Sig.C98_built | propext, Classical.choice, Quot.sound |
| Sig.C98_once | propext, Classical.choice, Quot.sound |
| Sig.C98_errors_once | propext, Classical.choice, Quot.sound |
| Sig.C98_folder | propext |
