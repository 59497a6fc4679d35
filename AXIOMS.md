# Axioms per theorem

Output of `#print axioms` for every theorem in MANIFEST.json (tools/axioms.py).

## none

* `Verif.Props.FsArray.C40_resize_exposes_stale`
* `Verif.Props.Scan.C66_unique`

## propext

* `Verif.Props.C01_bound_sharp`
* `Verif.Props.C02_to_utf8_append`
* `Verif.Props.C04_more_ill_formed_accepted`
* `Verif.Props.C05_resync_fails`
* `Verif.Props.C10_out_of_bounds`
* `Verif.Props.C10_exact_utf32`
* `Verif.Props.Scan.C12_fails`
* `Verif.Props.Scan.C13_fails_oob`
* `Verif.Props.C16_default`
* `Verif.Props.Script.C22_common_extensions_merge`
* `Verif.Props.Norm.C26_api`
* `Verif.Props.Norm.C30_segments`
* `Verif.Props.Norm.C30_utf8_chunking`
* `Verif.Props.Norm.C30_utf8_flush`
* `Verif.Props.Norm.C30_utf8_segments`
* `Verif.Props.Norm.C32_equivalence`
* `Verif.Props.Norm.C32_same_composed`
* `Verif.Props.Tables.C38_fails_257_blocks`
* `Verif.Props.Tables.C38_fails_truncation`
* `Verif.Props.Capi.C39_fails_empty_legacy`
* `Verif.Props.Capi.C39_unbreakable_segmenter`
* `Verif.Props.Capi.C39_stream_untouched`
* `Verif.Props.Capi.C39_fails_exact_fit`
* `Verif.Props.FsArray.C40_resize_to_capacity_ignored`
* `Verif.Props.Scan.C44_fails_resumed`
* `Verif.Props.Scan.C44_fails_small_limit`
* `Verif.Props.Scan.C45_fails_vs15`
* `Verif.Props.Scan.C62_fails_flag`
* `Verif.Props.Scan.C62_fails_mark`
* `Verif.Props.Scan.C63_fails_cut`
* `Verif.Props.Scan.C72_fails_full_line`
* `Verif.Props.Scan.C72_fails_chunk`
* `Verif.Props.Iter.C73_fails_last`
* `Verif.Props.TextPrefix.C80_words_two`
* `Verif.Props.Levels.C81_fails_prepend`
* `Verif.Props.Levels.C81_fails_flags`
* `Verif.Props.Levels.C81_fails_spacing`
* `Verif.Props.Pieces.C84_borders_needed`

## propext, Classical.choice, Quot.sound

* `Verif.Props.C01_utf8_roundtrip`
* `Verif.Props.C01_utf8_ptr_roundtrip`
* `Verif.Props.C02_utf8_string_roundtrip`
* `Verif.Props.C02_utf8_incremental_string`
* `Verif.Props.C03_to_utf8_wellformed`
* `Verif.Props.C03_wellformed_unique`
* `Verif.Props.C03_to_utf8_length`
* `Verif.Props.C03_prefix_free`
* `Verif.Props.C03_injective`
* `Verif.Props.C03_string_injective`
* `Verif.Props.Overloads.C04_integer`
* `Verif.Props.C04_strict_fails`
* `Verif.Props.C04_success_justified_partial`
* `Verif.Props.C04_loose_wellformed_partial`
* `Verif.Props.C04_invalid_iff`
* `Verif.Props.C04_exact`
* `Verif.Props.C05_resync_multibyte_partial`
* `Verif.Props.C05_resync_ascii_partial`
* `Verif.Props.C05_bounded_damage`
* `Verif.Props.C05_ascii_iff`
* `Verif.Props.C06_utf16_output_wellformed`
* `Verif.Props.C06_utf16_decode_wellformed`
* `Verif.Props.C06_utf16_roundtrip`
* `Verif.Props.C07_utf8_to_utf16_direct`
* `Verif.Props.C07_utf16_to_utf8`
* `Verif.Props.C09_output_fits`
* `Verif.Props.C09_output_fits_prefix`
* `Verif.Props.C09_values_bounded`
* `Verif.Props.C10_wellformed_exact_partial`
* `Verif.Props.C10_iterator_eq_bulk`
* `Verif.Props.C10_exact_utf8`
* `Verif.Props.C10_exact_utf16`
* `Verif.Props.C10_division_unique`
* `Verif.Props.Scan.C11_longest_prefix`
* `Verif.Props.Scan.C11_cpu_independent`
* `Verif.Props.Scan.C11_closed_form`
* `Verif.Props.Scan.C12_limit_partial`
* `Verif.Props.Scan.C13_pointers_partial`
* `Verif.Props.Scan.C13_stop_reason`
* `Verif.Props.Scan.C13_one_buffer_partial`
* `Verif.Props.C14_segmenter_exact`
* `Verif.Props.C14_uax29_partial`
* `Verif.Props.C16_incremental_exact`
* `Verif.Props.C16_agrees_partial`
* `Verif.Props.C17_utf8_clusters`
* `Verif.Props.C17_utf8_concat`
* `Verif.Props.Word.C18_segmenter`
* `Verif.Props.Word.C18_interfaces_agree`
* `Verif.Props.C20_upper_bound`
* `Verif.Props.C20_monotone`
* `Verif.Props.C20_modifier_alone`
* `Verif.Props.C21_sum`
* `Verif.Props.C21_additive`
* `Verif.Props.Script.C22_partition_labels`
* `Verif.Props.Script.C22_covers`
* `Verif.Props.Script.C22_borders_forced`
* `Verif.Props.Script.C22_terminates`
* `Verif.Props.Emoji.C23_groups`
* `Verif.Props.Emoji.C23_partition_alternates`
* `Verif.Props.Emoji.C23_covers`
* `Verif.Props.Emoji.C24_longest_token`
* `Verif.Props.Emoji.C24_unique`
* `Verif.Props.Run.C25_common_refinement`
* `Verif.Props.Run.C25_run_segmenter`
* `Verif.Props.Run.C25_terminates`
* `Verif.Props.Norm.C26_canonical_order`
* `Verif.Props.Norm.C26_confluent`
* `Verif.Props.Norm.C26_sorts_runs`
* `Verif.Props.Norm.C27_output_form`
* `Verif.Props.Norm.C27_idempotent`
* `Verif.Props.Norm.C27_concat_congr`
* `Verif.Props.Norm.C27_full_decomposition`
* `Verif.Props.Norm.C27_irreducible`
* `Verif.Props.Norm.C28_exact`
* `Verif.Props.Norm.C28_reference_equivalent`
* `Verif.Props.Norm.C28_equivalent_iff_partial`
* `Verif.Props.Norm.C28_unicode_partial`
* `Verif.Props.Norm.C28_primary`
* `Verif.Props.Norm.C28_composed_exact`
* `Verif.Props.Norm.C28_reference`
* `Verif.Props.Norm.C29_compose_decompose`
* `Verif.Props.Norm.C29_decompose_compose`
* `Verif.Props.Norm.C29_injective`
* `Verif.Props.Norm.C29_others`
* `Verif.Props.Norm.C29_nfc_syllables`
* `Verif.Props.Norm.C30_composed_stream_partial`
* `Verif.Props.Norm.C30_utf8_eq_whole_partial`
* `Verif.Props.Norm.C30_utf8_flush_restarts_partial`
* `Verif.Props.Norm.C31_decomposed_forms`
* `Verif.Props.Norm.C31_composed_yes_partial`
* `Verif.Props.Norm.C31_composed_no`
* `Verif.Props.Norm.C31_composed_exact_unless_yes`
* `Verif.Props.Overloads.C31_utf8`
* `Verif.Props.Overloads.C31_utf8_decomposed`
* `Verif.Props.Norm.C31_quick_check_exact`
* `Verif.Props.Norm.C31_is_normalized_exact`
* `Verif.Props.Norm.C32_representative`
* `Verif.Props.Norm.C32_congruence`
* `Verif.Props.Norm.C32_canonical_imp_compat`
* `Verif.Props.Norm.C32_exact`
* `Verif.Props.Case.C33_codepoint`
* `Verif.Props.Case.C33_exact`
* `Verif.Props.Case.C33_utf8`
* `Verif.Props.Case.C33_length`
* `Verif.Props.Case.C34_compare`
* `Verif.Props.Case.C34_total_preorder`
* `Verif.Props.Case.C34_equals`
* `Verif.Props.Case.C34_equivalence`
* `Verif.Props.Case.C34_utf8_agrees`
* `Verif.Props.Case.C34_utf8_equals`
* `Verif.Props.Case.C35_titlecase`
* `Verif.Props.Overloads.C35_classes`
* `Verif.Props.Tables.C36_lookup_exact`
* `Verif.Props.Tables.C36_simple`
* `Verif.Props.Tables.C36_list`
* `Verif.Props.Tables.C36_ccc`
* `Verif.Props.Tables.C36_membership`
* `Verif.Props.Tables.C36_compose`
* `Verif.Props.Tables.C37_search`
* `Verif.Props.Tables.C38_exact`
* `Verif.Props.Tables.C38_properties`
* `Verif.Props.Tables.C38_iff`
* `Verif.Props.Tables.C38_properties_iff`
* `Verif.Props.Capi.C39_u8_count`
* `Verif.Props.Capi.C39_unbreakable_uax29`
* `Verif.Props.Capi.C39_stream_roundtrip`
* `Verif.Props.Capi.C39_convert_in_bounds`
* `Verif.Props.Capi.C39_convert_success`
* `Verif.Props.Capi.C39_convert_failure`
* `Verif.Props.FsArray.C40_access`
* `Verif.Props.Tg.C41_emoji_category_agrees`
* `Verif.Props.Tg.C41_width_agrees_partial`
* `Verif.Props.Tg.C41_fails_soft_hyphen`
* `Verif.Props.Tg.C41_width_range`
* `Verif.Props.Case.C42_changes_when`
* `Verif.Props.Case.C43_idempotent`
* `Verif.Props.Case.C43_forgets_case`
* `Verif.Props.Scan.C44_receiver_partial`
* `Verif.Props.Scan.C44_one_buffer_partial`
* `Verif.Props.Scan.C45_chunks_partial`
* `Verif.Props.Scan.C45_text_partial`
* `Verif.Props.Scan.C45_chunks`
* `Verif.Props.Scan.C45_text`
* `Verif.Props.Scan.C45_resumed`
* `Verif.Props.Scan.C45_border`
* `Verif.Props.Scan.C46_exact`
* `Verif.Props.Scan.C46_pieces`
* `Verif.Props.Scan.C46_width_partial`
* `Verif.Props.Scan.C46_fails_flag`
* `Verif.Props.Capi.C47_set_get`
* `Verif.Props.Capi.C47_codepoint_kept`
* `Verif.Props.Capi.C47_decompose`
* `Verif.Props.Tg.C48_line_exact`
* `Verif.Props.Tg.C48_file_exact`
* `Verif.Props.Tg.C49_from_file`
* `Verif.Props.Tg.C49_lookup`
* `Verif.Props.Tg.C49_emoji_category`
* `Verif.Props.Tg.C49_in_bounds`
* `Verif.Props.Tg.C49_script`
* `Verif.Props.Tg.C49_general_category`
* `Verif.Props.Tg.C49_grapheme_cluster_break`
* `Verif.Props.Tg.C49_east_asian_width`
* `Verif.Props.Tg.C49_indic_conjunct_break`
* `Verif.Props.Tg.C49_word_break`
* `Verif.Props.Tg.C49_age`
* `Verif.Props.Tg.C49_flags`
* `Verif.Props.Tg.C49_variation_base`
* `Verif.Props.Tg.C49_width`
* `Verif.Props.Tg.C50_declared`
* `Verif.Props.Tg.C50_age_order`
* `Verif.Props.Tg.C50_age_total`
* `Verif.Props.Tg.C51_tables_sorted`
* `Verif.Props.Tg.C51_full_lookup`
* `Verif.Props.Tg.C51_codepoint`
* `Verif.Props.Tg.C51_text`
* `Verif.Props.Tg.C51_simple`
* `Verif.Props.Tg.C51_full_tables_safe`
* `Verif.Props.Tg.C51_fails_four_targets`
* `Verif.Props.Tg.C51_fails_conditional_without_comment`
* `Verif.Props.Tg.C51_fails_title_default`
* `Verif.Props.Tg.C52_unicode_data`
* `Verif.Props.Tg.C52_quick_check`
* `Verif.Props.Tg.C52_composition`
* `Verif.Props.Tg.C52_full_decomposition`
* `Verif.Props.Tg.C52_nfd`
* `Verif.Props.Tg.C52_quick_check_exact`
* `Verif.Props.Tg.C52_equivalence`
* `Verif.Props.Tg.C52_primary_partial`
* `Verif.Props.Tg.C52_nfc_partial`
* `Verif.Props.Tg.C52_stream_partial`
* `Verif.Props.Tg.C52_is_normalized_partial`
* `Verif.Props.Tg.C52_tables_sorted`
* `Verif.Props.Tg.C52_fails_full_exclusion`
* `Verif.Props.Tg.C53_script`
* `Verif.Props.Tg.C53_east_asian_width`
* `Verif.Props.Tg.C53_emoji`
* `Verif.Props.Tg.C53_core`
* `Verif.Props.Tg.C53_grapheme_cluster_break`
* `Verif.Props.Tg.C53_aliases`
* `Verif.Props.Tg.C53_make_age`
* `Verif.Props.Tg.C53_general_category`
* `Verif.Props.Tg.C53_contains_category`
* `Verif.Props.Tg.C53_contains_no_category`
* `Verif.Props.Tg.C53_block`
* `Verif.Props.Tg.C53_plane`
* `Verif.Props.Tg.C53_script_extensions`
* `Verif.Props.Tg.C53_mirrored_intervals`
* `Verif.Props.Tg.C53_is_mirrored`
* `Verif.Props.Tg.C53_bidi_mirroring_glyph`
* `Verif.Props.Tg.C53_variation_bases`
* `Verif.Props.Tg.C53_accepts`
* `Verif.Props.Tg.C53_name_value_partial`
* `Verif.Props.Tg.C53_name_partial`
* `Verif.Props.Tg.C53_fails_name_star`
* `Verif.Props.Tg.C53_fails_name_supplementary`
* `Verif.Props.Tg.C54_row`
* `Verif.Props.Tg.C54_unique`
* `Verif.Props.Tg.C54_lookup`
* `Verif.Props.Tg.C55_exact`
* `Verif.Props.Tg.C55_unique`
* `Verif.Props.Tg.C55_print`
* `Verif.Props.Tg.C55_age_numbers`
* `Verif.Props.Tg.C55_row`
* `Verif.Props.Tg.C55_query`
* `Verif.Props.Tg.C55_query_lists`
* `Verif.Props.Tg.C55_fails_shared_name`
* `Verif.Props.Tg.C56_table`
* `Verif.Props.Tg.C56_unique`
* `Verif.Props.Tg.C56_graphemes`
* `Verif.Props.Tg.C56_words`
* `Verif.Props.Tg.C56_emoji`
* `Verif.Props.Tg.C56_width`
* `Verif.Props.Tg.C56_scan_partial`
* `Verif.Props.Tg.C56_scripts`
* `Verif.Props.Tg.C56_labels`
* `Verif.Props.Tg.C56_script_column`
* `Verif.Props.Tg.C56_scan_exact`
* `Verif.Props.Tg.C56_line_exact`
* `Verif.Props.Simd.C57_scan_mask`
* `Verif.Props.Simd.C57_scan`
* `Verif.Props.Simd.C57_scan_refines`
* `Verif.Props.Simd.C57_all_ascii`
* `Verif.Props.Simd.C57_convert32`
* `Verif.Props.Simd.C57_convert16`
* `Verif.Props.Simd.C57_convert_refines`
* `Verif.Props.Simd.C58_scan`
* `Verif.Props.Simd.C58_convert_partial`
* `Verif.Props.Simd.C58_fails_sse41`
* `Verif.Props.Tools.C59_literal_unique`
* `Verif.Props.Tools.C59_escape_injective`
* `Verif.Props.Tools.C59_escape_printable`
* `Verif.Props.Tools.C59_listing`
* `Verif.Props.Tools.C59_break_column_partial`
* `Verif.Props.Tools.C59_line_unique`
* `Verif.Props.Tools.C59_line_newline`
* `Verif.Props.Tools.C59_listing_injective`
* `Verif.Props.Tools.C59_fails_break_column`
* `Verif.Props.Tools.C59_any_bytes`
* `Verif.Props.Tools.C59_fails_offset`
* `Verif.Props.Tools.C59_scripts`
* `Verif.Props.Tools.C59_scripts_safe`
* `Verif.Props.Tools.C59_fails_replace`
* `Verif.Props.Tools.C59_runs`
* `Verif.Props.Tools.C59_runs_safe`
* `Verif.Props.Tools.C59_arguments`
* `Verif.Props.Tools.C59_single_argument_ignored`
* `Verif.Props.Tools.C59_commands`
* `Verif.Props.Query.C60_escaped_printable`
* `Verif.Props.Query.C60_parse_exact`
* `Verif.Props.Query.C60_names_codepoint_partial`
* `Verif.Props.Query.C60_fails_overflow`
* `Verif.Props.Query.C60_parse_text`
* `Verif.Props.Query.C60_age`
* `Verif.Props.Query.C60_fails_unassigned_age`
* `Verif.Props.Query.C60_properties`
* `Verif.Props.Query.C60_default`
* `Verif.Props.Query.C60_help`
* `Verif.Props.Query.C60_usage`
* `Verif.Props.Query.C60_options_unique`
* `Verif.Props.Query.C60_bad_options`
* `Verif.Props.Query.C60_clusters`
* `Verif.Props.Query.C60_runs`
* `Verif.Props.Query.C60_safe`
* `Verif.Props.Tg.C61_unambiguous`
* `Verif.Props.Tg.C61_case_tables_partial`
* `Verif.Props.Tg.C61_fails_backslash`
* `Verif.Props.Tg.C61_properties`
* `Verif.Props.Tg.C61_names`
* `Verif.Props.Tg.C61_enums`
* `Verif.Props.Tg.C61_intervals`
* `Verif.Props.Tg.C61_mirrored`
* `Verif.Props.Tg.C61_glyphs`
* `Verif.Props.Tg.C61_general_category`
* `Verif.Props.Tg.C61_script`
* `Verif.Props.Tg.C61_plane`
* `Verif.Props.Tg.C61_block`
* `Verif.Props.Tg.C61_breaks`
* `Verif.Props.Tg.C61_east_asian_width`
* `Verif.Props.Tg.C61_script_extension_arrays`
* `Verif.Props.Tg.C61_script_extensions`
* `Verif.Props.Tg.C61_ages`
* `Verif.Props.Tg.C61_decomposition_type`
* `Verif.Props.Tg.C61_from_files`
* `Verif.Props.Tg.C61_generated`
* `Verif.Props.Scan.C62_fails_hangul`
* `Verif.Props.Scan.C62_wrap_partial`
* `Verif.Props.Scan.C62_any_partial`
* `Verif.Props.Scan.C62_lines_partial`
* `Verif.Props.Scan.C63_fails_mark`
* `Verif.Props.Scan.C63_columns_partial`
* `Verif.Props.Scan.C63_bytes_partial`
* `Verif.Props.Scan.C63_exact`
* `Verif.Props.Tg.C64_unambiguous`
* `Verif.Props.Tg.C64_plane`
* `Verif.Props.Tg.C64_general_category`
* `Verif.Props.Tg.C64_script`
* `Verif.Props.Tg.C64_block`
* `Verif.Props.Tg.C64_east_asian_width`
* `Verif.Props.Tg.C64_break`
* `Verif.Props.Tg.C64_emoji`
* `Verif.Props.Tg.C64_is_mirrored`
* `Verif.Props.Tg.C64_core`
* `Verif.Props.Tg.C64_contains_category`
* `Verif.Props.Tg.C64_is_category`
* `Verif.Props.Tg.C64_script_extensions`
* `Verif.Props.Tg.C64_bidi_mirroring_glyph`
* `Verif.Props.Tg.C64_make_age`
* `Verif.Props.Tg.C64_stream`
* `Verif.Props.Tg.C64_format`
* `Verif.Props.Tg.C64_width_string`
* `Verif.Props.Tg.C64_script_of_files`
* `Verif.Props.Tg.C64_general_category_of_files`
* `Verif.Props.Tg.C64_east_asian_width_of_files`
* `Verif.Props.Tg.C64_block_of_files`
* `Verif.Props.Tg.C64_plane_exact`
* `Verif.Props.Tg.C64_break_of_files`
* `Verif.Props.Tg.C64_emoji_of_files`
* `Verif.Props.Tg.C64_is_mirrored_of_files`
* `Verif.Props.Tg.C64_core_of_files`
* `Verif.Props.Tg.C64_bidi_mirroring_glyph_of_files`
* `Verif.Props.Tg.C64_make_age_of_files`
* `Verif.Props.Tg.C65_header`
* `Verif.Props.Tg.C65_unambiguous`
* `Verif.Props.Tg.C65_views`
* `Verif.Props.Tg.C65_from_files`
* `Verif.Props.Tg.C65_fails_small`
* `Verif.Props.Scan.C66_fails_mark`
* `Verif.Props.Scan.C66_fill_partial`
* `Verif.Props.Scan.C66_until_control`
* `Verif.Props.Scan.C66_exact`
* `Verif.Props.Scan.C66_wrap_partial`
* `Verif.Props.Scan.C66_one_state_partial`
* `Verif.Props.Scan.C66_plain_text_partial`
* `Verif.Props.Scan.C66_plain_text_ends_partial`
* `Verif.Props.Tg.C67_unambiguous`
* `Verif.Props.Tg.C67_source`
* `Verif.Props.Tg.C67_header`
* `Verif.Props.Tg.C67_linked`
* `Verif.Props.Tg.C67_tables_first`
* `Verif.Props.Tg.C67_once`
* `Verif.Props.Tg.C67_extension_arrays_first`
* `Verif.Props.Tg.C68_enums`
* `Verif.Props.Tg.C68_ostream`
* `Verif.Props.Tg.C68_formatters`
* `Verif.Props.Tg.C68_printed`
* `Verif.Props.Tg.C68_prints`
* `Verif.Props.Tg.C68_once`
* `Verif.Props.Tg.C68_case_tables_partial`
* `Verif.Props.Tg.C68_properties_header`
* `Verif.Props.Tg.C68_properties_source`
* `Verif.Props.Tg.C68_names_source`
* `Verif.Props.Tg.C68_externs_defined`
* `Verif.Props.Tg.C68_visible_iff`
* `Verif.Props.Tg.C68_fails_namespace`
* `Verif.Props.Tg.C68_visible_sources`
* `Verif.Props.Tg.C68_includes`
* `Verif.Props.Tg.C69_usage`
* `Verif.Props.Tg.C69_unreadable`
* `Verif.Props.Tg.C69_exit`
* `Verif.Props.Tg.C69_only`
* `Verif.Props.Tg.C69_success_partial`
* `Verif.Props.Tg.C69_readable`
* `Verif.Props.Tg.C69_namespace`
* `Verif.Props.Tg.C69_fails_unwritable`
* `Verif.Props.Tg.C69_fails_silently`
* `Verif.Props.Tg.C70_line_ends`
* `Verif.Props.Tg.C70_missing_file`
* `Verif.Props.Tg.C70_missing_run`
* `Verif.Props.Tg.C70_reads_only`
* `Verif.Props.Tg.C71_keywords`
* `Verif.Props.Tg.C71_fails_keyword`
* `Verif.Props.Tg.C71_succeeds`
* `Verif.Props.Tg.C71_properties`
* `Verif.Props.Tg.C71_names_partial`
* `Verif.Props.Tg.C71_runs`
* `Verif.Props.Tg.C71_case_partial`
* `Verif.Props.Tg.C71_norm_partial`
* `Verif.Props.Tg.C71_enums`
* `Verif.Props.Tg.C71_printed`
* `Verif.Props.Tg.C71_api`
* `Verif.Props.Tg.C71_header`
* `Verif.Props.Scan.C72_afresh_partial`
* `Verif.Props.Scan.C72_cut`
* `Verif.Props.Iter.C73_grapheme`
* `Verif.Props.Iter.C73_grapheme_equal`
* `Verif.Props.Iter.C73_grapheme_default`
* `Verif.Props.Iter.C73_grapheme_visit`
* `Verif.Props.Iter.C73_word`
* `Verif.Props.Iter.C73_word_equal`
* `Verif.Props.Iter.C73_word_default`
* `Verif.Props.Iter.C73_utf8`
* `Verif.Props.Iter.C73_utf8_equal`
* `Verif.Props.Iter.C73_utf8_post`
* `Verif.Props.Iter.C73_utf8_printed`
* `Verif.Load.C74_pattern_single`
* `Verif.Load.C74_line`
* `Verif.Load.C74_skips`
* `Verif.Load.C74_needs_files`
* `Verif.Load.C74_fails_end`
* `Verif.Load.C74_fails_bounds`
* `Verif.Load.C74_names_partial`
* `Verif.Load.C74_fails_name`
* `Verif.Load.C74_loads_partial`
* `Verif.Load.C74_throws`
* `Verif.Load.C74_fails_script`
* `Verif.Load.C75_records_partial`
* `Verif.Load.C75_fails_width`
* `Verif.Load.C75_fails_jamo`
* `Verif.Load.C75_fails_columns`
* `Verif.Load.C75_directory_partial`
* `Verif.Props.Threads.C76_alone`
* `Verif.Props.Threads.C76_alone_unique`
* `Verif.Props.Threads.C76_initialized`
* `Verif.Props.Threads.C76_once`
* `Verif.Props.Threads.C76_waits`
* `Verif.Props.Threads.C76_ends`
* `Verif.Props.Threads.C76_can_end`
* `Verif.Props.Norm.C77_decomposed_first`
* `Verif.Props.Norm.C77_reference`
* `Verif.Props.Norm.C77_composed_first_partial`
* `Verif.Props.Norm.C77_composed_first_exact_partial`
* `Verif.Props.Tg.C77_files_decomposed_first`
* `Verif.Props.Tg.C77_files_composed_first_partial`
* `Verif.Props.Valid.C78_case`
* `Verif.Props.Valid.C78_case_utf8`
* `Verif.Props.Valid.C78_normalize_utf8`
* `Verif.Props.Valid.C78_stream_utf8`
* `Verif.Props.Valid.C78_ill_formed`
* `Verif.Props.Tg.C78_case_files`
* `Verif.Props.Tg.C78_normalize_files`
* `Verif.Props.TextLines.C79_lines_width`
* `Verif.Props.TextLines.C79_lines_utf8`
* `Verif.Props.Tg.C79_inert_files`
* `Verif.Props.Tg.C79_files_nfd`
* `Verif.Props.EmojiPrefix.C80_emoji`
* `Verif.Props.RunPrefix.C80_runs`
* `Verif.Props.RunPrefix.C80_titlecase`
* `Verif.Props.TextPrefix.C80_graphemes`
* `Verif.Props.TextPrefix.C80_words`
* `Verif.Props.TextPrefix.C80_scripts`
* `Verif.Props.Levels.C81_word_borders`
* `Verif.Props.Levels.C81_words`
* `Verif.Props.RunClusters.C82_scripts_partial`
* `Verif.Props.RunClusters.C82_runs_partial`
* `Verif.Props.WidthPrefix.C83_columns`
* `Verif.Props.WidthPrefix.C83_fails`
* `Verif.Props.Pieces.C84_titlecase`
* `Verif.Props.Pieces.C84_graphemes`
* `Verif.Props.Pieces.C84_words`
* `Verif.Props.Pieces.C84_width`

## propext, Quot.sound

* `Verif.Props.C08_simd_eq_scalar`
* `Verif.Props.C08_cpu_independent`
* `Verif.Props.C08_ascii_identity`
* `Verif.Props.C10_oob_only_truncated_partial`
* `Verif.Props.C10_safe_if_ascii_terminated`
* `Verif.Props.C10_utf16_oob_only_truncated_partial`
* `Verif.Props.C14_fails_prepend_flag`
* `Verif.Props.C14_fails_double_zwj`
* `Verif.Props.C15_partition`
* `Verif.Props.C15_terminates`
* `Verif.Props.C15_count_le`
* `Verif.Props.C15_restart`
* `Verif.Props.C16_fails`
* `Verif.Props.C17_any_bytes`
* `Verif.Props.Word.C18_incremental`
* `Verif.Props.Word.C19_partition`
* `Verif.Props.Word.C19_terminates`
* `Verif.Props.C20_shortcut`
* `Verif.Props.C20_mark_transparent`
* `Verif.Props.C20_vs16`
* `Verif.Props.C20_vs15`
* `Verif.Props.C20_modifier`
* `Verif.Props.C20_flag`
* `Verif.Props.C20_zwj_sequence`
* `Verif.Props.C20_conjunct`
* `Verif.Props.C20_spacing_mark`
* `Verif.Props.C20_letters_add`
* `Verif.Props.WidthJoined.C20_joined`
* `Verif.Props.C21_sum_any`
* `Verif.Props.Script.C22_weak_text`
* `Verif.Props.Norm.C26_starters`
* `Verif.Props.Norm.C27_concat`
* `Verif.Props.Norm.C28_fails`
* `Verif.Props.Norm.C28_fails_tbase`
* `Verif.Props.Norm.C30_fails`
* `Verif.Props.Norm.C30_stream_eq_whole_partial`
* `Verif.Props.Norm.C30_flush_restarts_partial`
* `Verif.Props.Norm.C30_utf8_stream_partial`
* `Verif.Props.Norm.C31_fails_nfc`
* `Verif.Props.Case.C33_homomorphism`
* `Verif.Props.Case.C33_utf8_any`
* `Verif.Props.Case.C35_positions`
* `Verif.Props.Tables.C36_memory_safe`
* `Verif.Props.Tables.C36_needs_sorted`
* `Verif.Props.Tables.C37_contains`
* `Verif.Props.Tables.C37_empty_oob`
* `Verif.Props.Tables.C37_memory_safe`
* `Verif.Props.Tables.C38_fallback`
* `Verif.Props.Capi.C39_u32_count`
* `Verif.Props.Capi.C39_u32_width`
* `Verif.Props.Capi.C39_u32_width_legacy`
* `Verif.Props.Capi.C39_u8_width`
* `Verif.Props.Capi.C39_stream_eq_bulk`
* `Verif.Props.Capi.C39_convert_succeeds_iff`
* `Verif.Props.FsArray.C40_capacity`
* `Verif.Props.FsArray.C40_push_back`
* `Verif.Props.FsArray.C40_refines`
* `Verif.Props.Case.C42_needs_no_identity`
* `Verif.Props.Tg.C48_bounds`
* `Verif.Props.Tg.C48_file_bounds`
* `Verif.Props.Tg.C48_skips`
* `Verif.Props.Tg.C48_first_word`
* `Verif.Props.Tg.C55_fits`
* `Verif.Props.Simd.C57_neon_movemask`
* `Verif.Props.Simd.C57_widen32`
* `Verif.Props.Simd.C57_widen16`
* `Verif.Props.Simd.C58_detect`
* `Verif.Props.Tools.C59_escape_literal`
* `Verif.Props.Tools.C59_replace_exact`
* `Verif.Props.Tools.C59_replace_partial`
* `Verif.Props.Query.C60_escaped`
* `Verif.Props.Query.C60_plain`
* `Verif.Props.Query.C60_notation_unique`
* `Verif.Props.Query.C60_escaped_injective_partial`
* `Verif.Props.Query.C60_fails_escaped`
* `Verif.Props.Query.C60_no_controls`
* `Verif.Props.Query.C60_shown_unchanged_partial`
* `Verif.Props.Query.C60_fails_unchanged`
* `Verif.Props.Tg.C65_third_stage`
* `Verif.Load.C74_pattern_range`
* `Verif.Props.Norm.C77_fails`
* `Verif.Props.Valid.C78_normalize`
* `Verif.Props.Valid.C78_stream`
* `Verif.Props.TextLines.C79_graphemes`
* `Verif.Props.TextLines.C79_words`
* `Verif.Props.TextLines.C79_lines_graphemes`
* `Verif.Props.TextLines.C79_lines_words`
* `Verif.Props.TextLines.C79_lines_title`
* `Verif.Props.TextLines.C79_lines_nfd`
* `Verif.Props.TextLines.C79_fails_nfc`
* `Verif.Props.TextLines.C79_lines_normalize_partial`
* `Verif.Props.TextPrefix.C80_normalize`
* `Verif.Props.Levels.C81_fails`
* `Verif.Props.RunClusters.C82_fails`
