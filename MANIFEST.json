{
 "claims": [
  {
   "property": "C01",
   "status": "proved",
   "theorems": [
    "Verif.Props.C01_utf8_roundtrip",
    "Verif.Props.C01_utf8_ptr_roundtrip",
    "Verif.Props.C01_bound_sharp"
   ],
   "note": "for all c <= 0x1FFFFF; C01_bound_sharp shows the bound is exact"
  },
  {
   "property": "C02",
   "status": "proved",
   "theorems": [
    "Verif.Props.C02_utf8_string_roundtrip",
    "Verif.Props.C02_utf8_incremental_string",
    "Verif.Props.C02_to_utf8_append"
   ],
   "note": ""
  },
  {
   "property": "C03",
   "status": "proved",
   "theorems": [
    "Verif.Props.C03_to_utf8_wellformed",
    "Verif.Props.C03_wellformed_unique",
    "Verif.Props.C03_to_utf8_length",
    "Verif.Props.C03_prefix_free",
    "Verif.Props.C03_injective",
    "Verif.Props.C03_string_injective"
   ],
   "note": "C03_wellformed_unique: to_utf8 output is the only well-formed sequence"
  },
  {
   "property": "C04",
   "status": "partial",
   "theorems": [
    "Verif.Props.Overloads.C04_integer",
    "Verif.Props.C04_strict_fails",
    "Verif.Props.C04_more_ill_formed_accepted",
    "Verif.Props.C04_success_justified_partial",
    "Verif.Props.C04_loose_wellformed_partial",
    "Verif.Props.C04_invalid_iff",
    "Verif.Props.C04_exact"
   ],
   "note": "The strict statement is false of the code (C04_strict_fails). Proved: what the decoder reports for EVERY byte string, exactly (C04_exact: the inductive reading Reports holds of the reported list and of nothing else), hence every Success is justified by the bytes received (Loose), Loose + Table 3-7 side conditions gives WellFormed, and exactly which inputs are reported Invalid."
  },
  {
   "property": "C05",
   "status": "partial",
   "theorems": [
    "Verif.Props.C05_resync_fails",
    "Verif.Props.C05_resync_multibyte_partial",
    "Verif.Props.C05_resync_ascii_partial",
    "Verif.Props.C05_bounded_damage",
    "Verif.Props.C05_ascii_iff"
   ],
   "note": "False for ASCII after a truncated sequence (C05_resync_fails); proved for all multi-byte sequences after any history, for ASCII exactly when (C05_ascii_iff: iff the history does not end in the beginning of a sequence, or a coincidental overlong form), and at most three bytes are ever swallowed."
  },
  {
   "property": "C06",
   "status": "proved",
   "theorems": [
    "Verif.Props.C06_utf16_output_wellformed",
    "Verif.Props.C06_utf16_decode_wellformed",
    "Verif.Props.C06_utf16_roundtrip"
   ],
   "note": ""
  },
  {
   "property": "C07",
   "status": "proved",
   "theorems": [
    "Verif.Props.C07_utf8_to_utf16_direct",
    "Verif.Props.C07_utf16_to_utf8"
   ],
   "note": ""
  },
  {
   "property": "C08",
   "status": "proved",
   "theorems": [
    "Verif.Props.C08_simd_eq_scalar",
    "Verif.Props.C08_cpu_independent",
    "Verif.Props.C08_ascii_identity"
   ],
   "note": ""
  },
  {
   "property": "C09",
   "status": "proved",
   "theorems": [
    "Verif.Props.C09_output_fits",
    "Verif.Props.C09_output_fits_prefix",
    "Verif.Props.C09_values_bounded"
   ],
   "note": ""
  },
  {
   "property": "C10",
   "status": "partial",
   "theorems": [
    "Verif.Props.C10_out_of_bounds",
    "Verif.Props.C10_wellformed_exact_partial",
    "Verif.Props.C10_oob_only_truncated_partial",
    "Verif.Props.C10_safe_if_ascii_terminated",
    "Verif.Props.C10_utf16_oob_only_truncated_partial",
    "Verif.Props.C10_iterator_eq_bulk",
    "Verif.Props.C10_exact_utf8",
    "Verif.Props.C10_exact_utf16",
    "Verif.Props.C10_exact_utf32",
    "Verif.Props.C10_division_unique"
   ],
   "note": "Iterator decoders read past the end on truncated input (C10_out_of_bounds). Proved, for every input and every target encoding: exactly what is written and exactly when the end iterator is dereferenced (C10_exact_utf8, C10_exact_utf16, C10_exact_utf32; the division of the input is a function, C10_division_unique); hence exact and in bounds on well-formed input."
  },
  {
   "property": "C11",
   "status": "proved",
   "theorems": [
    "Verif.Props.Scan.C11_longest_prefix",
    "Verif.Props.Scan.C11_cpu_independent",
    "Verif.Props.Scan.C11_closed_form"
   ],
   "note": "Every compiled variant (std::simd with signed/unsigned char, 128/256/512 bit intrinsics, scalar) returns the length of the longest printable prefix, hence the result is independent of the CPU."
  },
  {
   "property": "C12",
   "status": "partial",
   "theorems": [
    "Verif.Props.Scan.C12_fails",
    "Verif.Props.Scan.C12_limit_partial"
   ],
   "note": "False as stated (C12_fails: invalid bytes may exceed the limit by one). Proved: limit exceeded by at most one column and only when an invalid sequence was reported, from any state."
  },
  {
   "property": "C13",
   "status": "partial",
   "theorems": [
    "Verif.Props.Scan.C13_fails_oob",
    "Verif.Props.Scan.C13_pointers_partial",
    "Verif.Props.Scan.C13_stop_reason",
    "Verif.Props.Scan.C13_one_buffer_partial"
   ],
   "note": "False for resumed calls on separate buffers (C13_fails_oob). Proved for every non-pending state: pointer order, in-bounds, plus the complete list of reasons to stop (C13_stop_reason); and for every history of calls on one buffer, also when a call resumes a cut sequence (C13_one_buffer_partial)."
  },
  {
   "property": "C14",
   "status": "partial",
   "theorems": [
    "Verif.Props.C14_segmenter_exact",
    "Verif.Props.C14_uax29_partial",
    "Verif.Props.C14_fails_prepend_flag",
    "Verif.Props.C14_fails_double_zwj"
   ],
   "note": "Full UAX #29 fails on [Prepend, RI, RI] and ZWJ ZWJ (two witnesses); C14_segmenter_exact characterises the code on every text; C14_uax29_partial gives UAX #29 outside those two patterns."
  },
  {
   "property": "C15",
   "status": "proved",
   "theorems": [
    "Verif.Props.C15_partition",
    "Verif.Props.C15_terminates",
    "Verif.Props.C15_count_le",
    "Verif.Props.C15_restart"
   ],
   "note": ""
  },
  {
   "property": "C16",
   "status": "partial",
   "theorems": [
    "Verif.Props.C16_incremental_exact",
    "Verif.Props.C16_default",
    "Verif.Props.C16_agrees_partial",
    "Verif.Props.C16_fails"
   ],
   "note": "Fails for flags (C16_fails); exact characterisation for every text, agreement with the segmenter outside flag sequences."
  },
  {
   "property": "C17",
   "status": "proved",
   "theorems": [
    "Verif.Props.C17_any_bytes",
    "Verif.Props.C17_utf8_clusters",
    "Verif.Props.C17_utf8_concat"
   ],
   "note": "C17_any_bytes covers malformed input as well"
  },
  {
   "property": "C18",
   "status": "proved",
   "theorems": [
    "Verif.Props.Word.C18_segmenter",
    "Verif.Props.Word.C18_incremental",
    "Verif.Props.Word.C18_interfaces_agree"
   ],
   "note": "for both the segmenter and the incremental interface"
  },
  {
   "property": "C19",
   "status": "proved",
   "theorems": [
    "Verif.Props.Word.C19_partition",
    "Verif.Props.Word.C19_terminates"
   ],
   "note": ""
  },
  {
   "property": "C20",
   "status": "proved",
   "theorems": [
    "Verif.Props.C20_upper_bound",
    "Verif.Props.C20_shortcut",
    "Verif.Props.C20_monotone",
    "Verif.Props.C20_mark_transparent",
    "Verif.Props.C20_vs16",
    "Verif.Props.C20_vs15",
    "Verif.Props.C20_modifier",
    "Verif.Props.C20_modifier_alone",
    "Verif.Props.C20_flag",
    "Verif.Props.C20_zwj_sequence",
    "Verif.Props.C20_conjunct",
    "Verif.Props.C20_spacing_mark",
    "Verif.Props.C20_letters_add",
    "Verif.Props.WidthJoined.C20_joined"
   ],
   "note": ""
  },
  {
   "property": "C21",
   "status": "proved",
   "theorems": [
    "Verif.Props.C21_sum_any",
    "Verif.Props.C21_sum",
    "Verif.Props.C21_additive"
   ],
   "note": ""
  },
  {
   "property": "C22",
   "status": "proved",
   "theorems": [
    "Verif.Props.Script.C22_partition_labels",
    "Verif.Props.Script.C22_covers",
    "Verif.Props.Script.C22_borders_forced",
    "Verif.Props.Script.C22_terminates",
    "Verif.Props.Script.C22_common_extensions_merge",
    "Verif.Props.Script.C22_weak_text"
   ],
   "note": ""
  },
  {
   "property": "C23",
   "status": "proved",
   "theorems": [
    "Verif.Props.Emoji.C23_groups",
    "Verif.Props.Emoji.C23_partition_alternates",
    "Verif.Props.Emoji.C23_covers"
   ],
   "note": ""
  },
  {
   "property": "C24",
   "status": "proved",
   "theorems": [
    "Verif.Props.Emoji.C24_longest_token",
    "Verif.Props.Emoji.C24_unique"
   ],
   "note": "refinement of the Ragel tables against the grammar, for category sequences of any length"
  },
  {
   "property": "C25",
   "status": "proved",
   "theorems": [
    "Verif.Props.Run.C25_common_refinement",
    "Verif.Props.Run.C25_run_segmenter",
    "Verif.Props.Run.C25_terminates"
   ],
   "note": ""
  },
  {
   "property": "C26",
   "status": "proved",
   "theorems": [
    "Verif.Props.Norm.C26_canonical_order",
    "Verif.Props.Norm.C26_confluent",
    "Verif.Props.Norm.C26_starters",
    "Verif.Props.Norm.C26_sorts_runs",
    "Verif.Props.Norm.C26_api"
   ],
   "note": ""
  },
  {
   "property": "C27",
   "status": "proved",
   "theorems": [
    "Verif.Props.Norm.C27_output_form",
    "Verif.Props.Norm.C27_idempotent",
    "Verif.Props.Norm.C27_concat",
    "Verif.Props.Norm.C27_concat_congr",
    "Verif.Props.Norm.C27_full_decomposition",
    "Verif.Props.Norm.C27_irreducible"
   ],
   "note": ""
  },
  {
   "property": "C28",
   "status": "partial",
   "theorems": [
    "Verif.Props.Norm.C28_fails",
    "Verif.Props.Norm.C28_fails_tbase",
    "Verif.Props.Norm.C28_exact",
    "Verif.Props.Norm.C28_reference_equivalent",
    "Verif.Props.Norm.C28_equivalent_iff_partial",
    "Verif.Props.Norm.C28_unicode_partial",
    "Verif.Props.Norm.C28_primary",
    "Verif.Props.Norm.C28_composed_exact",
    "Verif.Props.Norm.C28_reference"
   ],
   "note": "False of the code (C28_fails, C28_fails_tbase); C28_exact characterises the output exactly; equivalence proved where composition does not meet the two defects."
  },
  {
   "property": "C29",
   "status": "proved",
   "theorems": [
    "Verif.Props.Norm.C29_compose_decompose",
    "Verif.Props.Norm.C29_decompose_compose",
    "Verif.Props.Norm.C29_injective",
    "Verif.Props.Norm.C29_others",
    "Verif.Props.Norm.C29_nfc_syllables"
   ],
   "note": ""
  },
  {
   "property": "C30",
   "status": "partial",
   "theorems": [
    "Verif.Props.Norm.C30_fails",
    "Verif.Props.Norm.C30_stream_eq_whole_partial",
    "Verif.Props.Norm.C30_flush_restarts_partial",
    "Verif.Props.Norm.C30_segments",
    "Verif.Props.Norm.C30_composed_stream_partial",
    "Verif.Props.Norm.C30_utf8_chunking",
    "Verif.Props.Norm.C30_utf8_stream_partial",
    "Verif.Props.Norm.C30_utf8_eq_whole_partial",
    "Verif.Props.Norm.C30_utf8_flush",
    "Verif.Props.Norm.C30_utf8_flush_restarts_partial",
    "Verif.Props.Norm.C30_utf8_segments"
   ],
   "note": "False in general (C30_fails); proved for NFD/NFKD under explicit data hypotheses and for UTF-8 chunking at arbitrary byte positions. C30_segments / C30_utf8_segments: exactly what the streams output for every text (arbitrary bytes in arbitrary chunks), every form and table."
  },
  {
   "property": "C31",
   "status": "partial",
   "theorems": [
    "Verif.Props.Norm.C31_decomposed_forms",
    "Verif.Props.Norm.C31_fails_nfc",
    "Verif.Props.Norm.C31_composed_yes_partial",
    "Verif.Props.Norm.C31_composed_no",
    "Verif.Props.Norm.C31_composed_exact_unless_yes",
    "Verif.Props.Overloads.C31_utf8",
    "Verif.Props.Overloads.C31_utf8_decomposed",
    "Verif.Props.Norm.C31_quick_check_exact",
    "Verif.Props.Norm.C31_is_normalized_exact"
   ],
   "note": "Sound for NFD/NFKD; false for NFC (C31_fails_nfc), proved under the stated hypothesis. C31_quick_check_exact / C31_is_normalized_exact: what both answer for every form, text and table (the algorithm of UAX #15, section 9)."
  },
  {
   "property": "C32",
   "status": "proved",
   "theorems": [
    "Verif.Props.Norm.C32_equivalence",
    "Verif.Props.Norm.C32_representative",
    "Verif.Props.Norm.C32_congruence",
    "Verif.Props.Norm.C32_canonical_imp_compat",
    "Verif.Props.Norm.C32_same_composed",
    "Verif.Props.Norm.C32_exact"
   ],
   "note": ""
  },
  {
   "property": "C33",
   "status": "proved",
   "theorems": [
    "Verif.Props.Case.C33_codepoint",
    "Verif.Props.Case.C33_exact",
    "Verif.Props.Case.C33_homomorphism",
    "Verif.Props.Case.C33_utf8",
    "Verif.Props.Case.C33_utf8_any",
    "Verif.Props.Case.C33_length"
   ],
   "note": ""
  },
  {
   "property": "C34",
   "status": "proved",
   "theorems": [
    "Verif.Props.Case.C34_compare",
    "Verif.Props.Case.C34_total_preorder",
    "Verif.Props.Case.C34_equals",
    "Verif.Props.Case.C34_equivalence",
    "Verif.Props.Case.C34_utf8_agrees",
    "Verif.Props.Case.C34_utf8_equals"
   ],
   "note": ""
  },
  {
   "property": "C35",
   "status": "proved",
   "theorems": [
    "Verif.Props.Case.C35_titlecase",
    "Verif.Props.Case.C35_positions",
    "Verif.Props.Overloads.C35_classes"
   ],
   "note": ""
  },
  {
   "property": "C36",
   "status": "proved",
   "theorems": [
    "Verif.Props.Tables.C36_lookup_exact",
    "Verif.Props.Tables.C36_simple",
    "Verif.Props.Tables.C36_list",
    "Verif.Props.Tables.C36_ccc",
    "Verif.Props.Tables.C36_membership",
    "Verif.Props.Tables.C36_compose",
    "Verif.Props.Tables.C36_memory_safe",
    "Verif.Props.Tables.C36_needs_sorted"
   ],
   "note": "C36_needs_sorted shows sortedness is needed"
  },
  {
   "property": "C37",
   "status": "proved",
   "theorems": [
    "Verif.Props.Tables.C37_contains",
    "Verif.Props.Tables.C37_search",
    "Verif.Props.Tables.C37_empty_oob",
    "Verif.Props.Tables.C37_memory_safe"
   ],
   "note": "for non-empty sorted tables; C37_empty_oob: the empty table reads out of bounds"
  },
  {
   "property": "C38",
   "status": "proved",
   "theorems": [
    "Verif.Props.Tables.C38_exact",
    "Verif.Props.Tables.C38_fallback",
    "Verif.Props.Tables.C38_properties",
    "Verif.Props.Tables.C38_fails_257_blocks",
    "Verif.Props.Tables.C38_fails_truncation",
    "Verif.Props.Tables.C38_iff",
    "Verif.Props.Tables.C38_properties_iff"
   ],
   "note": "Proved for every input in the quantifier, and exactly: C38_iff / C38_properties_iff say the generated tables are right if and only if there are at most 2^8 distinct blocks (and at most 2^16 values); C38_fails_257_blocks and C38_fails_truncation show the silent truncation beyond the bound."
  },
  {
   "property": "C39",
   "status": "proved",
   "theorems": [
    "Verif.Props.Capi.C39_u32_count",
    "Verif.Props.Capi.C39_u8_count",
    "Verif.Props.Capi.C39_u32_width",
    "Verif.Props.Capi.C39_u32_width_legacy",
    "Verif.Props.Capi.C39_fails_empty_legacy",
    "Verif.Props.Capi.C39_u8_width",
    "Verif.Props.Capi.C39_unbreakable_segmenter",
    "Verif.Props.Capi.C39_unbreakable_uax29",
    "Verif.Props.Capi.C39_stream_untouched",
    "Verif.Props.Capi.C39_stream_eq_bulk",
    "Verif.Props.Capi.C39_stream_roundtrip",
    "Verif.Props.Capi.C39_convert_in_bounds",
    "Verif.Props.Capi.C39_convert_success",
    "Verif.Props.Capi.C39_convert_succeeds_iff",
    "Verif.Props.Capi.C39_convert_failure",
    "Verif.Props.Capi.C39_fails_exact_fit"
   ],
   "note": "Counting, widths, two-codepoint test, stream conversion and buffer safety for all inputs. Defects recorded as theorems: exact-fit buffers are refused (C39_fails_exact_fit) and the legacy width of an empty text is undefined (C39_fails_empty_legacy)."
  },
  {
   "property": "C40",
   "status": "proved",
   "theorems": [
    "Verif.Props.FsArray.C40_capacity",
    "Verif.Props.FsArray.C40_push_back",
    "Verif.Props.FsArray.C40_refines",
    "Verif.Props.FsArray.C40_access",
    "Verif.Props.FsArray.C40_resize_exposes_stale",
    "Verif.Props.FsArray.C40_resize_to_capacity_ignored"
   ],
   "note": "with witnesses for the two surprising resize behaviours"
  },
  {
   "property": "C41",
   "status": "partial",
   "theorems": [
    "Verif.Props.Tg.C41_emoji_category_agrees",
    "Verif.Props.Tg.C41_width_agrees_partial",
    "Verif.Props.Tg.C41_fails_soft_hyphen",
    "Verif.Props.Tg.C41_width_range"
   ],
   "note": "Range and emoji category agreement proved for every codepoint and data set; width agreement proved outside the generator overrides (Hangul V/T, U+00AD, Cf+Prepend), where the loader really differs (C41_fails_soft_hyphen). The file reading of the loader is C74, the comparison on one directory C75; codepoint_properties_loader.cpp is not in any CMake target."
  },
  {
   "property": "C42",
   "status": "proved",
   "theorems": [
    "Verif.Props.Case.C42_changes_when",
    "Verif.Props.Case.C42_needs_no_identity"
   ],
   "note": ""
  },
  {
   "property": "C43",
   "status": "proved",
   "theorems": [
    "Verif.Props.Case.C43_idempotent",
    "Verif.Props.Case.C43_forgets_case"
   ],
   "note": ""
  },
  {
   "property": "C44",
   "status": "partial",
   "theorems": [
    "Verif.Props.Scan.C44_fails_resumed",
    "Verif.Props.Scan.C44_receiver_partial",
    "Verif.Props.Scan.C44_one_buffer_partial",
    "Verif.Props.Scan.C44_fails_small_limit"
   ],
   "note": "False for resumed calls after an invalid byte (C44_fails_resumed) or with a limit of one column (C44_fails_small_limit). Proved for every byte string, limit and non-pending state; and for resumed calls in one buffer, every history, limits of at least three columns, when the call reports no invalid sequence (C44_one_buffer_partial)."
  },
  {
   "property": "C45",
   "status": "partial",
   "theorems": [
    "Verif.Props.Scan.C45_fails_vs15",
    "Verif.Props.Scan.C45_chunks_partial",
    "Verif.Props.Scan.C45_text_partial",
    "Verif.Props.Scan.C45_chunks",
    "Verif.Props.Scan.C45_text",
    "Verif.Props.Scan.C45_resumed",
    "Verif.Props.Scan.C45_border"
   ],
   "note": "False when U+FE0E lies in a later chunk than its base (C45_fails_vs15: what an earlier call has reported is not taken back). Proved for arbitrary bytes, valid or not, and any cuts, with nothing excluded (C45_chunks, C45_text): same stopping byte, same state, never fewer columns than the whole, at most one more per U+FE0E. C45_resumed says exactly what each call counts for every text without control characters; C45_border: exactly the new columns if the call begins with a new character. Missing: only the equality of the totals in the case where it is false."
  },
  {
   "property": "C46",
   "status": "partial",
   "theorems": [
    "Verif.Props.Scan.C46_exact",
    "Verif.Props.Scan.C46_pieces",
    "Verif.Props.Scan.C46_width_partial",
    "Verif.Props.Scan.C46_fails_flag"
   ],
   "note": "False for flags behind another character (C46_fails_flag). Proved for every control-free text without U+FE0E, adjacent regional indicators, or Prepend directly before ASCII. What the scanner counts for EVERY control-free text (flags, U+FE0E, marks on ASCII and Prepend included) is C46_exact: the widths of the pieces between the borders of Spec/ScanBorder (ASCII apart; else the incremental API's rules since the last ASCII character), which exist uniquely (C46_pieces)."
  },
  {
   "property": "C47",
   "status": "proved",
   "theorems": [
    "Verif.Props.Capi.C47_set_get",
    "Verif.Props.Capi.C47_codepoint_kept",
    "Verif.Props.Capi.C47_decompose"
   ],
   "note": "For all values and all indices below the capacity."
  },
  {
   "property": "C48",
   "status": "proved",
   "theorems": [
    "Verif.Props.Tg.C48_bounds",
    "Verif.Props.Tg.C48_file_bounds",
    "Verif.Props.Tg.C48_line_exact",
    "Verif.Props.Tg.C48_skips",
    "Verif.Props.Tg.C48_file_exact",
    "Verif.Props.Tg.C48_first_word"
   ],
   "note": "All lines; std::getline and file opening are not modelled (a file is its list of lines)."
  },
  {
   "property": "C49",
   "status": "proved",
   "theorems": [
    "Verif.Props.Tg.C49_from_file",
    "Verif.Props.Tg.C49_lookup",
    "Verif.Props.Tg.C49_emoji_category",
    "Verif.Props.Tg.C49_in_bounds",
    "Verif.Props.Tg.C49_script",
    "Verif.Props.Tg.C49_general_category",
    "Verif.Props.Tg.C49_grapheme_cluster_break",
    "Verif.Props.Tg.C49_east_asian_width",
    "Verif.Props.Tg.C49_indic_conjunct_break",
    "Verif.Props.Tg.C49_word_break",
    "Verif.Props.Tg.C49_age",
    "Verif.Props.Tg.C49_flags",
    "Verif.Props.Tg.C49_variation_base",
    "Verif.Props.Tg.C49_width"
   ],
   "note": "Hypotheses: data consistent (no codepoint gets two values of one property), alias sections well formed, at most 253 scripts/255 categories (uint8_t), and for the look-up at most 256 distinct blocks (C38). The generated text is modelled as initialisers, not as characters. The names table is not modelled."
  },
  {
   "property": "C50",
   "status": "proved",
   "theorems": [
    "Verif.Props.Tg.C50_declared",
    "Verif.Props.Tg.C50_age_order",
    "Verif.Props.Tg.C50_age_total"
   ],
   "note": "std::sort on (version, name) pairs is modelled by insertion sort (equal pairs are indistinguishable)."
  },
  {
   "property": "C51",
   "status": "proved",
   "theorems": [
    "Verif.Props.Tg.C51_tables_sorted",
    "Verif.Props.Tg.C51_full_lookup",
    "Verif.Props.Tg.C51_codepoint",
    "Verif.Props.Tg.C51_text",
    "Verif.Props.Tg.C51_simple",
    "Verif.Props.Tg.C51_full_tables_safe",
    "Verif.Props.Tg.C51_fails_four_targets",
    "Verif.Props.Tg.C51_fails_conditional_without_comment",
    "Verif.Props.Tg.C51_fails_title_default"
   ],
   "note": "Hypotheses CaseFiles/UdLine/SpecialLine/FoldLine are the file formats; outside them C51_fails_four_targets, C51_fails_conditional_without_comment and C51_fails_title_default show what goes wrong. Sample files instantiate the hypotheses."
  },
  {
   "property": "C52",
   "status": "partial",
   "theorems": [
    "Verif.Props.Tg.C52_unicode_data",
    "Verif.Props.Tg.C52_quick_check",
    "Verif.Props.Tg.C52_composition",
    "Verif.Props.Tg.C52_full_decomposition",
    "Verif.Props.Tg.C52_nfd",
    "Verif.Props.Tg.C52_quick_check_exact",
    "Verif.Props.Tg.C52_equivalence",
    "Verif.Props.Tg.C52_primary_partial",
    "Verif.Props.Tg.C52_nfc_partial",
    "Verif.Props.Tg.C52_stream_partial",
    "Verif.Props.Tg.C52_is_normalized_partial",
    "Verif.Props.Tg.C52_tables_sorted",
    "Verif.Props.Tg.C52_fails_full_exclusion"
   ],
   "note": "Tables, NFD/NFKD, equivalence and the decomposition-form quick checks are proved exactly; Full_Composition_Exclusion fails (C52_fails_full_exclusion); NFC/NFKC results inherit the marks-before-starter and U+11A7 bugs of C28, so those theorems are _partial."
  },
  {
   "property": "C53",
   "status": "partial",
   "theorems": [
    "Verif.Props.Tg.C53_script",
    "Verif.Props.Tg.C53_east_asian_width",
    "Verif.Props.Tg.C53_emoji",
    "Verif.Props.Tg.C53_core",
    "Verif.Props.Tg.C53_grapheme_cluster_break",
    "Verif.Props.Tg.C53_aliases",
    "Verif.Props.Tg.C53_make_age",
    "Verif.Props.Tg.C53_general_category",
    "Verif.Props.Tg.C53_contains_category",
    "Verif.Props.Tg.C53_contains_no_category",
    "Verif.Props.Tg.C53_block",
    "Verif.Props.Tg.C53_plane",
    "Verif.Props.Tg.C53_script_extensions",
    "Verif.Props.Tg.C53_mirrored_intervals",
    "Verif.Props.Tg.C53_is_mirrored",
    "Verif.Props.Tg.C53_bidi_mirroring_glyph",
    "Verif.Props.Tg.C53_variation_bases",
    "Verif.Props.Tg.C53_accepts",
    "Verif.Props.Tg.C53_name_value_partial",
    "Verif.Props.Tg.C53_name_partial",
    "Verif.Props.Tg.C53_fails_name_star",
    "Verif.Props.Tg.C53_fails_name_supplementary"
   ],
   "note": "All query functions are proved exact for all files of the documented format (blocks and the per-category tables additionally need the file order to be ascending, as it is: the generator does not sort them). name() is proved exact in the BMP for entries without placeholder and for every memcmp outcome (C53_name_partial, C53_name_value_partial); C53_fails_name_star and C53_fails_name_supplementary prove what it returns otherwise. Missing: names beyond the BMP and with a placeholder, where the code does not have the property."
  },
  {
   "property": "C54",
   "status": "proved",
   "theorems": [
    "Verif.Props.Tg.C54_row",
    "Verif.Props.Tg.C54_unique",
    "Verif.Props.Tg.C54_lookup"
   ],
   "note": "Composition of C48 (lines), C53 (loading), C49 (records), C38 (three-stage table): C54_row, C54_unique (the specification has one answer), C54_lookup (end to end). Spec/UcdRecord.lean: Complete lists what the files must satisfy, Row.Says the answer. Concrete: a small database written as texts (Props/TgRowSample: rU_complete, sample_lookup)."
  },
  {
   "property": "C55",
   "status": "proved",
   "theorems": [
    "Verif.Props.Tg.C55_exact",
    "Verif.Props.Tg.C55_unique",
    "Verif.Props.Tg.C55_fits",
    "Verif.Props.Tg.C55_print",
    "Verif.Props.Tg.C55_age_numbers",
    "Verif.Props.Tg.C55_row",
    "Verif.Props.Tg.C55_query",
    "Verif.Props.Tg.C55_query_lists",
    "Verif.Props.Tg.C55_fails_shared_name"
   ],
   "note": "C55_fails_shared_name shows that the hypothesis on long names is needed. The text of the headers is modelled by the declarations it makes."
  },
  {
   "property": "C56",
   "status": "partial",
   "theorems": [
    "Verif.Props.Tg.C56_table",
    "Verif.Props.Tg.C56_unique",
    "Verif.Props.Tg.C56_graphemes",
    "Verif.Props.Tg.C56_words",
    "Verif.Props.Tg.C56_emoji",
    "Verif.Props.Tg.C56_width",
    "Verif.Props.Tg.C56_scan_partial",
    "Verif.Props.Tg.C56_scripts",
    "Verif.Props.Tg.C56_labels",
    "Verif.Props.Tg.C56_script_column",
    "Verif.Props.Tg.C56_scan_exact",
    "Verif.Props.Tg.C56_line_exact"
   ],
   "note": "Complete for the table, words, widths of codepoints, emoji and scripts. Grapheme borders: exact for the rules as implemented; full UAX #29 outside the two degenerate patterns for which it is false (C14_fails_*). Scanning under the conditions of C46. C56_scan_exact: what scan_text counts for every control-free text, from the files (condition Varied, met by the sample database). C56_line_exact: which part of it a line of any width takes, and what the receiver is told."
  },
  {
   "property": "C57",
   "status": "proved",
   "theorems": [
    "Verif.Props.Simd.C57_neon_movemask",
    "Verif.Props.Simd.C57_scan_mask",
    "Verif.Props.Simd.C57_scan",
    "Verif.Props.Simd.C57_scan_refines",
    "Verif.Props.Simd.C57_all_ascii",
    "Verif.Props.Simd.C57_widen32",
    "Verif.Props.Simd.C57_widen16",
    "Verif.Props.Simd.C57_convert32",
    "Verif.Props.Simd.C57_convert16",
    "Verif.Props.Simd.C57_convert_refines"
   ],
   "note": "Registers are naturals, instructions are those of Spec/Vector (trusted description of the hardware); every load and store is bounds-checked and every loop must terminate. The std::simd build stays at the element level (C08, C11)."
  },
  {
   "property": "C58",
   "status": "partial",
   "theorems": [
    "Verif.Props.Simd.C58_detect",
    "Verif.Props.Simd.C58_scan",
    "Verif.Props.Simd.C58_convert_partial",
    "Verif.Props.Simd.C58_fails_sse41"
   ],
   "note": "Detection and scan are proved for all machines. The conversions are false as stated: the 128-bit fallback uses SSE4.1 without detecting it (C58_fails_sse41); proved for machines with SSE4.1 or AVX2, and for all machines when the text does not begin with 16 ASCII bytes. Which extension an intrinsic belongs to is trusted; compiler-generated use of other extensions is not modelled."
  },
  {
   "property": "C59",
   "status": "partial",
   "theorems": [
    "Verif.Props.Tools.C59_escape_literal",
    "Verif.Props.Tools.C59_literal_unique",
    "Verif.Props.Tools.C59_escape_injective",
    "Verif.Props.Tools.C59_escape_printable",
    "Verif.Props.Tools.C59_listing",
    "Verif.Props.Tools.C59_break_column_partial",
    "Verif.Props.Tools.C59_line_unique",
    "Verif.Props.Tools.C59_line_newline",
    "Verif.Props.Tools.C59_listing_injective",
    "Verif.Props.Tools.C59_fails_break_column",
    "Verif.Props.Tools.C59_any_bytes",
    "Verif.Props.Tools.C59_fails_offset",
    "Verif.Props.Tools.C59_scripts",
    "Verif.Props.Tools.C59_scripts_safe",
    "Verif.Props.Tools.C59_replace_exact",
    "Verif.Props.Tools.C59_fails_replace",
    "Verif.Props.Tools.C59_replace_partial",
    "Verif.Props.Tools.C59_runs",
    "Verif.Props.Tools.C59_runs_safe",
    "Verif.Props.Tools.C59_arguments",
    "Verif.Props.Tools.C59_single_argument_ignored",
    "Verif.Props.Tools.C59_commands"
   ],
   "note": "Escape notation, injectivity, listings, tables, blocks, memory safety and arguments proved in full. Full claims kept as Prop definitions that are false of the code: C59_BreakColumn (flag halves behind other text are flagged breakable), C59_Offsets (offsets after a truncated sequence), C59_ReplacesAll (of two adjacent ESC bytes the second is written raw); proved in the _partial theorems where they hold, with C59_fails_* witnesses."
  },
  {
   "property": "C60",
   "status": "partial",
   "theorems": [
    "Verif.Props.Query.C60_escaped",
    "Verif.Props.Query.C60_escaped_printable",
    "Verif.Props.Query.C60_plain",
    "Verif.Props.Query.C60_notation_unique",
    "Verif.Props.Query.C60_escaped_injective_partial",
    "Verif.Props.Query.C60_fails_escaped",
    "Verif.Props.Query.C60_no_controls",
    "Verif.Props.Query.C60_shown_unchanged_partial",
    "Verif.Props.Query.C60_fails_unchanged",
    "Verif.Props.Query.C60_parse_exact",
    "Verif.Props.Query.C60_names_codepoint_partial",
    "Verif.Props.Query.C60_fails_overflow",
    "Verif.Props.Query.C60_parse_text",
    "Verif.Props.Query.C60_age",
    "Verif.Props.Query.C60_fails_unassigned_age",
    "Verif.Props.Query.C60_properties",
    "Verif.Props.Query.C60_default",
    "Verif.Props.Query.C60_help",
    "Verif.Props.Query.C60_usage",
    "Verif.Props.Query.C60_options_unique",
    "Verif.Props.Query.C60_bad_options",
    "Verif.Props.Query.C60_clusters",
    "Verif.Props.Query.C60_runs",
    "Verif.Props.Query.C60_safe"
   ],
   "note": "Reports, naming, options, clusters, runs, notation and safety proved in full. Full claims that are false of the code are kept as Prop definitions: C60_EscapedInjective (backslashes are not escaped), C60_ShownUnchanged (signed char: all non-ASCII text is shown in hexadecimal), C60_NamesCodepoint (numbers beyond 32 bits name U+0000); _partial theorems and C60_fails_* witnesses."
  },
  {
   "property": "C61",
   "status": "partial",
   "theorems": [
    "Verif.Props.Tg.C61_unambiguous",
    "Verif.Props.Tg.C61_case_tables_partial",
    "Verif.Props.Tg.C61_fails_backslash",
    "Verif.Props.Tg.C61_properties",
    "Verif.Props.Tg.C61_names",
    "Verif.Props.Tg.C61_enums",
    "Verif.Props.Tg.C61_intervals",
    "Verif.Props.Tg.C61_mirrored",
    "Verif.Props.Tg.C61_glyphs",
    "Verif.Props.Tg.C61_general_category",
    "Verif.Props.Tg.C61_script",
    "Verif.Props.Tg.C61_plane",
    "Verif.Props.Tg.C61_block",
    "Verif.Props.Tg.C61_breaks",
    "Verif.Props.Tg.C61_east_asian_width",
    "Verif.Props.Tg.C61_script_extension_arrays",
    "Verif.Props.Tg.C61_script_extensions",
    "Verif.Props.Tg.C61_ages",
    "Verif.Props.Tg.C61_decomposition_type",
    "Verif.Props.Tg.C61_from_files",
    "Verif.Props.Tg.C61_generated"
   ],
   "note": "C61_unambiguous: the reading (Spec/Cxx, written independently of the generator) is a function of the text. C61_case_tables_partial, C61_properties, C61_names, C61_enums, C61_intervals, C61_mirrored, C61_glyphs, C61_general_category, C61_script, C61_plane, C61_block, C61_breaks, C61_east_asian_width, C61_script_extension_arrays, C61_script_extensions, C61_ages, C61_decomposition_type: each file's tables. C61_generated and C61_from_files: from parsed data, and from the files, to the text (with C54). Full property false: a simple case mapping of the backslash would end its comment with a backslash, which swallows the next entry (C61_fails_backslash), so C61_case_tables_partial asks that U+005C has no case mapping, full mappings have at most three targets (the row type), and decompositions fit. Names must be identifiers and must not contain quote, backslash or newline, comments must be one line (true of every UCD file). The files as a whole are C67 and C68, the emitted functions C64."
  },
  {
   "property": "C62",
   "status": "partial",
   "theorems": [
    "Verif.Props.Scan.C62_fails_hangul",
    "Verif.Props.Scan.C62_wrap_partial",
    "Verif.Props.Scan.C62_any_partial",
    "Verif.Props.Scan.C62_fails_flag",
    "Verif.Props.Scan.C62_fails_mark",
    "Verif.Props.Scan.C62_lines_partial"
   ],
   "note": "False as stated: the state already holds the codepoint that did not fit, so the next call compares it with itself (C62_fails_hangul: a leading jamo). C62_any_partial: holds for every text and however the first call came to stop, if the character at the stop is no mark (Extend, SpacingMark, ZWJ) and no half of a flag, and either is no jamo and no Prepend character or has itself room in the rest of the line (only what follows it in its cluster did not fit). C62_lines_partial: the same for any number of lines written with one state. False for marks that begin a line (C62_fails_mark), for flags (C62_fails_flag: a flag at the beginning of the next line falls apart) and for jamo and Prepend characters that have no room. C62_wrap_partial: an earlier form without assumptions on the data."
  },
  {
   "property": "C63",
   "status": "partial",
   "theorems": [
    "Verif.Props.Scan.C63_fails_mark",
    "Verif.Props.Scan.C63_fails_cut",
    "Verif.Props.Scan.C63_columns_partial",
    "Verif.Props.Scan.C63_bytes_partial",
    "Verif.Props.Scan.C63_exact"
   ],
   "note": "False as stated: a combining mark behind an ASCII character is handed over as a cluster with the columns of the ASCII character (C63_fails_mark), and so are the bytes of a character cut by the end of the buffer (C63_fails_cut). C63_columns_partial: holds for every text without a combining character directly behind an ASCII character; C63_bytes_partial: for every byte string in which no byte 0x20..0x7F is directly followed by a non-ASCII byte. C63_exact: what the receiver is told for EVERY control-free text and limit."
  },
  {
   "property": "C64",
   "status": "proved",
   "theorems": [
    "Verif.Props.Tg.C64_unambiguous",
    "Verif.Props.Tg.C64_plane",
    "Verif.Props.Tg.C64_general_category",
    "Verif.Props.Tg.C64_script",
    "Verif.Props.Tg.C64_block",
    "Verif.Props.Tg.C64_east_asian_width",
    "Verif.Props.Tg.C64_break",
    "Verif.Props.Tg.C64_emoji",
    "Verif.Props.Tg.C64_is_mirrored",
    "Verif.Props.Tg.C64_core",
    "Verif.Props.Tg.C64_contains_category",
    "Verif.Props.Tg.C64_is_category",
    "Verif.Props.Tg.C64_script_extensions",
    "Verif.Props.Tg.C64_bidi_mirroring_glyph",
    "Verif.Props.Tg.C64_make_age",
    "Verif.Props.Tg.C64_stream",
    "Verif.Props.Tg.C64_format",
    "Verif.Props.Tg.C64_width_string",
    "Verif.Props.Tg.C64_script_of_files",
    "Verif.Props.Tg.C64_general_category_of_files",
    "Verif.Props.Tg.C64_east_asian_width_of_files",
    "Verif.Props.Tg.C64_block_of_files",
    "Verif.Props.Tg.C64_plane_exact",
    "Verif.Props.Tg.C64_break_of_files",
    "Verif.Props.Tg.C64_emoji_of_files",
    "Verif.Props.Tg.C64_is_mirrored_of_files",
    "Verif.Props.Tg.C64_core_of_files",
    "Verif.Props.Tg.C64_bidi_mirroring_glyph_of_files",
    "Verif.Props.Tg.C64_make_age_of_files"
   ],
   "note": "Texts of all generated functions modelled character by character (Model/TgCode); Spec/CxxFn is an independent reader and evaluator for the C++ subset (return, switch, if, range-for, local constants, lambdas in lower_bound); contains and search are the modelled templates (C36). The C64_*_of_files theorems compose with C61 (tables as text) and C53 (files). Assumes the identifiers from the files are C++ identifiers and the comments are single lines, as C61 does. Not modelled: includes, namespaces, licence comment and the declarations repeated in ucd.h."
  },
  {
   "property": "C65",
   "status": "partial",
   "theorems": [
    "Verif.Props.Tg.C65_header",
    "Verif.Props.Tg.C65_unambiguous",
    "Verif.Props.Tg.C65_third_stage",
    "Verif.Props.Tg.C65_views",
    "Verif.Props.Tg.C65_from_files",
    "Verif.Props.Tg.C65_fails_small"
   ],
   "note": "Header and sources agree (`C65_header`, and `C65_unambiguous`: the text determines the declarations). The views compile exactly if there are more than 256 different rows and more than 256 different names (`C65_views`, from the files `C65_from_files`); for a smaller database the second stage is declared uint8_t and the library does not compile (`C65_fails_small`). This is about the part of the header inside the namespace; the whole file is C68."
  },
  {
   "property": "C66",
   "status": "partial",
   "theorems": [
    "Verif.Props.Scan.C66_fails_mark",
    "Verif.Props.Scan.C66_fill_partial",
    "Verif.Props.Scan.C66_until_control",
    "Verif.Props.Scan.C66_exact",
    "Verif.Props.Scan.C66_unique",
    "Verif.Props.Scan.C66_wrap_partial",
    "Verif.Props.Scan.C66_one_state_partial",
    "Verif.Props.Scan.C66_plain_text_partial",
    "Verif.Props.Scan.C66_plain_text_ends_partial"
   ],
   "note": "False as stated: a combining character behind ASCII text is not part of the character for the scanner, so a line can end between the two (C66_fails_mark). C66_fill_partial: holds for every limit, variant and text without U+FE0E, adjacent regional indicators, Prepend directly before ASCII, or a combining character directly behind ASCII. C66_wrap_partial: for these texts repeated calls with new states reach the end and break the whole text into lines first come first served. C66_exact: what is put on the line for EVERY control-free text and limit (flags, U+FE0E, marks on ASCII, Prepend included), from an independent specification of glyphs and lines (Spec/ScanLine), which determines it (C66_unique). C66_until_control: the same when a C0 or C1 control character and anything else follows the text. C66_one_state_partial: any number of lines written with one state, for every control-free text, if every line ends in front of a character of MayStop (no mark, no half flag, no jamo or Prepend character without room). C66_plain_text_partial: the same with a condition on the text only (PlainText: no control characters, flags, jamo, Prepend characters, nor marks directly behind ASCII or C1 controls). C66_plain_text_ends_partial: these texts, written with one state on lines where every glyph fits, come to the end after at most as many lines as codepoints."
  },
  {
   "property": "C67",
   "status": "proved",
   "theorems": [
    "Verif.Props.Tg.C67_unambiguous",
    "Verif.Props.Tg.C67_source",
    "Verif.Props.Tg.C67_header",
    "Verif.Props.Tg.C67_linked",
    "Verif.Props.Tg.C67_tables_first",
    "Verif.Props.Tg.C67_once",
    "Verif.Props.Tg.C67_extension_arrays_first"
   ],
   "note": "Unbounded in the database. The reading relation knows a block comment at the beginning, #include and #pragma once lines, namespaces, and pieces ending in ; or }; names are not checked against C++ keywords."
  },
  {
   "property": "C68",
   "status": "partial",
   "theorems": [
    "Verif.Props.Tg.C68_enums",
    "Verif.Props.Tg.C68_ostream",
    "Verif.Props.Tg.C68_formatters",
    "Verif.Props.Tg.C68_printed",
    "Verif.Props.Tg.C68_prints",
    "Verif.Props.Tg.C68_once",
    "Verif.Props.Tg.C68_case_tables_partial",
    "Verif.Props.Tg.C68_properties_header",
    "Verif.Props.Tg.C68_properties_source",
    "Verif.Props.Tg.C68_names_source",
    "Verif.Props.Tg.C68_externs_defined",
    "Verif.Props.Tg.C68_visible_iff",
    "Verif.Props.Tg.C68_fails_namespace",
    "Verif.Props.Tg.C68_visible_sources",
    "Verif.Props.Tg.C68_includes"
   ],
   "note": "C68_enums, C68_ostream, C68_formatters, C68_printed, C68_prints, C68_once, C68_properties_header, C68_properties_source, C68_names_source, C68_externs_defined, C68_visible_sources hold as stated. C68_case_tables_partial has the hypotheses of C61 (no case mapping of the backslash, at most three targets). The full property (every namespace) is false: C68_visible_iff shows the header compiles only for namespaces inside unicode, C68_fails_namespace is the witness. C68_includes: which headers each file includes. Identifiers and keywords: C71_keywords."
  },
  {
   "property": "C69",
   "status": "partial",
   "theorems": [
    "Verif.Props.Tg.C69_usage",
    "Verif.Props.Tg.C69_unreadable",
    "Verif.Props.Tg.C69_exit",
    "Verif.Props.Tg.C69_only",
    "Verif.Props.Tg.C69_success_partial",
    "Verif.Props.Tg.C69_readable",
    "Verif.Props.Tg.C69_namespace",
    "Verif.Props.Tg.C69_fails_unwritable",
    "Verif.Props.Tg.C69_fails_silently"
   ],
   "note": "C69_usage, C69_unreadable, C69_exit, C69_only, C69_readable, C69_namespace hold for every behaviour of the operating system. C69_success_partial (the contents after exit 0) assumes that files can be opened and written completely: the full statement C69_Success is false, since the state of the output streams is never checked (C69_fails_unwritable, and for every input C69_fails_silently). The parsers are a parameter here; they are the subject of C48-C54. Messages on the terminal are not modelled."
  },
  {
   "property": "C70",
   "status": "proved",
   "theorems": [
    "Verif.Props.Tg.C70_line_ends",
    "Verif.Props.Tg.C70_missing_file",
    "Verif.Props.Tg.C70_missing_run",
    "Verif.Props.Tg.C70_reads_only"
   ],
   "note": "C70_line_ends: for two directories whose files consist of the same lines with other line ends, the possible runs (exit code and disk) are the same. C70_missing_file, C70_missing_run, C70_reads_only. std::getline and the opening of files are modelled (Model/TgDir); a read error in the middle of a file is not."
  },
  {
   "property": "C71",
   "status": "partial",
   "theorems": [
    "Verif.Props.Tg.C71_keywords",
    "Verif.Props.Tg.C71_fails_keyword",
    "Verif.Props.Tg.C71_succeeds",
    "Verif.Props.Tg.C71_properties",
    "Verif.Props.Tg.C71_names_partial",
    "Verif.Props.Tg.C71_runs",
    "Verif.Props.Tg.C71_case_partial",
    "Verif.Props.Tg.C71_norm_partial",
    "Verif.Props.Tg.C71_enums",
    "Verif.Props.Tg.C71_printed",
    "Verif.Props.Tg.C71_api",
    "Verif.Props.Tg.C71_header"
   ],
   "note": "C71_succeeds, C71_runs (there is a run), C71_properties, C71_enums (ucd_enums.h declares exactly what the data files say), C71_printed; C71_api (every function of ucd.cpp - plane, script, general_category::get, east_asian_width, block, the break properties, emoji properties, is_mirrored, bidi_mirroring_glyph, make_age, contains for core properties and categories, script_extensions - read from the generated text and called with any codepoint, answers what the data files say; and the names of the generated files can be linked unless a name is declared twice); C71_header (ucd.h declares exactly what ucd.cpp defines; general_category::is_... and to_string(EastAsianWidth) answer what the data files say); C71_names_partial: names in the Basic Multilingual Plane only (beyond it C53_fails_name_supplementary shows the failure); C71_case_partial and C71_norm_partial: files that do not map U+005C (C68 shows the failure) nor to more than three codepoints. Composition of C48, C50-C55, C61, C68, C69 and C70. The hypotheses Describes and Complete say what a release looks like; FewRows that there are at most 256 different blocks and 65536 different rows; success is not tied to the files being written (C69_fails_unwritable)."
  },
  {
   "property": "C72",
   "status": "partial",
   "theorems": [
    "Verif.Props.Scan.C72_fails_full_line",
    "Verif.Props.Scan.C72_fails_chunk",
    "Verif.Props.Scan.C72_afresh_partial",
    "Verif.Props.Scan.C72_cut"
   ],
   "note": "False as stated: if the columns are used up exactly in front of the control character, or a C0 control character is the first byte of a chunk, scan_text returns without resetting the state, and a combining mark behind the control character is told as part of the last character in front of it (C72_fails_full_line, C72_fails_chunk). C72_afresh_partial: holds for every text, state, data table and variant if a column is left and something was consumed or the control character is C1. C72_cut: a C0 control character in the middle of a UTF-8 sequence."
  },
  {
   "property": "C73",
   "status": "proved",
   "theorems": [
    "Verif.Props.Iter.C73_grapheme",
    "Verif.Props.Iter.C73_grapheme_equal",
    "Verif.Props.Iter.C73_grapheme_default",
    "Verif.Props.Iter.C73_fails_last",
    "Verif.Props.Iter.C73_grapheme_visit",
    "Verif.Props.Iter.C73_word",
    "Verif.Props.Iter.C73_word_equal",
    "Verif.Props.Iter.C73_word_default",
    "Verif.Props.Iter.C73_utf8",
    "Verif.Props.Iter.C73_utf8_equal",
    "Verif.Props.Iter.C73_utf8_post",
    "Verif.Props.Iter.C73_utf8_printed"
   ],
   "note": "C73_grapheme/_equal/_default/_visit, C73_word/_equal, C73_utf8/_equal/_post/_printed. C73_fails_last: the comparison one expects of an iterator (C73_Equal) is false for grapheme_segmenter: at the last cluster it is equal to the end (DESIGN 5)."
  },
  {
   "property": "C74",
   "status": "partial",
   "theorems": [
    "Verif.Load.C74_pattern_single",
    "Verif.Load.C74_pattern_range",
    "Verif.Load.C74_line",
    "Verif.Load.C74_skips",
    "Verif.Load.C74_needs_files",
    "Verif.Load.C74_fails_end",
    "Verif.Load.C74_fails_bounds",
    "Verif.Load.C74_names_partial",
    "Verif.Load.C74_fails_name",
    "Verif.Load.C74_loads_partial",
    "Verif.Load.C74_throws",
    "Verif.Load.C74_fails_script"
   ],
   "note": "Full claim false of the code: a script the hard-wired table does not know becomes Script::Invalid silently (C74_fails_script); the character class of the value pattern has no hyphen, so a name is cut at its first one (C74_fails_name); a range 0..FFFFFFFF never ends (C74_fails_end); a codepoint of 110000 or more indexes behind the vector (C74_fails_bounds). Proved: the two patterns as relations and what they accept (C74_pattern_single, C74_pattern_range); each line's effect (C74_line) and non-effect (C74_skips); for files with proper ranges and known values the loaded record of every codepoint is the one the files describe (C74_loads_partial); which files are needed (C74_needs_files); exactly when it throws (C74_throws); names made of plain words (C74_names_partial). Concrete directory: sample_load."
  },
  {
   "property": "C75",
   "status": "partial",
   "theorems": [
    "Verif.Load.C75_records_partial",
    "Verif.Load.C75_fails_width",
    "Verif.Load.C75_fails_jamo",
    "Verif.Load.C75_fails_columns",
    "Verif.Load.C75_directory_partial"
   ],
   "note": "Full claim false of the code: the loader never fills the columns added later (flags bit 7, flags2, incb, word break: C75_fails_columns) and its width rule is an older one (Hangul jamo V/T: C75_fails_jamo; U+00AD: C75_fails_width; prepended format characters). Proved: script, category, width class, age, grapheme break, emoji class and the seven flags agree for every codepoint, and the width agrees outside exactly those characters (C75_records_partial on records; C75_directory_partial for a directory given to both programs, end to end from the file texts to the generated source). Concrete directory: sample_agree."
  },
  {
   "property": "C76",
   "status": "proved",
   "theorems": [
    "Verif.Props.Threads.C76_alone",
    "Verif.Props.Threads.C76_alone_unique",
    "Verif.Props.Threads.C76_initialized",
    "Verif.Props.Threads.C76_once",
    "Verif.Props.Threads.C76_waits",
    "Verif.Props.Threads.C76_ends",
    "Verif.Props.Threads.C76_can_end"
   ],
   "note": "C76_alone (with C76_alone_unique: what a thread is told is a function of the number of its calls), C76_initialized, C76_once, C76_waits, C76_ends, C76_can_end. The meaning of the declaration of a local static variable ([stmt.dcl]) is modelled as the C++ standard gives it; its machine code is not. Buffers are not written by other threads during a call. What a call returns on its own is C58; the cores of the machine are alike."
  },
  {
   "property": "C77",
   "status": "partial",
   "theorems": [
    "Verif.Props.Norm.C77_fails",
    "Verif.Props.Norm.C77_decomposed_first",
    "Verif.Props.Norm.C77_reference",
    "Verif.Props.Norm.C77_composed_first_partial",
    "Verif.Props.Norm.C77_composed_first_exact_partial",
    "Verif.Props.Tg.C77_files_decomposed_first",
    "Verif.Props.Tg.C77_files_composed_first_partial"
   ],
   "note": "False of the code after NFC/NFKC (C77_fails: NFC is not idempotent). Proved in full after NFD and NFKD for every text (C77_decomposed_first). After NFC/NFKC exactly for the texts in whose composed form no starter keeps a mark (C77_composed_first_exact_partial; texts without U+11A7), and for every text without U+11A7 if the first step is the Unicode algorithm (C77_reference), so the defect is in the composition step. Table hypotheses are those of C27/C28 plus: non-starters have no compatibility mapping (C32). C77_files_decomposed_first / C77_files_composed_first_partial: the same for the tables generated from UCD files, stated with the decompositions and the composition algorithm on the files."
  },
  {
   "property": "C78",
   "status": "proved",
   "theorems": [
    "Verif.Props.Valid.C78_case",
    "Verif.Props.Valid.C78_case_utf8",
    "Verif.Props.Valid.C78_normalize",
    "Verif.Props.Valid.C78_normalize_utf8",
    "Verif.Props.Valid.C78_stream",
    "Verif.Props.Valid.C78_stream_utf8",
    "Verif.Props.Valid.C78_ill_formed",
    "Verif.Props.Tg.C78_case_files",
    "Verif.Props.Tg.C78_normalize_files"
   ],
   "note": "C78_case / C78_normalize on codepoints, C78_case_utf8 / C78_normalize_utf8 on bytes, C78_stream / C78_stream_utf8 for the streaming normalizers at every point of a history; C78_ill_formed shows that well-formed input is needed (the bytes of a surrogate come back). C78_case_files / C78_normalize_files: the hypotheses on the tables follow from UCD files that map nothing to a surrogate."
  },
  {
   "property": "C79",
   "status": "partial",
   "theorems": [
    "Verif.Props.TextLines.C79_graphemes",
    "Verif.Props.TextLines.C79_words",
    "Verif.Props.TextLines.C79_lines_graphemes",
    "Verif.Props.TextLines.C79_lines_words",
    "Verif.Props.TextLines.C79_lines_title",
    "Verif.Props.TextLines.C79_lines_width",
    "Verif.Props.TextLines.C79_lines_utf8",
    "Verif.Props.TextLines.C79_lines_nfd",
    "Verif.Props.TextLines.C79_fails_nfc",
    "Verif.Props.TextLines.C79_lines_normalize_partial",
    "Verif.Props.Tg.C79_inert_files",
    "Verif.Props.Tg.C79_files_nfd"
   ],
   "note": "Proved in full for grapheme clusters (also of the UTF-8 segmenter), words, title case, columns and for NFD/NFKD (C79_files_nfd: with conditions on UnicodeData.txt). False for NFC/NFKC when a line begins with a combining character: it leaves its line and is put on the last letter of the line before (C79_fails_nfc, a consequence of the defect of C28); C79_lines_normalize_partial covers all other lines in all forms."
  },
  {
   "property": "C80",
   "status": "proved",
   "theorems": [
    "Verif.Props.EmojiPrefix.C80_emoji",
    "Verif.Props.RunPrefix.C80_runs",
    "Verif.Props.RunPrefix.C80_titlecase",
    "Verif.Props.TextPrefix.C80_graphemes",
    "Verif.Props.TextPrefix.C80_words",
    "Verif.Props.TextPrefix.C80_words_two",
    "Verif.Props.TextPrefix.C80_scripts",
    "Verif.Props.TextPrefix.C80_normalize"
   ],
   "note": "C80_graphemes, C80_words (C80_words_two: the last but one segment can really change), C80_scripts, C80_emoji, C80_runs, C80_titlecase, C80_normalize (SafeStart: for the composition forms the start must not compose with anything before it)."
  },
  {
   "property": "C81",
   "status": "proved",
   "theorems": [
    "Verif.Props.Levels.C81_word_borders",
    "Verif.Props.Levels.C81_words",
    "Verif.Props.Levels.C81_fails_prepend",
    "Verif.Props.Levels.C81_fails_flags",
    "Verif.Props.Levels.C81_fails_spacing",
    "Verif.Props.Levels.C81_fails"
   ],
   "note": "C81_word_borders (every position), C81_words (a text without an exception: the word segments are the clusters, grouped). Without the exceptions the claim is false (C81_fails, C81_fails_prepend, C81_fails_spacing, C81_fails_flags), the first two by the rules of UAX #29 themselves."
  },
  {
   "property": "C82",
   "status": "partial",
   "theorems": [
    "Verif.Props.RunClusters.C82_scripts_partial",
    "Verif.Props.RunClusters.C82_runs_partial",
    "Verif.Props.RunClusters.C82_fails"
   ],
   "note": "False of the run segmenter: a mark that is no emoji ends the emoji run in front of it, inside the cluster (C82_fails). Proved in full for script runs (C82_scripts_partial); a run that ends inside a cluster ends where an emoji or text segment ends (C82_runs_partial)."
  },
  {
   "property": "C83",
   "status": "proved",
   "theorems": [
    "Verif.Props.WidthPrefix.C83_columns",
    "Verif.Props.WidthPrefix.C83_fails"
   ],
   "note": "C83_columns: both bounds for every continuation without U+FE0E. C83_fails: the condition cannot be dropped."
  },
  {
   "property": "C84",
   "status": "proved",
   "theorems": [
    "Verif.Props.Pieces.C84_titlecase",
    "Verif.Props.Pieces.C84_graphemes",
    "Verif.Props.Pieces.C84_words",
    "Verif.Props.Pieces.C84_width",
    "Verif.Props.Pieces.C84_borders_needed"
   ],
   "note": "C84_graphemes, C84_words: every row of consecutive segments. C84_width: columns add up at a cut between clusters. C84_titlecase: so does the titlecase at a cut between words. C84_borders_needed: elsewhere it is false."
  }
 ]
}