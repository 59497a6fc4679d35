{
 "C01": [
  "proved",
  "for all c <= 0x1FFFFF; C01_bound_sharp shows the bound is exact"
 ],
 "C02": [
  "proved",
  ""
 ],
 "C03": [
  "proved",
  "C03_wellformed_unique: to_utf8 output is the only well-formed sequence"
 ],
 "C04": [
  "partial",
  "The strict statement is false of the code (C04_strict_fails). Proved: what the decoder reports for EVERY byte string, exactly (C04_exact: the inductive reading Reports holds of the reported list and of nothing else), hence every Success is justified by the bytes received (Loose), Loose + Table 3-7 side conditions gives WellFormed, and exactly which inputs are reported Invalid."
 ],
 "C05": [
  "partial",
  "False for ASCII after a truncated sequence (C05_resync_fails); proved for all multi-byte sequences after any history, for ASCII exactly when (C05_ascii_iff: iff the history does not end in the beginning of a sequence, or a coincidental overlong form), and at most three bytes are ever swallowed."
 ],
 "C06": [
  "proved",
  ""
 ],
 "C07": [
  "proved",
  ""
 ],
 "C08": [
  "proved",
  ""
 ],
 "C09": [
  "proved",
  ""
 ],
 "C10": [
  "partial",
  "Iterator decoders read past the end on truncated input (C10_out_of_bounds). Proved, for every input and every target encoding: exactly what is written and exactly when the end iterator is dereferenced (C10_exact_utf8, C10_exact_utf16, C10_exact_utf32; the division of the input is a function, C10_division_unique); hence exact and in bounds on well-formed input."
 ],
 "C14": [
  "partial",
  "Full UAX #29 fails on [Prepend, RI, RI] and ZWJ ZWJ (two witnesses); C14_segmenter_exact characterises the code on every text; C14_uax29_partial gives UAX #29 outside those two patterns."
 ],
 "C15": [
  "proved",
  ""
 ],
 "C16": [
  "partial",
  "Fails for flags (C16_fails); exact characterisation for every text, agreement with the segmenter outside flag sequences."
 ],
 "C17": [
  "proved",
  "C17_any_bytes covers malformed input as well"
 ],
 "C18": [
  "proved",
  "for both the segmenter and the incremental interface"
 ],
 "C19": [
  "proved",
  ""
 ],
 "C20": [
  "proved",
  ""
 ],
 "C21": [
  "proved",
  ""
 ],
 "C22": [
  "proved",
  ""
 ],
 "C23": [
  "proved",
  ""
 ],
 "C24": [
  "proved",
  "refinement of the Ragel tables against the grammar, for category sequences of any length"
 ],
 "C25": [
  "proved",
  ""
 ],
 "C26": [
  "proved",
  ""
 ],
 "C27": [
  "proved",
  ""
 ],
 "C28": [
  "partial",
  "False of the code (C28_fails, C28_fails_tbase); C28_exact characterises the output exactly; equivalence proved where composition does not meet the two defects."
 ],
 "C29": [
  "proved",
  ""
 ],
 "C30": [
  "partial",
  "False in general (C30_fails); proved for NFD/NFKD under explicit data hypotheses and for UTF-8 chunking at arbitrary byte positions. C30_segments / C30_utf8_segments: exactly what the streams output for every text (arbitrary bytes in arbitrary chunks), every form and table."
 ],
 "C31": [
  "partial",
  "Sound for NFD/NFKD; false for NFC (C31_fails_nfc), proved under the stated hypothesis. C31_quick_check_exact / C31_is_normalized_exact: what both answer for every form, text and table (the algorithm of UAX #15, section 9)."
 ],
 "C32": [
  "proved",
  ""
 ],
 "C33": [
  "proved",
  ""
 ],
 "C34": [
  "proved",
  ""
 ],
 "C35": [
  "proved",
  ""
 ],
 "C36": [
  "proved",
  "C36_needs_sorted shows sortedness is needed"
 ],
 "C37": [
  "proved",
  "for non-empty sorted tables; C37_empty_oob: the empty table reads out of bounds"
 ],
 "C38": [
  "proved",
  "Proved for every input in the quantifier, and exactly: C38_iff / C38_properties_iff say the generated tables are right if and only if there are at most 2^8 distinct blocks (and at most 2^16 values); C38_fails_257_blocks and C38_fails_truncation show the silent truncation beyond the bound."
 ],
 "C40": [
  "proved",
  "with witnesses for the two surprising resize behaviours"
 ],
 "C42": [
  "proved",
  ""
 ],
 "C43": [
  "proved",
  ""
 ],
 "C11": [
  "proved",
  "Every compiled variant (std::simd with signed/unsigned char, 128/256/512 bit intrinsics, scalar) returns the length of the longest printable prefix, hence the result is independent of the CPU."
 ],
 "C12": [
  "partial",
  "False as stated (C12_fails: invalid bytes may exceed the limit by one). Proved: limit exceeded by at most one column and only when an invalid sequence was reported, from any state."
 ],
 "C13": [
  "partial",
  "False for resumed calls on separate buffers (C13_fails_oob). Proved for every non-pending state: pointer order, in-bounds, plus the complete list of reasons to stop (C13_stop_reason); and for every history of calls on one buffer, also when a call resumes a cut sequence (C13_one_buffer_partial)."
 ],
 "C44": [
  "partial",
  "False for resumed calls after an invalid byte (C44_fails_resumed) or with a limit of one column (C44_fails_small_limit). Proved for every byte string, limit and non-pending state; and for resumed calls in one buffer, every history, limits of at least three columns, when the call reports no invalid sequence (C44_one_buffer_partial)."
 ],
 "C45": [
  "partial",
  "False when U+FE0E lies in a later chunk than its base (C45_fails_vs15: what an earlier call has reported is not taken back). Proved for arbitrary bytes, valid or not, and any cuts, with nothing excluded (C45_chunks, C45_text): same stopping byte, same state, never fewer columns than the whole, at most one more per U+FE0E. C45_resumed says exactly what each call counts for every text without control characters; C45_border: exactly the new columns if the call begins with a new character. Missing: only the equality of the totals in the case where it is false."
 ],
 "C46": [
  "partial",
  "False for flags behind another character (C46_fails_flag). Proved for every control-free text without U+FE0E, adjacent regional indicators, or Prepend directly before ASCII. What the scanner counts for EVERY control-free text (flags, U+FE0E, marks on ASCII and Prepend included) is C46_exact: the widths of the pieces between the borders of Spec/ScanBorder (ASCII apart; else the incremental API's rules since the last ASCII character), which exist uniquely (C46_pieces)."
 ],
 "C39": [
  "proved",
  "Counting, widths, two-codepoint test, stream conversion and buffer safety for all inputs. Defects recorded as theorems: exact-fit buffers are refused (C39_fails_exact_fit) and the legacy width of an empty text is undefined (C39_fails_empty_legacy)."
 ],
 "C47": [
  "proved",
  "For all values and all indices below the capacity."
 ],
 "C48": [
  "proved",
  "All lines; std::getline and file opening are not modelled (a file is its list of lines)."
 ],
 "C41": [
  "partial",
  "Range and emoji category agreement proved for every codepoint and data set; width agreement proved outside the generator overrides (Hangul V/T, U+00AD, Cf+Prepend), where the loader really differs (C41_fails_soft_hyphen). The file reading of the loader is C74, the comparison on one directory C75; codepoint_properties_loader.cpp is not in any CMake target."
 ],
 "C49": [
  "proved",
  "Hypotheses: data consistent (no codepoint gets two values of one property), alias sections well formed, at most 253 scripts/255 categories (uint8_t), and for the look-up at most 256 distinct blocks (C38). The generated text is modelled as initialisers, not as characters. The names table is not modelled."
 ],
 "C50": [
  "proved",
  "std::sort on (version, name) pairs is modelled by insertion sort (equal pairs are indistinguishable)."
 ],
 "C51": [
  "proved",
  "Hypotheses CaseFiles/UdLine/SpecialLine/FoldLine are the file formats; outside them C51_fails_four_targets, C51_fails_conditional_without_comment and C51_fails_title_default show what goes wrong. Sample files instantiate the hypotheses."
 ],
 "C52": [
  "partial",
  "Tables, NFD/NFKD, equivalence and the decomposition-form quick checks are proved exactly; Full_Composition_Exclusion fails (C52_fails_full_exclusion); NFC/NFKC results inherit the marks-before-starter and U+11A7 bugs of C28, so those theorems are _partial."
 ],
 "C53": [
  "partial",
  "All query functions are proved exact for all files of the documented format (blocks and the per-category tables additionally need the file order to be ascending, as it is: the generator does not sort them). name() is proved exact in the BMP for entries without placeholder and for every memcmp outcome (C53_name_partial, C53_name_value_partial); C53_fails_name_star and C53_fails_name_supplementary prove what it returns otherwise. Missing: names beyond the BMP and with a placeholder, where the code does not have the property."
 ],
 "C54": [
  "proved",
  "Composition of C48 (lines), C53 (loading), C49 (records), C38 (three-stage table): C54_row, C54_unique (the specification has one answer), C54_lookup (end to end). Spec/UcdRecord.lean: Complete lists what the files must satisfy, Row.Says the answer. Concrete: a small database written as texts (Props/TgRowSample: rU_complete, sample_lookup)."
 ],
 "C55": [
  "proved",
  "C55_fails_shared_name shows that the hypothesis on long names is needed. The text of the headers is modelled by the declarations it makes."
 ],
 "C56": [
  "partial",
  "Complete for the table, words, widths of codepoints, emoji and scripts. Grapheme borders: exact for the rules as implemented; full UAX #29 outside the two degenerate patterns for which it is false (C14_fails_*). Scanning under the conditions of C46. C56_scan_exact: what scan_text counts for every control-free text, from the files (condition Varied, met by the sample database). C56_line_exact: which part of it a line of any width takes, and what the receiver is told."
 ],
 "C57": [
  "proved",
  "Registers are naturals, instructions are those of Spec/Vector (trusted description of the hardware); every load and store is bounds-checked and every loop must terminate. The std::simd build stays at the element level (C08, C11)."
 ],
 "C58": [
  "partial",
  "Detection and scan are proved for all machines. The conversions are false as stated: the 128-bit fallback uses SSE4.1 without detecting it (C58_fails_sse41); proved for machines with SSE4.1 or AVX2, and for all machines when the text does not begin with 16 ASCII bytes. Which extension an intrinsic belongs to is trusted; compiler-generated use of other extensions is not modelled."
 ],
 "C59": [
  "partial",
  "Escape notation, injectivity, listings, tables, blocks, memory safety and arguments proved in full. Full claims kept as Prop definitions that are false of the code: C59_BreakColumn (flag halves behind other text are flagged breakable), C59_Offsets (offsets after a truncated sequence), C59_ReplacesAll (of two adjacent ESC bytes the second is written raw); proved in the _partial theorems where they hold, with C59_fails_* witnesses."
 ],
 "C60": [
  "partial",
  "Reports, naming, options, clusters, runs, notation and safety proved in full. Full claims that are false of the code are kept as Prop definitions: C60_EscapedInjective (backslashes are not escaped), C60_ShownUnchanged (signed char: all non-ASCII text is shown in hexadecimal), C60_NamesCodepoint (numbers beyond 32 bits name U+0000); _partial theorems and C60_fails_* witnesses."
 ],
 "C61": [
  "partial",
  "C61_unambiguous: the reading (Spec/Cxx, written independently of the generator) is a function of the text. C61_case_tables_partial, C61_properties, C61_names, C61_enums, C61_intervals, C61_mirrored, C61_glyphs, C61_general_category, C61_script, C61_plane, C61_block, C61_breaks, C61_east_asian_width, C61_script_extension_arrays, C61_script_extensions, C61_ages, C61_decomposition_type: each file's tables. C61_generated and C61_from_files: from parsed data, and from the files, to the text (with C54). Full property false: a simple case mapping of the backslash would end its comment with a backslash, which swallows the next entry (C61_fails_backslash), so C61_case_tables_partial asks that U+005C has no case mapping, full mappings have at most three targets (the row type), and decompositions fit. Names must be identifiers and must not contain quote, backslash or newline, comments must be one line (true of every UCD file). The files as a whole are C67 and C68, the emitted functions C64."
 ],
 "C62": [
  "partial",
  "False as stated: the state already holds the codepoint that did not fit, so the next call compares it with itself (C62_fails_hangul: a leading jamo). C62_any_partial: holds for every text and however the first call came to stop, if the character at the stop is no mark (Extend, SpacingMark, ZWJ) and no half of a flag, and either is no jamo and no Prepend character or has itself room in the rest of the line (only what follows it in its cluster did not fit). C62_lines_partial: the same for any number of lines written with one state. False for marks that begin a line (C62_fails_mark), for flags (C62_fails_flag: a flag at the beginning of the next line falls apart) and for jamo and Prepend characters that have no room. C62_wrap_partial: an earlier form without assumptions on the data."
 ],
 "C63": [
  "partial",
  "False as stated: a combining mark behind an ASCII character is handed over as a cluster with the columns of the ASCII character (C63_fails_mark), and so are the bytes of a character cut by the end of the buffer (C63_fails_cut). C63_columns_partial: holds for every text without a combining character directly behind an ASCII character; C63_bytes_partial: for every byte string in which no byte 0x20..0x7F is directly followed by a non-ASCII byte. C63_exact: what the receiver is told for EVERY control-free text and limit."
 ],
 "C64": [
  "proved",
  "Texts of all generated functions modelled character by character (Model/TgCode); Spec/CxxFn is an independent reader and evaluator for the C++ subset (return, switch, if, range-for, local constants, lambdas in lower_bound); contains and search are the modelled templates (C36). The C64_*_of_files theorems compose with C61 (tables as text) and C53 (files). Assumes the identifiers from the files are C++ identifiers and the comments are single lines, as C61 does. Not modelled: includes, namespaces, licence comment and the declarations repeated in ucd.h."
 ],
 "C65": [
  "partial",
  "Header and sources agree (`C65_header`, and `C65_unambiguous`: the text determines the declarations). The views compile exactly if there are more than 256 different rows and more than 256 different names (`C65_views`, from the files `C65_from_files`); for a smaller database the second stage is declared uint8_t and the library does not compile (`C65_fails_small`). This is about the part of the header inside the namespace; the whole file is C68."
 ],
 "C66": [
  "partial",
  "False as stated: a combining character behind ASCII text is not part of the character for the scanner, so a line can end between the two (C66_fails_mark). C66_fill_partial: holds for every limit, variant and text without U+FE0E, adjacent regional indicators, Prepend directly before ASCII, or a combining character directly behind ASCII. C66_wrap_partial: for these texts repeated calls with new states reach the end and break the whole text into lines first come first served. C66_exact: what is put on the line for EVERY control-free text and limit (flags, U+FE0E, marks on ASCII, Prepend included), from an independent specification of glyphs and lines (Spec/ScanLine), which determines it (C66_unique). C66_until_control: the same when a C0 or C1 control character and anything else follows the text. C66_one_state_partial: any number of lines written with one state, for every control-free text, if every line ends in front of a character of MayStop (no mark, no half flag, no jamo or Prepend character without room). C66_plain_text_partial: the same with a condition on the text only (PlainText: no control characters, flags, jamo, Prepend characters, nor marks directly behind ASCII or C1 controls). C66_plain_text_ends_partial: these texts, written with one state on lines where every glyph fits, come to the end after at most as many lines as codepoints."
 ],
 "C67": [
  "proved",
  "Unbounded in the database. The reading relation knows a block comment at the beginning, #include and #pragma once lines, namespaces, and pieces ending in ; or }; names are not checked against C++ keywords."
 ],
 "C68": [
  "partial",
  "C68_enums, C68_ostream, C68_formatters, C68_printed, C68_prints, C68_once, C68_properties_header, C68_properties_source, C68_names_source, C68_externs_defined, C68_visible_sources hold as stated. C68_case_tables_partial has the hypotheses of C61 (no case mapping of the backslash, at most three targets). The full property (every namespace) is false: C68_visible_iff shows the header compiles only for namespaces inside unicode, C68_fails_namespace is the witness. C68_includes: which headers each file includes. Identifiers and keywords: C71_keywords."
 ],
 "C69": [
  "partial",
  "C69_usage, C69_unreadable, C69_exit, C69_only, C69_readable, C69_namespace hold for every behaviour of the operating system. C69_success_partial (the contents after exit 0) assumes that files can be opened and written completely: the full statement C69_Success is false, since the state of the output streams is never checked (C69_fails_unwritable, and for every input C69_fails_silently). The parsers are a parameter here; they are the subject of C48-C54. Messages on the terminal are not modelled."
 ],
 "C70": [
  "proved",
  "C70_line_ends: for two directories whose files consist of the same lines with other line ends, the possible runs (exit code and disk) are the same. C70_missing_file, C70_missing_run, C70_reads_only. std::getline and the opening of files are modelled (Model/TgDir); a read error in the middle of a file is not."
 ],
 "C71": [
  "partial",
  "C71_succeeds, C71_runs (there is a run), C71_properties, C71_enums (ucd_enums.h declares exactly what the data files say), C71_printed; C71_api (every function of ucd.cpp - plane, script, general_category::get, east_asian_width, block, the break properties, emoji properties, is_mirrored, bidi_mirroring_glyph, make_age, contains for core properties and categories, script_extensions - read from the generated text and called with any codepoint, answers what the data files say; and the names of the generated files can be linked unless a name is declared twice); C71_header (ucd.h declares exactly what ucd.cpp defines; general_category::is_... and to_string(EastAsianWidth) answer what the data files say); C71_names_partial: names in the Basic Multilingual Plane only (beyond it C53_fails_name_supplementary shows the failure); C71_case_partial and C71_norm_partial: files that do not map U+005C (C68 shows the failure) nor to more than three codepoints. Composition of C48, C50-C55, C61, C68, C69 and C70. The hypotheses Describes and Complete say what a release looks like; FewRows that there are at most 256 different blocks and 65536 different rows; success is not tied to the files being written (C69_fails_unwritable)."
 ],
 "C72": [
  "partial",
  "False as stated: if the columns are used up exactly in front of the control character, or a C0 control character is the first byte of a chunk, scan_text returns without resetting the state, and a combining mark behind the control character is told as part of the last character in front of it (C72_fails_full_line, C72_fails_chunk). C72_afresh_partial: holds for every text, state, data table and variant if a column is left and something was consumed or the control character is C1. C72_cut: a C0 control character in the middle of a UTF-8 sequence."
 ],
 "C73": [
  "proved",
  "C73_grapheme/_equal/_default/_visit, C73_word/_equal, C73_utf8/_equal/_post/_printed. C73_fails_last: the comparison one expects of an iterator (C73_Equal) is false for grapheme_segmenter: at the last cluster it is equal to the end (DESIGN 5)."
 ],
 "C74": [
  "partial",
  "Full claim false of the code: a script the hard-wired table does not know becomes Script::Invalid silently (C74_fails_script); the character class of the value pattern has no hyphen, so a name is cut at its first one (C74_fails_name); a range 0..FFFFFFFF never ends (C74_fails_end); a codepoint of 110000 or more indexes behind the vector (C74_fails_bounds). Proved: the two patterns as relations and what they accept (C74_pattern_single, C74_pattern_range); each line's effect (C74_line) and non-effect (C74_skips); for files with proper ranges and known values the loaded record of every codepoint is the one the files describe (C74_loads_partial); which files are needed (C74_needs_files); exactly when it throws (C74_throws); names made of plain words (C74_names_partial). Concrete directory: sample_load."
 ],
 "C75": [
  "partial",
  "Full claim false of the code: the loader never fills the columns added later (flags bit 7, flags2, incb, word break: C75_fails_columns) and its width rule is an older one (Hangul jamo V/T: C75_fails_jamo; U+00AD: C75_fails_width; prepended format characters). Proved: script, category, width class, age, grapheme break, emoji class and the seven flags agree for every codepoint, and the width agrees outside exactly those characters (C75_records_partial on records; C75_directory_partial for a directory given to both programs, end to end from the file texts to the generated source). Concrete directory: sample_agree."
 ],
 "C76": [
  "proved",
  "C76_alone (with C76_alone_unique: what a thread is told is a function of the number of its calls), C76_initialized, C76_once, C76_waits, C76_ends, C76_can_end. The meaning of the declaration of a local static variable ([stmt.dcl]) is modelled as the C++ standard gives it; its machine code is not. Buffers are not written by other threads during a call. What a call returns on its own is C58; the cores of the machine are alike."
 ],
 "C77": [
  "partial",
  "False of the code after NFC/NFKC (C77_fails: NFC is not idempotent). Proved in full after NFD and NFKD for every text (C77_decomposed_first). After NFC/NFKC exactly for the texts in whose composed form no starter keeps a mark (C77_composed_first_exact_partial; texts without U+11A7), and for every text without U+11A7 if the first step is the Unicode algorithm (C77_reference), so the defect is in the composition step. Table hypotheses are those of C27/C28 plus: non-starters have no compatibility mapping (C32). C77_files_decomposed_first / C77_files_composed_first_partial: the same for the tables generated from UCD files, stated with the decompositions and the composition algorithm on the files."
 ],
 "C78": [
  "proved",
  "C78_case / C78_normalize on codepoints, C78_case_utf8 / C78_normalize_utf8 on bytes, C78_stream / C78_stream_utf8 for the streaming normalizers at every point of a history; C78_ill_formed shows that well-formed input is needed (the bytes of a surrogate come back). C78_case_files / C78_normalize_files: the hypotheses on the tables follow from UCD files that map nothing to a surrogate."
 ],
 "C79": [
  "partial",
  "Proved in full for grapheme clusters (also of the UTF-8 segmenter), words, title case, columns and for NFD/NFKD (C79_files_nfd: with conditions on UnicodeData.txt). False for NFC/NFKC when a line begins with a combining character: it leaves its line and is put on the last letter of the line before (C79_fails_nfc, a consequence of the defect of C28); C79_lines_normalize_partial covers all other lines in all forms."
 ],
 "C80": [
  "proved",
  "C80_graphemes, C80_words (C80_words_two: the last but one segment can really change), C80_scripts, C80_emoji, C80_runs, C80_titlecase, C80_normalize (SafeStart: for the composition forms the start must not compose with anything before it)."
 ],
 "C81": [
  "proved",
  "C81_word_borders (every position), C81_words (a text without an exception: the word segments are the clusters, grouped). Without the exceptions the claim is false (C81_fails, C81_fails_prepend, C81_fails_spacing, C81_fails_flags), the first two by the rules of UAX #29 themselves."
 ],
 "C82": [
  "partial",
  "False of the run segmenter: a mark that is no emoji ends the emoji run in front of it, inside the cluster (C82_fails). Proved in full for script runs (C82_scripts_partial); a run that ends inside a cluster ends where an emoji or text segment ends (C82_runs_partial)."
 ],
 "C83": [
  "proved",
  "C83_columns: both bounds for every continuation without U+FE0E. C83_fails: the condition cannot be dropped."
 ],
 "C84": [
  "proved",
  "C84_graphemes, C84_words: every row of consecutive segments. C84_width: columns add up at a cut between clusters. C84_titlecase: so does the titlecase at a cut between words. C84_borders_needed: elsewhere it is false."
 ]
}