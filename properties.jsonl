{"id": "C01", "title": "UTF-8 encode/decode round trip for one codepoint", "statement": "For every codepoint up to 0x1FFFFF (hence every Unicode scalar value), feeding the bytes produced by to_utf8(c) one at a time to an idle incremental decoder answers Incomplete for every byte but the last and Success(c) for the last, and leaves the decoder idle; the pointer overload from_utf8(bytes,&size) returns c with size equal to the number of bytes written, whatever bytes follow.", "quantifier": "every codepoint value 0..0x1FFFFF, every prior completed decoder state, every following byte string", "why_tests_cant": "1.1 million codepoints times arbitrary following bytes; a test samples the length boundaries only", "anchors": ["src/libunicode/utf8.h:to_utf8", "src/libunicode/utf8.cpp:from_utf8", "src/libunicode/utf8.h:from_utf8"]}
{"id": "C02", "title": "UTF-8 string round trip", "statement": "from_utf8(to_utf8(s)) == s for every UTF-32 string of codepoints up to 0x1FFFFF, and the encoding of a concatenation is the concatenation of the encodings.", "quantifier": "every finite sequence of codepoints", "why_tests_cant": "unbounded strings; the decoder is stateful so errors could leak from one character into the next", "anchors": ["src/libunicode/utf8.h:to_utf8(u32string_view)", "src/libunicode/utf8.h:from_utf8(string_view)", "src/libunicode/convert.cpp:convert_utf8_to_utf32"]}
{"id": "C03", "title": "UTF-8 encoder output is well formed", "statement": "For every Unicode scalar value to_utf8 produces exactly the shortest well-formed sequence of Unicode Table 3-7 for that value; distinct scalar values give distinct sequences and no encoding is a prefix of another.", "quantifier": "every Unicode scalar value / pair of scalar values", "why_tests_cant": "pairs of 1.1 million values; prefix-freeness is a relational property", "anchors": ["src/libunicode/utf8.h:to_utf8", "src/libunicode/convert.h:encoder<char>"]}
{"id": "C04", "title": "Incremental UTF-8 decoder only reports what was received", "statement": "The incremental decoder from_utf8(state, byte) reports Success only for well-formed sequences: ill-formed input (overlong forms, surrogates, values above U+10FFFF, a non-continuation byte inside a sequence) is reported Invalid. (The code violates this; the proved part is exactly which ill-formed inputs are reported.)", "quantifier": "every byte history and next byte", "why_tests_cant": "the set of byte histories is infinite", "anchors": ["src/libunicode/utf8.cpp:from_utf8", "src/libunicode/utf8.h:utf8_decoder_state"]}
{"id": "C05", "title": "UTF-8 decoder resynchronises after garbage", "statement": "After any byte history, however damaged, the next complete well-formed sequence is decoded to its codepoint. (Violated when the sequence is ASCII and the history ends in a truncated sequence; proved for every history for sequences of length 2-4 and for ASCII whenever the decoder is idle.)", "quantifier": "every byte history, every codepoint", "why_tests_cant": "infinite histories", "anchors": ["src/libunicode/utf8.cpp:from_utf8"]}
{"id": "C06", "title": "UTF-16 encode/decode round trip", "statement": "For every string of Unicode scalar values, converting UTF-32 to UTF-16 and back is the identity; the UTF-16 output is well formed (every high surrogate is followed by a low one and vice versa); surrogates and values above U+10FFFF are dropped, never emitted.", "quantifier": "every UTF-32 string", "why_tests_cant": "unbounded strings and a million astral codepoints", "anchors": ["src/libunicode/convert.h:encoder<char16_t>", "src/libunicode/convert.h:decoder<char16_t>", "src/libunicode/convert.h:convert_to"]}
{"id": "C07", "title": "Transcoding diagram commutes", "statement": "For every string of scalar values, converting its UTF-8 form directly to UTF-16 equals converting it to UTF-32 and then UTF-16, and converting UTF-16 to UTF-8 yields the same bytes as encoding the UTF-32 string.", "quantifier": "every string of scalar values", "why_tests_cant": "relates three conversion pipelines on unbounded input", "anchors": ["src/libunicode/convert.h:convert_to", "src/libunicode/convert_simd_impl.h"]}
{"id": "C08", "title": "SIMD conversion equals scalar conversion", "statement": "For every byte string (well formed or not) and each block width 16, 32 and 64, the vectorised UTF-8 to UTF-32 and UTF-8 to UTF-16 conversions return exactly what the byte-at-a-time decoder returns, so the result does not depend on the CPU.", "quantifier": "every byte string, every SIMD width", "why_tests_cant": "result must be independent of block boundaries and hardware; tests run on one CPU", "anchors": ["src/libunicode/convert_simd_impl.h:convert_utf8_to_utf32_simd_impl", "src/libunicode/convert_simd_impl.h:convert_utf8_to_utf16_simd_impl", "src/libunicode/convert.cpp"]}
{"id": "C09", "title": "Conversion never overruns its output buffer", "statement": "Converting n bytes of UTF-8 writes at most n UTF-32 code points, respectively at most n UTF-16 code units, so the pre-sized result buffer is never overrun, for arbitrary (also malformed) bytes.", "quantifier": "every byte string", "why_tests_cant": "memory-safety bound over all malformed inputs", "anchors": ["src/libunicode/convert_simd_impl.h", "src/libunicode/convert.h:convert_to(string)"]}
{"id": "C10", "title": "Iterator-based decoding stays inside its range", "statement": "convert_to over iterators never reads at or past the end iterator and decodes well-formed UTF-8/UTF-16 exactly. (Violated on truncated input: the decoder dereferences past the end; proved for every well-formed input, with an explicit out-of-bounds outcome in the model.)", "quantifier": "every input sequence", "why_tests_cant": "truncation at every position of every sequence; out-of-bounds reads are invisible to value-based tests", "anchors": ["src/libunicode/convert.h:decoder<char>::operator()(iterator)", "src/libunicode/convert.h:decoder<char16_t>"]}
{"id": "C11", "title": "ASCII scan returns the longest printable prefix", "statement": "scan_for_text_ascii returns exactly the length of the longest prefix of bytes 0x20..0x7F, capped at maxColumnCount, independent of SIMD block width.", "quantifier": "every byte string, every maxColumnCount, every SIMD width", "why_tests_cant": "block-boundary alignments times contents", "anchors": ["src/libunicode/scan_simd_impl.h:scan_for_text_ascii_simd_impl", "src/libunicode/scan.cpp:scan_for_text_ascii"]}
{"id": "C12", "title": "scan_text never reports more columns than requested", "statement": "scan_text(state, text, maxColumnCount).count <= maxColumnCount. (Violated by invalid bytes; partial theorem proved.)", "quantifier": "every byte string, every scanner state reachable from the initial one, every column limit", "why_tests_cant": "all malformed inputs and resumption histories", "anchors": ["src/libunicode/scan.cpp:scan_text", "src/libunicode/scan.cpp:scan_for_text_nonascii"]}
{"id": "C13", "title": "scan_text consumes a prefix and makes progress", "statement": "scan_text's resume pointer lies inside the input, never moves backwards, stops only at a control character, at the column limit, or at the end of the input.", "quantifier": "every byte string, state and column limit", "why_tests_cant": "pointer arithmetic over all malformed inputs", "anchors": ["src/libunicode/scan.cpp:scan_text", "src/libunicode/scan.h:scan_result"]}
{"id": "C14", "title": "Grapheme segmentation implements UAX #29", "statement": "grapheme_segmenter places a boundary between two codepoints of any text exactly where rules GB3-GB13 and GB999 of UAX #29 (with GB9c) require, given the Unicode character data. (Violated after Prepend followed by regional indicators; partial theorem excludes exactly that.)", "quantifier": "every codepoint sequence, every well-formed character property table", "why_tests_cant": "the rules quantify over unbounded left context (regional indicator parity, Extend* ZWJ, InCB)", "anchors": ["src/libunicode/grapheme_segmenter.cpp", "src/libunicode/grapheme_segmenter.h"]}
{"id": "C15", "title": "Grapheme clusters partition the text", "statement": "Iterating grapheme_segmenter over any text yields non-empty consecutive slices whose concatenation is the text, and terminates after at most length(text) steps.", "quantifier": "every codepoint sequence, every property table", "why_tests_cant": "termination and losslessness over unbounded input", "anchors": ["src/libunicode/grapheme_segmenter.h:grapheme_segmenter"]}
{"id": "C16", "title": "Incremental grapheme API agrees with the segmenter", "statement": "Calling grapheme_process_init on the first codepoint and grapheme_process_breakable on each following one reports a break exactly at the segmenter's boundaries. (Violated for flag sequences: the counter is not re-armed; partial theorem proved.)", "quantifier": "every codepoint sequence", "why_tests_cant": "history dependent state", "anchors": ["src/libunicode/grapheme_segmenter.h:grapheme_process_breakable", "src/libunicode/grapheme_segmenter.h:grapheme_process_init"]}
{"id": "C17", "title": "UTF-8 grapheme segmenter agrees with the UTF-32 one", "statement": "For every valid UTF-8 text the clusters yielded by utf8_grapheme_segmenter, concatenated, give the decoded text and are exactly the clusters of the grapheme segmentation of the decoded text.", "quantifier": "every string of scalar values", "why_tests_cant": "two stateful machines run interleaved on unbounded input", "anchors": ["src/libunicode/utf8_grapheme_segmenter.h"]}
{"id": "C18", "title": "Word segmentation implements UAX #29 word rules", "statement": "word_segmenter places boundaries exactly where rules WB3-WB16/WB999 demand for any text.", "quantifier": "every codepoint sequence, every word-break property assignment", "why_tests_cant": "rules need unbounded look-behind and look-ahead through Extend/Format/ZWJ", "anchors": ["src/libunicode/word_segmenter.cpp", "src/libunicode/word_segmenter.h"]}
{"id": "C19", "title": "Word segments partition the text", "statement": "Iterating word_segmenter yields non-empty consecutive slices whose concatenation is the text, and terminates.", "quantifier": "every codepoint sequence", "why_tests_cant": "termination and losslessness over unbounded input", "anchors": ["src/libunicode/word_segmenter.h"]}
{"id": "C20", "title": "Display width of a grapheme cluster is bounded, monotone and independent of the code path", "statement": "grapheme_cluster_width of a cluster is at most two columns per codepoint that has a width of its own; appending a codepoint other than VS15 never narrows the cluster and widens it by at most two; non-spacing marks never change it; an emoji ZWJ sequence of any length is as wide as its first segment, a flag as wide as its first half, a skin-tone modifier adds nothing, VS16/VS15 re-present exactly the variation bases; and the one-codepoint shortcut returns what the general accumulator returns.", "quantifier": "every codepoint sequence, every well-formed property table", "why_tests_cant": "accumulator state over unbounded clusters", "anchors": ["src/libunicode/width.cpp:grapheme_cluster_width", "src/libunicode/width.cpp:grapheme_cluster_width_accumulator"]}
{"id": "C21", "title": "Width of text is the sum over its clusters", "statement": "The width computed for a UTF-8 text equals the sum of grapheme_cluster_width over the clusters of the decoded text, hence is additive at cluster boundaries.", "quantifier": "every valid UTF-8 text", "why_tests_cant": "unbounded text", "anchors": ["src/libunicode/width.cpp", "src/libunicode/capi.cpp:u32_gc_width"]}
{"id": "C22", "title": "Script segmentation partitions text into single-script runs", "statement": "script_segmenter yields consecutive non-empty ranges covering the text, terminates, and every codepoint whose script is neither Common nor Inherited and which lies in a run labelled S has S among its script extensions.", "quantifier": "every codepoint sequence and script-extension table", "why_tests_cant": "set-intersection state over unbounded runs", "anchors": ["src/libunicode/script_segmenter.cpp", "src/libunicode/script_segmenter.h"]}
{"id": "C23", "title": "Emoji segmentation partitions text and alternates presentation", "statement": "emoji_segmenter yields consecutive non-empty ranges covering the text, terminates, and two consecutive ranges never have the same presentation style.", "quantifier": "every codepoint sequence", "why_tests_cant": "scanner with backtracking over unbounded input", "anchors": ["src/libunicode/emoji_segmenter.cpp", "src/libunicode/emoji_presentation_scanner.c"]}
{"id": "C24", "title": "Emoji scanner tables implement the emoji presentation grammar", "statement": "The table-driven scanner returns the longest match of the emoji/text presentation grammar of emoji_presentation_scanner.rl at the current position, for every category sequence.", "quantifier": "every finite sequence of emoji segmentation categories", "why_tests_cant": "regular-language equivalence over all strings, with backtracking", "anchors": ["src/libunicode/emoji_presentation_scanner.c", "src/libunicode/emoji_presentation_scanner.rl"]}
{"id": "C25", "title": "Run segmentation is the common refinement of script and emoji runs", "statement": "run_segmenter yields consecutive non-empty ranges covering the text; boundaries are exactly the union of script and emoji segment boundaries and each range carries the properties of the segments that contain it.", "quantifier": "every pair of script/emoji segmentations of every text", "why_tests_cant": "alignment of two independent segmentations of unbounded text", "anchors": ["src/libunicode/run_segmenter.h"]}
{"id": "C26", "title": "Canonical ordering", "statement": "Canonical reordering permutes a string only within maximal runs of non-starters, sorts every run by combining class, keeps codepoints of equal class in order, and is idempotent.", "quantifier": "every codepoint sequence, every combining class table", "why_tests_cant": "stable sort on unbounded runs", "anchors": ["src/libunicode/normalization.cpp:canonical_order"]}
{"id": "C27", "title": "NFD/NFKD are idempotent and concatenation-safe at starters", "statement": "normalize(NFD) applied twice equals applying it once; so does NFKD; and NFD(a+b) = NFD(a)+NFD(b) whenever b's decomposition starts with a starter.", "quantifier": "every codepoint sequence, every closed decomposition table", "why_tests_cant": "unbounded strings; recursive decomposition", "anchors": ["src/libunicode/normalization.cpp:normalize"]}
{"id": "C28", "title": "NFC/NFKC preserve canonical equivalence", "statement": "normalize(s, NFC) is canonically equivalent to s. (Violated: a mark that does not compose is emitted before its starter, and U+11A7 after an LV syllable is dropped; proved for strings where those do not occur.)", "quantifier": "every codepoint sequence", "why_tests_cant": "unbounded strings and all combinations of marks", "anchors": ["src/libunicode/normalization.cpp:compose", "src/libunicode/normalization.cpp:try_compose"]}
{"id": "C29", "title": "Hangul algorithmic (de)composition is a bijection", "statement": "Every precomposed Hangul syllable decomposes into conjoining jamo that recompose to it and no other syllable has that decomposition.", "quantifier": "all 11172 syllables and all jamo triples", "why_tests_cant": "finite but arithmetic; the theorem covers all indices without enumeration", "anchors": ["src/libunicode/normalization.cpp:hangul_decompose", "src/libunicode/normalization.cpp:hangul_compose"]}
{"id": "C30", "title": "Streaming normalisation equals whole-string normalisation", "statement": "Feeding a text to the streaming normalizer in arbitrary chunks and flushing produces the same output as normalize on the whole text. (Violated for starters whose decomposition begins with a non-starter and for NFC; proved under the explicit table hypothesis for NFD/NFKD.)", "quantifier": "every text, every chunking of it", "why_tests_cant": "exponentially many chunkings of unbounded texts", "anchors": ["src/libunicode/normalization.cpp:normalizer", "src/libunicode/normalization.h:normalizer"]}
{"id": "C31", "title": "Quick check is sound", "statement": "quick_check returning Yes implies normalising the text leaves it unchanged, returning No implies it does not (NFD/NFKD).", "quantifier": "every text, every consistent property table", "why_tests_cant": "unbounded text", "anchors": ["src/libunicode/normalization.cpp:quick_check"]}
{"id": "C32", "title": "Canonical and compatibility equivalence are equivalence relations compatible with normalisation", "statement": "canonical_equivalent/compatibility_equivalent are reflexive, symmetric, transitive; canonical equivalence implies compatibility equivalence; every string is equivalent to its NFD.", "quantifier": "every pair/triple of texts", "why_tests_cant": "relational property on unbounded strings", "anchors": ["src/libunicode/normalization.cpp:canonical_equivalent"]}
{"id": "C33", "title": "Case mapping is a string homomorphism", "statement": "to_uppercase, to_lowercase and casefold of a concatenation equal the concatenation of the results, and the UTF-8 overloads give the UTF-8 encoding of the UTF-32 result.", "quantifier": "every pair of texts", "why_tests_cant": "unbounded strings", "anchors": ["src/libunicode/case_mapping.cpp"]}
{"id": "C34", "title": "Caseless comparison is a total preorder", "statement": "casefold_compare is reflexive, antisymmetric in sign and transitive, returns 0 exactly when casefold_equals holds, and casefold_equals is an equivalence relation.", "quantifier": "every pair/triple of texts", "why_tests_cant": "relational property on unbounded strings", "anchors": ["src/libunicode/case_mapping.cpp:casefold_compare"]}
{"id": "C35", "title": "Title casing acts word by word", "statement": "to_titlecase processes the text word segment by word segment: inside each segment the first cased codepoint is replaced by its titlecase mapping, every later cased codepoint by its lowercase mapping, and every uncased codepoint is copied unchanged.", "quantifier": "every text", "why_tests_cant": "unbounded text times segmentation", "anchors": ["src/libunicode/case_mapping.cpp:to_titlecase"]}
{"id": "C36", "title": "Sorted table lookup is exact", "statement": "Binary-search lookups over sorted mapping tables return the entry for a key iff the table contains one.", "quantifier": "every sorted table and key", "why_tests_cant": "off-by-one errors at every table size", "anchors": ["src/libunicode/case_mapping.cpp:lookup_simple", "src/libunicode/normalization.cpp:lookup_ccc"]}
{"id": "C37", "title": "Interval table membership and search are exact", "statement": "contains(table, c) holds iff some interval covers c; search returns the value of the covering interval, for sorted disjoint tables.", "quantifier": "every sorted, disjoint, non-empty table, every codepoint", "why_tests_cant": "off-by-one errors at every table size", "anchors": ["src/libunicode/ucd_private.h"]}
{"id": "C38", "title": "Multistage table lookup reproduces the source data", "statement": "For every property assignment, the generated three-stage table returns the assigned value for every codepoint; lookups outside the range return the documented fallback.", "quantifier": "every property assignment with at most 2^8 distinct blocks, every codepoint", "why_tests_cant": "all tables", "anchors": ["src/libunicode/multistage_table_generator.h", "src/libunicode/multistage_table_view.h"]}
{"id": "C39", "title": "C API string functions agree with the C++ API and respect buffers", "statement": "u32_gc_count and u8_gc_count return the number of grapheme clusters; u32u8_convert never writes outside the destination and, when it succeeds, writes exactly the UTF-8 encoding. (Exact-fit buffers are refused: witness recorded.)", "quantifier": "every text, every buffer length", "why_tests_cant": "all sizes relative to all encodings", "anchors": ["src/libunicode/capi.cpp", "src/libunicode/capi.h"]}
{"id": "C40", "title": "Fixed-capacity array never exceeds its capacity", "statement": "Any sequence of push_back/resize/clear operations on the fixed-size array keeps size <= N, and contents are the successfully pushed elements in order.", "quantifier": "every operation sequence, every capacity", "why_tests_cant": "all histories", "anchors": ["src/libunicode/support.h:fs_array"]}
{"id": "C41", "title": "Character width classification", "statement": "Every codepoint has width 0, 1 or 2, and the run-time loader and the table generator compute the same width and emoji segmentation category from the same raw properties.", "quantifier": "every combination of raw properties", "why_tests_cant": "two independently written implementations must agree on every combination", "anchors": ["src/libunicode/codepoint_properties_loader.cpp:toCharWidth", "src/libunicode/tablegen/multistage_generator.cpp:computeCharWidth"]}
{"id": "C42", "title": "changes_when_* predicts the case mappings", "statement": "changes_when_uppercased(c) / lowercased / titlecased / casefolded answers true exactly when the corresponding mapping applied to the one-codepoint text c returns something other than c.", "quantifier": "every codepoint, every table without identity entries", "why_tests_cant": "all codepoints times all tables", "anchors": ["src/libunicode/case_mapping.cpp:changes_when_uppercased"]}
{"id": "C43", "title": "Case folding is idempotent and forgets case", "statement": "casefold(casefold(s)) == casefold(s), and casefold(to_uppercase(s)) == casefold(to_lowercase(s)) == casefold(s) whenever the tables are closed in the sense of the Unicode data files.", "quantifier": "every text, every closed table set", "why_tests_cant": "unbounded text", "anchors": ["src/libunicode/case_mapping.cpp:casefold"]}
{"id": "C44", "title": "Receiver sees every byte exactly once", "statement": "The byte slices scan_text hands to the grapheme_cluster_receiver, concatenated in order, are exactly the bytes from the start of the text to state.next.", "quantifier": "every byte string (well formed or not), column limit and scanner state", "why_tests_cant": "unbounded byte strings times scanner states", "anchors": ["src/libunicode/scan.cpp:scan_text", "src/libunicode/scan.cpp:scan_for_text_nonascii"]}
{"id": "C45", "title": "Scanning in chunks adds up", "statement": "Cutting a byte stream into chunks at arbitrary positions (inside a UTF-8 sequence or a grapheme cluster) and feeding them to scan_text with the same scan_state reports the same total number of columns, stops at the same byte and leaves the same state as one scan of the whole.", "quantifier": "every byte string, every way of cutting it, every vector width", "why_tests_cant": "all cut positions of all texts", "anchors": ["src/libunicode/scan.h:scan_state", "src/libunicode/scan.cpp:scan_text"]}
{"id": "C46", "title": "Scanned columns equal text width", "statement": "For text without control characters and with a limit that is not reached, scan_text counts exactly grapheme_cluster_width(text) columns and consumes the whole text.", "quantifier": "every such text, every vector width", "why_tests_cant": "unbounded text, two independent implementations", "anchors": ["src/libunicode/scan.cpp:scan_text", "src/libunicode/width.cpp:grapheme_cluster_width"]}
{"id": "C47", "title": "Application bits in a UTF-32 value never disturb the codepoint", "statement": "The u32_unused_bit_* macros: setting or clearing an application bit is seen by the getter, leaves every other application bit and the codepoint itself unchanged, and a value is exactly its codepoint plus its application bits.", "quantifier": "every 32-bit value, every bit index within the advertised capacity", "why_tests_cant": "2^32 values times 11 indices; adjacency of bit 20/21 boundary", "anchors": ["src/libunicode/capi.h:u32_unused_bit_on"]}
{"id": "C48", "title": "UCD property files are read exactly", "statement": "The table generator's line parser turns every well-formed UCD line (HEX ; value # comment or HEX..HEX ; value # comment, any blanks, LF or CRLF) into exactly the codepoint interval and value stated, skips comment, directive and blank lines, rejects reversed or out-of-range intervals, and on arbitrary garbage never yields an interval that is empty or leaves 0..10FFFF; so loading a file yields exactly its assignments in order.", "quantifier": "every character string as a line; every well-formed file", "why_tests_cant": "unbounded set of lines, blanks, comments and numerals; malformed lines too", "anchors": ["tablegen/ucd_parser.cpp:parseStandardLine", "tablegen/ucd_parser.cpp:parseCodepoint", "tablegen/ucd_parser.cpp:firstWord", "tablegen/ucd_parser.cpp:loadGenericProperties"]}
{"id": "C49", "title": "The generated properties table says what the data files say", "statement": "For every codepoint U+0000..U+10FFFF, the script, general category, grapheme cluster break, East Asian width, age, Indic conjunct break, word break and flags that a look-up in the generated table returns are those that the UCD data files assign to it (the documented default where they assign none), and its width and emoji segmentation category are the documented function of them; generating the table never writes outside its record array.", "quantifier": "every codepoint and every set of well-formed UCD files in any order of lines", "why_tests_cant": "1.1 million codepoints times all possible data files; a test compares a few codepoints of one Unicode version", "anchors": ["src/libunicode/tablegen/multistage_generator.cpp:generateMultistageFiles", "src/libunicode/tablegen/multistage_generator.cpp:computeCharWidth", "src/libunicode/tablegen/multistage_generator.cpp:computeEmojiSegmentationCategory"]}
{"id": "C50", "title": "Age enumerators compare like Unicode versions", "statement": "The enumerators of Age are ordered by version number, numerically (V2_0 < V10_0), with Unassigned first, and every enumerator written into the tables is one that the generated enum header declares.", "quantifier": "every alias file, every pair of versions, every codepoint", "why_tests_cant": "must hold for all future versions, e.g. two-digit majors and minors", "anchors": ["src/libunicode/tablegen/enum_utils.h:buildAgeEnumMembers", "src/libunicode/tablegen/enum_utils.h:parseVersionNumber", "src/libunicode/tablegen/multistage_generator.cpp:reverseLookup"]}
{"id": "C51", "title": "Case functions return what the UCD case files say", "statement": "For tables generated from UnicodeData.txt, SpecialCasing.txt and CaseFolding.txt, to_uppercase/to_lowercase/casefold of a text and the simple mappings of a codepoint are exactly the mappings the files list (full mapping first, then simple, then the codepoint itself); the written tables are sorted whatever the files contain, and full lookups never read outside an entry when no mapping has more than three codepoints.", "quantifier": "every well-formed triple of case files (any number of lines, any spacing and comments, one mapping per codepoint, the usual ASCII mappings, conditional lines carry a comment, at most three targets), every codepoint, every text", "why_tests_cant": "tests compare a few codepoints of one Unicode version; the claim is for every data file the generator may be run on and every codepoint", "anchors": ["src/libunicode/tablegen/ucd_parser.cpp:loadUnicodeData", "src/libunicode/tablegen/ucd_parser.cpp:loadCaseFolding", "src/libunicode/tablegen/ucd_parser.cpp:loadSpecialCasing", "src/libunicode/tablegen/case_norm_generator.cpp:writeFullCaseTable", "src/libunicode/case_mapping.cpp:to_uppercase"]}
{"id": "C52", "title": "Normalization follows the UCD files the table generator reads", "statement": "For all well-formed UnicodeData.txt, CompositionExclusions.txt and DerivedNormalizationProps.txt, canonical_combining_class, the canonical and compatibility decompositions, the quick-check values and the compositions found by the library are exactly those the files give (for every order in which the unstable sort may leave the composition table); hence, when the files are consistent, NFD/NFKD of every text is its full decomposition in canonical order according to the files, is_normalized/quick_check and canonical/compatibility equivalence are exact, and NFC/NFKC and the streaming normalizer compose exactly the primary composites of the files. Full_Composition_Exclusion lines must exclude their codepoints too (violated: the inline comment is kept in the property name).", "quantifier": "all file contents (any number of lines, white space, comments), all codepoints and all texts", "why_tests_cant": "The tables are generated from files of tens of thousands of lines that change with every Unicode version; tests sample a few codepoints of one version and cannot cover all texts.", "anchors": ["src/libunicode/tablegen/ucd_parser.cpp:loadUnicodeData, loadCompositionExclusions, loadDerivedNormalizationProps", "src/libunicode/tablegen/case_norm_generator.cpp: writeCccTable, writeDecompositionTable, writeCompositionTable, writeCompatibilityDecompositionTable, writeQuickCheckTable", "src/libunicode/normalization.cpp"]}
{"id": "C53", "title": "The UCD query functions answer what the data files say", "statement": "For all well-formed UCD data files, the table generator accepts them, and every query function of the generated ucd.h and codepoint_properties::name return, for every codepoint, exactly what the files say: script, general_category::get and contains(General_Category), contains(Core_Property), grapheme_cluster_break, east_asian_width, block, plane, script_extensions, the emoji property functions, is_mirrored, bidi_mirroring_glyph, make_age, the bases of emoji variation sequences, and the name (with the code point in place of a final '*'; the empty string for a codepoint without name). Violated for names: the '*' is kept, and because blocks of std::string objects are compared by their bytes, the 8-bit block index overflows and every supplementary codepoint gets the name of the codepoint with the same lower 16 bits.", "quantifier": "all file contents (any number of lines, any white space and comments, any order of lines unless stated), every order in which the unstable sorts may leave equal keys, all codepoints, all hash functions and all outcomes of memcmp on string objects", "why_tests_cant": "The answers depend on files of tens of thousands of lines that change with every Unicode version and on all 1114112 codepoints; tests look at a few codepoints of one version, and name() of supplementary codepoints is not tested.", "anchors": ["src/libunicode/tablegen/ucd_parser.cpp: UcdParser::parseAll and its load functions", "src/libunicode/tablegen/ucd_api_generator.cpp", "src/libunicode/tablegen/multistage_generator.cpp: names", "src/libunicode/multistage_table_generator.h: is_same_block, get_or_create_index_to_stage2_block", "src/libunicode/ucd_private.h: contains, search", "src/libunicode/codepoint_properties.h: codepoint_properties::name"]}
{"id": "C54", "title": "The properties table is determined by the text of the data files", "statement": "For all well-formed and complete UCD data files, whatever order std::sort leaves entries with equal keys in and whatever std::hash returns, the table generator succeeds without an out-of-bounds access, and codepoint_properties::get returns for every codepoint exactly the record the files describe: script, general category, East Asian width, age, grapheme cluster break, word break, Indic conjunct break, all emoji and core flags, the variation-base flag, display width and emoji segmentation category; values above U+10FFFF get the record of U+0000; the files determine that record uniquely.", "quantifier": "all texts of the 17 UCD files that are well formed, all sort orders of equal keys, all hash functions, all codepoints", "why_tests_cant": "tests look up some codepoints in the table generated from one UCD version; the property quantifies over all file contents and all codepoints", "anchors": ["src/libunicode/tablegen/ucd_parser.cpp", "src/libunicode/tablegen/multistage_generator.cpp:generateMultistageFiles", "src/libunicode/tablegen/enum_utils.h", "src/libunicode/multistage_table_generator.h:generate", "src/libunicode/codepoint_properties.h:get"]}
{"id": "C55", "title": "The generated enumerations declare exactly the values of the data files", "statement": "For all well-formed and complete UCD data files, the generated header of enumerations declares an enumerator exactly if the files name it as a value of the property (plus the documented fixed ones: Unassigned, Undefined, Unspecified, Invalid, Unknown, Common); if no two titles become the same identifier, no enumeration and no enumerator is declared twice; every number fits the underlying type; streaming and formatting an enumerator print its name, different enumerators differently; ages are numbered in order of versions; and every enumerator in a row of the properties table or returned by a query function of ucd.h is declared.", "quantifier": "all texts of the UCD files that are well formed, all enumerations and enumerators, all codepoints", "why_tests_cant": "the enumerations are generated from one UCD version; the property quantifies over all file contents", "anchors": ["src/libunicode/tablegen/enum_generator.cpp:collectEnums", "src/libunicode/tablegen/enum_generator.cpp:writeEnumClass", "src/libunicode/tablegen/enum_utils.h:sanitizeIdentifier", "src/libunicode/tablegen/ucd_api_generator.cpp"]}
{"id": "C56", "title": "From the text of the data files to the segmentation of text", "statement": "For all well-formed, complete UCD data files whose values satisfy the stated plausibility conditions (true of the UCD), the library compiled against the generated files has a properties table that is uniquely determined by the files, and then for every text: word borders are exactly those of UAX #29 applied to the files' values; grapheme cluster borders are those of UAX #29; a codepoint is as wide as the files say, and U+FE0F widens exactly the bases of emoji-variation-sequences.txt; emoji runs follow the emoji grammar on the files' categories; script runs are labelled with a script every codepoint with a script of its own has according to Scripts.txt or ScriptExtensions.txt; scan_text counts the columns of the clusters.", "quantifier": "all texts of the UCD files that are well formed and plausible, all hash functions and sort orders, all texts and all positions in them", "why_tests_cant": "tests run the library generated from one UCD version on sample texts; the property composes generation and segmentation for all files and all texts", "anchors": ["src/libunicode/tablegen/multistage_generator.cpp:generateMultistageFiles", "src/libunicode/codepoint_properties.h:get", "src/libunicode/grapheme_segmenter.cpp", "src/libunicode/word_segmenter.cpp", "src/libunicode/width.cpp", "src/libunicode/emoji_segmenter.cpp", "src/libunicode/script_segmenter.cpp", "src/libunicode/scan.cpp"]}
{"id": "C57", "title": "Vector instructions compute the scalar result inside the buffers", "statement": "The ASCII scan and the UTF-8 to UTF-32/UTF-16 conversions, compiled for SSE2/SSE4.1, AVX2, AVX-512 or NEON, terminate, load only bytes of the input, store only inside the caller's buffer (leaving everything behind the result unchanged), and return exactly what the scalar code returns: the longest printable prefix, respectively the decoded code units. In particular the mask computed for a block has one bit for each byte that is not printable ASCII and no other bit, and the widening stores put each byte, zero-extended, at its place.", "quantifier": "every instruction set, every byte string of any length, every column limit, every output buffer at least as long as the input with arbitrary contents", "why_tests_cant": "256^16 to 256^64 register contents per block, all lengths around block borders, and instruction sets the test machine does not have", "anchors": ["src/libunicode/intrinsics.h: intrinsics", "src/libunicode/scan_simd_impl.h: scan_for_text_ascii_simd", "src/libunicode/convert_simd_impl.h: convert_utf8_to_utf32_simd, convert_utf8_to_utf16_simd"]}
{"id": "C58", "title": "Run-time dispatch only executes supported instructions", "statement": "The vector width is detected without executing an undefined instruction; it is 128, 256 or 512, more than 128 exactly when AVX2 is usable (CPU and operating system), 512 exactly when moreover AVX-512 F, BW and BITALG are; the scan and the conversions then execute only instructions the machine supports and produce the scalar result.", "quantifier": "every answer of CPUID and every value of XCR0, every text, limit and output buffer", "why_tests_cant": "the test machine has one CPUID; the failures are on other machines", "anchors": ["src/libunicode/simd_detector.cpp: max_simd_size, detect_os_avx, detect_os_avx512", "src/libunicode/scan.cpp: scan_for_text_ascii", "src/libunicode/convert.cpp: convert_utf8_to_utf32, convert_utf8_to_utf16"]}
{"id": "C59", "title": "uc-inspect shows every text faithfully", "statement": "`codepoints` prints one line per codepoint of the input, in order, with its byte offset, number, emoji flag, script, grapheme break flag, width and UTF-8 bytes in an unambiguous escape notation, so that different texts give different listings and nothing but printable ASCII appears in the C locale; `scripts` prints one table row per codepoint grouped by script run, `runs` one block per run; neither reads outside the text; the arguments choose command and source.", "quantifier": "every file content, every argument vector, every locale that prints ASCII, every Unicode data set", "why_tests_cant": "the tools have no tests; the escape notation must be injective over all byte strings", "anchors": ["src/tools/uc-inspect.cpp: codepoints, scripts, runs, escape, replaceAll, parseArgs"]}
{"id": "C60", "title": "unicode-query reports exactly what was asked", "statement": "`properties` prints, for each argument in order, a report on each codepoint it names (`U+` and a hexadecimal number, or the codepoints of a text), and complains about arguments that name none; `gc` prints one line per grapheme cluster, `runs` one block per run, of each text; text is shown with all bytes below 0x20 escaped, with -e all but printable characters other than the quote; arguments of any other form print the usage and fail; nothing outside the arguments is read.", "quantifier": "every argument vector, both signednesses of char, terminal or not, every Unicode data set", "why_tests_cant": "the tool has no tests; the claims range over all arguments and texts and over platforms", "anchors": ["src/tools/unicode-query.cpp: main, showCodepointProperties, parseChars, parseChar, escaped, escapeControlCodes, showGraphemeClusters, showRuns, prettyAge"]}
{"id": "C61", "title": "The generated C++ source text denotes exactly the generated tables", "statement": "Read by the C++ grammar for declarations (comments and line splices included), each text the generator writes declares exactly the data it was given: every array has the declared number of elements, in order, with the same values, in an element type that can hold them; every enum has the given members with consecutive values; and no text can be read in two ways. Together with C54: looking a codepoint up in the tables the text of codepoint_properties_data.cpp declares gives the row the Unicode files say.", "quantifier": "all generator data (all tables, enums, interval lists, names); all Unicode files of the documented format", "why_tests_cant": "the generated files are only compiled for the Unicode version at hand; the claim is about the text for every data set, including the comments between the entries", "anchors": ["src/libunicode/tablegen/multistage_generator.cpp: emitCxxTable, writeProperties, writeNames", "src/libunicode/tablegen/case_norm_generator.cpp: write*", "src/libunicode/tablegen/ucd_api_generator.cpp: write*", "src/libunicode/tablegen/enum_generator.cpp: writeEnumClass", "src/libunicode/tablegen/enum_utils.h: sanitizeIdentifier"]}
{"id": "C62", "title": "A cluster that does not fit is scanned like new by the next call", "statement": "When scan_text stops in front of a character that begins a grapheme cluster because the cluster does not fit into the columns left, calling it again with the same state and the rest of the text reports the same count, pointers and receiver calls as scanning the rest with a fresh state.", "quantifier": "every text, place where the scan stops, pair of column limits, CPU variant and vector width", "why_tests_cant": "unbounded texts and stopping places; depends on what two calls share through the state", "anchors": ["src/libunicode/scan.cpp:scan_text", "src/libunicode/scan.cpp:scan_for_text_nonascii", "src/libunicode/scan.h:scan_state"]}
{"id": "C63", "title": "Columns handed to the receiver add up to the count", "statement": "A receiver that adds one column per ASCII character, columnCount per grapheme cluster and one column per invalid sequence ends with scan_result::count.", "quantifier": "every text and byte string, column limit, CPU variant and vector width", "why_tests_cant": "unbounded texts and limits; a sum over all receiver calls of a call", "anchors": ["src/libunicode/scan.cpp:scan_text", "src/libunicode/scan.cpp:scan_for_text_nonascii", "src/libunicode/scan.h:grapheme_cluster_receiver"]}
{"id": "C64", "title": "The generated C++ functions, read as C++, return what the Unicode files say", "statement": "The text the generator writes for each query function (plane, contains, general_category::get and is_..., script, script_extensions, block, the break properties, east_asian_width, is_emoji and its siblings, is_mirrored, bidi_mirroring_glyph, make_age, to_string, and operator<< and std::formatter of every enumeration) reads as exactly one C++ function, with the expected name, parameter and result types; and when the tables and enumerators it names are the ones the generated texts declare, calling it returns, for every argument, what the Unicode files assign (the default where they assign nothing; the number in parentheses for an enumeration value without a name). No call reads outside a table or reaches a switch whose labels do not compile.", "quantifier": "all Unicode files of the documented format, every generated function, every codepoint, string or enumeration value (in range or not)", "why_tests_cant": "the generated functions are only compiled for the Unicode version at hand; the number of cases and functions depends on the data", "anchors": ["src/libunicode/tablegen/ucd_api_generator.cpp: generateUcdApiFiles", "src/libunicode/tablegen/enum_generator.cpp: writeEnumOstream, writeEnumFormatter", "src/libunicode/ucd_private.h: contains, search"]}
{"id": "C65", "title": "The generated header declares what the generated sources define, with the types the library needs", "statement": "The header written next to the tables of properties and names declares exactly the tables that the two source files define, with the same element type, name and number of elements, so that the pieces link; and the library's two views, which point at 8-bit first stages and 16-bit second stages, can be initialised with them.", "quantifier": "all tables the generator can be asked to write, all hash functions, all outcomes of memcmp on the string objects, all character databases in the documented formats", "why_tests_cant": "the element type is chosen by the generator from the largest number in each table; a test builds one database, and whether another one compiles depends on how many different rows and names it has", "anchors": ["src/libunicode/tablegen/multistage_generator.cpp: writeCxxTable, minimumUintType, generateMultistageFiles", "src/libunicode/multistage_table_generator.h: generate", "src/libunicode/codepoint_properties.h: tables_view, names_view", "src/libunicode/codepoint_properties.cpp: configured_tables, configured_names"]}
{"id": "C66", "title": "scan_text fills a line with whole grapheme clusters", "statement": "One scan_text call with a fresh state hands the receiver the first grapheme clusters of the text, whole, in order and each exactly once, with their bytes and their display widths; scan_result::count is the sum of these widths and at most the limit; start, end and state.next enclose exactly these clusters; and the call goes as far as possible: it ends at the end of the text, with a full line, or in front of a cluster that is wider than the columns left. Called again and again with new states on what is left, it breaks the whole text into lines, each cluster once, in order, and comes to the end.", "quantifier": "every text without control characters, every column limit, CPU variant and vector width", "why_tests_cant": "unbounded texts and limits; relates the receiver calls, the pointers and the count of a call to the segmentation and the widths computed by other functions", "anchors": ["src/libunicode/scan.cpp:scan_text", "src/libunicode/scan.cpp:scan_for_text_nonascii", "src/libunicode/scan.h:grapheme_cluster_receiver", "src/libunicode/width.cpp:grapheme_cluster_width"]}
{"id": "C67", "title": "The generated header and source are well-formed files that fit together", "statement": "ucd.cpp and ucd.h, read from the first to the last character (comment, includes, namespaces), consist of exactly the tables and functions of the library, each in its namespace, with no other reading possible. Every function the header only declares is defined in the source with the same namespace, parameter types and result type, as often as it is declared, and the source defines no others; no function is defined twice; every table a function mentions, and every array the table of script extensions points to, is declared above it.", "quantifier": "every character database whose names are identifiers and whose comments fit into one line, with any number of ranges, properties, categories, ages", "why_tests_cant": "a build compiles one database; whether another one gives files that compile and link depends on every name and comment in it", "anchors": ["src/libunicode/tablegen/ucd_api_generator.cpp: generateUcdApiFiles", "src/libunicode/tablegen/enum_utils.h: licenseHeader"]}
{"id": "C68", "title": "The other generated files are complete C++ files, and fit together", "statement": "The seven files the table generator writes besides ucd.h and ucd.cpp can be read as C++ files from the first to the last character, in one way only: ucd_enums.h consists of the enumerations in namespace unicode, ucd_ostream.h of exactly one stream operator and ucd_fmt.h of exactly one formatter for each of them (in the right namespace, printing the enumerator's name), the case and normalization file of its tables in unicode::detail, the properties header of six extern declarations in the requested namespace, and the two sources of the definitions of exactly these six arrays with the same types and sizes in the same namespace. The type codepoint_properties is visible where the header names it exactly if the requested namespace is inside unicode.", "quantifier": "every list of enumerations, all case/decomposition data, all stage tables, rows and names, every namespace path", "why_tests_cant": "The texts depend on the whole Unicode database, and a compile of one version's output says nothing about the next version's.", "anchors": ["src/libunicode/tablegen/enum_generator.cpp", "src/libunicode/tablegen/case_norm_generator.cpp", "src/libunicode/tablegen/multistage_generator.cpp", "src/libunicode/tablegen/enum_utils.h"]}
{"id": "C69", "title": "The table generator: exit status and files written", "statement": "unicode_tablegen exits with 0 exactly if it has at least two arguments, the database can be read and no generator throws; it touches no file but the nine named ones in the output directory, none if the arguments are too few or the database cannot be read; and if it exits with 0, each of the nine files holds exactly the generated text for the given (or default) namespace, and can be read as a C++ file.", "quantifier": "every command line, every parsed database, every behaviour of the operating system when files are opened and written, every previous content of the disk", "why_tests_cant": "Ranges over every database and every failing pattern of open and write.", "anchors": ["src/libunicode/tablegen/tablegen_main.cpp", "src/libunicode/tablegen/enum_generator.cpp", "src/libunicode/tablegen/ucd_api_generator.cpp", "src/libunicode/tablegen/case_norm_generator.cpp", "src/libunicode/tablegen/multistage_generator.cpp"]}
{"id": "C70", "title": "unicode_tablegen: line ends and presence of the data files", "statement": "What the generator does - exit code and every file on the disk - does not depend on whether the lines of the data files end with a newline or with a carriage return and a newline, in any mixture, nor on whether the last line has a line end. It reads exactly 21 files; if one of them cannot be opened it exits with 1 and touches nothing; nothing else on the disk influences it.", "quantifier": "all directories of data files, all contents of the files, all ways to end each line, all command lines, all initial disks, all outcomes of std::sort on equal keys", "why_tests_cant": "A test checks one set of files with one kind of line ends; the property is about every text and every mixture of line ends, in each of 21 files read by a dozen different loops.", "anchors": ["src/libunicode/tablegen/ucd_parser.cpp:openFile", "src/libunicode/tablegen/ucd_parser.cpp:parseStandardLine", "src/libunicode/tablegen/ucd_parser.cpp:UcdParser::parseAll", "src/libunicode/tablegen/tablegen_main.cpp:main"]}
{"id": "C71", "title": "unicode_tablegen from the data files to the files on the disk", "statement": "Given the directory of a complete release of the Unicode Character Database in its documented formats, the generator runs to its end and exits with 0; afterwards codepoint_properties_data.cpp in the output directory is a C++ file whose tables give, for every codepoint, the row of properties that the data files say, and codepoint_properties_names.cpp gives the names; case_normalization_data.h has tables with which case mapping and normalization do what UnicodeData.txt, SpecialCasing.txt and CaseFolding.txt say; the functions defined in ucd.cpp, called with any codepoint, answer what the data files say of it; and ucd_enums.h declares exactly the enumerators the data files list.", "quantifier": "all contents of the data files that are complete and consistent (not only the ones of one release), all line ends, all outcomes of std::sort and std::hash, all command lines with enough arguments, all initial disks", "why_tests_cant": "The build tests one release of the database; the property must hold for the next release too, for every codepoint.", "anchors": ["src/libunicode/tablegen/tablegen_main.cpp:main", "src/libunicode/tablegen/ucd_parser.cpp:UcdParser::parseAll", "src/libunicode/tablegen/multistage_generator.cpp:generateMultistageFiles", "src/libunicode/codepoint_properties.h:tables_view::get", "src/libunicode/tablegen/ucd_api_generator.cpp:generateUcdApiFiles"]}
{"id": "C72", "title": "What is behind a control character is scanned like new", "statement": "When scan_text has stopped in front of a control character (C0 or C1), the caller handles it, and calls scan_text with the same state on whatever comes behind, then columns, pointers and receiver calls are those of a new scan_state: no character continues across a control character.", "quantifier": "every text (well formed or not) in front of the control character, every text behind it, every limit, state between UTF-8 sequences, CPU variant", "why_tests_cant": "two unbounded texts that interact only through the state; the failing cases need a line filled exactly or a chunk that begins with the control character", "anchors": ["src/libunicode/scan.cpp:scan_text", "src/libunicode/scan.cpp:scan_for_text_nonascii", "src/libunicode/scan.h:scan_state"]}
{"id": "C73", "title": "The segmenters used as iterators", "statement": "A grapheme_segmenter, word_segmenter or utf8_grapheme_segmenter::iterator shows after k increments exactly piece k of the text, and an empty piece ever after when there is none; incrementing past the end is harmless. The UTF-8 iterator equals end() exactly when no cluster is left, two of them on one text are equal exactly if they show the same cluster (or both are at the end), it++ yields the previous cluster, and << prints the cluster in quotes. For the other two, codepointsAvailable()/bool says whether a piece follows the one shown, so that 'use *seg; if it is available, ++seg, repeat' sees every piece once; == holds exactly between equal positions and, besides, between the last piece and anything behind it.", "quantifier": "every text (every byte string for UTF-8), every number of increments of either operand, every table of properties", "why_tests_cant": "tests walk a few texts; the number of increments and the text are unbounded, and comparison ranges over pairs of histories", "anchors": ["src/libunicode/grapheme_segmenter.h:grapheme_segmenter", "src/libunicode/word_segmenter.h:word_segmenter", "src/libunicode/utf8_grapheme_segmenter.h:utf8_grapheme_segmenter::iterator"]}
{"id": "C74", "title": "The run-time loader loads what the files say", "statement": "load_from_directory(path), given a directory with the eight data files it reads, returns for every codepoint a record whose script, age, general category, grapheme break, East Asian width and emoji/core flags are what the files assign to it (a later file or line never damages another field), whose width and emoji class follow from those, and names as in DerivedName.txt; comments, blank lines and unknown lines have no effect; it fails to load exactly if a file is missing or a category, grapheme break or width value is one it does not know.", "quantifier": "every directory contents: any number of lines, any ranges, any values, any comments; every codepoint", "why_tests_cant": "the files are external input of unbounded size, matched by regular expressions line by line into a shared vector; a test fixes one release of the files", "anchors": ["src/libunicode/codepoint_properties_loader.cpp:load_from_directory", "src/libunicode/codepoint_properties_loader.cpp:process_properties", "src/libunicode/codepoint_properties_loader.cpp:codepoint_properties_loader::load", "src/libunicode/codepoint_properties_loader.cpp:toCharWidth"]}
{"id": "C75", "title": "The run-time loader and the generated tables agree", "statement": "For one directory of data files, the record load_from_directory computes for a codepoint equals the record the generated codepoint_properties tables give for it: every column.", "quantifier": "every directory, every codepoint", "why_tests_cant": "two independent implementations (one reads with regular expressions and derives in a second pass, the other generates source text with deduplicated multistage tables) over unbounded inputs", "anchors": ["src/libunicode/codepoint_properties_loader.cpp:load_from_directory", "src/libunicode/codepoint_properties_loader.cpp:toCharWidth", "src/libunicode/tablegen/multistage_generator.cpp", "src/libunicode/codepoint_properties.h:codepoint_properties"]}
{"id": "C76", "title": "Concurrent calls", "statement": "Any number of threads may call scan_for_text_ascii (hence scan_text), convert_utf8_to_utf32 and convert_utf8_to_utf16 at any time, also for the first time at the same time: on every schedule each call returns what it would return in a process with that thread alone; the processor is asked for its features at most once per function and no thread uses the detected width before it is stored; a thread waits only for another one that is detecting and can go on, and every call ends after at most four steps of its thread.", "quantifier": "every machine, number of threads, program of each thread (its calls may depend on its earlier results in any way), and schedule", "why_tests_cant": "The number of interleavings is infinite, and the interesting ones (several threads in their first call) happen once per process.", "anchors": ["src/libunicode/scan.cpp: scan_for_text_ascii", "src/libunicode/convert.cpp: convert_utf8_to_utf32, convert_utf8_to_utf16", "src/libunicode/simd_detector.cpp: max_simd_size"]}
{"id": "C77", "title": "One normalization form after another", "statement": "Normalizing an already normalized text gives one of the four forms of the original text, as listed in UAX #15: normalizing to g and then to f is the same as normalizing once to f, or, if g is a compatibility form, to the compatibility form with f's composition. In particular every form is idempotent and all forms agree on texts that were decomposed before.", "quantifier": "every pair of normalization forms and every text", "why_tests_cant": "sixteen pairs of forms over all texts; violations need particular sequences of marks and starters that no sample contains", "anchors": ["src/libunicode/normalization.cpp:normalize", "src/libunicode/normalization.cpp:compose", "src/libunicode/normalization.h:normalize"]}
{"id": "C78", "title": "Well-formed text stays well-formed", "statement": "The text functions never produce ill-formed text from well-formed text: upper casing, lower casing, title casing, case folding and the four normalization forms map texts of Unicode scalar values to texts of Unicode scalar values; their UTF-8 overloads succeed on every well-formed UTF-8 string and return well-formed UTF-8; and at every point of a stream of well-formed UTF-8 that was cut into chunks anywhere, what the streaming normalizer has returned, and what flush returns then, is well-formed UTF-8.", "quantifier": "every text of scalar values / well-formed UTF-8 string, every CPU, every normalization form, every history of chunks, and every data table whose mapping targets are scalar values", "why_tests_cant": "the arithmetic of Hangul composition, the recursive mappings and the decoder state between chunks must be right for every text and every cut", "anchors": ["src/libunicode/case_mapping.cpp:to_uppercase", "src/libunicode/case_mapping.cpp:to_titlecase", "src/libunicode/normalization.cpp:normalize", "src/libunicode/normalization.cpp:try_compose", "src/libunicode/normalization.cpp:utf8_normalizer"]}
{"id": "C79", "title": "A text can be processed line by line", "statement": "Processing the lines of a text (each with its line end) one after the other gives the same as processing the text: the grapheme clusters, the word segments, the title-cased text, the columns and the normalization forms of a text are those of its lines, put together. In particular, clusters and words never cross a control character or a line end, except that CR LF is one piece, and what is in one line has no influence on the next.", "quantifier": "every text, every division into lines at control characters or line ends (not between CR and LF), every character database; for normalization every table in which the line end has class 0, no decomposition and is in no composition, and every form", "why_tests_cant": "the word segmenter keeps its state from word to word and looks ahead over any number of marks, and normalization moves and composes characters over any distance: that nothing gets past a line end is a statement about all texts", "anchors": ["src/libunicode/grapheme_segmenter.cpp:grapheme_process_breakable", "src/libunicode/word_segmenter.cpp:word_process_breakable", "src/libunicode/case_mapping.cpp:to_titlecase", "src/libunicode/width.cpp:grapheme_cluster_width", "src/libunicode/normalization.cpp:compose"]}
{"id": "C80", "title": "Text that arrives later changes only the end", "statement": "When text is appended to a text that has been segmented already, all of its grapheme clusters but the last, all of its word segments but the last two, and all of its script runs but the last stay exactly as they are; the last cluster and the last but one word are kept or continued, the last run gets no shorter. All of its emoji and text segments but the last two stay, the last but one is kept or continued; and every run of the run segmenter that stops in front of the last emoji or text segment, and no later than the last script run begins, stays with its borders, script and presentation. The titlecase of everything in front of the last word segment is final. What is in front of a starter that combines with nothing before it is normalized the same, whatever follows.", "quantifier": "every text, every text appended to it, every character database, script data and normalization table", "why_tests_cant": "the word rules look ahead over any number of marks and the script of a run can be decided by a character arbitrarily far behind its beginning; how far back a later character can reach is a statement about all texts", "anchors": ["src/libunicode/grapheme_segmenter.h:grapheme_segmenter", "src/libunicode/word_segmenter.cpp:word_process_breakable", "src/libunicode/word_segmenter.h:word_segmenter", "src/libunicode/script_segmenter.cpp:consume", "src/libunicode/normalization.cpp:normalize", "src/libunicode/emoji_segmenter.cpp:emoji_segmenter", "src/libunicode/emoji_presentation_scanner.c:scan_emoji_presentation", "src/libunicode/run_segmenter.h:basic_run_segmenter"]}
{"id": "C81", "title": "Word segments consist of whole grapheme clusters", "statement": "A border between two word segments is a border between two grapheme clusters, so that each word segment is a row of whole clusters, for every character database in which line ends are control characters, marks of clusters are ignored by the word rules, and Hangul and conjunct consonants are letters. The only exceptions are a border behind a Prepend character, one in front of a spacing mark that the word rules do not ignore (Thai sara am), and one in front of a flag half in a row of them directly behind a mark or a Prepend; each of them really occurs.", "quantifier": "every text, every position in it, every character database as described", "why_tests_cant": "the word rules look across any number of marks and flag halves and the cluster rules count flag halves from the left; whether the two can get out of step is a statement about all texts", "anchors": ["src/libunicode/word_segmenter.cpp:word_process_breakable", "src/libunicode/word_segmenter.h:word_segmenter", "src/libunicode/grapheme_segmenter.cpp:grapheme_process_breakable", "src/libunicode/grapheme_segmenter.h:grapheme_segmenter"]}
{"id": "C82", "title": "Runs and grapheme clusters", "statement": "A run of the script segmenter, and so of the run segmenter, does not end inside a grapheme cluster, provided that inside each cluster a character with a script of its own can be written in every script of some such character before it in the cluster.", "quantifier": "every text, every character database, script data without extensions of Common and Inherited characters, every assignment of emoji categories", "why_tests_cant": "how far a script run extends depends on all characters before; that its end never falls between a letter and its marks is a statement about all texts", "anchors": ["src/libunicode/script_segmenter.cpp:consume", "src/libunicode/run_segmenter.h:basic_run_segmenter", "src/libunicode/emoji_segmenter.cpp:emoji_segmenter", "src/libunicode/grapheme_segmenter.h:grapheme_segmenter"]}
{"id": "C83", "title": "Appending text takes no columns back", "statement": "Appending characters to a text without the text presentation selector U+FE0E never makes the text narrower, and makes it wider by at most two columns for each character appended. With the selector it does: a watch is two columns wide, a watch with U+FE0E one.", "quantifier": "every UTF-8 text, every continuation of it without U+FE0E, every character database whose widths are as in the UCD, every read-ahead", "why_tests_cant": "the continuation can extend the last cluster and change its width; that nothing is lost for any text and any continuation is a statement about all pairs of texts", "anchors": ["src/libunicode/width.cpp:width", "src/libunicode/grapheme_segmenter.h:grapheme_segmenter", "src/libunicode/width.cpp:grapheme_cluster_width"]}
{"id": "C84", "title": "Pieces cut out at borders are segmented the same on their own", "statement": "A piece of a text that begins and ends at borders between grapheme clusters has, segmented on its own, exactly the clusters the text has there; the same holds for word segments. So the columns of a text are the sum of the columns of the two parts when it is cut between clusters, and title-casing the two parts of a text cut between words gives the titlecase of the text. At other places this is false: flags pair up anew, and a word falls apart.", "quantifier": "every text, every row of consecutive clusters or word segments in it, every character database (for words: characters the word rules ignore are not pictographs), every read-ahead", "why_tests_cant": "the word rules look ahead across any number of ignored characters and both segmenters count flag halves from the left; that a border shields the piece from everything outside is a statement about all texts and all borders", "anchors": ["src/libunicode/grapheme_segmenter.h:grapheme_segmenter", "src/libunicode/grapheme_segmenter.cpp:grapheme_process_breakable", "src/libunicode/word_segmenter.h:word_segmenter", "src/libunicode/word_segmenter.cpp:word_process_breakable", "src/libunicode/width.cpp:grapheme_cluster_width", "src/libunicode/case_mapping.cpp:to_titlecase"]}
