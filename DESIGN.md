# libunicode in Lean 4: design

## 1. Trusted base

* **Lean 4.33.0's kernel**, and Mathlib's sources as far as their theorems are used (they are re-checked by the same kernel).
* **Axioms**: every theorem named in MANIFEST.json depends on a subset of `propext`, `Classical.choice`, `Quot.sound`.
  `AXIOMS.md` (written by `tools/axioms.py` from `#print axioms`) lists the exact set per theorem. No axiom is declared, no
  compiled evaluation is used; `decide +kernel` (kernel reduction only) appears for concrete witnesses and for finite tables.
* **The model is hand written**. Each definition cites the file and lines it follows; section 3 lists what is and is not
  modelled. There is no extraction and no run of the C++ code (the sandbox has no dependencies).
* **The Unicode data** (`/repo` has no UCD files and no generated headers). Two layers deal with it:
  * run-time theorems (C01–C47) take the property table / mapping tables as a *parameter*; where a theorem needs a fact of the
    data, it is an explicit hypothesis (`DataOk`, `WidthOk`, `WordDataOk`, `StrongOk`, `TablesSorted`, `Ranked`, `CompOk`,
    `QcOk`, …) and an instance (`Verif.Toy`, `Spec/NormToy`, samples in the Props files) shows it satisfiable;
  * generator theorems (C48–C56) take the *text of the data files* as the parameter and derive the tables, so that the
    hypotheses on tables become hypotheses on files in the documented UCD format.

## 2. Conventions of the model

* Codepoints, bytes and code units are `Nat`; where C++ wraps or truncates, the model has an explicit `% 2^n`.
* Pointers are offsets or list suffixes. A read or write outside an object is an explicit outcome (`Verif.Utf8.Mem.oob`, or
  `none` for `std::out_of_range` / `throw`), so memory safety is a theorem and not an assumption.
* Loops are structural recursions or fuel recursions; for every fuel recursion a `*_terminates` theorem or an internal
  lemma shows that the supplied fuel suffices for every input.
* Vector code is modelled twice: per block (masks, movemask, countr_zero) with the block width as a parameter, which is what
  the other theorems use, and per instruction and address (Spec/Vector, Model/Simd); C57 proves the second refines to the first.
* Unstable `std::sort` is a relation: the theorems hold for **every** permutation that is sorted by the comparator.
  `std::unordered_map` iteration order and hash functions are likewise universally quantified.
* `Verif/Model/*` is the code. `Verif/Spec/*` is written from the English/Unicode definitions over the data types of the model (Spec/Norm also names program functions; Spec/NormFull defines the same notions without them and C27, C28, C32 relate the two).
  `Verif/Lemmas/*` are helpers. `Verif/Props/*` are the property theorems, each followed by an `example` with a concrete
  non-trivial instance of its hypotheses.
* Where the code does not have a property, the file states the full property as a `def Cnn_…  : Prop`, proves its negation
  (`Cnn_fails…`) and then proves the strongest true part (`…_partial`), usually together with an exact characterisation of
  what the code does on every input.

## 3. What is modelled

| /repo/src/libunicode | model | not modelled |
|---|---|---|
| utf8.h, utf8.cpp | Model/Utf8 | – |
| convert.h, convert.cpp, convert256/512.cpp, convert_simd_impl.h | Model/Convert, Model/Simd | the hardware itself (Spec/Vector is trusted); locale wide-char (`wchar_t` is one of the two other cases) |
| scan.h, scan.cpp, scan256/512.cpp, scan_simd_impl.h, intrinsics.h | Model/Scan, Model/Simd | same; `setzero`, `xor_*`, `greater`, `and_mask` (unused) |
| simd_detector.cpp | Model/SimdDetect (elsewhere the chosen width is a universally quantified parameter); Model/Threads: the local `static` variables that cache it, with any number of threads | the meaning of CPUID bits (Spec/Cpu is trusted); the machine code of a local `static` (its meaning, [stmt.dcl], is modelled); other data races (the library has no other variable it writes to that is shared) |
| grapheme_segmenter.h/.cpp, utf8_grapheme_segmenter.h | Model/Grapheme, Model/Utf8Grapheme, Model/Iterators | – |
| word_segmenter.h/.cpp | Model/Word, Model/Iterators | – |
| width.h/.cpp | Model/Width | – |
| script_segmenter.h/.cpp | Model/Script | – |
| emoji_segmenter.h/.cpp, emoji_presentation_scanner.c/.rl | Model/Emoji (the Ragel tables literally) | – |
| run_segmenter.h | Model/Run | – |
| support.h (fs_array) | Model/FsArray | exceptions' text |
| normalization.h/.cpp | Model/Norm, Model/Norm8 | – |
| case_mapping.h/.cpp | Model/Case | – |
| capi.h/.cpp | Model/Capi | allocation of the stream handle; invalid mode constants beyond 0/non-0 |
| codepoint_properties.h/.cpp, multistage_table_view.h, multistage_table_generator.h, ucd_private.h | Model/Ucd, Model/Tables, Model/TgNames, Model/Compiled | `assert`s of debug builds |
| codepoint_properties_loader.cpp (in no CMake target) | Model/Loader: width and emoji category; Model/LoaderFiles: `load_from_directory` up to the two vectors: the two regular expressions (as relations, Spec/Regex, with ECMAScript priorities), `process_properties`, the eight passes in order, the five value tables (compared with lists in Spec/LoaderValues), exceptions, out-of-bounds writes and non-termination | `create_multistage_tables` (passes a search function where multistage_table_generator.h expects a hasher, cannot compile as it stands); the progress messages and their timers |
| tablegen/ucd_parser.cpp | Model/TgParser, TgLoad, TgCaseNorm, TgDir (opening the files, `std::getline`) | read errors in the middle of a file; from which line a comment comes (only from which file); progress output |
| tablegen/multistage_generator.cpp, enum_utils.h | Model/TgRecords, TgNames, TgEmit (the text of the tables and enums), TgHeader (the text of the header), TgFiles (the files as a whole) | progress output |
| tablegen/ucd_api_generator.cpp | Model/TgApi, TgEmit, TgCode (the text of the functions), TgUcd (the files as a whole) | – |
| tablegen/case_norm_generator.cpp | Model/TgCaseNorm, TgEmit, TgFiles | – |
| tablegen/enum_generator.cpp | Model/TgRecords (age members, PVA members), TgEnums, TgEmit, TgCode (`operator<<`, formatters), TgFiles | – |
| tablegen/tablegen_main.cpp | Model/TgMain (arguments, exit code, which files are written), TgDir (runs from a directory of texts) | messages on the terminal |
| tools/uc-inspect.cpp | Model/Inspect | the usage text behind an unreachable branch; reading the file (a file is a list of bytes) |
| tools/unicode-query.cpp | Model/Query | the `assert` of `prettyAge`; the generated `operator<<` (parameters) |
| scoped_timer.h, benchmark.cpp, *_test.cpp | – | timing, tests |

## 4. Per property

| id | what is modelled | how it is proved |
|---|---|---|
| C01–C03 | `to_utf8`, `from_utf8` state machine and pointer overload | div/mod arithmetic per length class; induction on strings; spec = Table 3-7 |
| C04, C05 | same, arbitrary byte histories | exact invariant of the decoder state ("what was received"); the inductive reading `Reports` of a byte string, proved total and sound, so it characterises every report; negation witnesses for the leniencies |
| C06, C07 | UTF-16 encoder/decoder, `convert_to` | arithmetic + induction over well-formed strings |
| C08, C09 | block loop + scalar loop | induction on blocks; size bound by an invariant of the decoder state |
| C10 | iterator decoders with `oob` outcome | exact for every input: output and `oob` characterised by an independent division into pieces (Spec/IterReading); induction over the pieces |
| C11 | ASCII scan, all variants | block lemma (mask = first non-printable) + induction; spec = longest prefix |
| C12, C13, C44 | `scan_text` / bulk scanner | loop invariant for any state; histories of calls on one buffer for resumed calls (C13_one_buffer, C44_one_buffer); witnesses for the rest |
| C45 | repeated `scan_text` | byte machine that carries what the current call has counted for the open character (Lemmas/ScanTake): chunked and whole run go through the same states, counts compared codepoint by codepoint; exact count of every resumed call (C45_resumed); witness with VS15 |
| C46 | `scan_text` vs `grapheme_cluster_width` | composition of C16-style boundary facts and the width accumulator; C46_exact gives the exact count for every control-free text from an independent description of the scanner's borders (Spec/ScanBorder) |
| C14–C16 | GB rules as pair rules with state, incremental API | refinement against a direct statement of UAX #29; exact characterisation + witnesses |
| C17, C21 | UTF-8 grapheme iterator, width of text | refinement to the UTF-32 segmenter for arbitrary bytes |
| C18, C19 | word segmenter | refinement against WB rules with WB4 skipping |
| C20 | width accumulator | invariants of the accumulator over any cluster |
| C22 | script segmenter | invariant on the running candidate set |
| C23, C24 | Ragel tables + driver | language of the automaton = grammar: residual languages as a finite table, lifted by induction over words |
| C25 | run segmenter | induction on merged border lists |
| C26–C32 | normalization | sorting/permutation lemmas, well-founded recursion of decompositions (`Ranked`), composition invariant; full decomposition and primary composites are defined independently of the program (Spec/NormFull: replacement of codepoints by mappings in any order, exchanges in any order) and NFD/NFKD, both equivalences and the composites are proved to be exactly these |
| C33–C35, C42, C43 | case mapping | induction; binary search facts of C36 |
| C36, C37 | binary searches with explicit index arithmetic | interval invariant, memory safety |
| C38 | three-stage table generator and view | generator invariant (block index refers to an equal block); an if-and-only-if with the number of distinct blocks; witnesses of 8-bit truncation. Block equality is `memcmp`; equal to `==` for `codepoint_properties` (no padding, one-byte members), not for names (C53) |
| C39, C47 | C API and macros | induction; bit arithmetic |
| C40 | fs_array | invariant over operation sequences; refinement to a bounded list; element access (`at`, `front`, `back`) |
| C41 | loader vs generator width/emoji decision logic | case analysis; witness U+00AD |
| C48 | line parser | exact inversion of the line grammar (`DataLine`) |
| C49, C50 | multistage_generator record building, age members | fold invariants over the entries; consistency of the files |
| C51 | case loaders, case_norm_generator | fold over lines in `std::map`s; composition with C33/C36 |
| C52 | normalization loaders, generator, composition sort | same; composition with C26–C31 |
| C53 | all other loaders, API generator, names table | file grammar ⇒ loader ⇒ written table ⇒ C36/C37 look-up; permutations and memcmp outcomes quantified |
| C54 | composition of the loaders with C49/C38 | `codepoint_properties` look-up as a function of the files |
| C55 | `collectEnums`, the printed headers (names, numbers, widths, cases) | exact set of enumerators from the files; uniqueness; everything the generated code mentions is declared |
| C56 | C54 + C55 + the segmenters on the compiled table | names determine enumerators; file conditions ⇒ the data hypotheses of C14, C18, C20, C22, C46 |
| C57 | registers as naturals, instructions of Spec/Vector, bounds-checked memory, fuel-checked loops | lane algebra by testBit; the NEON shift-add cascade by arithmetic; loop invariants |
| C58 | CPUID/XCR0 as functions, undefined instruction as an outcome | case analysis on the bits; composition with C57 |
| C59 | tools/uc-inspect.cpp over bytes, `isprint` a parameter | independent grammar of the escape notation (Spec/Escape), induction on the text; C14–C16 for the break column, C24/C25 for tables and blocks |
| C60 | tools/unicode-query.cpp over argument vectors, `char` signedness a parameter | same grammar; induction on digits for the numbers; C17 for clusters, C25 for runs; inductive definition of the option syntax |
| C61 | every table- and enum-writing function, over characters (Model/TgEmit) | independent grammar of C++ declarations: splices, comments, tokens, initialisers (Spec/Cxx); proved unambiguous; each writer by induction on its rows; composed with C54 |
| C62 | two successive `scan_text` calls | simulation: results depend on the state only through what a border in front of the first codepoint leaves of it; which codepoint the state remembers is tracked through all passes; then, at every place a call can stop, one of four things is known of the state (fresh, behind ASCII, no cluster begun, or the codepoint itself, which had no room); witness with Hangul jamo |
| C63 | calls on the receiver during one `scan_text` | loop invariant: columns handed over + columns of the open cluster = count; witnesses; exact (with C66) for every control-free text |
| C64 | the text of every generated function, over characters (Model/TgCode) | independent reader and evaluator of a subset of C++ (Spec/CxxFn); the text of each function read by induction on its cases; evaluation by lemmas per construct; composed with C61 (names in the text stand for the declared tables and enumerators) and C53 (files) |
| C65 | the header text over characters (Model/TgHeader), the tables of the multistage generator | independent grammar of `extern` declarations (Spec/CxxExtern), shown unambiguous; invariant of the generator: the third stage lists the distinct values once, the second stage holds exactly their indices |
| C66 | receiver calls, count and pointers of one `scan_text` | invariant over the characters of a pass (clusters placed, columns, bytes) and over the passes; whole texts by induction over the calls (greedy lines as an inductive relation); witness with a combining accent; `C66_exact`: Spec/ScanLine (glyphs and when they fit) is what the code does, by the same two inductions with the open glyph as invariant; `C66_until_control`: also with a control character and anything behind the text; lines written with one state: induction over the lines with the state of the segmenter as invariant (C62), for plain texts to the end of the text |
| C67 | `ucd.h` and `ucd.cpp` from the first to the last character: namespaces, declarations, definitions, their order | reading relation for whole files (Spec/CxxFile: block comment, directives, namespaces, pieces), shown unambiguous; composition lemma for stretches of text over a stack of namespaces; linking as a permutation of signatures |
| C68 | the other seven generated files from the first to the last character | the reading relation of C67; matching of enumerations, operators and formatters, and of declarations and definitions, position by position; name lookup (`Visible`) as a relation on pieces |
| C69 | `main` of the generator over a disk and an operating system that may refuse | the files as a function of the actions performed; induction over the actions; composed with C67 and C68; witness of the unnoticed failure |
| C70 | the texts of the 21 data files, `std::getline`, all loaders | the lines of a text as a relation (Spec/Lines); each loader's line function is shown blind to a final carriage return; folds over the lines; runs as a relation transported along it |
| C71 | a run of the program from the directory to the disk | composition of C70, C53 (the loaders accept), C55, C54, C68, C69; existence of a run with sorted permutations and comments constructed; a sample directory with DOS line ends; the same for `case_normalization_data.h` (C50–C52, C68) and the three files of enumerations (C55, C68); for `ucd.cpp` C67 (the parts of the file), C64 (what the functions do), C53 (what the tables say) and a construction of a program in which every name means what the files declare |
| C72 | the state a scan leaves in front of a control character, two calls | invariant of a pass over arbitrary bytes (consumed bytes are not ASCII, clusters and codepoints begin at bytes that are not C1); a simulation: what an idle decoder remembers has no effect on later calls; witnesses with a full line and with a chunk that begins with a line feed |
| C73 | the segmenter objects with their pointers; `++`, `*`, `bool`, `==`, `<<`, `it++` | after k increments the pointers are the offsets of pieces k and k+1 (induction on k); offsets are strictly increasing, so comparison of pointers is comparison of positions; for UTF-8 the decoder is always ahead of the pending codepoint |
| C74 | the run-time loader from the directory to its vectors of records and names | matching as a relation on characters with greedy priorities, decided by a proved-equal function; one line's effect as a relation to what the line says; each pass as a fold whose invariant is "this column is what the lines so far say, the other columns are unchanged"; passes composed; witnesses for the values that are not handled |
| C75 | loader and generator on one directory | both records are characterised by the same contents of the files (C74, C71); values are unique in a release; derived columns compared by cases; witnesses for the columns that differ |
| C76 | threads as programs that see only their own results; steps call / detect / store / pass / return; a local static is untouched, busy or holds a width | invariant over all schedules; progress by cases on the phase of the thread |
| C77 | two calls of `normalize`; a table of forms (UAX #15) | the decompositions of the first result are those of the table (composition_equiv with canonical decomposition on a compatibility-decomposed text), and composing forms compose decomposing ones |
| C78 | case mapping, normalization and the streaming normalizers over tables with scalar targets | every mapping target and every composition (also of Hangul, by arithmetic) is a scalar value; the conversions of C02/C03 carry this to bytes; a prefix of a UTF-8 stream decodes to a prefix of the text |
| C79 | grapheme and word segmenter, title case, width and normalization on texts cut at line ends | by induction over the segments: a cut at a control character always breaks, the word state and look-ahead see nothing behind it; canonical ordering and composition are split at an inert starter. NFC/NFKC: counterexample, and proved for lines that begin with a starter |
| C80 | grapheme, word, script, emoji and run segmenters and normalization on a text and its extensions | induction over the segments; a cut emoji token is followed by joiners or tags only (scanner automaton); runs are the merge of two segmentations that agree up to their border; more look-ahead can only remove a word border, and only in front of a character followed by ignored characters to the end, which are then one segment |
| C81 | word and grapheme segmenters (C18, C14 exact characterisations) | rule by rule: what keeps a cluster together keeps a word together, with the left context reduced by WB4; partitions whose borders are borders of another are groups of its parts |
| C82 | script and run segmenters against the grapheme segmenter | a border of two script runs is forced (C22); inside a coherent cluster the label of the run in front would fit, so it is not |
| C83 | width of UTF-8 text and its extensions | the clusters but the last stay (C80), the last is extended (C20_monotone), the others are bounded (C20_upper_bound) |
| C84 | grapheme and word segmenters on pieces of a text | a border resets the state; a word join that looked past a border would have joined there too (WB6/7, WB7b/c, WB11/12) |

## 5. Defects of the code found by the proofs

Each is a theorem about the model (a negation witness); the lines are in the theorem's comment.

1. NFC composition emits a mark that does not compose before its starter (C28_fails).
2. Hangul composition accepts U+11A7 as trailing consonant, dropping it (C28_fails_tbase, C30_fails).
3. Streaming NFD flushes at starters whose decomposition begins with a non-starter, e.g. U+0F73 (C30_fails).
4. Regional indicators: incremental grapheme API does not re-arm (C16_fails); Prepend + two RI is split (C14_fails_prepend_flag);
   GB11 with two ZWJ (C14_fails_double_zwj); the scanner counts flag halves separately behind other text (C46_fails_flag).
5. The incremental UTF-8 decoder accepts overlong forms, surrogates and non-continuation bytes, and swallows ASCII after a
   truncated sequence (C04_strict_fails, C05_resync_fails).
6. Iterator decoders read past the end on truncated input (C10_out_of_bounds).
7. `scan_text`: one column too many on invalid bytes (C12_fails), pointer outside the chunk and bytes lost for resumed calls
   (C13_fails_oob, C44_fails_resumed), a cut wide letter after a ZWJ swallowed at a limit of one column (C44_fails_small_limit), VS15 in a later chunk
   (C45_fails_vs15).
8. `u32u8_convert` refuses an exact-fit buffer (C39_fails_exact_fit); legacy width of empty text dereferences null
   (C39_fails_empty_legacy).
9. 8-bit stage-1/2 indices of the multistage generator truncate silently (C38_fails_*); codepoints above U+10FFFF get U+0000's
   properties (C38_fallback).
10. `utf8_grapheme_segmenter` yields an extra U+0000 for a truncated tail (C17_any_bytes states it).
11. fs_array: `resize(N)` is ignored, growing exposes stale cells (C40_resize_*).
12. `is_nfc`/`quick_check(NFC)` answer Yes for text that `to_nfc` changes (C31_fails_nfc).
13. Full_Composition_Exclusion lines never match, because the inline comment stays in the property name (C52_fails_full_exclusion).
14. `contains`/`search` on an empty table read out of bounds (C37_empty_oob).
15. The run-time loader's widths differ from the generator's (C41_fails_soft_hyphen).
16. SpecialCasing: a conditional line without comment is taken as unconditional (C51_fails_conditional_without_comment); four
    targets overrun the written entry (C51_fails_four_targets); an empty titlecase field does not default to uppercase
    (C51_fails_title_default).
17. Names: the `*` placeholder is kept (C53_fails_name_star), and since blocks of `std::string` objects are compared with
    `memcmp`, names beyond the BMP are those of c mod 0x10000 (C53_fails_name_supplementary).
18. If two abbreviations of one section of PropertyValueAliases.txt have the same long name, the generated enum declares the
    name twice and does not compile (C55_fails_shared_name).
19. The 128-bit conversion, chosen when no AVX2 is found, executes SSE4.1 instructions that are never detected: on x86-64
    processors without SSE4.1, 16 ASCII bytes raise an undefined instruction (C58_fails_sse41).
20. Harmless: `intrinsics<256>::equal` and `intrinsics<512>::equal` compare with the wrong all-ones patterns, `equal` is or'ed as
    a `bool`, and the scan advances by `sizeof(int)` instead of the block size. C57_scan_mask and C57_scan show why nothing
    follows from it but slowness.
21. uc-inspect: the offsets after a truncated sequence are one too large (C59_fails_offset); of two adjacent ESC bytes the second
    reaches the terminal raw (C59_fails_replace); flags behind other text are shown as breakable (C59_fails_break_column); a single
    argument is ignored and the standard input read instead (C59_single_argument_ignored).
22. unicode-query: the notation of `-e` is ambiguous, since it leaves backslashes alone (C60_fails_escaped); where `char` is signed, all
    text outside ASCII is shown in hexadecimal (C60_fails_unchanged); `U+100000000` is reported as U+0000 (C60_fails_overflow);
    the version of an unassigned codepoint is `nassigned` (C60_fails_unassigned_age); arguments that name no codepoint do not
    make the tool fail (C60_properties); `std::isprint` of a negative `char` is undefined behaviour.
23. The comment behind an entry of a simple case table is its character: a case mapping of the backslash would splice the next line
    into the comment and lose the next entry (C61_fails_backslash). No Unicode version has one.
24. scan_text: a cluster that does not fit leaves its first codepoint in the state, and the next call joins that codepoint to itself:
    a Hangul syllable of jamo that is wrapped to the next line is measured together with the character before it
    (C62_fails_hangul); a flag at the beginning of the next line falls apart, and a mark there takes a column (C62_fails_flag,
    C62_fails_mark). A combining mark behind ASCII text, and the bytes of a character cut by the end of a buffer, are handed
    to the receiver with the columns of the preceding character (C63_fails_mark, C63_fails_cut). A line may end between an
    ASCII letter and its combining mark (C66_fails_mark).
25. The generator declares the second stage with the smallest type that holds its numbers. With at most 256 different rows (or names)
    that is `uint8_t`, which cannot initialise the views' `uint16_t const*`: such a database generates sources that do not compile
    (`C65_views`, `C65_fails_small`). The full database has more of both.
26. The NAMESPACE argument of unicode_tablegen must be inside `unicode`: for any other the header names `codepoint_properties`, which is
    not visible there (`C68_visible_iff`, `C68_fails_namespace`). CMake passes `unicode::precompiled`.
27. unicode_tablegen never looks at the state of its output streams: it reports success although no file could be opened, or the disk is
    full (`C69_fails_unwritable`, `C69_fails_silently`).
28. scan_text does not reset its state when it stops at a C0 control character that it has not looked at, because the line is full or
    because the control character is the first byte of the chunk. A combining mark behind it is then told with the columns of the last
    character in front of it: `"a"`, `"\n"`, U+0301 (`C72_fails_full_line`, `C72_fails_chunk`).
29. `grapheme_segmenter` and `word_segmenter` compare equal to the end (and to a default-constructed segmenter) already at the last
    piece, and `operator bool` is false there: `while (seg) { use(*seg); ++seg; }` and `for (; seg != end; ++seg)` miss the last cluster or
    word (`C73_fails_last`). The loops in the repository test after using the piece and are not affected.
30. The run-time loader (codepoint_properties_loader.cpp) stores `Script::Invalid` for a script it does not know, cuts character
    names at the first hyphen ("HYPHEN-MINUS" becomes "HYPHEN"), never returns on a range that ends at FFFFFFFF and writes behind
    its vector for codepoints from 110000 (C74_fails_script, C74_fails_name, C74_fails_end, C74_fails_bounds).
31. The run-time loader and the generated tables differ on one directory: widths of Hangul jamo V/T, U+00AD and prepended format
    characters, and every column added later stays at its default (C75_fails_jamo, C75_fails_width, C75_fails_columns).
32. An emoji run of the run segmenter can end inside a grapheme cluster, in front of a mark that is not part of the emoji
    (C82_fails); appending U+FE0E to a wide emoji makes a text narrower (C83_fails).
33. Not theorems, noted while modelling: `u32_is_valid_codepoint` has unbalanced parentheses; `fs_array::at` checks the
    capacity, not the size; loadCompositionExclusions/loadDerivedNormalizationProps do not check range bounds; the BidiMirroring
    loader uses only the first codepoint of a range; PVA sections restart when a header repeats.

## 6. Testing the theorems

`seeded/LOG.jsonl` has one line per edit of the model (a wrong boundary, a missed case, a swapped argument, a dropped update)
made in a scratch copy: the definition, the edit, the claim, the theorems that failed and what was tightened. Survivors are
annotated (equivalent edit, or the theorem added because of it).
