import Verif.Model.TgCaseNorm
import Verif.Model.TgEnums
import Verif.Model.Tables
/-!
# Model of the text the generator writes

`tablegen/multistage_generator.cpp`, `case_norm_generator.cpp`, `ucd_api_generator.cpp`, `enum_generator.cpp`: the characters
of the definitions in the generated source files.  The other models of these files (TgRecords, TgCaseNorm, TgApi, TgEnums)
stop at the values that are to be written; here is the formatting.
-/

namespace Verif.Tg

/-! ## Numbers and texts -/

/-- an upper case digit of `{:X}` (and a decimal digit) -/
def upDigit (v : Nat) : Char := Char.ofNat (if v < 10 then 48 + v else 55 + v)

/-- The digits of `n` in base `b`, most significant first; `fuel` bounds their number (`n + 1` suffices). -/
def numText (b : Nat) : Nat → Nat → Str
  | 0, _ => []
  | fuel + 1, n => if n < b then [upDigit n] else numText b fuel (n / b) ++ [upDigit (n % b)]

/-- `{}` and `<<` of an unsigned number -/
def dec (n : Nat) : Str := numText 10 (n + 1) n

/-- padding on the left: `std::setw`, and the width in a format -/
def fill (c : Char) (w : Nat) (s : Str) : Str := List.replicate (w - s.length) c ++ s

/-- `0x{:04X}` -/
def cp (n : Nat) : Str := "0x".toList ++ fill '0' 4 (numText 16 (n + 1) n)

/-- `binstr`: multistage_generator.cpp:287-294. -/
def binstr (n : Nat) : Str := "0b".toList ++ [7, 6, 5, 4, 3, 2, 1, 0].map fun i => if n / 2 ^ i % 2 ≠ 0 then '1' else '0'

/-- a comment at the end of a line: ` // {}\n` -/
def remark (s : Str) : Str := " // ".toList ++ s ++ "\n".toList

/-- a line with nothing but a comment: `// {}\n` -/
def remarkLine (s : Str) : Str := "// ".toList ++ s ++ "\n".toList

/-! ## multistage_generator.cpp -/

/-- `minimumUintType`: multistage_generator.cpp:296-307.  (`max_element` of an empty vector is undefined; the generator only
passes tables with at least one element.) -/
def minimumUintType (values : List Nat) : Str :=
  let v := values.foldl max 0
  if v ≤ 0xFF then "uint8_t".toList
  else if v ≤ 0xFFFF then "uint16_t".toList
  else if v ≤ 0xFFFFFFFF then "uint32_t".toList
  else "uint64_t".toList

/-- One pass of the loop: multistage_generator.cpp:318-325. -/
def cxxElement (commentOnBlock : Bool) (i v : Nat) : Str :=
  (if i % 16 = 0 then "\n    ".toList else []) ++
  (if commentOnBlock ∧ i % 256 = 0 then "// block number: ".toList ++ dec (i / 256) ++ "\n    ".toList else []) ++
  fill ' ' 4 (dec v) ++ ",".toList

/-- The loop of `writeCxxTable`, from index `i` on: multistage_generator.cpp:318-325. -/
def cxxElements (commentOnBlock : Bool) : Nat → List Nat → Str
  | _, [] => []
  | i, v :: vs => cxxElement commentOnBlock i v ++ cxxElements commentOnBlock (i + 1) vs

/-- `writeCxxTable`, the part written to `impl`: multistage_generator.cpp:309-327. -/
def writeCxxTable (table : List Nat) (name : Str) (commentOnBlock : Bool) : Str :=
  "std::array<".toList ++ (minimumUintType table ++ (", ".toList ++ (dec table.length ++ ("> const ".toList ++ (name ++ (" {".toList ++
  (cxxElements commentOnBlock 0 table ++ "\n};\n\n".toList)))))))

/-- `!rec.flags ? "0" : binstr(rec.flags)`: multistage_generator.cpp:691-692. -/
def flagsText (n : Nat) : Str := if n = 0 then "0".toList else binstr n

/-- One line of the table of properties: multistage_generator.cpp:691-701. -/
def propertyRow (e : Emitted) : Str :=
  "    {".toList ++ (dec e.width ++ (", ".toList ++ (flagsText e.flags ++ (", ".toList ++ (flagsText e.flags2 ++ (", Script::".toList ++
  (e.script ++ (", Grapheme_Cluster_Break::".toList ++ (e.gcb ++ (", East_Asian_Width::".toList ++ (e.eaw ++
  (", General_Category::".toList ++ (e.gc ++ (", EmojiSegmentationCategory::".toList ++ (e.esc ++ (", Age::".toList ++ (e.age ++
  (", Indic_Conjunct_Break::".toList ++ (e.incb ++ (", Word_Break::".toList ++ (e.wb ++ "},\n".toList)))))))))))))))))))))

/-- The table of properties (stage 3): multistage_generator.cpp:686-703. -/
def writeProperties (rows : List Emitted) : Str :=
  "std::array<codepoint_properties, ".toList ++ (dec rows.length ++ ("> const properties{{\n".toList ++
  (rows.flatMap propertyRow ++ "}};\n\n".toList)))

/-- The table of names (stage 3): multistage_generator.cpp:720-725. -/
def writeNames (names : List Str) : Str :=
  "std::array<std::string_view, ".toList ++ (dec names.length ++ ("> const names_stage3{{\n".toList ++
  (names.flatMap (fun n => "    ".toList ++ ("\"".toList ++ (n ++ ("\"".toList ++ ("sv".toList ++ ",\n".toList))))) ++ "}};\n\n".toList)))

/-- `codepoint_properties_data.cpp` between `namespace … {` and its end: multistage_generator.cpp:682-703. -/
def propertiesBody (stage1 stage2 : List Nat) (rows : List Emitted) : Str :=
  writeCxxTable stage1 "stage1".toList false ++ (writeCxxTable stage2 "stage2".toList true ++ writeProperties rows)

/-- `codepoint_properties_names.cpp` between `namespace … {` and its end: multistage_generator.cpp:717-725. -/
def namesBody (stage1 stage2 : List Nat) (names : List Str) : Str :=
  writeCxxTable stage1 "names_stage1".toList false ++ (writeCxxTable stage2 "names_stage2".toList true ++ writeNames names)

/-! ## case_norm_generator.cpp -/

/-- The loops over the sorted items with `comma = (i < size - 1) ? "," : ""`: case_norm_generator.cpp:43-51 and its like.  The
text of a row is `body`, the comma, `tail`. -/
def commaRows {α : Type} (body tail : α → Str) : List α → Str
  | [] => []
  | [x] => body x ++ tail x
  | x :: y :: r => body x ++ (",".toList ++ (tail x ++ commaRows body tail (y :: r)))

/-- `inline constexpr std::array<{elem}, {n}> {name} {{{{\n`, the elements, and `}};\n` -/
def constexprArray (elem name : Str) (n : Nat) (elements : Str) : Str :=
  "inline constexpr std::array<".toList ++ (elem ++ (", ".toList ++ (dec n ++ ("> ".toList ++ (name ++ (" {{\n".toList ++
  (elements ++ "}};\n".toList)))))))

def simpleName (name : Str) : Str := "simple_".toList ++ name ++ "_table".toList

/-- the comment of a row: case_norm_generator.cpp:47 -/
def printable (src : Nat) : Str := if 0x20 ≤ src ∧ src < 0x7F then [Char.ofNat src] else []

def pairText : Str := "std::pair<char32_t, char32_t>".toList

/-- `writeSimpleCaseTable`: case_norm_generator.cpp:33-53. -/
def writeSimpleCaseTable (m : List (Nat × Nat)) (name : Str) : Str :=
  remarkLine ("Simple ".toList ++ name ++ " mappings: source -> target".toList) ++
  (remarkLine ("Total entries: ".toList ++ dec (writeMap m).length) ++
  constexprArray pairText (simpleName name) (writeMap m).length
    (commaRows (fun e => "    { ".toList ++ (cp e.1 ++ (", ".toList ++ (cp e.2 ++ " }".toList)))) (fun e => remark (printable e.1)) (writeMap m)))

def fullEntryName (name : Str) : Str := "full_".toList ++ name ++ "_entry".toList
def fullName (name : Str) : Str := "full_".toList ++ name ++ "_table".toList

/-- One row: case_norm_generator.cpp:77-83.  The three numbers are `padded[0]`, `padded[1]`, `padded[2]`. -/
def fullRow (e : FullEntry) : Str :=
  "    { ".toList ++ (cp e.source ++ (", { ".toList ++ (cp (e.targets.getD 0 0) ++ (", ".toList ++ (cp (e.targets.getD 1 0) ++
  (", ".toList ++ (cp (e.targets.getD 2 0) ++ (" }, ".toList ++ (dec e.length ++ " }".toList)))))))))

/-- `writeFullCaseTable`: case_norm_generator.cpp:55-86. -/
def writeFullCaseTable (m : List (Nat × List Nat)) (name : Str) : Str :=
  remarkLine ("Full ".toList ++ name ++ " mappings: source -> [target1, target2, target3]".toList) ++
  (remarkLine ("Total entries: ".toList ++ dec (writeFull m).length) ++
  ("struct ".toList ++ (fullEntryName name ++ (" {\n".toList ++ ("    char32_t source;\n".toList ++ ("    char32_t targets[3];\n".toList ++
  ("    uint8_t length;\n".toList ++ ("};\n\n".toList ++
  constexprArray (fullEntryName name) (fullName name) (writeFull m).length (commaRows fullRow (fun _ => "\n".toList) (writeFull m))))))))))

/-- `writeCccTable`: case_norm_generator.cpp:88-104. -/
def writeCccTable (m : List (Nat × Nat)) : Str :=
  remarkLine "Canonical Combining Class entries for non-zero CCC values".toList ++
  (remarkLine ("Total entries: ".toList ++ dec (writeMap m).length) ++
  constexprArray "std::pair<char32_t, uint8_t>".toList "ccc_table".toList (writeMap m).length
    (commaRows (fun e => "    { ".toList ++ (cp e.1 ++ (", ".toList ++ (dec e.2 ++ " }".toList)))) (fun _ => "\n".toList) (writeMap m)))

/-- numbers separated by `, `: case_norm_generator.cpp:141-146 -/
def cpList : List Nat → Str
  | [] => []
  | [x] => cp x
  | x :: y :: r => cp x ++ (", ".toList ++ cpList (y :: r))

/-- `maxLen`: case_norm_generator.cpp:116-118, 229-231 -/
def maxLen (l : List (Nat × Decomp)) : Nat := l.foldl (fun a e => max a e.2.targets.length) 4

/-- `canonical` and `compat`: case_norm_generator.cpp:109-113, 222-226 -/
def ofKind (canonical : Bool) (m : List (Nat × Decomp)) : List (Nat × Decomp) := m.filter fun e => isCanonical e.2 = canonical

/-- One row: case_norm_generator.cpp:138-147. -/
def decompRow (w : Nat) (e : Nat × Decomp) : Str :=
  "    { ".toList ++ (cp e.1 ++ (", { ".toList ++ (cpList (pad w e.2.targets) ++ (" }, ".toList ++ (dec e.2.targets.length ++ " }".toList)))))

/-- `writeDecompositionTable`: case_norm_generator.cpp:106-150. -/
def writeDecompositionTable (m : List (Nat × Decomp)) : Str :=
  remarkLine "Canonical decomposition mappings".toList ++
  (remarkLine ("Total entries: ".toList ++ dec (ofKind true m).length ++ ", max length: ".toList ++ dec (maxLen (ofKind true m))) ++
  ("struct canonical_decomposition_entry {\n    char32_t source;\n    char32_t targets[".toList ++ (dec (maxLen (ofKind true m)) ++
  ("];\n    uint8_t length;\n};\n\n".toList ++
  constexprArray "canonical_decomposition_entry".toList "canonical_decomposition_table".toList (ofKind true m).length
    (commaRows (decompRow (maxLen (ofKind true m))) (fun _ => "\n".toList) (ofKind true m))))))

/-- `decompositionTypeOrdinal`: case_norm_generator.cpp:195-217. -/
def decompositionTypeOrdinal (type : Str) : Nat :=
  if type = "circle".toList then 1
  else if type = "compat".toList then 2
  else if type = "final".toList then 3
  else if type = "font".toList then 4
  else if type = "fraction".toList then 5
  else if type = "initial".toList then 6
  else if type = "isolated".toList then 7
  else if type = "medial".toList then 8
  else if type = "narrow".toList then 9
  else if type = "noBreak".toList then 10
  else if type = "small".toList then 12
  else if type = "square".toList then 13
  else if type = "sub".toList then 14
  else if type = "super".toList then 15
  else if type = "vertical".toList then 16
  else if type = "wide".toList then 17
  else 2

/-- One row: case_norm_generator.cpp:254-263. -/
def compatRow (w : Nat) (e : Nat × Decomp) : Str :=
  "    { ".toList ++ (cp e.1 ++ (", { ".toList ++ (cpList (pad w e.2.targets) ++ (" }, ".toList ++ (dec e.2.targets.length ++ (", ".toList ++
  (dec (decompositionTypeOrdinal e.2.type) ++ " }".toList)))))))

/-- `writeCompatibilityDecompositionTable`: case_norm_generator.cpp:219-266. -/
def writeCompatibilityTable (m : List (Nat × Decomp)) : Str :=
  remarkLine "Compatibility decomposition mappings".toList ++
  (remarkLine ("Total entries: ".toList ++ dec (ofKind false m).length ++ ", max length: ".toList ++ dec (maxLen (ofKind false m))) ++
  ("struct compatibility_decomposition_entry {\n    char32_t source;\n    char32_t targets[".toList ++ (dec (maxLen (ofKind false m)) ++
  ("];\n    uint8_t length;\n    uint8_t decomp_type; // maps to Decomposition_Type enum ordinal\n};\n\n".toList ++
  constexprArray "compatibility_decomposition_entry".toList "compatibility_decomposition_table".toList (ofKind false m).length
    (commaRows (compatRow (maxLen (ofKind false m))) (fun _ => "\n".toList) (ofKind false m))))))

/-- `writeCompositionTable`: case_norm_generator.cpp:152-193; `tab` is the sorted vector (see `WrittenCompositions`). -/
def writeCompositionTable (tab : List Tables.Comp) : Str :=
  remarkLine "Canonical composition pairs (first + second -> composed)".toList ++
  (remarkLine ("Total entries: ".toList ++ dec tab.length) ++
  ("struct composition_pair {\n    char32_t first;\n    char32_t second;\n    char32_t composed;\n};\n\n".toList ++
  constexprArray "composition_pair".toList "composition_table".toList tab.length
    (commaRows (fun c => "    { ".toList ++ (cp c.first ++ (", ".toList ++ (cp c.second ++ (", ".toList ++ (cp c.composed ++ " }".toList))))))
      (fun _ => "\n".toList) tab)))

def qcName (name : Str) : Str := name ++ "_table".toList

/-- The lines of eight codepoints: case_norm_generator.cpp:277-291.  `fuel` bounds the number of lines. -/
def qcLines : Nat → List Nat → Str
  | 0, _ => []
  | _ + 1, [] => []
  | fuel + 1, l =>
    "    ".toList ++ (cpList (l.take 8) ++ ((if 8 < l.length then ",".toList else []) ++ ("\n".toList ++ qcLines fuel (l.drop 8))))

/-- `writeQuickCheckTable`: case_norm_generator.cpp:268-293. -/
def writeQuickCheckTable (cps : List Nat) (name : Str) : Str :=
  remarkLine (name ++ " codepoints".toList) ++
  (remarkLine ("Total entries: ".toList ++ dec cps.length) ++
  constexprArray "char32_t".toList (qcName name) cps.length (qcLines cps.length cps))

/-- The tables of `case_normalization_data.h`, in order, each followed by an empty line: between `// clang-format off` and
`// clang-format on`, case_norm_generator.cpp:317-362. -/
def caseNormTexts (u : Ud) (f : Folds) (s : Special) (q : Qc) (comp : List Tables.Comp) : List Str :=
  [writeSimpleCaseTable u.upper "uppercase".toList,
   writeSimpleCaseTable u.lower "lowercase".toList,
   writeSimpleCaseTable u.title "titlecase".toList,
   writeSimpleCaseTable f.simple "casefold".toList,
   writeFullCaseTable s.upper "uppercase".toList,
   writeFullCaseTable s.lower "lowercase".toList,
   writeFullCaseTable s.title "titlecase".toList,
   writeFullCaseTable f.full "casefold".toList,
   writeCccTable u.ccc,
   writeDecompositionTable u.decomps,
   writeCompatibilityTable u.decomps,
   writeCompositionTable comp,
   writeQuickCheckTable q.nfcNo "nfc_qc_no".toList,
   writeQuickCheckTable q.nfcMaybe "nfc_qc_maybe".toList,
   writeQuickCheckTable q.nfkcNo "nfkc_qc_no".toList,
   writeQuickCheckTable q.nfkcMaybe "nfkc_qc_maybe".toList,
   writeQuickCheckTable q.nfdNo "nfd_qc_no".toList,
   writeQuickCheckTable q.nfkdNo "nfkd_qc_no".toList,
   writeQuickCheckTable q.excl "composition_exclusions".toList]

def caseNormBody (u : Ud) (f : Folds) (s : Special) (q : Qc) (comp : List Tables.Comp) : Str :=
  (caseNormTexts u f s q comp).flatMap fun t => t ++ "\n".toList

/-! ## enum_generator.cpp -/

/-- `minimalUint`: enum_generator.cpp:32-41. -/
def minimalUintText (maxValue : Nat) : Str :=
  if maxValue < 2 ^ 8 then "uint8_t".toList
  else if maxValue < 2 ^ 16 then "uint16_t".toList
  else if maxValue < 2 ^ 32 then "uint32_t".toList
  else "uint64_t".toList

/-- The loop of `writeEnumClass`, from index `i` on: enum_generator.cpp:53-54. -/
def enumLines : Nat → List Str → Str
  | _, [] => []
  | i, m :: ms => "    ".toList ++ (sanitize m ++ (" = ".toList ++ (dec i ++ (",\n".toList ++ enumLines (i + 1) ms))))

/-- `writeEnumClass`: enum_generator.cpp:50-56. -/
def writeEnumClass (d : EnumDef) : Str :=
  "enum class ".toList ++ (d.name ++ (": ".toList ++ (minimalUintText d.members.length ++ ("\n{\n".toList ++
  (enumLines 0 d.members ++ "};\n\n".toList)))))

/-- `ucd_enums.h` inside the namespace: enum_generator.cpp:239-240. -/
def enumsBody (enums : List EnumDef) : Str := enums.flatMap writeEnumClass

/-! ## ucd_api_generator.cpp -/

/-- ` // {{{` after the opening brace (`FOLD_OPEN`), ` // }}}` after the closing one -/
def foldOpen : Str := remark "{{{".toList
def foldClose : Str := remark "}}}".toList

/-- `auto {static }const {name} = std::array<{elem}, {n}>{{`, the rest of the line, the elements, the closing line:
ucd_api_generator.cpp:142-156, 172-179, 203-214, …  `indent` precedes the first and the last line. -/
def constArray (indent spec name elem : Str) (n : Nat) (open' : Str) (elements : Str) (close : Str) : Str :=
  indent ++ (spec ++ (" ".toList ++ (name ++ (" = std::array<".toList ++ (elem ++ (", ".toList ++ (dec n ++ (">{".toList ++ (open' ++
  (elements ++ (indent ++ ("};".toList ++ close))))))))))))

def autoStatic : Str := "auto static const".toList

/-- A table of intervals with comments: ucd_api_generator.cpp:172-179, 230-237, 489-497. -/
def writeIntervals (name : Str) (rows : List (PRange × Str)) : Str :=
  constArray [] autoStatic name "Interval".toList rows.length foldOpen
    (rows.flatMap fun r => "    Interval{ ".toList ++ (cp r.1.first ++ (", ".toList ++ (cp r.1.last ++ (" },".toList ++ remark r.2))))) foldClose

/-- The table of `Bidi_Mirrored`: ucd_api_generator.cpp:527-532. -/
def writeMirrored (rows : List (Nat × Nat)) : Str :=
  constArray [] autoStatic "Bidi_Mirrored".toList "Interval".toList rows.length foldOpen
    (rows.flatMap fun r => "    Interval{ ".toList ++ (cp r.1 ++ (", ".toList ++ (cp r.2 ++ " },\n".toList)))) foldClose

/-- The table of `Bidi_Mirroring_Glyph`: ucd_api_generator.cpp:534-542. -/
def writeGlyphs (rows : List (Nat × Nat)) : Str :=
  constArray [] autoStatic "Bidi_Mirroring_Glyph".toList pairText rows.length foldOpen
    (rows.flatMap fun r => "    ".toList ++ (pairText ++ ("{ ".toList ++ (cp r.1 ++ (", ".toList ++ (cp r.2 ++ " },\n".toList)))))) foldClose

/-- One element of a table of ranges with a value: `{elem} {{ {{ 0x…, 0x… }}, {scope}{value} }},` and the rest of the line. -/
def propRow (indent elem scope : Str) (first last : Nat) (value tail : Str) : Str :=
  indent ++ (elem ++ (" { { ".toList ++ (cp first ++ (", ".toList ++ (cp last ++ (" }, ".toList ++ (scope ++ (value ++ (" },".toList ++ tail)))))))))

/-- `// Plane {number}` and the short name: ucd_api_generator.cpp:150-153. -/
def planeRemark (number : Nat) (shortName : Str) : Str :=
  if shortName = [] then remark ("Plane ".toList ++ dec number) else remark ("Plane ".toList ++ dec number ++ " ".toList ++ shortName)

/-- The table of planes: ucd_api_generator.cpp:135-158; a row is the range, the plane's number and its short name. -/
def writePlanes (rows : List (PRange × Nat × Str)) : Str :=
  constArray "    ".toList autoStatic "Plane".toList "Prop<::unicode::Plane>".toList rows.length foldOpen
    (rows.flatMap fun r => propRow "        ".toList "Prop<::unicode::Plane>".toList "unicode::Plane::".toList r.1.first r.1.last (sanitize r.1.property)
      (planeRemark r.2.1 r.2.2)) foldClose

/-- The table of general categories: ucd_api_generator.cpp:203-217. -/
def writeGcTable (rows : List (PRange × Str)) : Str :=
  constArray [] "auto const".toList "General_Category".toList "Prop<::unicode::General_Category>".toList rows.length "\n".toList
    (rows.flatMap fun r => propRow "    ".toList "Prop<::unicode::General_Category>".toList "::unicode::General_Category::".toList r.1.first r.1.last
      r.1.property (remark r.2)) "\n".toList

/-- The table of scripts: ucd_api_generator.cpp:284-299. -/
def writeScripts (rows : List (PRange × Str)) : Str :=
  constArray [] autoStatic "Script".toList "Prop<unicode::Script>".toList rows.length foldOpen
    (rows.flatMap fun r => propRow "    ".toList "Prop<unicode::Script>".toList "unicode::Script::".toList r.1.first r.1.last r.1.property
      (remark r.2)) foldClose

/-- The table of blocks: ucd_api_generator.cpp:365-382. -/
def writeBlocks (rows : List PRange) : Str :=
  constArray [] autoStatic "Block".toList "Prop<::unicode::Block>".toList rows.length foldOpen
    (rows.flatMap fun r => propRow "    ".toList "Prop<::unicode::Block>".toList "::unicode::Block::".toList r.first r.last (sanitize r.property)
      "\n".toList) "\n".toList

def breakElem (group : Str) : Str := "Prop<::unicode::".toList ++ (group ++ ">".toList)
def breakScope (group : Str) : Str := "::unicode::".toList ++ (group ++ "::".toList)

/-- A table of grapheme break properties: ucd_api_generator.cpp:391-411. -/
def writeBreaks (group : Str) (rows : List (PRange × Str)) : Str :=
  constArray [] autoStatic group (breakElem group) rows.length foldOpen
    (rows.flatMap fun r => propRow "    ".toList (breakElem group) (breakScope group) r.1.first r.1.last r.1.property (remark r.2)) foldClose

/-- One array of scripts: ucd_api_generator.cpp:326-333. -/
def writeSceArray (key : Str) (scripts : List Str) : Str :=
  constArray [] autoStatic key "unicode::Script".toList scripts.length "\n".toList
    (scripts.flatMap fun s => "    unicode::Script::".toList ++ (s ++ ",\n".toList)) "\n\n".toList

/-- All arrays of scripts: ucd_api_generator.cpp:315-334. -/
def writeSceArrays (al : List (Str × Str)) (sce : List MRange) : Str :=
  (sceArrays al sce []).flatMap fun a => writeSceArray a.1 a.2

def sceElem : Str := "Prop<std::pair<unicode::Script const*, std::size_t>>".toList

/-- One row of the table of script extensions: ucd_api_generator.cpp:344-350. -/
def sceRow (r : MRange × Str) : Str :=
  "    ".toList ++ (sceElem ++ (" { { ".toList ++ (cp r.1.first ++ (", ".toList ++ (cp r.1.last ++ (" }, { ".toList ++ (sceKey r.1.props ++
  (".data(), ".toList ++ (sceKey r.1.props ++ (".size() } },".toList ++ remark r.2))))))))))

/-- The table of script extensions: ucd_api_generator.cpp:336-352. -/
def writeSce (rows : List (MRange × Str)) : Str :=
  "static const std::array<".toList ++ (sceElem ++ (", ".toList ++ (dec rows.length ++ ("> sce { {\n".toList ++
  (rows.flatMap sceRow ++ "} };\n".toList)))))

/-- `MergedRange`: ucd_api_generator.cpp:34-42. -/
structure Merged where
  range : PRange
  comments : List Str
  count : Nat
deriving DecidableEq, Repr

/-- `0x{:04X} .. 0x{:04X}: {}`: ucd_api_generator.cpp:57-66. -/
def rangeComment (first last : Nat) (c : Str) : Str := cp first ++ " .. ".toList ++ cp last ++ ": ".toList ++ c

/-- `mergeRanges` with the comments and the count: ucd_api_generator.cpp:44-81. -/
def mergeTextFrom (cur : Merged) : List (PRange × Str) → List Merged
  | [] => [cur]
  | r :: rs =>
    if cur.range.last + 1 = r.1.first ∧ cur.range.property = r.1.property then
      mergeTextFrom
        { range := { cur.range with last := r.1.last }
          comments :=
            (if cur.comments.length = 1 then cur.comments.map (rangeComment cur.range.first cur.range.last) else cur.comments) ++
              (if cur.comments ≠ [] then [rangeComment r.1.first r.1.last r.2] else [])
          count := cur.count + 1 } rs
    else cur :: mergeTextFrom ⟨r.1, [r.2], 1⟩ rs

def mergeText : List (PRange × Str) → List Merged
  | [] => []
  | r :: rs => mergeTextFrom ⟨r.1, [r.2], 1⟩ rs

/-- the comments before an element: ucd_api_generator.cpp:462-464 -/
def eawBefore (m : Merged) : Str := if m.comments.length > 1 then m.comments.flatMap (fun c => "    ".toList ++ remarkLine c) else []

/-- the rest of the line: ucd_api_generator.cpp:471-475 -/
def eawAfter (m : Merged) : Str :=
  if m.count = 1 ∧ m.comments.length = 1 then remark (m.comments.headD [])
  else if m.count > 1 then remark ("#".toList ++ dec m.count)
  else "\n".toList

/-- The table of East Asian widths: ucd_api_generator.cpp:433-477. -/
def writeEaw (rows : List (PRange × Str)) : Str :=
  constArray [] autoStatic "EastAsianWidth".toList "Prop<::unicode::EastAsianWidth>".toList (mergeText rows).length foldOpen
    ((mergeText rows).flatMap fun m => eawBefore m ++
      propRow "    ".toList "Prop<::unicode::EastAsianWidth>".toList "::unicode::EastAsianWidth::".toList m.range.first m.range.last
        (widthName m.range.property) (eawAfter m)) foldClose

/-- The table in `make_age`: ucd_api_generator.cpp:581-603; the entries are in the order of their abbreviations already. -/
def writeAges (al : List (Str × Str)) : Str :=
  constArray "    ".toList "static constexpr auto".toList "mappings".toList "std::pair<std::string_view, Age>".toList
    (al.filter fun e => decide (e.2 ≠ "Unassigned".toList)).length "\n".toList
    ((al.filter fun e => decide (e.2 ≠ "Unassigned".toList)).flatMap fun e =>
      "        std::pair{ ".toList ++ ("\"".toList ++ (e.1 ++ ("\"".toList ++ ("sv".toList ++ (", Age::".toList ++ (e.2 ++ " },\n".toList)))))))
    "\n".toList

end Verif.Tg
