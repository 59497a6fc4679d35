import Verif.Model.TgCode
import Verif.Model.TgApi
/-!
# The files `ucd.h` and `ucd.cpp` as a whole: tablegen/ucd_api_generator.cpp

The tables are those of Model/TgEmit, the functions those of Model/TgCode; here is everything between them, character by character:
the licence, the include lines, the namespaces, the declarations of the header.
-/

namespace Verif.Tg

/-- `licenseHeader`: enum_utils.h:28-41. -/
def licenseHeader : Str :=
  "/**\n".toList ++ (
  "* This file is part of the \"libunicode\" project\n".toList ++ (
  "*   Copyright (c) 2020-2021 Christian Parpart <christian@parpart.family>\n".toList ++ (
  "*\n".toList ++ (
  "* Licensed under the Apache License, Version 2.0 (the \"License\");\n".toList ++ (
  "* you may not use this file except in compliance with the License.\n".toList ++ (
  "*\n".toList ++ (
  "* Unless required by applicable law or agreed to in writing, software\n".toList ++ (
  "* distributed under the License is distributed on an \"AS IS\" BASIS,\n".toList ++ (
  "* WITHOUT WARRANTIES OR CONDITIONS OF ANY KIND, either express or implied.\n".toList ++ (
  "* See the License for the specific language governing permissions and\n".toList ++ (
  "* limitations under the License.\n".toList ++ (
  "*/\n".toList))))))))))))

/-- What `generateUcdApiFiles` takes from the parser: ucd_api_generator.cpp:137, 171, 201-202, 286, 310-311, 368, 391, 435, 483, 520-521,
569-588.  Maps are lists in the order of their keys; a range comes with its comment, a plane with its number and its short name. `ages`
is missing if the file of aliases has no section for the age. -/
structure UcdData where
  planes : List (PRange × Nat × Str)
  core : List (Str × List (PRange × Str))
  gcats : List (PRange × Str)
  gcMap : List (Str × List (PRange × Str))
  scripts : List (PRange × Str)
  sce : List (MRange × Str)
  scriptAliases : List (Str × Str)
  blocks : List PRange
  breaks : List (Str × List (PRange × Str))
  eaw : List (PRange × Str)
  emoji : List (Str × List (PRange × Str))
  mirrored : List (Nat × Nat)
  glyphs : List (Nat × Nat)
  ages : Option (List (Str × Str))

/-- The include lines of the header: ucd_api_generator.cpp:111-119. -/
def headerIncludes : Str := "#pragma once

#include <libunicode/ucd_enums.h>

#include <optional>
#include <span>
#include <string>
#include <string_view>
#include <utility>

".toList

/-- The include lines of the source: ucd_api_generator.cpp:127-135. -/
def sourceIncludes : Str := "
#include <libunicode/ucd.h>
#include <libunicode/ucd_private.h>

#include <algorithm>
#include <array>
#include <span>
#include <string_view>

".toList

/-- `namespace unicode {`: ucd_api_generator.cpp:121-124, 137-140. -/
def openUnicode : Str := "namespace unicode\n{\n\n".toList

/-- the last line: ucd_api_generator.cpp:615-616. -/
def closeUnicode : Str := "} // namespace unicode\n".toList

/-- `namespace tables {`: ucd_api_generator.cpp:173, 208, 232, 289, 371, 394, 454, 486, 523. -/
def openTables : Str := "namespace tables {\n".toList

/-- its end: ucd_api_generator.cpp:185, 221, 244, 301, 412, 475, 498, 542. -/
def closeTables : Str := "} // end namespace tables\n\n".toList

/-- A declaration of a function of a codepoint: ucd_api_generator.cpp:164, 264, 303, 357, 385, 416-420, 451, 513, 561, 564. -/
def protoCp (before result name param after : Str) : Str :=
  before ++ (result ++ (" ".toList ++ (name ++ ("(char32_t ".toList ++ (param ++ (") noexcept;\n".toList ++ after))))))

/-- Everything behind the include lines of `ucd.cpp`, in order: ucd_api_generator.cpp:137-616. -/
def sourceTexts (D : UcdData) : List Str :=
  [openUnicode] ++
  -- planes: 145-167
  ["namespace tables\n{\n".toList, "    // clang-format off\n".toList, writePlanes D.planes, "    // clang-format off\n".toList,
   "} // namespace tables\n\n".toList, codePlane] ++
  -- core properties: 173-194
  [openTables] ++ D.core.map (fun g => writeIntervals g.1 g.2) ++ [closeTables, codeCore (D.core.map (·.1))] ++
  -- general categories: 208-255
  [openTables, writeGcTable D.gcats, closeTables, "namespace general_category\n{\n".toList, codeGc, "}\n\n".toList, openTables] ++
  D.gcMap.map (fun g => writeIntervals g.1 g.2) ++ [closeTables, codeGcContains (D.gcMap.map (·.1))] ++
  -- scripts: 289-306
  [openTables, writeScripts D.scripts, closeTables, codeScript] ++
  -- script extensions: 314-363
  ["namespace tables { // {{{ ScriptExtensions\n".toList] ++
  (sceArrays D.scriptAliases (D.sce.map (·.1)) []).map (fun a => writeSceArray a.1 a.2) ++
  [writeSce D.sce, "} // }}}\n\n".toList, codeSce] ++
  -- blocks: 371-388
  [openTables, writeBlocks D.blocks, "} // end namespace tables {}\n\n".toList, codeBlock] ++
  -- break properties: 394-430
  [openTables] ++ D.breaks.map (fun g => writeBreaks g.1 g.2) ++ [closeTables] ++ D.breaks.map (fun g => codeBreak g.1) ++ ["\n".toList] ++
  -- East Asian width: 454-479
  [openTables, writeEaw D.eaw, closeTables, codeEaw] ++
  -- emoji: 486-507
  [openTables] ++ D.emoji.map (fun g => writeIntervals g.1 g.2) ++ [closeTables] ++ D.emoji.map (fun g => codeEmoji g.1) ++
  -- bidi: 523-558
  [openTables, writeMirrored D.mirrored, writeGlyphs D.glyphs, closeTables, codeMirrored, codeGlyph] ++
  -- age: 571-611
  (D.ages.toList.map codeAge) ++
  [closeUnicode]

/-- `ucd.cpp`: ucd_api_generator.cpp:126-616. -/
def ucdSource (D : UcdData) : Str := licenseHeader ++ (sourceIncludes ++ (sourceTexts D).flatten)

/-- Everything behind the include lines of `ucd.h`, in order: ucd_api_generator.cpp:121-615. -/
def headerTexts (D : UcdData) : List Str :=
  [openUnicode,
   protoCp [] "Plane".toList "plane".toList "codepoint".toList "\n".toList,
   "bool contains(Core_Property prop, char32_t codepoint) noexcept;\n\n".toList,
   "bool contains(General_Category generalCategory, char32_t codepoint) noexcept;\n\n".toList,
   "// Disabling clang-format to avoid single-line folding implementations.\n".toList,
   "// clang-format off\n".toList,
   "namespace general_category\n{\n".toList,
   protoCp "    ".toList "General_Category".toList "get".toList "value".toList "\n".toList] ++
  D.gcMap.map (fun g => codeGcIs g.1) ++
  ["} // namespace general_category\n".toList,
   "// clang-format on\n".toList,
   "\n".toList,
   protoCp [] "Script".toList "script".toList "codepoint".toList "\n".toList,
   protoCp [] "std::optional<std::span<Script const>>".toList "script_extensions".toList "codepoint".toList "\n".toList,
   protoCp [] "Block".toList "block".toList "codepoint".toList "\n".toList] ++
  D.breaks.map (fun g => protoCp [] g.1 (tolower g.1) "codepoint".toList []) ++
  ["\n".toList,
   codeWidthString,
   protoCp [] "EastAsianWidth".toList "east_asian_width".toList "codepoint".toList "\n".toList] ++
  D.emoji.map (fun g => protoCp [] "bool".toList ("is_".toList ++ tolower g.1) "codepoint".toList []) ++
  ["\n".toList,
   "/// Returns true if the codepoint has the Bidi_Mirrored property.\n".toList,
   protoCp "[[nodiscard]] ".toList "bool".toList "is_mirrored".toList "codepoint".toList "\n".toList,
   "/// Returns the Bidi_Mirroring_Glyph for a codepoint.\n".toList,
   "/// If no mirroring glyph exists, returns the input codepoint unchanged.\n".toList,
   protoCp "[[nodiscard]] ".toList "char32_t".toList "bidi_mirroring_glyph".toList "codepoint".toList "\n".toList] ++
  D.ages.toList.flatMap (fun _ =>
    ["/// Parses a Unicode version string (e.g., \"1.1\", \"17.0\") to an Age enum value.\n".toList,
     "/// @param value The version string from DerivedAge.txt.\n".toList,
     "/// @return The corresponding Age enum value, or std::nullopt if not recognized.\n".toList,
     "[[nodiscard]] std::optional<Age> make_age(std::string_view value) noexcept;\n\n".toList]) ++
  [closeUnicode]

/-- `ucd.h`: ucd_api_generator.cpp:110-615. -/
def ucdHeader (D : UcdData) : Str := licenseHeader ++ (headerIncludes ++ (headerTexts D).flatten)

end Verif.Tg
