import Verif.Model.TgEmit
import Verif.Model.TgEnums
/-!
# The text of the generated functions: tablegen/ucd_api_generator.cpp, tablegen/enum_generator.cpp

What is written for each function of `ucd.cpp`, `ucd.h`, `ucd_ostream.h` and `ucd_fmt.h`, character by character.  The text around
them (licence, includes, namespaces, declarations) is in Model/TgUcd for `ucd.cpp` and `ucd.h`, and in Model/TgFiles for the other files.
-/

namespace Verif.Tg

/-- `std::transform(…, ::tolower)` (in the "C" locale): ucd_api_generator.cpp:272-276, 415-425, 501-503. -/
def tolower (s : Str) : Str := s.map fun c => if 'A' ≤ c ∧ c ≤ 'Z' then Char.ofNat (c.toNat + 32) else c

/-- `plane`: ucd_api_generator.cpp:165-167. -/
def codePlane : Str :=
  "Plane plane(char32_t codepoint) noexcept {\n".toList ++
  ("    return search(tables::Plane, codepoint).value_or(Plane::Unassigned);\n".toList ++
  "}\n\n".toList)

/-- One `case` of the two `contains`: ucd_api_generator.cpp:190-191, 250-251. -/
def caseContains (enum name : Str) : Str :=
  "        case ".toList ++ (enum ++ ("::".toList ++ (name ++ (": return contains(tables::".toList ++ (name ++ ", codepoint);\n".toList)))))

/-- `contains(Core_Property, char32_t)`: ucd_api_generator.cpp:187-194; `names` are the keys of the map. -/
def codeCore (names : List Str) : Str :=
  "bool contains(Core_Property prop, char32_t codepoint) noexcept {\n    switch (prop)\n    {\n".toList ++
  (names.flatMap (caseContains "Core_Property".toList) ++
  "    }\n    return false;\n}\n\n".toList)

/-- `general_category::get`: ucd_api_generator.cpp:226-228. -/
def codeGc : Str :=
  "    General_Category get(char32_t value) noexcept {\n".toList ++
  ("        return search(tables::General_Category, value).value_or(General_Category::Unspecified);\n".toList ++
  "    }\n".toList)

/-- `contains(General_Category, char32_t)`: ucd_api_generator.cpp:247-255. -/
def codeGcContains (names : List Str) : Str :=
  "bool contains(General_Category generalCategory, char32_t codepoint) noexcept {\n    switch (generalCategory)\n    {\n".toList ++
  (names.flatMap (caseContains "General_Category".toList) ++
  "        case General_Category::Unspecified: return false;\n    }\n    return false;\n}\n\n".toList)

/-- `general_category::is_…`: ucd_api_generator.cpp:265-278. -/
def codeGcIs (name : Str) : Str :=
  "    inline bool is_".toList ++ (tolower name ++
  ("(char32_t codepoint) noexcept\n    {\n        return contains(General_Category::".toList ++ (name ++ ", codepoint);\n    }\n\n".toList)))

/-- `script`: ucd_api_generator.cpp:304-306. -/
def codeScript : Str :=
  "Script script(char32_t codepoint) noexcept {\n".toList ++
  ("    return search(tables::Script, codepoint).value_or(Script::Unknown);\n".toList ++
  "}\n\n".toList)

/-- `script_extensions`: ucd_api_generator.cpp:358-363. -/
def codeSce : Str :=
  "std::optional<std::span<Script const>> script_extensions(char32_t codepoint) noexcept {\n".toList ++
  ("    auto const p = search(tables::sce, codepoint);\n".toList ++
  ("    if (!p.has_value())\n".toList ++
  ("        return std::nullopt;\n".toList ++
  ("    return std::span<Script const>{ p->first, p->second };\n".toList ++
  "}\n\n".toList))))

/-- `block`: ucd_api_generator.cpp:386-388. -/
def codeBlock : Str :=
  "Block block(char32_t codepoint) noexcept {\n".toList ++
  ("    return search(tables::Block, codepoint).value_or(::unicode::Block::Unspecified);\n".toList ++
  "}\n\n".toList)

/-- The function of a group of grapheme break properties: ucd_api_generator.cpp:421-427. -/
def codeBreak (name : Str) : Str :=
  name ++ (" ".toList ++ (tolower name ++ ("(char32_t codepoint) noexcept {\n    return search(tables::".toList ++ (name ++
  (", codepoint).value_or(".toList ++ (name ++ "::Undefined);\n}\n\n".toList))))))

/-- `to_string(EastAsianWidth)`: ucd_api_generator.cpp:441-449. -/
def codeWidthString : Str :=
  "inline std::string to_string(EastAsianWidth value)\n{\n    switch (value)\n    {\n".toList ++
  (widthEnum.members.flatMap (fun v => "        case EastAsianWidth::".toList ++ (v ++ (": return \"".toList ++ (v ++ "\";\n".toList)))) ++
  "    }\n    return \"Unknown\";\n}\n\n".toList)

/-- `east_asian_width`: ucd_api_generator.cpp:477-479. -/
def codeEaw : Str :=
  "EastAsianWidth east_asian_width(char32_t codepoint) noexcept {\n".toList ++
  ("    return search(tables::EastAsianWidth, codepoint).value_or(EastAsianWidth::Unspecified);\n".toList ++
  "}\n\n".toList)

/-- `is_…` of an emoji property: ucd_api_generator.cpp:500-507. -/
def codeEmoji (name : Str) : Str :=
  "bool is_".toList ++ (tolower name ++
  ("(char32_t codepoint) noexcept {\n    return contains(tables::".toList ++ (name ++ ", codepoint);\n}\n\n".toList)))

/-- `is_mirrored`: ucd_api_generator.cpp:545-547. -/
def codeMirrored : Str :=
  "bool is_mirrored(char32_t codepoint) noexcept {\n".toList ++
  ("    return contains(tables::Bidi_Mirrored, codepoint);\n".toList ++
  "}\n\n".toList)

/-- `bidi_mirroring_glyph`: ucd_api_generator.cpp:549-558. -/
def codeGlyph : Str :=
  "char32_t bidi_mirroring_glyph(char32_t codepoint) noexcept {\n".toList ++
  ("    auto const it = std::lower_bound(\n".toList ++
  ("        tables::Bidi_Mirroring_Glyph.begin(),\n".toList ++
  ("        tables::Bidi_Mirroring_Glyph.end(),\n".toList ++
  ("        codepoint,\n".toList ++
  ("        [](auto const& pair, char32_t cp) { return pair.first < cp; });\n".toList ++
  ("    if (it != tables::Bidi_Mirroring_Glyph.end() && it->first == codepoint)\n".toList ++
  ("        return it->second;\n".toList ++
  ("    return codepoint;\n".toList ++
  "}\n\n".toList))))))))

/-- `make_age`: ucd_api_generator.cpp:597-612; the table in it is `writeAges`. -/
def codeAge (al : List (Str × Str)) : Str :=
  "std::optional<Age> make_age(std::string_view value) noexcept {\n    using namespace std::string_view_literals;\n    // clang-format off\n".toList ++
  (writeAges al ++
  ("    // clang-format on\n    for (auto const& [key, val] : mappings)\n        if (key == value)\n            return val;\n".toList ++
  "    return std::nullopt;\n}\n\n".toList))

/-- One `case` of `operator<<`: enum_generator.cpp:64-65. -/
def caseStream (enum member : Str) : Str :=
  "    case ".toList ++ (enum ++ ("::".toList ++ (sanitize member ++ (": return os << ".toList ++ (("\"".toList ++ (member ++ "\"".toList)) ++ ";\n".toList)))))

/-- `operator<<`: enum_generator.cpp:58-70. -/
def codeStream (d : EnumDef) : Str :=
  "inline std::ostream& operator<<(std::ostream& os, ".toList ++ (d.name ++
  (" value) noexcept\n{\n    // clang-format off\n    switch (value)\n    {\n".toList ++
  (d.members.flatMap (caseStream d.name) ++
  "    }\n    // clang-format on\n    return os << \"(\" << static_cast<unsigned>(value) << \")\";\n}\n\n".toList)))

/-- One `case` of the formatter: enum_generator.cpp:83-85. -/
def caseFormat (enum member : Str) : Str :=
  "            case unicode::".toList ++ (enum ++ ("::".toList ++ (sanitize member ++ (": name = ".toList ++
  (("\"".toList ++ (member ++ "\"".toList)) ++ "; break;\n".toList)))))

/-- `format` of the formatter: enum_generator.cpp:77-89. -/
def codeFormat (d : EnumDef) : Str :=
  "    auto format(unicode::".toList ++ (d.name ++
  (" value, auto& ctx) const\n    {\n        std::string_view name;\n        switch (value)\n        {\n            // clang-format off\n".toList ++
  (d.members.flatMap (caseFormat d.name) ++
  "            // clang-format off\n        }\n        return formatter<string_view>::format(name, ctx);\n    }\n".toList)))

/-- The formatter around it: enum_generator.cpp:72-91. -/
def codeFormatter (d : EnumDef) : Str :=
  "template <>\nstruct std::formatter<unicode::".toList ++ (d.name ++ (">: std::formatter<std::string_view>\n{\n".toList ++
  (codeFormat d ++ "};\n\n".toList)))

end Verif.Tg
