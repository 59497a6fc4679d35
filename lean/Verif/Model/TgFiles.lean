import Verif.Model.TgUcd
import Verif.Model.TgHeader
/-!
# The other generated files as a whole: tablegen/enum_generator.cpp, case_norm_generator.cpp, multistage_generator.cpp

The tables are those of Model/TgEmit, the declarations those of Model/TgHeader, the functions those of Model/TgCode; here is everything
around them, character by character: the licence or the disclaimer, the include lines, the namespaces.
-/

namespace Verif.Tg

/-! ## enum_generator.cpp -/

/-- `namespace unicode\n{\n\n`: enum_generator.cpp:243, 259. -/
def enterUnicode : Str := "namespace unicode\n{\n\n".toList

/-- `} // namespace unicode\n`: enum_generator.cpp:246, 262. -/
def leaveUnicode : Str := "} // namespace unicode\n".toList

/-- The include lines: enum_generator.cpp:239-242. -/
def enumsIncludes : Str := "#pragma once\n\n#include <cstdint>\n\n".toList

/-- `ucd_enums.h`: enum_generator.cpp:237-247. -/
def enumsFile (enums : List EnumDef) : Str :=
  licenseHeader ++ (enumsIncludes ++ ([enterUnicode, enumsBody enums, leaveUnicode]).flatten)

/-- The include lines: enum_generator.cpp:253-258. -/
def ostreamIncludes : Str := "#pragma once\n\n#include <libunicode/ucd.h>\n\n#include <ostream>\n\n".toList

/-- `ucd_ostream.h`: enum_generator.cpp:251-263. -/
def ostreamFile (enums : List EnumDef) : Str :=
  licenseHeader ++ (ostreamIncludes ++ ([enterUnicode, enums.flatMap codeStream, leaveUnicode]).flatten)

/-- The include lines: enum_generator.cpp:269-274. -/
def fmtIncludes : Str := "#pragma once\n\n#include <libunicode/ucd_enums.h>\n\n#include <format>\n\n".toList

/-- `ucd_fmt.h`: enum_generator.cpp:267-277. -/
def fmtFile (enums : List EnumDef) : Str :=
  licenseHeader ++ (fmtIncludes ++ ([enums.flatMap codeFormatter]).flatten)

/-! ## case_norm_generator.cpp -/

/-- The include lines: case_norm_generator.cpp:296-302. -/
def caseIncludes : Str := "\n#pragma once\n\n#include <array>\n#include <cstdint>\n#include <utility>\n\n".toList

/-- `case_normalization_data.h`: case_norm_generator.cpp:293-367. -/
def caseNormFile (u : Ud) (f : Folds) (s : Special) (q : Qc) (comp : List Tables.Comp) : Str :=
  licenseHeader ++ (caseIncludes ++ (["namespace unicode::detail\n{\n\n// clang-format off\n\n".toList, caseNormBody u f s q comp,
    "// clang-format on\n\n} // namespace unicode::detail\n".toList]).flatten)

/-! ## multistage_generator.cpp -/

/-- `disclaimer`: multistage_generator.cpp:652. -/
def disclaimer : Str := "// This file was auto-generated by unicode_tablegen.\n".toList

/-- `"namespace " << namespaceName << "\n{\n\n"`: multistage_generator.cpp:668, 680, 715. -/
def enterNamed (name : Str) : Str := "namespace ".toList ++ (name ++ "\n{\n\n".toList)

/-- `"} // end namespace " << namespaceName << "\n"`: multistage_generator.cpp:705, 727, 729. -/
def leaveNamed (name : Str) : Str := "}".toList ++ remark ("end namespace ".toList ++ name)

/-- The include lines: multistage_generator.cpp:664-667. -/
def propsHeaderIncludes : Str := "#pragma once\n\n#include <libunicode/codepoint_properties.h>\n\n#include <array>\n#include <cstdint>\n\n".toList

/-- `codepoint_properties_data.h`: multistage_generator.cpp:663-668, 683-687, 717-721, 729. -/
def propsHeader (ns : Str) (stage1 stage2 : List Nat) (rows : List Emitted) (names1 names2 : List Nat) (names : List Str) : Str :=
  disclaimer ++ (propsHeaderIncludes ++ ([enterNamed ns, headerBody stage1 stage2 rows names1 names2 names, "\n".toList, leaveNamed ns]).flatten)

/-- The include lines: multistage_generator.cpp:672-678. -/
def propsSourceIncludes : Str :=
  "#include <libunicode/codepoint_properties.h>\n#include <libunicode/codepoint_properties_data.h>\n".toList ++
  ("#include <libunicode/emoji_segmenter.h>\n#include <libunicode/ucd_enums.h>\n\n".toList ++
  "#include <array>\n#include <cstdint>\n#include <string_view>\n\n".toList)

/-- `codepoint_properties_data.cpp`: multistage_generator.cpp:671-705. -/
def propsSource (ns : Str) (stage1 stage2 : List Nat) (rows : List Emitted) : Str :=
  disclaimer ++ (propsSourceIncludes ++ (["using namespace unicode;\n\n".toList, enterNamed ns, propertiesBody stage1 stage2 rows, leaveNamed ns]).flatten)

/-- The include lines: multistage_generator.cpp:709-712. -/
def namesIncludes : Str := "#include <libunicode/codepoint_properties_data.h>\n\n#include <array>\n#include <string_view>\n#include <cstdint>\n\n".toList

/-- `codepoint_properties_names.cpp`: multistage_generator.cpp:708-727. -/
def namesSource (ns : Str) (stage1 stage2 : List Nat) (names : List Str) : Str :=
  disclaimer ++ (namesIncludes ++ (["using namespace unicode;\n".toList, "using namespace std::string_view_literals;\n\n".toList, enterNamed ns,
    namesBody stage1 stage2 names, leaveNamed ns]).flatten)

end Verif.Tg
