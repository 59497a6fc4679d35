import Verif.Model.TgEmit
/-!
# The text of the generated header codepoint_properties_data.h

`multistage_generator.cpp` writes it side by side with the two source files.  Modelled is what stands between
`namespace … {` and its closing brace, as in `Model/TgEmit`.
-/

namespace Verif.Tg

/-- The line `writeCxxTable` writes to `header`: multistage_generator.cpp:316. -/
def externTable (table : List Nat) (name : Str) : Str :=
  "extern std::array<".toList ++ (minimumUintType table ++ (", ".toList ++ (dec table.length ++ ("> const ".toList ++ (name ++ ";\n".toList)))))

/-- `header << "extern std::array<codepoint_properties, " …`: multistage_generator.cpp:687. -/
def externProperties (n : Nat) : Str := "extern std::array<codepoint_properties, ".toList ++ (dec n ++ "> const properties;\n".toList)

/-- `header << "extern std::array<std::string_view, " …`: multistage_generator.cpp:721. -/
def externNames (n : Nat) : Str := "extern std::array<std::string_view, ".toList ++ (dec n ++ "> const names_stage3;\n".toList)

/-- `codepoint_properties_data.h` between `namespace … {` and its end: multistage_generator.cpp:683-721. -/
def headerBody (stage1 stage2 : List Nat) (rows : List Emitted) (names1 names2 : List Nat) (names : List Str) : Str :=
  externTable stage1 "stage1".toList ++ (externTable stage2 "stage2".toList ++ (externProperties rows.length ++
  (externTable names1 "names_stage1".toList ++ (externTable names2 "names_stage2".toList ++ externNames names.length))))

end Verif.Tg
