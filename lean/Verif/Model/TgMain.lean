import Verif.Model.TgFiles
import Verif.Model.TgEnums
/-!
# Model of the program `unicode_tablegen`: tablegen/tablegen_main.cpp

What it writes where, and its exit code.  The generators are those of Model/TgFiles and Model/TgUcd; the parser is a parameter (it is modelled
in Model/TgLoad).  Messages on the terminal are not modelled.
-/

namespace Verif.Tg

/-- Everything the generators take from the parser.  `enums` is missing if `std::stoi` throws (enum_generator.cpp:110-120).  `api` is
an error if the file of aliases has no section for the scripts: then `at` throws (ucd_api_generator.cpp:311), and the two texts are what has been written
before that. -/
structure GenInput where
  enums : Option (List EnumDef)
  api : Except (Str × Str) UcdData
  ud : Ud
  folds : Folds
  special : Special
  qc : Qc
  comp : List Tables.Comp
  stage1 : List Nat
  stage2 : List Nat
  rows : List Emitted
  names1 : List Nat
  names2 : List Nat
  names : List Str

/-- What the program does to its environment, in order. -/
inductive Act where
  /-- `auto out = std::ofstream(path); out << text;` and the destructor of `out` -/
  | file (path text : Str)
  /-- an exception that derives from `std::exception` -/
  | throw
deriving DecidableEq

/-- `generateEnumFiles`: enum_generator.cpp:231-278. -/
def enumActs (dir : Str) : Option (List EnumDef) → List Act
  | none => [.throw]
  | some enums => [.file (dir ++ "/ucd_enums.h".toList) (enumsFile enums), .file (dir ++ "/ucd_ostream.h".toList) (ostreamFile enums),
      .file (dir ++ "/ucd_fmt.h".toList) (fmtFile enums)]

/-- `generateUcdApiFiles`: ucd_api_generator.cpp:100-610.  Both files are open at the same time; here they are written one behind the other. -/
def apiActs (dir : Str) : Except (Str × Str) UcdData → List Act
  | .ok D => [.file (dir ++ "/ucd.h".toList) (ucdHeader D), .file (dir ++ "/ucd.cpp".toList) (ucdSource D)]
  | .error e => [.file (dir ++ "/ucd.h".toList) e.1, .file (dir ++ "/ucd.cpp".toList) e.2, .throw]

/-- `generateCaseNormFile`: case_norm_generator.cpp:291-368. -/
def caseActs (dir : Str) (i : GenInput) : List Act :=
  [.file (dir ++ "/case_normalization_data.h".toList) (caseNormFile i.ud i.folds i.special i.qc i.comp)]

/-- `generateMultistageFiles`, the part that writes: multistage_generator.cpp:652-730.  (All three files are open at the same time.) -/
def multistageActs (dir ns : Str) (i : GenInput) : List Act :=
  [.file (dir ++ "/codepoint_properties_data.h".toList) (propsHeader ns i.stage1 i.stage2 i.rows i.names1 i.names2 i.names),
   .file (dir ++ "/codepoint_properties_data.cpp".toList) (propsSource ns i.stage1 i.stage2 i.rows),
   .file (dir ++ "/codepoint_properties_names.cpp".toList) (namesSource ns i.names1 i.names2 i.names)]

/-- The files by their paths. -/
abbrev Disk := Str → Option Str

/-- What the operating system lets the program do: which files can be opened for writing, and how much can be written to them (if there is a
limit). -/
structure Os where
  opens : Str → Bool
  room : Str → Option Nat

/-- What becomes of a text in a file. -/
def Os.fit (env : Os) (path text : Str) : Str :=
  match env.room path with
  | none => text
  | some n => text.take n

/-- Opening for writing empties or creates the file; if it fails, or if there is no more room, the stream is in a failed state, in which `<<` does
nothing.  Nobody asks for the state of the stream. -/
def writeFile (env : Os) (disk : Disk) (path text : Str) : Disk :=
  if env.opens path then fun x => if x = path then some (env.fit path text) else disk x else disk

/-- The body of the `try` block from tablegen_main.cpp:82 on; `true` if it comes to its end, `false` if it is left with an exception. -/
def perform (env : Os) : Disk → List Act → Disk × Bool
  | disk, [] => (disk, true)
  | disk, .throw :: _ => (disk, false)
  | disk, .file path text :: as => perform env (writeFile env disk path text) as

/-- tablegen_main.cpp:72. -/
def namespaceArg (args : List Str) : Str := (args[3]?).getD "unicode::precompiled".toList

/-- `main`: tablegen_main.cpp:60-107.  `args` are the arguments, beginning with the name of the program; `parse` is `UcdParser::parseAll` on
a directory, `none` if it throws.  The results are the exit code and the files. -/
def tablegenMain (parse : Str → Option GenInput) (env : Os) (args : List Str) (disk : Disk) : Nat × Disk :=
  match args with
  | _ :: ucdDir :: outputDir :: _ =>
    match parse ucdDir with
    | none => (1, disk)
    | some i =>
      let r := perform env disk (enumActs outputDir i.enums ++ apiActs outputDir i.api ++ caseActs outputDir i ++
        multistageActs outputDir (namespaceArg args) i)
      (if r.2 then 0 else 1, r.1)
  | _ => (1, disk)

end Verif.Tg
