import Verif.Model.TgMain
import Verif.Model.TgLoad
import Verif.Model.TgCaseNorm
import Verif.Model.TgRow
import Verif.Model.TgNames
/-!
# Model of `unicode_tablegen` from the directory of data files on: tablegen/ucd_parser.cpp, tablegen_main.cpp

The files are their texts; `std::getline` cuts them into lines.  The parser is that of Model/TgLoad and Model/TgCaseNorm, the generators are those
of Model/TgMain, TgRecords, TgRow, TgNames and Tables.
-/

namespace Verif.Tg
open Verif.Utf8 (Mem)

/-! ## Reading -/

/-- `while (std::getline(f, line))`: the lines of a text, without the newline characters.  What is behind the last newline is a line too, unless
it is empty.  `cur` is what has been read of the current line. -/
def getlinesFrom : Str → Str → List Str
  | cur, [] => if cur = [] then [] else [cur]
  | cur, c :: cs => if c = '\n' then cur :: getlinesFrom [] cs else getlinesFrom (cur ++ [c]) cs

def getlines (s : Str) : List Str := getlinesFrom [] s

/-- The texts of the files that can be opened. -/
abbrev Dir := Str → Option Str

/-- `openFile` (ucd_parser.cpp:67-73) and the lines of the file; `none`: it throws. -/
def readLines (dir : Dir) (path : Str) : Option (List Str) := (dir path).map getlines

/-- All files `parseAll` reads. -/
structure AllFiles extends Files where
  folding : List Str
  casing : List Str
  exclusions : List Str
  normProps : List Str

/-- All files are there. -/
def assemble (aliases gc core scripts isc sce blocks gcb wb eaw hst emoji evs unicodeData bidi folding casing exclusions normProps age names : Option (List Str)) : Option AllFiles := do
  let aliases ← aliases
  let gc ← gc
  let core ← core
  let scripts ← scripts
  let isc ← isc
  let sce ← sce
  let blocks ← blocks
  let gcb ← gcb
  let wb ← wb
  let eaw ← eaw
  let hst ← hst
  let emoji ← emoji
  let evs ← evs
  let unicodeData ← unicodeData
  let bidi ← bidi
  let folding ← folding
  let casing ← casing
  let exclusions ← exclusions
  let normProps ← normProps
  let age ← age
  let names ← names
  some { aliases, gc, core, scripts, isc, sce, blocks, gcb, wb, eaw, hst, emoji, evs, unicodeData, bidi, age, names, folding, casing, exclusions, normProps }

/-- The lines of the file with this name below the directory. -/
def fileIn (dir : Dir) (ucd : Str) (name : String) : Option (List Str) := readLines dir (ucd ++ ('/' :: name.toList))

/-- The names of the files, below the directory: ucd_parser.cpp:292, 337, 369, 400, 405, 412, 438, 454, 461, 468, 475, 482, 508, 535, 583, 601, 676,
726, 781, 814, 898, 905. -/
def readAll (dir : Dir) (ucd : Str) : Option AllFiles :=
  assemble
    (fileIn dir ucd "PropertyValueAliases.txt")
    (fileIn dir ucd "extracted/DerivedGeneralCategory.txt")
    (fileIn dir ucd "DerivedCoreProperties.txt")
    (fileIn dir ucd "Scripts.txt")
    (fileIn dir ucd "IndicSyllabicCategory.txt")
    (fileIn dir ucd "ScriptExtensions.txt")
    (fileIn dir ucd "Blocks.txt")
    (fileIn dir ucd "auxiliary/GraphemeBreakProperty.txt")
    (fileIn dir ucd "auxiliary/WordBreakProperty.txt")
    (fileIn dir ucd "EastAsianWidth.txt")
    (fileIn dir ucd "HangulSyllableType.txt")
    (fileIn dir ucd "emoji/emoji-data.txt")
    (fileIn dir ucd "emoji/emoji-variation-sequences.txt")
    (fileIn dir ucd "UnicodeData.txt")
    (fileIn dir ucd "BidiMirroring.txt")
    (fileIn dir ucd "CaseFolding.txt")
    (fileIn dir ucd "SpecialCasing.txt")
    (fileIn dir ucd "CompositionExclusions.txt")
    (fileIn dir ucd "DerivedNormalizationProps.txt")
    (fileIn dir ucd "DerivedAge.txt")
    (fileIn dir ucd "extracted/DerivedName.txt")

/-! ## The parser -/

/-- The members of `UcdParser` after `parseAll`: Model/TgLoad and Model/TgCaseNorm, and the tables that are written with comments
(ucd_parser.h:24-29). -/
structure ParsedUcd where
  db : Db
  core : List (Str × List (PRange × Str))
  gcats : List (PRange × Str)
  gcMap : List (Str × List (PRange × Str))
  scripts : List (PRange × Str)
  sce : List (MRange × Str)
  gcb : List (Str × List (PRange × Str))
  eaw : List (PRange × Str)
  emoji : List (Str × List (PRange × Str))
  ud : Ud
  folds : Folds
  special : Special
  qc : Qc

/-- A comment of the file.  (Simplified: which line it comes from is not modelled, only that it is the comment of a line of this file:
ucd_parser.cpp:239, 279, 358-360, 384-388, 429, 490.) -/
def CommentIn (lines : List Str) (s : Str) : Prop := ∃ l ∈ lines, ∃ p, parseStandardLine l = some p ∧ p.comment = s

/-- A table with comments of the file. -/
def Commented {α : Type} (lines : List Str) (table : List α) (t : List (α × Str)) : Prop :=
  t.map (·.1) = table ∧ ∀ x ∈ t, CommentIn lines x.2

def CommentedGroups (lines : List Str) (table : Groups) (t : List (Str × List (PRange × Str))) : Prop :=
  t.map (fun g => (g.1, g.2.map (·.1))) = table ∧ ∀ g ∈ t, ∀ x ∈ g.2, CommentIn lines x.2

/-- `parseAll` ends and leaves `P`: ucd_parser.cpp:193-224.  (`std::sort` makes it a relation.) -/
structure ParsesAll (A : AllFiles) (P : ParsedUcd) : Prop where
  loads : Loads A.toFiles P.db
  core : CommentedGroups A.core P.db.core P.core
  gcats : Commented A.gc P.db.gcats P.gcats
  gcMap : CommentedGroups A.gc P.db.gcMap P.gcMap
  scripts : Commented A.scripts P.db.scripts P.scripts
  sce : Commented A.sce P.db.sce P.sce
  gcb : CommentedGroups A.gcb P.db.gcb P.gcb
  eaw : Commented A.eaw P.db.eaw P.eaw
  emoji : CommentedGroups A.emoji P.db.emoji P.emoji
  ud : P.ud = loadUnicodeData A.unicodeData
  folds : P.folds = loadCaseFolding A.folding
  special : P.special = loadSpecialCasing P.ud A.casing
  qc : P.qc = loadNormProps A.exclusions A.normProps

/-- `parseAll` throws: `_propertyValues.at("General_Category")` (ucd_parser.cpp:334), `propertyValues.at(abbrev)` (357) or `std::stoul` (522). -/
def ParseThrows (A : AllFiles) : Prop :=
  (∀ al, amFind (loadAliases A.aliases) "General_Category".toList = some al → gcLoop al {} A.gc = none) ∨ evsLoop A.evs = none

/-! ## The generators -/

/-- The planes with numbers and short names: ucd_parser.cpp:172-190. -/
def planeData : List (PRange × Nat × Str) :=
  let short := ["BMP", "SMP", "SIP", "TIP", "", "", "", "", "", "", "", "", "", "", "SSP", "SPUA-A", "SPUA-B"]
  planes.zip ((List.range 17).zip (short.map String.toList))

/-- What `generateUcdApiFiles` takes from the parser: ucd_api_generator.cpp:137, 171, 201-202, 286, 310-312, 368, 391, 435, 483, 520-521, 569-588. -/
def apiData (P : ParsedUcd) (scriptAliases : List (Str × Str)) : UcdData where
  planes := planeData
  core := P.core
  gcats := P.gcats
  gcMap := P.gcMap
  scripts := P.scripts
  sce := P.sce
  scriptAliases := scriptAliases
  blocks := P.db.blocks
  breaks := P.gcb
  eaw := P.eaw
  emoji := P.emoji
  mirrored := P.db.mirrored
  glyphs := P.db.glyphs
  ages := amFind P.db.aliases "Age".toList

/-- What the generators compute from the data of the parser: enum_generator.cpp:231-278, ucd_api_generator.cpp:312, case_norm_generator.cpp:291-368,
multistage_generator.cpp:481-660.  `hash`, `hash'` are the hash functions of the block caches, `same` says when two string views are equal in
the hash of the names (Model/TgNames). -/
structure GeneratesFrom (same : Nat → Nat → Bool) (P : ParsedUcd) (i : GenInput) : Prop where
  enums : i.enums = collectEnums P.db
  /-- `at("Script")` -/
  api : match amFind P.db.aliases "Script".toList with
    | none => ∃ e, i.api = .error e
    | some al => i.api = .ok (apiData P al)
  ud : i.ud = P.ud
  folds : i.folds = P.folds
  special : i.special = P.special
  qc : i.qc = P.qc
  comp : WrittenCompositions P.ud.decomps P.qc.excl i.comp
  /-- not reached if an exception has been thrown before -/
  rows : collectEnums P.db ≠ none → amFind P.db.aliases "Script".toList ≠ none → ∃ X ages R g, ∃ hash : List Rec → Nat, ageMembers (inputOf P.db).pvaAge = some ages ∧
    indices (inputOf P.db) = some X ∧ buildRecords X (inputOf P.db) = .ok R ∧
    Tables.generate Tables.propertiesShape hash ((List.range 0x110000).map R) = .ok g ∧
    i.stage1 = g.stage1 ∧ i.stage2 = g.stage2 ∧ i.rows = g.stage3.map (emit X (inputOf P.db) ages)
  names : collectEnums P.db ≠ none → amFind P.db.aliases "Script".toList ≠ none → ∃ (g : Tables.Gen Str) (hash : Nat → Nat),
    tableOf same hash (nameArray P.db.names (List.replicate 0x110000 [])) = .ok g ∧ i.names1 = g.stage1 ∧ i.names2 = g.stage2 ∧ i.names = g.stage3

/-- What `parser.parseAll()` and the computations of the generators can yield for a directory; `none`: an exception before the first file
is written. -/
def Yields (same : Nat → Nat → Bool) (dir : Dir) (ucd : Str) : Option GenInput → Prop
  | none => ∀ A, readAll dir ucd = some A → ParseThrows A
  | some i => ∃ A P, readAll dir ucd = some A ∧ ParsesAll A P ∧ GeneratesFrom same P i

/-- A run of the program: tablegen_main.cpp:60-104. -/
def RunsOn (same : Nat → Nat → Bool) (dir : Dir) (env : Os) (args : List Str) (disk : Disk) (code : Nat) (disk' : Disk) : Prop :=
  ∃ parse : Str → Option GenInput, (∀ ucd, args[1]? = some ucd → Yields same dir ucd (parse ucd)) ∧ tablegenMain parse env args disk = (code, disk')

end Verif.Tg
