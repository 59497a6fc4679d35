import Mathlib.Data.List.Forall2
import Verif.Model.TgRecords
import Verif.Model.TgCaseNorm
/-!
# Model of the loaders of the table generator: tablegen/ucd_parser.cpp

A file is the list of its lines.  `std::map` is a list of key/value pairs with ascending keys.  `std::sort` is the
relation `SortedBy` (it is not stable).
-/

namespace Verif.Tg

/-! ## `std::map<std::string, V>` -/

/-- `m[k] = f(m[k])`, `f none` being the new value if there was no entry (ucd_parser.cpp:266-267, 278, 307, 326, 347-348,
359, 386-387, 392, 489). -/
def amUpd {V : Type} (k : Str) (f : Option V → V) : List (Str × V) → List (Str × V)
  | [] => [(k, f none)]
  | (x, v) :: m =>
    if x = k then (x, f (some v)) :: m
    else if strLt k x then (k, f none) :: (x, v) :: m
    else (x, v) :: amUpd k f m

/-- `m.find(k)` -/
def amFind {V : Type} (m : List (Str × V)) (k : Str) : Option V := (m.find? (fun e => e.1 = k)).map (·.2)

/-- `std::map<std::string, std::vector<PropertyRange>>` -/
abbrev Groups := List (Str × List PRange)

/-- `if (m.find(k) == m.end()) m[k] = {};`: ucd_parser.cpp:266-267, 347-348. -/
def groupOpen (k : Str) (gs : Groups) : Groups := amUpd k (fun o => o.getD []) gs

/-- `m[k].push_back(r)`: ucd_parser.cpp:278, 359, 386-387, 392, 489. -/
def groupPush (k : Str) (r : PRange) (gs : Groups) : Groups := amUpd k (fun o => o.getD [] ++ [r]) gs

/-- `for (auto& [key, ranges]: m) std::sort(…)`: ucd_parser.cpp:280-281, 394-397, 491-492. -/
def SortedGroups (gs out : Groups) : Prop :=
  List.Forall₂ (fun a b => b.1 = a.1 ∧ SortedBy PRange.first a.2 b.2) gs out

/-! ## Grouped files -/

/-- `s.find(pat)` followed by `s.substr(pos + pat.size())`; `none` for `npos`: ucd_parser.cpp:261-263. -/
def cutStr (pat : Str) : Str → Option Str
  | [] => if pat = [] then some [] else none
  | c :: cs => if pat.isPrefixOf (c :: cs) then some ((c :: cs).drop pat.length) else cutStr pat cs

/-- The section header test: ucd_parser.cpp:257-265. -/
def groupHeader (key line : Str) : Option Str :=
  if line.head? = some '#' then (cutStr (key ++ [':']) line).map fun v => firstWord (trim v) else none

/-- `{ parsed->first, parsed->last, firstWord(parsed->property) }` -/
def rangeOf (p : Parsed) : PRange := ⟨p.first, p.last, firstWord p.property⟩

/-- The body of the loop of `loadGroupedProperties`: ucd_parser.cpp:254-279; the state is `currentGroup` and `result`. -/
def groupedLine (key : Str) (st : Str × Groups) (line : Str) : Str × Groups :=
  if (trim line).head? = some '#' then
    match groupHeader key line with
    | some g => (g, groupOpen g st.2)
    | none => st
  else
    match parseStandardLine line with
    | none => st
    | some p => (st.1, groupPush st.1 (rangeOf p) st.2)

/-- The loop of `loadGroupedProperties`: ucd_parser.cpp:245-279 (sorting: `SortedGroups`). -/
def groupedEntries (key : Str) (lines : List Str) : Groups := (lines.foldl (groupedLine key) ([], [])).2

/-! ## Property value aliases -/

/-- `std::map<std::string, std::map<std::string, std::string>>` -/
abbrev Aliases := List (Str × List (Str × Str))

/-- The header test: ucd_parser.cpp:300-305; `content.back() == ')'`. -/
def aliasHeader (sv : Str) : Option Str :=
  match cutAtSpaceParen (sv.drop 2) with
  | some name => if (sv.drop 2).getLast? = some ')' then some name else none
  | none => none
where
  /-- `content.substr(0, content.find(" ("))` -/
  cutAtSpaceParen : Str → Option Str
    | [] => none
    | [_] => none
    | x :: y :: xs => if x = ' ' ∧ y = '(' then some [] else (cutAtSpaceParen (y :: xs)).map (x :: ·)

/-- The body of the loop of `loadPropertyValueAliases`: ucd_parser.cpp:295-327; the state is `currentProperty` and
`_propertyValues`. -/
def aliasLine (st : Str × Aliases) (line : Str) : Str × Aliases :=
  if trim line = [] then st
  else if "# ".toList.isPrefixOf (trim line) then
    match aliasHeader (trim line) with
    | none => st
    | some name => if name = "Block".toList then (name, st.2) else (name, amUpd name (fun _ => []) st.2)
  else if (trim line).head? = some '#' then st
  else
    match splitSemicolons (trim line) with
    | _ :: a :: f :: _ =>
      if st.1 = "Block".toList then st
      else (st.1, amUpd st.1 (fun o => amUpd (firstWord a) (fun _ => firstWord f) (o.getD [])) st.2)
    | _ => st

/-- `loadPropertyValueAliases`: ucd_parser.cpp:288-328. -/
def loadAliases (lines : List Str) : Aliases := (lines.foldl aliasLine ([], [])).2

/-! ## General category -/

/-- The variables of `loadGeneralCategory`: `catName`, `_generalCategoryMap`, `_generalCategory`. -/
structure GcState where
  cat : Str := []
  map : Groups := []
  all : List PRange := []

/-- The body of the loop of `loadGeneralCategory`: ucd_parser.cpp:340-362; `none`: `propertyValues.at(abbrev)` throws. -/
def gcLine (al : List (Str × Str)) (st : GcState) (line : Str) : Option GcState :=
  if "# General_Category=".toList.isPrefixOf line then
    some { st with cat := trim (line.drop 19), map := groupOpen (trim (line.drop 19)) st.map }
  else
    match parseStandardLine line with
    | none => some st
    | some p =>
      match amFind al (firstWord p.property) with
      | none => none
      | some full =>
        some { st with
          map := groupPush st.cat ⟨p.first, p.last, full⟩ st.map
          all := st.all ++ [⟨p.first, p.last, full⟩] }

/-- The loop of `loadGeneralCategory`: ucd_parser.cpp:332-363 (`_generalCategory` is sorted at 364, the map is not). -/
def gcLoop (al : List (Str × Str)) : GcState → List Str → Option GcState
  | st, [] => some st
  | st, l :: ls =>
    match gcLine al st l with
    | none => none
    | some st' => gcLoop al st' ls

/-! ## Core properties -/

/-- The body of the loop of `loadCoreProperties`: ucd_parser.cpp:375-393; the state is `_coreProperties` and
`_indicConjunctBreak`. -/
def coreLine (st : Groups × Groups) (line : Str) : Groups × Groups :=
  match parseStandardLine line with
  | none => st
  | some p =>
    match cutAt ';' p.property with
    | some (name, value) =>
      if trim name = "InCB".toList then (st.1, groupPush (trim value) ⟨p.first, p.last, trim value⟩ st.2) else st
    | none => (groupPush (firstWord p.property) ⟨p.first, p.last, []⟩ st.1, st.2)

/-- `loadCoreProperties`: ucd_parser.cpp:369-397, without the sorting. -/
def coreLoop (lines : List Str) : Groups × Groups := lines.foldl coreLine ([], [])

/-! ## Script extensions and blocks -/

/-- White space as skipped by `operator>>` (the classic locale). -/
def isSpace (c : Char) : Bool := c = ' ' || c = '\t' || c = '\n' || c = '\x0b' || c = '\x0c' || c = '\r'

/-- `while (iss >> token) props.push_back(token);`: ucd_parser.cpp:423-426; `fuel` bounds the number of tokens. -/
def tokensLoop : Nat → Str → List Str
  | 0, _ => []
  | fuel + 1, s =>
    match s.dropWhile isSpace with
    | [] => []
    | c :: cs => (c :: cs).takeWhile (fun x => !isSpace x) :: tokensLoop fuel ((c :: cs).dropWhile (fun x => !isSpace x))

def tokens (s : Str) : List Str := tokensLoop (s.length + 1) s

/-- `struct MultiPropertyRange` (ucd_parser.h:38-44), without the comment. -/
structure MRange where
  first : Nat
  last : Nat
  props : List Str
deriving DecidableEq, Repr

/-- The loop of `loadScriptExtensions`: ucd_parser.cpp:411-432.  `std::sort` of strings has one result. -/
def sceEntries (lines : List Str) : List MRange :=
  lines.filterMap fun l => (parseStandardLine l).map fun p => ⟨p.first, p.last, sortStrs (tokens (trim p.property))⟩

/-- `loadBlocks`: ucd_parser.cpp:439-450. -/
def loadBlocks (lines : List Str) : List PRange :=
  lines.filterMap fun l =>
    match parseStandardLine l with
    | some p => if p.isRange then some ⟨p.first, p.last, trim p.property⟩ else none
    | none => none

/-! ## Emoji -/

/-- The loop of `loadEmojiProps`: ucd_parser.cpp:478-490. -/
def emojiLine (gs : Groups) (line : Str) : Groups :=
  match parseStandardLine line with
  | none => gs
  | some p => groupPush (firstWord p.property) (rangeOf p) gs

def emojiEntries (lines : List Str) : Groups := lines.foldl emojiLine []

/-- `std::stoul(baseText, nullptr, 16)`, cast to `char32_t`: ucd_parser.cpp:522.  `none`: no digits, `stoul` throws.  (A
sign, a `0x` prefix, and numbers that do not fit `unsigned long` are not modelled; they do not occur in the file.) -/
def stoulHex (s : Str) : Option Nat :=
  if s.takeWhile isHex = [] then none else some (hexNum (s.takeWhile isHex) % 2 ^ 32)

/-- What is left of a line before `#`: ucd_parser.cpp:511-512. -/
def eraseComment (line : Str) : Str :=
  match cutAt '#' line with
  | some (a, _) => a
  | none => line

/-- The body of the loop of `loadEmojiVariationSequences`: ucd_parser.cpp:511-523; the outer `none` is an exception. -/
def evsLine (line : Str) : Option (Option Nat) :=
  match cutAt ';' (eraseComment line) with
  | none => some none
  | some (seq, _) =>
    match tokens seq with
    | [] => some none
    | t :: _ => (stoulHex t).map some

/-- The loop of `loadEmojiVariationSequences`: ucd_parser.cpp:508-524. -/
def evsLoop : List Str → Option (List Nat)
  | [] => some []
  | l :: ls =>
    match evsLine l, evsLoop ls with
    | some (some b), some bs => some (b :: bs)
    | some none, some bs => some bs
    | _, _ => none

/-- `std::unique` + `erase`: ucd_parser.cpp:527. -/
def unique : List Nat → List Nat
  | [] => []
  | [x] => [x]
  | x :: y :: r => if x = y then unique (y :: r) else x :: unique (y :: r)

/-! ## Bidi mirroring -/

/-- The body of the loop of `loadBidiMirrored`: ucd_parser.cpp:539-565: the codepoint if field 9 is `Y`. -/
def mirroredLine (line : Str) : Option Nat :=
  if trim line = [] ∨ (trim line).head? = some '#' then none
  else
    match (splitFields (trim line))[9]? with
    | some f => if trim f = ['Y'] then some (parseCodepoint ((splitFields (trim line)).getD 0 [])) else none
    | none => none

/-- The codepoints collected by `loadBidiMirrored`: ucd_parser.cpp:532-565. -/
def mirroredCps (lines : List Str) : List Nat := lines.filterMap mirroredLine

/-- The compression loop: ucd_parser.cpp:569-576, `(a, b)` being the last interval. -/
def compressFrom (a b : Nat) : List Nat → List (Nat × Nat)
  | [] => [(a, b)]
  | c :: cs => if b + 1 = c then compressFrom a c cs else (a, b) :: compressFrom c c cs

def compress : List Nat → List (Nat × Nat)
  | [] => []
  | c :: cs => compressFrom c c cs

/-- The loop of `loadBidiMirroringGlyph`: ucd_parser.cpp:581-593. -/
def glyphEntries (lines : List Str) : List (Nat × Nat) :=
  lines.filterMap fun l => (parseStandardLine l).map fun p => (p.first, parseCodepoint p.property)

/-! ## Names -/

/-- The loop of `loadDerivedNames`: ucd_parser.cpp:903-917 (before the sorting). -/
def nameEntries (lines : List Str) : List (Nat × Str) :=
  lines.flatMap fun l =>
    match parseStandardLine l with
    | some p => (cpRange p.first p.last).map fun cp => (cp, trim p.property)
    | none => []

/-! ## Planes -/

/-- `_planes`: ucd_parser.cpp:169-189; the second component is the name. -/
def planes : List PRange :=
  [⟨0, 0xFFFF, "Basic Multilingual Plane".toList⟩,
   ⟨0x10000, 0x1FFFF, "Supplementary Multilingual Plane".toList⟩,
   ⟨0x20000, 0x2FFFF, "Supplementary Ideographic Plane".toList⟩,
   ⟨0x30000, 0x3FFFF, "Tertiary Ideographic Plane".toList⟩,
   ⟨0x40000, 0x4FFFF, "Unassigned".toList⟩,
   ⟨0x50000, 0x5FFFF, "Unassigned".toList⟩,
   ⟨0x60000, 0x6FFFF, "Unassigned".toList⟩,
   ⟨0x70000, 0x7FFFF, "Unassigned".toList⟩,
   ⟨0x80000, 0x8FFFF, "Unassigned".toList⟩,
   ⟨0x90000, 0x9FFFF, "Unassigned".toList⟩,
   ⟨0xA0000, 0xAFFFF, "Unassigned".toList⟩,
   ⟨0xB0000, 0xBFFFF, "Unassigned".toList⟩,
   ⟨0xC0000, 0xCFFFF, "Unassigned".toList⟩,
   ⟨0xD0000, 0xDFFFF, "Unassigned".toList⟩,
   ⟨0xE0000, 0xEFFFF, "Supplementary Special-purpose Plane".toList⟩,
   ⟨0xF0000, 0xFFFFF, "Supplementary Private Use Area Plane".toList⟩,
   ⟨0x100000, 0x10FFFF, "Supplementary Private Use Area Plane".toList⟩]

/-! ## The parser -/

/-- The files read by `parseAll` (ucd_parser.cpp:191-223) whose contents the query functions of ucd.h and the multistage
tables depend on (the case and normalization files: Model/TgCaseNorm). -/
structure Files where
  aliases : List Str
  gc : List Str
  core : List Str
  scripts : List Str
  isc : List Str
  sce : List Str
  blocks : List Str
  gcb : List Str
  wb : List Str
  eaw : List Str
  hst : List Str
  emoji : List Str
  evs : List Str
  unicodeData : List Str
  bidi : List Str
  age : List Str
  names : List Str

/-- The members of `UcdParser` filled by `parseAll`: ucd_parser.h:222-289 (the part modelled). -/
structure Db where
  aliases : Aliases
  gcats : List PRange
  gcMap : Groups
  core : Groups
  incb : Groups
  scripts : List PRange
  isc : List PRange
  sce : List MRange
  blocks : List PRange
  gcb : Groups
  wb : Groups
  eaw : List PRange
  hst : List PRange
  emoji : Groups
  evs : List Nat
  mirrored : List (Nat × Nat)
  glyphs : List (Nat × Nat)
  ages : List PRange
  names : List (Nat × Str)

/-- `parseAll` on the files `F` ends without an exception and leaves the data `D`: ucd_parser.cpp:191-223. -/
structure Loads (F : Files) (D : Db) : Prop where
  /-- loadPropertyValueAliases -/
  aliases : D.aliases = loadAliases F.aliases
  /-- loadGeneralCategory -/
  gc : ∃ al st, amFind D.aliases "General_Category".toList = some al ∧ gcLoop al {} F.gc = some st ∧
    SortedBy PRange.first st.all D.gcats ∧ D.gcMap = st.map
  /-- loadCoreProperties -/
  core : SortedGroups (coreLoop F.core).1 D.core
  incb : SortedGroups (coreLoop F.core).2 D.incb
  /-- loadScripts, loadIndicSyllabicCategory: ucd_parser.cpp:399-407 -/
  scripts : SortedBy PRange.first (genericEntries F.scripts) D.scripts
  isc : SortedBy PRange.first (genericEntries F.isc) D.isc
  /-- loadScriptExtensions: ucd_parser.cpp:434 -/
  sce : SortedBy MRange.first (sceEntries F.sce) D.sce
  blocks : D.blocks = loadBlocks F.blocks
  /-- loadGraphemeBreakProps, loadWordBreakProps: ucd_parser.cpp:452-462 -/
  gcb : SortedGroups (groupedEntries "Property".toList F.gcb) D.gcb
  wb : SortedGroups (groupedEntries "Property".toList F.wb) D.wb
  /-- loadEastAsianWidths, loadHangulSyllableType: ucd_parser.cpp:464-474 -/
  eaw : SortedBy PRange.first (genericEntries F.eaw) D.eaw
  hst : SortedBy PRange.first (genericEntries F.hst) D.hst
  emoji : SortedGroups (emojiEntries F.emoji) D.emoji
  /-- loadEmojiVariationSequences -/
  evs : ∃ bs bs', evsLoop F.evs = some bs ∧ SortedBy id bs bs' ∧ D.evs = unique bs'
  /-- loadBidiMirrored -/
  mirrored : ∃ cps, SortedBy id (mirroredCps F.unicodeData) cps ∧ D.mirrored = compress cps
  /-- loadBidiMirroringGlyph (sorted by both components; only the first is used) -/
  glyphs : SortedBy Prod.fst (glyphEntries F.bidi) D.glyphs
  /-- loadDerivedAge: ucd_parser.cpp:896-899 -/
  ages : SortedBy PRange.first (genericEntries F.age) D.ages
  /-- loadDerivedNames: ucd_parser.cpp:918 -/
  names : SortedBy Prod.fst (nameEntries F.names) D.names

end Verif.Tg
