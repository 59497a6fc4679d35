import Verif.Model.TgParser
/-!
# Model of the record builder of the table generator: tablegen/multistage_generator.cpp and tablegen/enum_utils.h

Strings are character lists (`Str`), `uint8_t` values are natural numbers reduced modulo 256 where the code increments
them.  The `std::vector<CodepointRecord>` of 0x110000 elements is a function; every element access is checked
(`Mem.oob`).
-/

namespace Verif.Tg
open Verif.Utf8 (Mem)

/-! ## `std::set<std::string>`, `std::map<std::string, uint8_t>`, `std::sort` on strings -/

/-- `operator<` of `std::string`: lexicographic by (unsigned) byte. -/
def strLt : Str → Str → Bool
  | [], [] => false
  | [], _ :: _ => true
  | _ :: _, [] => false
  | a :: as, b :: bs => if a.toNat < b.toNat then true else if b.toNat < a.toNat then false else strLt as bs

/-- `std::set<std::string>::insert`; a set is the list of its elements in iteration order. -/
def setInsert (k : Str) : List Str → List Str
  | [] => [k]
  | x :: xs => if k = x then x :: xs else if strLt k x then k :: x :: xs else x :: setInsert k xs

/-- `for (auto const& r: ranges) set.insert(r.property)`: multistage_generator.cpp:136-138, 150-152, 225-227, 238-240,
enum_utils.h:75-77, 89-91. -/
def mkSet (xs : List Str) : List Str := xs.foldl (fun s x => setInsert x s) []

/-- `std::sort` of strings (enum_utils.h:108, multistage_generator.cpp:114): equal strings cannot be told apart, so the
result is unique and any sorting algorithm may be used for the model. -/
def sortInsert (k : Str) : List Str → List Str
  | [] => [k]
  | x :: xs => if strLt x k then x :: sortInsert k xs else k :: x :: xs

def sortStrs (xs : List Str) : List Str := xs.foldr sortInsert []

/-- `std::map<std::string, uint8_t>` in iteration order. -/
abbrev Map := List (Str × Nat)

/-- `result[k] = v` -/
def mapSet (k : Str) (v : Nat) : Map → Map
  | [] => [(k, v)]
  | (k', v') :: m => if k = k' then (k, v) :: m else if strLt k k' then (k, v) :: (k', v') :: m else (k', v') :: mapSet k v m

/-- `find`/`count`/`at` -/
def mapFind (m : Map) (k : Str) : Option Nat := (m.find? (fun e => e.1 = k)).map (·.2)

/-! ## Index builders -/

/-- `for (auto const& s: names) result[s] = idx++`: multistage_generator.cpp:139-142 (after dropping "Common"),
153-155; `idx` is a `uint8_t`. -/
def addFrom : Nat → List Str → Map → Map
  | _, [], m => m
  | idx, s :: ss, m => addFrom ((idx + 1) % 256) ss (mapSet s idx m)

/-- The script names that get an index from 3 on: multistage_generator.cpp:136-142. -/
def otherScripts (props : List Str) : List Str := (mkSet props).filter (fun s => decide (s ≠ "Common".toList))

/-- `buildScriptIndex`: multistage_generator.cpp:130-144; `props` are the property names of the ranges. -/
def scriptIndex (props : List Str) : Map :=
  addFrom 3 (otherScripts props)
    (mapSet "Common".toList 2 (mapSet "Unknown".toList 1 (mapSet "Invalid".toList 0 [])))

/-- `buildScriptNames`: multistage_generator.cpp:219-232, and `buildScriptMembers`: enum_utils.h:67-81. -/
def scriptNames (props : List Str) : List Str :=
  "Invalid".toList :: "Unknown".toList :: "Common".toList :: otherScripts props

/-- `buildGeneralCategoryIndex`: multistage_generator.cpp:146-157. -/
def gcIndex (props : List Str) : Map := addFrom 1 (mkSet props) (mapSet "Unspecified".toList 0 [])

/-- `buildGeneralCategoryNames`: multistage_generator.cpp:234-245, and `buildGeneralCategoryMembers`:
enum_utils.h:84-95. -/
def gcNames (props : List Str) : List Str := "Unspecified".toList :: mkSet props

/-- multistage_generator.cpp:120-122 -/
def pvaAdd : List Str → Nat → Map → Map
  | [], _, m => m
  | v :: vs, idx, m => if mapFind m v = none then pvaAdd vs ((idx + 1) % 256) (mapSet v idx m) else pvaAdd vs idx m

/-- multistage_generator.cpp:124-126, enum_utils.h:160-162 -/
def addAbbrevs : List (Str × Str) → Map → Map
  | [], m => m
  | (ab, full) :: r, m =>
    addAbbrevs r (match mapFind m full with | some i => mapSet ab i m | none => m)

/-- `buildPvaBasedIndex`: multistage_generator.cpp:107-128; `aliases` is the (sorted) map abbreviation → full name. -/
def pvaIndex (aliases : List (Str × Str)) (firstMember : Option Str) : Map :=
  addAbbrevs aliases
    (match firstMember with
     | some f => pvaAdd (sortStrs (aliases.map (·.2))) 1 (mapSet f 0 [])
     | none => pvaAdd (sortStrs (aliases.map (·.2))) 0 [])

/-- `reverseLookup`: multistage_generator.cpp:248-259. -/
def reverseLookup (index : Map) (value : Nat) (defaultName : Str) : Str :=
  let best := index.foldl (fun best e => if e.2 = value ∧ e.1.length > best.length then e.1 else best) []
  if best = [] then defaultName else best

/-! ## Age: enum_utils.h:121-163 -/

/-- `std::stoi` on a string that starts with decimal digits (leading blanks and signs, which `stoi` also accepts, do not
occur in version names; without a digit it throws: `none`). -/
def stoi (s : Str) : Option Nat :=
  if s.takeWhile Char.isDigit = [] then none
  else some ((s.takeWhile Char.isDigit).foldl (fun n c => n * 10 + (c.toNat - 48)) 0)

/-- `parseVersionNumber`: enum_utils.h:121-128.  Without an underscore, `find` is `npos` and both substrings start at
the front (`npos + 1 = 0` for the second, which then starts with the letter and throws). -/
def parseVersion (name : Str) : Option (Nat × Nat) :=
  match cutAt '_' name with
  | none => none
  | some (a, b) =>
    match stoi (a.drop 1), stoi b with
    | some x, some y => some (x, y)
    | _, _ => none

/-- `operator<` of `std::pair<std::pair<int, int>, std::string>`. -/
def versLt (a b : (Nat × Nat) × Str) : Bool :=
  if a.1.1 < b.1.1 then true
  else if b.1.1 < a.1.1 then false
  else if a.1.2 < b.1.2 then true
  else if b.1.2 < a.1.2 then false
  else strLt a.2 b.2

def versInsert (k : (Nat × Nat) × Str) : List ((Nat × Nat) × Str) → List ((Nat × Nat) × Str)
  | [] => [k]
  | x :: xs => if versLt x k then x :: versInsert k xs else k :: x :: xs

/-- The collecting loop of `buildAgeEnumMembers`: enum_utils.h:137-143; `none`: `stoi` throws. -/
def versioned : List (Str × Str) → Option (List ((Nat × Nat) × Str))
  | [] => some []
  | (_, full) :: r =>
    if full = "Unassigned".toList then versioned r
    else
      match parseVersion full, versioned r with
      | some v, some vs => some ((v, full) :: vs)
      | _, _ => none

/-- `buildAgeEnumMembers`: enum_utils.h:132-150. -/
def ageMembers (aliases : List (Str × Str)) : Option (List Str) :=
  (versioned aliases).map fun vs => "Unassigned".toList :: (vs.foldr versInsert []).map (·.2)

/-- `buildEnumIndexMap`: enum_utils.h:48-54, from position `i` on. -/
def enumIndexFrom : Nat → List Str → Map → Map
  | _, [], m => m
  | i, s :: ss, m => enumIndexFrom (i + 1) ss (mapSet s (i % 256) m)

/-- `buildAgeIndex`: enum_utils.h:154-163. -/
def ageIndex (aliases : List (Str × Str)) (members : List Str) : Map := addAbbrevs aliases (enumIndexFrom 0 members [])

/-! ## Records -/

/-- `CODEPOINT_COUNT`: multistage_generator.cpp:37 -/
def count : Nat := 0x110000

/-- `struct CodepointRecord`: multistage_generator.cpp:74-88. -/
structure Rec where
  width : Nat := 0
  flags : Nat := 0
  flags2 : Nat := 0
  script : Nat := 0
  gcb : Nat := 0
  eaw : Nat := 0
  gc : Nat := 0
  esc : Int := -1
  age : Nat := 0
  incb : Nat := 3
  wb : Nat := 18
deriving DecidableEq, Repr

abbrev Records := Nat → Rec

/-- `f(records[cp])`, checked. -/
def update (f : Rec → Rec) (R : Records) (cp : Nat) : Mem Records :=
  if cp < count then .ok (fun c => if c = cp then f (R c) else R c) else .oob

/-- `n` rounds of `for (auto cp = …; …; ++cp) f(records[cp])`. -/
def fillLoop (f : Rec → Rec) : Nat → Nat → Records → Mem Records
  | 0, _, R => .ok R
  | n + 1, cp, R =>
    match update f R cp with
    | .oob => .oob
    | .ok R' => fillLoop f n (cp + 1) R'

/-- `for (auto cp = r.first; cp <= r.last; ++cp) f(records[cp])` (`last < 2^32 - 1`, else the loop would not end). -/
def fillRange (f : Rec → Rec) (r : PRange) (R : Records) : Mem Records := fillLoop f (r.last + 1 - r.first) r.first R

/-- A pass over a list of ranges; `f r = none` is `continue`. -/
def fillAll (f : PRange → Option (Rec → Rec)) : List PRange → Records → Mem Records
  | [], R => .ok R
  | r :: rs, R =>
    match f r with
    | none => fillAll f rs R
    | some g =>
      match fillRange g r R with
      | .oob => .oob
      | .ok R' => fillAll f rs R'

/-- A pass over a `std::map<std::string, std::vector<PropertyRange>>`. -/
def fillGroups (f : Str → PRange → Option (Rec → Rec)) : List (Str × List PRange) → Records → Mem Records
  | [], R => .ok R
  | (name, rs) :: gs, R =>
    match fillAll (f name) rs R with
    | .oob => .oob
    | .ok R' => fillGroups f gs R'

/-- The parsed data (`UcdParser` accessors used by `generateMultistageFiles`). -/
structure Input where
  scripts : List PRange
  core : List (Str × List PRange)
  isc : List PRange
  bases : List Nat
  ages : List PRange
  gcats : List PRange
  gcbs : List (Str × List PRange)
  incbs : List (Str × List PRange)
  wbs : List (Str × List PRange)
  eaws : List PRange
  emoji : List (Str × List PRange)
  hst : List PRange
  pvaEaw : List (Str × Str)
  pvaAge : List (Str × Str)
  pvaGcb : List (Str × Str)
  pvaIncb : List (Str × Str)
  pvaWb : List (Str × Str)

/-- The indices of multistage_generator.cpp:345-352. -/
structure Indices where
  script : Map
  gc : Map
  eaw : Map
  age : Map
  gcb : Map
  incb : Map
  wb : Map

/-- multistage_generator.cpp:346-357; `none`: an age name cannot be parsed and `std::stoi` throws. -/
def indices (I : Input) : Option Indices :=
  (ageMembers I.pvaAge).map fun members =>
    { script := scriptIndex (I.scripts.map (·.property))
      gc := gcIndex (I.gcats.map (·.property))
      eaw := pvaIndex I.pvaEaw none
      age := ageIndex I.pvaAge members
      gcb := pvaIndex I.pvaGcb (some "Undefined".toList)
      incb := pvaIndex I.pvaIncb none
      wb := pvaIndex I.pvaWb none }

/-- multistage_generator.cpp:372-385 -/
def zeroWidthNames : List Str :=
  ["Control".toList, "Enclosing_Mark".toList, "Format".toList, "Line_Separator".toList, "Nonspacing_Mark".toList,
   "Paragraph_Separator".toList, "Spacing_Mark".toList, "Surrogate".toList]

/-- `zeroWidthGCs`: multistage_generator.cpp:370-385. -/
def zeroWidthGCs (gc : Map) : List Nat := zeroWidthNames.filterMap (mapFind gc)

/-- `computeCharWidth`: multistage_generator.cpp:163-178. -/
def computeCharWidth (rec : Rec) (zero : List Nat) (eawWide eawFullwidth : Nat) : Nat :=
  if rec.gc ∈ zero then 0
  else if rec.flags &&& 0x02 ≠ 0 then 2
  else if rec.eaw = eawWide ∨ rec.eaw = eawFullwidth then 2
  else 1

/-- `computeEmojiSegmentationCategory`: multistage_generator.cpp:180-215. -/
def computeEsc (cp : Nat) (rec : Rec) (gcbRI : Nat) : Int :=
  if cp = 0x20E3 then 8
  else if cp = 0x20E0 then 9
  else if cp = 0x200D then 10
  else if cp = 0xFE0E then 11
  else if cp = 0xFE0F then 12
  else if cp = 0x1F3F4 then 13
  else if (0xE0030 ≤ cp ∧ cp ≤ 0xE0039) ∨ (0xE0061 ≤ cp ∧ cp ≤ 0xE007A) then 14
  else if cp = 0xE007F then 15
  else if rec.flags &&& 0x10 ≠ 0 then 3
  else if rec.flags &&& 0x08 ≠ 0 then 4
  else if rec.gcb = gcbRI then 6
  else if (0x30 ≤ cp ∧ cp ≤ 0x39) ∨ cp = 0x23 ∨ cp = 0x2A then 7
  else if rec.flags &&& 0x02 ≠ 0 then 2
  else if rec.flags &&& 0x01 ≠ 0 ∧ ¬ rec.flags &&& 0x02 ≠ 0 then 1
  else if rec.flags &&& 0x01 ≠ 0 then 0
  else -1

/-- The defaults: multistage_generator.cpp:391-410. -/
def defaults (X : Indices) : Rec :=
  { script := (mapFind X.script "Unknown".toList).getD 1
    gcb := (mapFind X.gcb "Other".toList).getD 0
    eaw := (mapFind X.eaw "Narrow".toList).getD 0
    gc := (mapFind X.gc "Unassigned".toList).getD 0
    incb := (mapFind X.incb "None".toList).getD 3
    wb := (mapFind X.wb "Other".toList).getD 18 }

/-- Scripts: multistage_generator.cpp:412-420. -/
def setScript (X : Indices) (r : PRange) : Option (Rec → Rec) :=
  (mapFind X.script r.property).map fun i rec => { rec with script := i }

/-- `|= FlagCoreGraphemeExtend` for the group "Grapheme_Extend": multistage_generator.cpp:423-431. -/
def setCore (name : Str) (_ : PRange) : Option (Rec → Rec) :=
  if name = "Grapheme_Extend".toList then some fun rec => { rec with flags := rec.flags ||| 0x40 } else none

/-- `|= FlagVirama`: multistage_generator.cpp:446-449. -/
def setVirama (r : PRange) : Option (Rec → Rec) :=
  if r.property = "Virama".toList ∨ r.property = "Invisible_Stacker".toList then
    some fun rec => { rec with flags := rec.flags ||| 0x80 }
  else none

/-- The loop condition `cp <= r.last && cp < CODEPOINT_COUNT` (multistage_generator.cpp:448, 593): the range cut off. -/
def clip (r : PRange) : PRange := { r with last := min r.last (count - 1) }

/-- `flags2 |= Flag2EmojiVariationBase`: multistage_generator.cpp:452-454. -/
def setBases : List Nat → Records → Mem Records
  | [], R => .ok R
  | cp :: cps, R =>
    if cp < count then
      match update (fun rec => { rec with flags2 := rec.flags2 ||| 0x01 }) R cp with
      | .oob => .oob
      | .ok R' => setBases cps R'
    else setBases cps R

/-- `enumName` of a version string: multistage_generator.cpp:459-469 (empty when not listed). -/
def ageName (aliases : List (Str × Str)) (v : Str) : Str := ((aliases.find? (fun e => e.1 = v)).map (·.2)).getD []

/-- Age: multistage_generator.cpp:457-477. -/
def setAge (X : Indices) (aliases : List (Str × Str)) (r : PRange) : Option (Rec → Rec) :=
  if ageName aliases r.property = [] then none
  else (mapFind X.age (ageName aliases r.property)).map fun i rec => { rec with age := i }

/-- General category: multistage_generator.cpp:481-488. -/
def setGc (X : Indices) (r : PRange) : Option (Rec → Rec) :=
  (mapFind X.gc r.property).map fun i rec => { rec with gc := i }

/-- Grapheme cluster break: multistage_generator.cpp:495-505. -/
def setGcb (X : Indices) (_ : Str) (r : PRange) : Option (Rec → Rec) :=
  (mapFind X.gcb r.property).map fun i rec => { rec with gcb := i }

/-- Indic conjunct break, indexed by the group name: multistage_generator.cpp:508-516. -/
def setIncb (X : Indices) (name : Str) (_ : PRange) : Option (Rec → Rec) :=
  (mapFind X.incb name).map fun i rec => { rec with incb := i }

/-- Word break: multistage_generator.cpp:519-529. -/
def setWb (X : Indices) (_ : Str) (r : PRange) : Option (Rec → Rec) :=
  (mapFind X.wb r.property).map fun i rec => { rec with wb := i }

/-- East Asian width: multistage_generator.cpp:532-539. -/
def setEaw (X : Indices) (r : PRange) : Option (Rec → Rec) :=
  (mapFind X.eaw r.property).map fun i rec => { rec with eaw := i }

/-- The flag of an emoji property: multistage_generator.cpp:544-558. -/
def emojiFlag (name : Str) : Option Nat :=
  if name = "Emoji".toList then some 0x01
  else if name = "Emoji_Component".toList then some 0x04
  else if name = "Emoji_Modifier".toList then some 0x08
  else if name = "Emoji_Modifier_Base".toList then some 0x10
  else if name = "Emoji_Presentation".toList then some 0x02
  else if name = "Extended_Pictographic".toList then some 0x20
  else none

/-- Emoji properties: multistage_generator.cpp:542-563. -/
def setEmoji (name : Str) (_ : PRange) : Option (Rec → Rec) :=
  (emojiFlag name).map fun f rec => { rec with flags := rec.flags ||| f }

/-- `char_width = 0` for Hangul V and T: multistage_generator.cpp:613-618. -/
def setHangul (r : PRange) : Option (Rec → Rec) :=
  if r.property = "V".toList ∨ r.property = "T".toList then some fun rec => { rec with width := 0 } else none

/-- The bit of `prepend` at `cp`: multistage_generator.cpp:589-594. -/
def prepend (gcbs : List (Str × List PRange)) (cp : Nat) : Bool :=
  gcbs.any fun g => g.2.any fun r => decide (r.property = "Prepend".toList ∧ r.first ≤ cp ∧ cp ≤ (clip r).last)

/-- multistage_generator.cpp:567-574: the two derived columns, for every codepoint. -/
def derive (X : Indices) (R : Records) : Records := fun cp =>
  let rec1 := { R cp with esc := computeEsc cp (R cp) ((mapFind X.gcb "Regional_Indicator".toList).getD 0) }
  { rec1 with
    width := computeCharWidth rec1 (zeroWidthGCs X.gc) ((mapFind X.eaw "Wide".toList).getD 0)
      ((mapFind X.eaw "Fullwidth".toList).getD 0) }

/-- multistage_generator.cpp:596-602: rendered format characters. -/
def widenPrepend (X : Indices) (gcbs : List (Str × List PRange)) (R : Records) : Records :=
  match mapFind X.gc "Format".toList with
  | none => R
  | some f => fun cp => if (R cp).gc = f ∧ prepend gcbs cp = true then { R cp with width := 1 } else R cp

/-- Sequencing of checked steps. -/
def seqMem {α β : Type} (x : Mem α) (f : α → Mem β) : Mem β :=
  match x with
  | .ok a => f a
  | .oob => .oob

/-- The passes over the parsed data, multistage_generator.cpp:412-563, in the order of the code. -/
def populate (X : Indices) (I : Input) (R : Records) : Mem Records :=
  seqMem (fillAll (setScript X) I.scripts R) fun R =>
  seqMem (fillGroups setCore I.core R) fun R =>
  seqMem (fillAll setVirama (I.isc.map clip) R) fun R =>
  seqMem (setBases I.bases R) fun R =>
  seqMem (fillAll (setAge X I.pvaAge) I.ages R) fun R =>
  seqMem (fillAll (setGc X) I.gcats R) fun R =>
  seqMem (fillGroups (setGcb X) I.gcbs R) fun R =>
  seqMem (fillGroups (setIncb X) I.incbs R) fun R =>
  seqMem (fillGroups (setWb X) I.wbs R) fun R =>
  seqMem (fillAll (setEaw X) I.eaws R) fun R =>
  fillGroups setEmoji I.emoji R

/-- The records handed to the multistage generator: multistage_generator.cpp:386-618. -/
def buildRecords (X : Indices) (I : Input) : Mem Records :=
  seqMem (populate X I fun _ => defaults X) fun R =>
  seqMem (update (fun rec => { rec with width := 1 }) (widenPrepend X I.gcbs (derive X R)) 0xAD) fun R =>
  fillAll setHangul I.hst R

/-! ## Output -/

/-- `escName`: multistage_generator.cpp:261-285. -/
def escName (i : Int) : Str :=
  if i = 0 then "Emoji".toList
  else if i = 1 then "EmojiTextPresentation".toList
  else if i = 2 then "EmojiEmojiPresentation".toList
  else if i = 3 then "EmojiModifierBase".toList
  else if i = 4 then "EmojiModifier".toList
  else if i = 5 then "EmojiVSBase".toList
  else if i = 6 then "RegionalIndicator".toList
  else if i = 7 then "KeyCapBase".toList
  else if i = 8 then "CombiningEnclosingKeyCap".toList
  else if i = 9 then "CombiningEnclosingCircleBackslash".toList
  else if i = 10 then "ZWJ".toList
  else if i = 11 then "VS15".toList
  else if i = 12 then "VS16".toList
  else if i = 13 then "TagBase".toList
  else if i = 14 then "TagSequence".toList
  else if i = 15 then "TagTerm".toList
  else "Invalid".toList

/-- One initialiser of the emitted `properties` array: multistage_generator.cpp:691-701 (the enumerator names without
their `Enum::` prefix). -/
structure Emitted where
  width : Nat
  flags : Nat
  flags2 : Nat
  script : Str
  gcb : Str
  eaw : Str
  gc : Str
  esc : Str
  age : Str
  incb : Str
  wb : Str
deriving DecidableEq, Repr

/-- multistage_generator.cpp:688-703 -/
def emit (X : Indices) (I : Input) (ageNames : List Str) (rec : Rec) : Emitted :=
  { width := rec.width
    flags := rec.flags
    flags2 := rec.flags2
    script := (scriptNames (I.scripts.map (·.property))).getD rec.script "Unknown".toList
    gcb := reverseLookup X.gcb rec.gcb "Other".toList
    eaw := reverseLookup X.eaw rec.eaw "Narrow".toList
    gc := (gcNames (I.gcats.map (·.property))).getD rec.gc "Unspecified".toList
    esc := escName rec.esc
    age := ageNames.getD rec.age "Unassigned".toList
    incb := reverseLookup X.incb rec.incb "None".toList
    wb := reverseLookup X.wb rec.wb "Other".toList }

end Verif.Tg
