import Verif.Model.Loader
import Verif.Model.TgParser
import Verif.Model.TgDir
import Verif.Spec.Regex
/-!
# Model of the run-time loader: codepoint_properties_loader.cpp

`load_from_directory` up to the two vectors with one element per codepoint (`_codepoints`, `_names`).  Files are texts; the regular expressions
are those of the source, with the semantics of Spec/Regex.  The file is not part of any CMake target, and `create_multistage_tables` (605-632) passes a
search function where multistage_table_generator.h:177-198 now expects a hash function; the tables themselves are Model/Tables.
-/

namespace Verif.Load
open Verif.Tg Verif.Spec.Regex

/-! ## Names of enumerators -/

/-- `make_age`: codepoint_properties_loader.cpp:37-77. -/
def ageTable : List (String × String) :=
  [("1.1", "V1_1"), ("10.0", "V10_0"), ("11.0", "V11_0"), ("12.0", "V12_0"), ("12.1", "V12_1"), ("13.0", "V13_0"), ("14.0", "V14_0"),
   ("15.0", "V15_0"), ("16.0", "V16_0"), ("17.0", "V17_0"), ("1.1", "V1_1"), ("2.0", "V2_0"), ("2.1", "V2_1"), ("3.0", "V3_0"),
   ("3.1", "V3_1"), ("3.2", "V3_2"), ("4.0", "V4_0"), ("4.1", "V4_1"), ("5.0", "V5_0"), ("5.1", "V5_1"), ("5.2", "V5_2"), ("6.0", "V6_0"),
   ("6.1", "V6_1"), ("6.2", "V6_2"), ("6.3", "V6_3"), ("7.0", "V7_0"), ("8.0", "V8_0"), ("9.0", "V9_0")]

/-- `make_general_category`: codepoint_properties_loader.cpp:79-127. -/
def gcTable : List (String × String) :=
  [("Cn", "Unassigned"), ("Lu", "Uppercase_Letter"), ("Ll", "Lowercase_Letter"), ("Lt", "Titlecase_Letter"), ("Lm", "Modifier_Letter"),
   ("Lo", "Other_Letter"), ("Mn", "Nonspacing_Mark"), ("Me", "Enclosing_Mark"), ("Mc", "Spacing_Mark"), ("Nd", "Decimal_Number"),
   ("Nl", "Letter_Number"), ("No", "Other_Number"), ("Zs", "Space_Separator"), ("Zl", "Line_Separator"), ("Zp", "Paragraph_Separator"),
   ("Cc", "Control"), ("Cf", "Format"), ("Co", "Private_Use"), ("Cs", "Surrogate"), ("Pd", "Dash_Punctuation"), ("Ps", "Open_Punctuation"),
   ("Pe", "Close_Punctuation"), ("Pc", "Connector_Punctuation"), ("Po", "Other_Punctuation"), ("Sm", "Math_Symbol"),
   ("Sc", "Currency_Symbol"), ("Sk", "Modifier_Symbol"), ("So", "Other_Symbol"), ("Pi", "Initial_Punctuation"), ("Pf", "Final_Punctuation")]

/-- `make_script`: codepoint_properties_loader.cpp:129-302. -/
def scriptTable : List (String × String) :=
  [("Adlam", "Adlam"), ("Ahom", "Ahom"), ("Anatolian_Hieroglyphs", "Anatolian_Hieroglyphs"), ("Arabic", "Arabic"), ("Armenian", "Armenian"),
   ("Avestan", "Avestan"), ("Balinese", "Balinese"), ("Bamum", "Bamum"), ("Bassa_Vah", "Bassa_Vah"), ("Batak", "Batak"),
   ("Bengali", "Bengali"), ("Bhaiksuki", "Bhaiksuki"), ("Bopomofo", "Bopomofo"), ("Brahmi", "Brahmi"), ("Braille", "Braille"),
   ("Buginese", "Buginese"), ("Buhid", "Buhid"), ("Canadian_Aboriginal", "Canadian_Aboriginal"), ("Carian", "Carian"),
   ("Caucasian_Albanian", "Caucasian_Albanian"), ("Chakma", "Chakma"), ("Cham", "Cham"), ("Cherokee", "Cherokee"),
   ("Chorasmian", "Chorasmian"), ("Common", "Common"), ("Coptic", "Coptic"), ("Cuneiform", "Cuneiform"), ("Cypriot", "Cypriot"),
   ("Cypro_Minoan", "Cypro_Minoan"), ("Cyrillic", "Cyrillic"), ("Deseret", "Deseret"), ("Devanagari", "Devanagari"),
   ("Dives_Akuru", "Dives_Akuru"), ("Dogra", "Dogra"), ("Duployan", "Duployan"), ("Egyptian_Hieroglyphs", "Egyptian_Hieroglyphs"),
   ("Elbasan", "Elbasan"), ("Elymaic", "Elymaic"), ("Ethiopic", "Ethiopic"), ("Georgian", "Georgian"), ("Glagolitic", "Glagolitic"),
   ("Gothic", "Gothic"), ("Grantha", "Grantha"), ("Greek", "Greek"), ("Gujarati", "Gujarati"), ("Gunjala_Gondi", "Gunjala_Gondi"),
   ("Gurmukhi", "Gurmukhi"), ("Han", "Han"), ("Hangul", "Hangul"), ("Hanifi_Rohingya", "Hanifi_Rohingya"), ("Hanunoo", "Hanunoo"),
   ("Hatran", "Hatran"), ("Hebrew", "Hebrew"), ("Hiragana", "Hiragana"), ("Imperial_Aramaic", "Imperial_Aramaic"), ("Inherited", "Inherited"),
   ("Inscriptional_Pahlavi", "Inscriptional_Pahlavi"), ("Inscriptional_Parthian", "Inscriptional_Parthian"), ("Javanese", "Javanese"),
   ("Kaithi", "Kaithi"), ("Kannada", "Kannada"), ("Katakana", "Katakana"), ("Kawi", "Kawi"), ("Kayah_Li", "Kayah_Li"),
   ("Kharoshthi", "Kharoshthi"), ("Khitan_Small_Script", "Khitan_Small_Script"), ("Khmer", "Khmer"), ("Khojki", "Khojki"),
   ("Khudawadi", "Khudawadi"), ("Lao", "Lao"), ("Latin", "Latin"), ("Lepcha", "Lepcha"), ("Limbu", "Limbu"), ("Linear_A", "Linear_A"),
   ("Linear_B", "Linear_B"), ("Lisu", "Lisu"), ("Lycian", "Lycian"), ("Lydian", "Lydian"), ("Mahajani", "Mahajani"), ("Makasar", "Makasar"),
   ("Malayalam", "Malayalam"), ("Mandaic", "Mandaic"), ("Manichaean", "Manichaean"), ("Marchen", "Marchen"),
   ("Masaram_Gondi", "Masaram_Gondi"), ("Medefaidrin", "Medefaidrin"), ("Meetei_Mayek", "Meetei_Mayek"), ("Mende_Kikakui", "Mende_Kikakui"),
   ("Meroitic_Cursive", "Meroitic_Cursive"), ("Meroitic_Hieroglyphs", "Meroitic_Hieroglyphs"), ("Miao", "Miao"), ("Modi", "Modi"),
   ("Mongolian", "Mongolian"), ("Mro", "Mro"), ("Multani", "Multani"), ("Myanmar", "Myanmar"), ("Nabataean", "Nabataean"),
   ("Nag_Mundari", "Nag_Mundari"), ("Nandinagari", "Nandinagari"), ("New_Tai_Lue", "New_Tai_Lue"), ("Newa", "Newa"), ("Nko", "Nko"),
   ("Nushu", "Nushu"), ("Nyiakeng_Puachue_Hmong", "Nyiakeng_Puachue_Hmong"), ("Ogham", "Ogham"), ("Ol_Chiki", "Ol_Chiki"),
   ("Old_Hungarian", "Old_Hungarian"), ("Old_Italic", "Old_Italic"), ("Old_North_Arabian", "Old_North_Arabian"), ("Old_Permic", "Old_Permic"),
   ("Old_Persian", "Old_Persian"), ("Old_Sogdian", "Old_Sogdian"), ("Old_South_Arabian", "Old_South_Arabian"), ("Old_Turkic", "Old_Turkic"),
   ("Old_Uyghur", "Old_Uyghur"), ("Oriya", "Oriya"), ("Osage", "Osage"), ("Osmanya", "Osmanya"), ("Pahawh_Hmong", "Pahawh_Hmong"),
   ("Palmyrene", "Palmyrene"), ("Pau_Cin_Hau", "Pau_Cin_Hau"), ("Phags_Pa", "Phags_Pa"), ("Phoenician", "Phoenician"),
   ("Psalter_Pahlavi", "Psalter_Pahlavi"), ("Rejang", "Rejang"), ("Runic", "Runic"), ("Samaritan", "Samaritan"), ("Saurashtra", "Saurashtra"),
   ("Sharada", "Sharada"), ("Shavian", "Shavian"), ("Siddham", "Siddham"), ("SignWriting", "SignWriting"), ("Sinhala", "Sinhala"),
   ("Sogdian", "Sogdian"), ("Sora_Sompeng", "Sora_Sompeng"), ("Soyombo", "Soyombo"), ("Sundanese", "Sundanese"),
   ("Syloti_Nagri", "Syloti_Nagri"), ("Syriac", "Syriac"), ("Tagalog", "Tagalog"), ("Tagbanwa", "Tagbanwa"), ("Tai_Le", "Tai_Le"),
   ("Tai_Tham", "Tai_Tham"), ("Tai_Viet", "Tai_Viet"), ("Takri", "Takri"), ("Tamil", "Tamil"), ("Tangsa", "Tangsa"), ("Tangut", "Tangut"),
   ("Telugu", "Telugu"), ("Thaana", "Thaana"), ("Thai", "Thai"), ("Tibetan", "Tibetan"), ("Tifinagh", "Tifinagh"), ("Tirhuta", "Tirhuta"),
   ("Toto", "Toto"), ("Ugaritic", "Ugaritic"), ("Vai", "Vai"), ("Vithkuqi", "Vithkuqi"), ("Wancho", "Wancho"), ("Warang_Citi", "Warang_Citi"),
   ("Yezidi", "Yezidi"), ("Yi", "Yi"), ("Zanabazar_Square", "Zanabazar_Square")]

/-- `make_width`: codepoint_properties_loader.cpp:304-317. -/
def eawTable : List (String × String) :=
  [("A", "Ambiguous"), ("F", "Fullwidth"), ("H", "Halfwidth"), ("N", "Neutral"), ("Na", "Narrow"), ("W", "Wide")]

/-- `make_gb`: codepoint_properties_loader.cpp:319-349. -/
def gcbTable : List (String × String) :=
  [("LV", "LV"), ("Undefined", "Undefined"), ("CR", "CR"), ("Control", "Control"), ("E_Base", "E_Base"), ("E_Base_GAZ", "E_Base_GAZ"),
   ("E_Modifier", "E_Modifier"), ("Extend", "Extend"), ("Glue_After_Zwj", "Glue_After_Zwj"), ("L", "L"), ("LF", "LF"), ("LV", "LV"),
   ("LVT", "LVT"), ("Other", "Other"), ("Prepend", "Prepend"), ("Regional_Indicator", "Regional_Indicator"), ("SpacingMark", "SpacingMark"),
   ("T", "T"), ("V", "V"), ("ZWJ", "ZWJ")]

/-- `for (auto const& mapping: mappings) if (mapping.first == value) return …`: codepoint_properties_loader.cpp:72-76, 122-126, 297-301, 312-316,
344-348. -/
def named (table : List (String × String)) (value : Str) : Option Str := (table.find? (fun e => e.1.toList = value)).map (·.2.toList)

/-! ## Regular expressions -/

/-- `[0-9A-F]` -/
def isUpperHex (c : Char) : Bool := ('0' ≤ c && c ≤ '9') || ('A' ≤ c && c ≤ 'F')

/-- `[A-Za-z_0-9\.]` -/
def isValueChar (c : Char) : Bool := ('A' ≤ c && c ≤ 'Z') || ('a' ≤ c && c ≤ 'z') || c = '_' || ('0' ≤ c && c ≤ '9') || c = '.'

def hexes : Rx := .group 1 (.plus (.cls isUpperHex))
def blanks : Rx := .star (.cls isWhite)
def word : Rx := .plus (.cls isValueChar)

/-- `^([0-9A-F]+)\s*;\s*([A-Za-z_0-9\.]+(\s+[A-Za-z_0-9\.]+)*)`: codepoint_properties_loader.cpp:457 -/
def singlePattern : Rx :=
  .seq hexes (.seq blanks (.seq (.lit ';') (.seq blanks (.group 2 (.seq word (.star (.group 3 (.seq (.plus (.cls isWhite)) word))))))))

/-- `^([0-9A-F]+)\.\.([0-9A-F]+)\s*;\s*([A-Za-z_0-9\.]+)`: codepoint_properties_loader.cpp:458 -/
def rangePattern : Rx :=
  .seq hexes (.seq (.lit '.') (.seq (.lit '.') (.seq (.group 2 (.plus (.cls isUpperHex))) (.seq blanks (.seq (.lit ';') (.seq blanks (.group 3 word)))))))

/-! ## Reading files -/

/-- How a call ends: it returns, throws an exception, accesses a vector out of bounds, or does not end. -/
inductive Res (α : Type) where
  | ok (a : α)
  | throws
  | oob
  | hangs

def Res.bind {α β : Type} (x : Res α) (f : α → Res β) : Res β :=
  match x with
  | .ok a => f a
  | .throws => .throws
  | .oob => .oob
  | .hangs => .hangs

/-- The vectors `_codepoints` and `_names`: codepoint_properties_loader.cpp:487-491. -/
structure State where
  props : Nat → Emitted
  names : Nat → Str

/-- `codepoint_properties {}`: codepoint_properties.h:29-39 -/
def blankRow : Emitted :=
  { width := 0, flags := 0, flags2 := 0, script := "Unknown".toList, gcb := "Other".toList, eaw := "Narrow".toList, gc := "Unassigned".toList,
    esc := "Invalid".toList, age := "Unassigned".toList, incb := "None".toList, wb := "Other".toList }

/-- The constructor: codepoint_properties_loader.cpp:494-501 -/
def init : State := ⟨fun _ => blankRow, fun _ => []⟩

/-- `static_cast<char32_t>(stoul(s, nullptr, 16))` (`unsigned long` has 64 bits): codepoint_properties_loader.cpp:471, 476-477; `none`: it throws. -/
def stoul (s : Str) : Option Nat := if hexNum s < 2 ^ 64 then some (hexNum s % 2 ^ 32) else none

/-- A callback: codepoint, value, vectors. -/
abbrev Callback := Nat → Str → State → Res State

/-- `n` rounds of `for (auto codepoint = first; …; ++codepoint) callback(codepoint, value)`: codepoint_properties_loader.cpp:478-479 -/
def rangeLoop (cb : Callback) (value : Str) : Nat → Nat → State → Res State
  | 0, _, s => .ok s
  | n + 1, c, s => (cb c value s).bind (rangeLoop cb value n (c + 1))

/-- The loop over a range: codepoint_properties_loader.cpp:478-479.  (If `last` is the greatest `char32_t`, the condition never becomes false; what a
callback does to a codepoint depends on the value only, so no later round fails if none of the first sweep does.) -/
def range (cb : Callback) (value : Str) (first last : Nat) (s : State) : Res State :=
  (rangeLoop cb value (last + 1 - first) first s).bind fun s' => if first ≤ last ∧ last = 2 ^ 32 - 1 then .hangs else .ok s'

/-- One line: codepoint_properties_loader.cpp:468-480 -/
def processLine (cb : Callback) (line : Str) (s : State) : Res State :=
  match searchAtBegin singlePattern line with
  | some m =>
    match stoul (m.group 1) with
    | none => .throws
    | some c => cb c (m.group 2) s
  | none =>
    match searchAtBegin rangePattern line with
    | none => .ok s
    | some m =>
      match stoul (m.group 1), stoul (m.group 2) with
      | some first, some last => range cb (m.group 3) first last s
      | _, _ => .throws

def processLines (cb : Callback) : List Str → State → Res State
  | [], s => .ok s
  | l :: ls, s => (processLine cb l s).bind (processLines cb ls)

/-- `while (f.good()) getline(f, line)`: codepoint_properties_loader.cpp:464-467.  What is behind the last newline is a line, even if it is empty. -/
def cutLines : Str → Str → List Str
  | cur, [] => [cur]
  | cur, c :: cs => if c = '\n' then cur :: cutLines [] cs else cutLines (cur ++ [c]) cs

/-- `process_properties`: codepoint_properties_loader.cpp:450-482 -/
def processProperties (dir : Dir) (ucd : Str) (name : String) (cb : Callback) (s : State) : Res State :=
  match dir (ucd ++ '/' :: name.toList) with
  | none => .throws
  | some text => processLines cb (cutLines [] text) s

/-! ## The callbacks -/

/-- `f(properties(codepoint))`: codepoint_properties_loader.cpp:445-448 -/
def put (c : Nat) (f : Emitted → Emitted) (s : State) : Res State :=
  if c < 0x110000 then .ok { s with props := fun x => if x = c then f (s.props x) else s.props x } else .oob

/-- codepoint_properties_loader.cpp:505-507 -/
def onScript : Callback := fun c v => put c fun p => { p with script := (named scriptTable v).getD "Invalid".toList }

/-- codepoint_properties_loader.cpp:509-520 -/
def onCore : Callback := fun c v s => if v = "Grapheme_Extend".toList then put c (fun p => { p with flags := p.flags ||| 0x40 }) s else .ok s

/-- codepoint_properties_loader.cpp:522-524 -/
def onAge : Callback := fun c v => put c fun p => { p with age := (named ageTable v).getD "Unassigned".toList }

/-- codepoint_properties_loader.cpp:526-528 -/
def onCategory : Callback := fun c v s =>
  match named gcTable v with
  | none => .throws
  | some g => put c (fun p => { p with gc := g }) s

/-- codepoint_properties_loader.cpp:531-533 -/
def onName : Callback := fun c v s => if c < 0x110000 then .ok { s with names := fun x => if x = c then v else s.names x } else .oob

/-- codepoint_properties_loader.cpp:535-537 -/
def onBreak : Callback := fun c v s =>
  match named gcbTable v with
  | none => .throws
  | some g => put c (fun p => { p with gcb := g }) s

/-- codepoint_properties_loader.cpp:539-541 -/
def onWidth : Callback := fun c v s =>
  match named eawTable v with
  | none => .throws
  | some g => put c (fun p => { p with eaw := g }) s

/-- The flags of codepoint_properties_loader.cpp:563-570 -/
def flagOf (v : Str) : Option Nat :=
  if v = "Emoji".toList then some 0x01
  else if v = "Emoji_Component".toList then some 0x04
  else if v = "Emoji_Modifier".toList then some 0x08
  else if v = "Emoji_Modifier_Base".toList then some 0x10
  else if v = "Emoji_Presentation".toList then some 0x02
  else if v = "Extended_Pictographic".toList then some 0x20
  else none

/-- codepoint_properties_loader.cpp:562-577 -/
def onEmoji : Callback := fun c v s =>
  match flagOf v with
  | none => .ok s
  | some b => put c (fun p => { p with flags := p.flags ||| b }) s

/-- codepoint_properties_loader.cpp:545-559 -/
def preset (s : State) : State :=
  { s with props := fun c => { s.props c with esc :=
      if c = 0x20e3 then "CombiningEnclosingKeyCap".toList
      else if c = 0x20e0 then "CombiningEnclosingCircleBackslash".toList
      else if c = 0x200d then "ZWJ".toList
      else if c = 0xfe0e then "VS15".toList
      else if c = 0xfe0f then "VS16".toList
      else if c = 0x1f3f4 then "TagBase".toList
      else if (0xE0030 ≤ c ∧ c ≤ 0xE0039) ∨ (0xE0061 ≤ c ∧ c ≤ 0xE007A) then "TagSequence".toList
      else if c = 0xE007F then "TagTerm".toList
      else if (0x30 ≤ c ∧ c ≤ 0x39) ∨ c = 0x23 ∨ c = 0x2A then "KeyCapBase".toList
      else (s.props c).esc } }

/-- codepoint_properties_loader.cpp:579-592 -/
def derived (s : State) : State :=
  { s with props := fun c =>
      let p := { s.props c with esc := toEsc c (s.props c) }
      { p with width := toCharWidth p } }

/-- `load`: codepoint_properties_loader.cpp:503-593 -/
def load (dir : Dir) (ucd : Str) : Res State :=
  (processProperties dir ucd "Scripts.txt" onScript init).bind fun s =>
  (processProperties dir ucd "DerivedCoreProperties.txt" onCore s).bind fun s =>
  (processProperties dir ucd "DerivedAge.txt" onAge s).bind fun s =>
  (processProperties dir ucd "extracted/DerivedGeneralCategory.txt" onCategory s).bind fun s =>
  (processProperties dir ucd "extracted/DerivedName.txt" onName s).bind fun s =>
  (processProperties dir ucd "auxiliary/GraphemeBreakProperty.txt" onBreak s).bind fun s =>
  (processProperties dir ucd "EastAsianWidth.txt" onWidth s).bind fun s =>
  (processProperties dir ucd "emoji/emoji-data.txt" onEmoji (preset s)).bind fun s =>
  .ok (derived s)

end Verif.Load
