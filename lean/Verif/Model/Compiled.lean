import Verif.Model.TgEnums
import Verif.Model.Tables
import Verif.Model.Script
import Verif.Spec.UcdSound
/-!
# The library compiled against its generated files

`codepoint_properties_data.cpp` initialises the table with enumerators of `ucd_enums.h` and of `EmojiSegmentationCategory`; the
library compares them by name.
-/

namespace Verif.Tg
open Verif.Ucd
open Verif.Spec.Ucd (gcbName incbName wbName gcName)

def gcbAll : List GCB := [.Other, .CR, .LF, .Control, .Extend, .ZWJ, .Regional_Indicator, .Prepend, .SpacingMark, .L, .V, .T, .LV, .LVT]
def incbAll : List InCB := [.None, .Consonant, .Extend, .Linker]
def wbAll : List WB := [.Other, .CR, .LF, .Newline, .Extend, .ZWJ, .Format, .Regional_Indicator, .Katakana, .Hebrew_Letter,
  .ALetter, .Single_Quote, .Double_Quote, .MidNumLet, .MidLetter, .MidNum, .Numeric, .ExtendNumLet, .WSegSpace]
def gcAll : List GC := [.Unassigned, .Uppercase_Letter, .Lowercase_Letter, .Titlecase_Letter, .Modifier_Letter, .Other_Letter,
  .Nonspacing_Mark, .Enclosing_Mark, .Spacing_Mark, .Decimal_Number, .Letter_Number, .Other_Number, .Space_Separator, .Line_Separator,
  .Paragraph_Separator, .Control, .Format, .Private_Use, .Surrogate, .Dash_Punctuation, .Open_Punctuation, .Close_Punctuation,
  .Connector_Punctuation, .Other_Punctuation, .Math_Symbol, .Currency_Symbol, .Modifier_Symbol, .Other_Symbol, .Initial_Punctuation,
  .Final_Punctuation]

/-- The value with the given name; a name the library does not mention behaves like `Other`. -/
def gcbOf (s : Str) : GCB := (gcbAll.find? fun g => decide ((gcbName g).toList = s)).getD .Other
def incbOf (s : Str) : InCB := (incbAll.find? fun g => decide ((incbName g).toList = s)).getD .None
def wbOf (s : Str) : WB := (wbAll.find? fun g => decide ((wbName g).toList = s)).getD .Other
def gcOf (s : Str) : GC := (gcAll.find? fun g => decide ((gcName g).toList = s)).getD .Unassigned

/-- `enum class EmojiSegmentationCategory`: emoji_segmenter.h:31-50. -/
def escNumber (s : Str) : Int :=
  if s = "Emoji".toList then 0
  else if s = "EmojiTextPresentation".toList then 1
  else if s = "EmojiEmojiPresentation".toList then 2
  else if s = "EmojiModifierBase".toList then 3
  else if s = "EmojiModifier".toList then 4
  else if s = "EmojiVSBase".toList then 5
  else if s = "RegionalIndicator".toList then 6
  else if s = "KeyCapBase".toList then 7
  else if s = "CombiningEnclosingKeyCap".toList then 8
  else if s = "CombiningEnclosingCircleBackslash".toList then 9
  else if s = "ZWJ".toList then 10
  else if s = "VS15".toList then 11
  else if s = "VS16".toList then 12
  else if s = "TagBase".toList then 13
  else if s = "TagSequence".toList then 14
  else if s = "TagTerm".toList then 15
  else -1

/-- An initialiser of the table (multistage_generator.cpp:688-703) as the `codepoint_properties` object it denotes:
codepoint_properties.h:26-38. -/
def compileRow (scripts : EnumDef) (e : Emitted) : Props :=
  { charWidth := e.width
    flags := e.flags
    flags2 := e.flags2
    script := (scripts.number e.script).getD 0
    gcb := gcbOf e.gcb
    generalCategory := gcOf e.gc
    emojiCategory := escNumber e.esc
    incb := incbOf e.incb
    wb := wbOf e.wb }

def compiled (scripts : EnumDef) : Utf8.Mem Emitted → Props
  | .ok e => compileRow scripts e
  | .oob => {}

/-- `codepoint_properties::get` with the generated arrays: codepoint_properties.h:95-100 (that no access is out of bounds is
part of C54). -/
def compiledTable (D : Db) (g : Tables.Gen Emitted) : Table := fun c => compiled (scriptEnum D) (Tables.get Tables.propertiesShape g c)

/-- An enumerator of `Script`, given by its name, as the script segmenter distinguishes them (script_segmenter.cpp:26-35). -/
def scriptOf (scripts : EnumDef) (s : Str) : Script.Script :=
  if s = "Invalid".toList then .Invalid
  else if s = "Common".toList then .Common
  else if s = "Inherited".toList then .Inherited
  else .sc ((scripts.number s).getD 0)

def compiledScript (scripts : EnumDef) : Utf8.Mem Str → Script.Script
  | .ok s => scriptOf scripts s
  | .oob => .Invalid

def compiledExts (scripts : EnumDef) : Utf8.Mem (Option (List Str)) → Option (List Script.Script)
  | .ok r => r.map fun l => l.map (scriptOf scripts)
  | .oob => none

/-- `script` and `script_extensions` of the generated `ucd.cpp`, as the script segmenter calls them
(script_segmenter.cpp:125-146; that no access is out of bounds is part of C53); `al` are the aliases of the scripts. -/
def compiledScripts (D : Db) (al : List (Str × Str)) : Script.Data where
  script c := compiledScript (scriptEnum D) (apiScript D c)
  exts c := compiledExts (scriptEnum D) (apiScriptExtensions D al c)

end Verif.Tg
