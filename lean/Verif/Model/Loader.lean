import Verif.Model.TgRecords
/-!
# Model of the derived columns of the run-time loader: codepoint_properties_loader.cpp

The two functions that derive a column; a `codepoint_properties` value is represented by the initialiser that denotes
it (`Emitted`), enumerators by their names.  The file-reading part of the loader (regular expressions over the data files,
hard-wired string → enumerator tables, `load_from_directory`) is in Model/LoaderFiles.  The file is not part of any CMake
target.
-/

namespace Verif.Tg

/-- `toCharWidth`: codepoint_properties_loader.cpp:354-393; `is_emoji_presentation` is bit 1 of `flags`
(codepoint_properties.h). -/
def toCharWidth (p : Emitted) : Nat :=
  if p.gc = "Control".toList ∨ p.gc = "Enclosing_Mark".toList ∨ p.gc = "Format".toList ∨ p.gc = "Line_Separator".toList ∨
      p.gc = "Nonspacing_Mark".toList ∨ p.gc = "Paragraph_Separator".toList ∨ p.gc = "Spacing_Mark".toList ∨
      p.gc = "Surrogate".toList then 0
  else if p.flags.testBit 1 then 2
  else if p.eaw = "Wide".toList ∨ p.eaw = "Fullwidth".toList then 2
  else 1

/-- `toEmojiSegmentationCategory`: codepoint_properties_loader.cpp:395-429. -/
def toEsc (cp : Nat) (p : Emitted) : Str :=
  if cp = 0x20e3 then "CombiningEnclosingKeyCap".toList
  else if cp = 0x20e0 then "CombiningEnclosingCircleBackslash".toList
  else if cp = 0x200d then "ZWJ".toList
  else if cp = 0xfe0e then "VS15".toList
  else if cp = 0xfe0f then "VS16".toList
  else if cp = 0x1f3f4 then "TagBase".toList
  else if (0xE0030 ≤ cp ∧ cp ≤ 0xE0039) ∨ (0xE0061 ≤ cp ∧ cp ≤ 0xE007A) then "TagSequence".toList
  else if cp = 0xE007F then "TagTerm".toList
  else if p.flags.testBit 4 then "EmojiModifierBase".toList
  else if p.flags.testBit 3 then "EmojiModifier".toList
  else if p.gcb = "Regional_Indicator".toList then "RegionalIndicator".toList
  else if (0x30 ≤ cp ∧ cp ≤ 0x39) ∨ cp = 0x23 ∨ cp = 0x2A then "KeyCapBase".toList
  else if p.flags.testBit 1 then "EmojiEmojiPresentation".toList
  else if p.flags.testBit 0 ∧ ¬ p.flags.testBit 1 then "EmojiTextPresentation".toList
  else if p.flags.testBit 0 then "Emoji".toList
  else "Invalid".toList

end Verif.Tg
