import Verif.Spec.UcdRecord
/-!
# Independent specification: what the run-time loader takes from the data files
-/

namespace Verif.Spec.UcdFile

/-- As the lines of the Unicode Character Database are written: no white space in front, and the digits in front of the first semicolon, unless the line
is a comment or directive, are in capital letters. -/
structure Tidy (line : List Char) : Prop where
  head : ∀ c, line.head? = some c → c ≠ ' ' ∧ c ≠ '\t'
  upper : (∀ t, line ≠ '#' :: t) → (∀ t, line ≠ '@' :: t) → ∀ p q, line = p ++ ';' :: q → ';' ∉ p → ∀ c ∈ p, c ≠ 'a' ∧ c ≠ 'b' ∧ c ≠ 'c' ∧ c ≠ 'd' ∧ c ≠ 'e' ∧ c ≠ 'f'

/-- Letters, digits, underscores and full stops. -/
def Plainword (s : List Char) : Prop :=
  s ≠ [] ∧ ∀ c ∈ s, ('A' ≤ c ∧ c ≤ 'Z') ∨ ('a' ≤ c ∧ c ≤ 'z') ∨ c = '_' ∨ ('0' ≤ c ∧ c ≤ '9') ∨ c = '.'

/-- The value, without what follows a semicolon in it. -/
def FirstPart (s v : List Char) : Prop := Plainword v ∧ (s = v ∨ ∃ w t, Blank w ∧ s = v ++ w ++ ';' :: t)

/-- Plain words separated by white space. -/
inductive PlainWords : List Char → Prop
  | one {w} : Plainword w → PlainWords w
  | cons {w b s} : Plainword w → Blank b → b ≠ [] → PlainWords s → PlainWords (w ++ b ++ s)

/-- A single codepoint is not written as a range `X..X`. -/
def ProperRange (line : List Char) : Prop :=
  ∀ h₁ h₂ n r, HexOf h₁ n → HexOf h₂ n → (r.head? = some ' ' ∨ r.head? = some '\t' ∨ r.head? = some ';') → line ≠ h₁ ++ '.' :: '.' :: (h₂ ++ r)

end Verif.Spec.UcdFile

namespace Verif.Spec.Ucd
open Verif.Spec.UcdFile

/-- `r` is what the loader makes of what the files say about codepoint `c`: the columns for virama, variation sequences, conjuncts and word breaks are
not filled. -/
structure Row.Loaded (U : Contents) (N : ValueNames) (c : Nat) (r : Row) : Prop where
  script : ValueOf U.scripts "Unknown".toList c r.script
  gc : (∃ ab, Assigns (allOf U.gc) c ab ∧ (ab, r.gc) ∈ N.gc) ∨ (∀ w, ¬ Assigns (allOf U.gc) c w) ∧ r.gc = "Unassigned".toList
  eaw : NamedValueOf U.eaw N.eaw "Narrow".toList c r.eaw
  age : NamedValueOf U.ages N.age "Unassigned".toList c r.age
  gcb : NamedValueOf (allOf U.gcb) N.gcb "Other".toList c r.gcb
  wb : r.wb = "Other".toList
  incb : r.incb = "None".toList
  emoji : r.flags.testBit 0 = true ↔ Assigns U.emoji c "Emoji".toList
  presentation : r.flags.testBit 1 = true ↔ Assigns U.emoji c "Emoji_Presentation".toList
  component : r.flags.testBit 2 = true ↔ Assigns U.emoji c "Emoji_Component".toList
  modifier : r.flags.testBit 3 = true ↔ Assigns U.emoji c "Emoji_Modifier".toList
  modifierBase : r.flags.testBit 4 = true ↔ Assigns U.emoji c "Emoji_Modifier_Base".toList
  pictographic : r.flags.testBit 5 = true ↔ Assigns U.emoji c "Extended_Pictographic".toList
  graphemeExtend : r.flags.testBit 6 = true ↔ Assigns U.core c "Grapheme_Extend".toList
  byte : r.flags < 128
  variationBase : r.flags2 = 0
  width : r.width =
    if r.gc ∈ zeroWidthCategories.map String.toList then 0
    else if Assigns U.emoji c "Emoji_Presentation".toList then 2
    else if r.eaw = "Wide".toList ∨ r.eaw = "Fullwidth".toList then 2
    else 1
  esc : r.esc =
    if c = 0x20E3 then "CombiningEnclosingKeyCap".toList
    else if c = 0x20E0 then "CombiningEnclosingCircleBackslash".toList
    else if c = 0x200D then "ZWJ".toList
    else if c = 0xFE0E then "VS15".toList
    else if c = 0xFE0F then "VS16".toList
    else if c = 0x1F3F4 then "TagBase".toList
    else if (0xE0030 ≤ c ∧ c ≤ 0xE0039) ∨ (0xE0061 ≤ c ∧ c ≤ 0xE007A) then "TagSequence".toList
    else if c = 0xE007F then "TagTerm".toList
    else if Assigns U.emoji c "Emoji_Modifier_Base".toList then "EmojiModifierBase".toList
    else if Assigns U.emoji c "Emoji_Modifier".toList then "EmojiModifier".toList
    else if r.gcb = "Regional_Indicator".toList then "RegionalIndicator".toList
    else if (0x30 ≤ c ∧ c ≤ 0x39) ∨ c = 0x23 ∨ c = 0x2A then "KeyCapBase".toList
    else if Assigns U.emoji c "Emoji_Presentation".toList then "EmojiEmojiPresentation".toList
    else if Assigns U.emoji c "Emoji".toList then "EmojiTextPresentation".toList
    else "Invalid".toList

end Verif.Spec.Ucd
