import Verif.Spec.UcdRecord
import Verif.Model.Ucd

/-!
# Independent specification: character data the segmentation algorithms are made for

The library's code refers to enumerators by name.  This file gives the names, says when a table of properties shows what the
data files say, and lists what the algorithms expect of the data.
-/

namespace Verif.Spec.Ucd
open Verif.Ucd

/-- The names of the values of Grapheme_Cluster_Break. -/
def gcbName : GCB → String
  | .Other => "Other" | .CR => "CR" | .LF => "LF" | .Control => "Control" | .Extend => "Extend" | .ZWJ => "ZWJ"
  | .Regional_Indicator => "Regional_Indicator" | .Prepend => "Prepend" | .SpacingMark => "SpacingMark"
  | .L => "L" | .V => "V" | .T => "T" | .LV => "LV" | .LVT => "LVT"

/-- The names of the values of Indic_Conjunct_Break. -/
def incbName : InCB → String
  | .None => "None" | .Consonant => "Consonant" | .Extend => "Extend" | .Linker => "Linker"

/-- The names of the values of Word_Break. -/
def wbName : WB → String
  | .Other => "Other" | .CR => "CR" | .LF => "LF" | .Newline => "Newline" | .Extend => "Extend" | .ZWJ => "ZWJ"
  | .Format => "Format" | .Regional_Indicator => "Regional_Indicator" | .Katakana => "Katakana"
  | .Hebrew_Letter => "Hebrew_Letter" | .ALetter => "ALetter" | .Single_Quote => "Single_Quote"
  | .Double_Quote => "Double_Quote" | .MidNumLet => "MidNumLet" | .MidLetter => "MidLetter" | .MidNum => "MidNum"
  | .Numeric => "Numeric" | .ExtendNumLet => "ExtendNumLet" | .WSegSpace => "WSegSpace"

/-- The names of the values of General_Category. -/
def gcName : GC → String
  | .Unassigned => "Unassigned" | .Uppercase_Letter => "Uppercase_Letter" | .Lowercase_Letter => "Lowercase_Letter"
  | .Titlecase_Letter => "Titlecase_Letter" | .Modifier_Letter => "Modifier_Letter" | .Other_Letter => "Other_Letter"
  | .Nonspacing_Mark => "Nonspacing_Mark" | .Enclosing_Mark => "Enclosing_Mark" | .Spacing_Mark => "Spacing_Mark"
  | .Decimal_Number => "Decimal_Number" | .Letter_Number => "Letter_Number" | .Other_Number => "Other_Number"
  | .Space_Separator => "Space_Separator" | .Line_Separator => "Line_Separator" | .Paragraph_Separator => "Paragraph_Separator"
  | .Control => "Control" | .Format => "Format" | .Private_Use => "Private_Use" | .Surrogate => "Surrogate"
  | .Dash_Punctuation => "Dash_Punctuation" | .Open_Punctuation => "Open_Punctuation"
  | .Close_Punctuation => "Close_Punctuation" | .Connector_Punctuation => "Connector_Punctuation"
  | .Other_Punctuation => "Other_Punctuation" | .Math_Symbol => "Math_Symbol" | .Currency_Symbol => "Currency_Symbol"
  | .Modifier_Symbol => "Modifier_Symbol" | .Other_Symbol => "Other_Symbol" | .Initial_Punctuation => "Initial_Punctuation"
  | .Final_Punctuation => "Final_Punctuation"

/-- The categories of the emoji grammar and their symbols (as in the grammar of `Spec/Emoji.lean`). -/
def emojiSymbols : List (String × Int) :=
  [("Invalid", -1), ("Emoji", 0), ("EmojiTextPresentation", 1), ("EmojiEmojiPresentation", 2), ("EmojiModifierBase", 3),
   ("EmojiModifier", 4), ("EmojiVSBase", 5), ("RegionalIndicator", 6), ("KeyCapBase", 7), ("CombiningEnclosingKeyCap", 8),
   ("CombiningEnclosingCircleBackslash", 9), ("ZWJ", 10), ("VS15", 11), ("VS16", 12), ("TagBase", 13), ("TagSequence", 14),
   ("TagTerm", 15)]

/-- The properties `p` are those of row `r`. -/
structure Row.Shown (r : Row) (p : Props) : Prop where
  width : p.charWidth = r.width
  flags : p.flags = r.flags
  flags2 : p.flags2 = r.flags2
  gcb : (gcbName p.gcb).toList = r.gcb
  incb : (incbName p.incb).toList = r.incb
  wb : (wbName p.wb).toList = r.wb
  gc : (gcName p.generalCategory).toList = r.gc
  esc : ∃ s, (s, p.emojiCategory) ∈ emojiSymbols ∧ s.toList = r.esc

/-- The table holds, for every codepoint, what the files say (and for other values of `char32_t`, what they say about
U+0000). -/
def Shows (U : Contents) (N : ValueNames) (T : Table) : Prop :=
  ∀ c, ∃ r, Row.Says U N (if c ≤ 0x10FFFF then c else 0) r ∧ Row.Shown r (T c)

/-- What the algorithms expect of the row of codepoint `c`.  All of it is true of the Unicode Character Database. -/
structure Row.Usable (c : Nat) (r : Row) : Prop where
  /-- the values are ones the library knows (it was written for this version of Unicode) -/
  gcbKnown : ∃ g, (gcbName g).toList = r.gcb
  incbKnown : ∃ g, (incbName g).toList = r.incb
  wbKnown : ∃ g, (wbName g).toList = r.wb
  gcKnown : ∃ g, (gcName g).toList = r.gc
  /-- ASCII has no special properties besides the controls -/
  ascii : c < 128 → r.gcb ∈ ["Other", "CR", "LF", "Control"].map String.toList ∧ r.incb = "None".toList ∧ r.flags.testBit 5 = false
  printable : 0x20 ≤ c → c < 0x7F → r.gcb = "Other".toList ∧ r.width = 1
  /-- CR and LF are ASCII -/
  crlf : r.gcb ∈ ["CR", "LF"].map String.toList → c < 128
  /-- marks of conjuncts do not start a cluster -/
  marks : r.incb ∈ ["Extend", "Linker"].map String.toList → r.gcb ∈ ["Extend", "ZWJ", "SpacingMark"].map String.toList
  consonants : r.incb = "Consonant".toList → r.gcb ∉ ["Control", "CR", "LF", "Regional_Indicator"].map String.toList
  /-- pictographs are plain characters -/
  pictographs : r.flags.testBit 5 = true → r.gcb = "Other".toList ∧ r.wb ∉ ["Extend", "Format", "ZWJ"].map String.toList
  /-- the zero width joiner takes no room -/
  joiner : c = 0x200D → r.width = 0

/-- The rows the files determine are usable. -/
def Usable (U : Contents) (N : ValueNames) : Prop := ∀ c ≤ 0x10FFFF, ∀ r, Row.Says U N c r → Row.Usable c r

end Verif.Spec.Ucd
