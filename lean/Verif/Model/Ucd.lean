/-!
# Character data

The UCD tables (`ucd_enums.h`, `codepoint_properties_data.h`, …) are generated at build time from data files
that are not part of the repository.  They are therefore a *parameter* of the model: a function from
codepoints to `Props`.  The enumerations list exactly the values the code distinguishes.
-/

namespace Verif.Ucd

/-- `Grapheme_Cluster_Break` (generated enum; values used in grapheme_segmenter.cpp:19-154). -/
inductive GCB where
  | Other | CR | LF | Control | Extend | ZWJ | Regional_Indicator | Prepend | SpacingMark
  | L | V | T | LV | LVT
deriving DecidableEq, Repr

/-- `Indic_Conjunct_Break` (generated enum; values used in grapheme_segmenter.cpp:72-80). -/
inductive InCB where
  | None | Consonant | Extend | Linker
deriving DecidableEq, Repr

/-- `Word_Break` (generated enum; values used in word_segmenter.cpp). -/
inductive WB where
  | Other | CR | LF | Newline | Extend | ZWJ | Format | Regional_Indicator | Katakana | Hebrew_Letter
  | ALetter | Single_Quote | Double_Quote | MidNumLet | MidLetter | MidNum | Numeric | ExtendNumLet
  | WSegSpace
deriving DecidableEq, Repr

/-- `General_Category` (generated enum; members as listed in codepoint_properties_loader.cpp:82-118). -/
inductive GC where
  | Unassigned | Uppercase_Letter | Lowercase_Letter | Titlecase_Letter | Modifier_Letter | Other_Letter
  | Nonspacing_Mark | Enclosing_Mark | Spacing_Mark | Decimal_Number | Letter_Number | Other_Number
  | Space_Separator | Line_Separator | Paragraph_Separator | Control | Format | Private_Use | Surrogate
  | Dash_Punctuation | Open_Punctuation | Close_Punctuation | Connector_Punctuation | Other_Punctuation
  | Math_Symbol | Currency_Symbol | Modifier_Symbol | Other_Symbol | Initial_Punctuation | Final_Punctuation
deriving DecidableEq, Repr

/-- `struct codepoint_properties`: codepoint_properties.h:26-38.  Only the members the modelled code reads
are kept; `script` and `emojiCategory` are the raw enumerator values. -/
structure Props where
  charWidth : Nat := 1
  flags : Nat := 0
  flags2 : Nat := 0
  script : Nat := 0
  gcb : GCB := .Other
  generalCategory : GC := .Other_Letter
  emojiCategory : Int := -1
  incb : InCB := .None
  wb : WB := .Other
deriving DecidableEq, Repr

namespace Props
/-- codepoint_properties.h:45,57 -/
def isExtPict (p : Props) : Bool := (p.flags &&& 0x20) != 0
/-- codepoint_properties.h:47,78 -/
def isVirama (p : Props) : Bool := (p.flags &&& 0x80) != 0
/-- codepoint_properties.h:50,67 -/
def isEmojiVariationBase (p : Props) : Bool := (p.flags2 &&& 0x01) != 0
/-- codepoint_properties.h:40,52 -/
def isEmoji (p : Props) : Bool := (p.flags &&& 0x01) != 0
/-- codepoint_properties.h:41,53 -/
def isEmojiPresentation (p : Props) : Bool := (p.flags &&& 0x02) != 0
end Props

/-- `codepoint_properties::get`: codepoint_properties.h:100, as an arbitrary function. -/
abbrev Table := Nat → Props

end Verif.Ucd
