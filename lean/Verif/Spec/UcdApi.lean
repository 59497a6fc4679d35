import Verif.Spec.NormFiles
import Verif.Spec.UcdAssign

/-!
# Independent specification: the files behind the query functions

UAX #44 and the headers of the files.  `DerivedGeneralCategory.txt` and `GraphemeBreakProperty.txt` consist of sections
that start with a special comment line; so does `PropertyValueAliases.txt`.
-/

namespace Verif.Spec.UcdFile
open Verif.Spec.Ucd

/-- No white space. -/
def Ink (c : Char) : Prop := c ≠ ' ' ∧ c ≠ '\t' ∧ c ≠ '\r' ∧ c ≠ '\n'

/-- A file in sections: the entries before the first header, and per header the entries up to the next one. -/
inductive Sections {E : Type} (Plain : List Char → Prop) (Header : List Char → List Char → Prop)
    (Line : List Char → E → Prop) : List (List Char) → List E → List (List Char × List E) → Prop
  | nil : Sections Plain Header Line [] [] []
  | skip {line stored lines pre secs} : Plain line → Stored line stored → Sections Plain Header Line lines pre secs →
      Sections Plain Header Line (stored :: lines) pre secs
  | header {line stored lines pre secs name} : Header line name → Stored line stored →
      Sections Plain Header Line lines pre secs → Sections Plain Header Line (stored :: lines) [] ((name, pre) :: secs)
  | data {line stored lines pre secs e} : Line line e → Stored line stored → Sections Plain Header Line lines pre secs →
      Sections Plain Header Line (stored :: lines) (e :: pre) secs

/-- A data line about Unicode codepoints. -/
def RangeLine (line : List Char) (e : Entry) : Prop := DataLine line e.1 e.2.1 e.2.2 ∧ e.1 ≤ e.2.1 ∧ e.2.1 ≤ 0x10FFFF

/-- `# Property: name` -/
def PropertyHeader (line name : List Char) : Prop :=
  ∃ w w', Blank w ∧ Blank w' ∧ Word name ∧ line = "# Property:".toList ++ w ++ name ++ w'

/-- Any other line without data in a file with such headers. -/
def PropertyPlain (line : List Char) : Prop :=
  Blank line ∨ (∃ t, line = '#' :: t) ∧ ¬ "Property:".toList <:+: line

/-- `# General_Category=name` -/
def CategoryHeader (line name : List Char) : Prop :=
  ∃ w, Blank w ∧ Word name ∧ line = "# General_Category=".toList ++ name ++ w

def CategoryPlain (line : List Char) : Prop := NoData line ∧ ¬ "# General_Category=".toList <+: line

/-- `# Name (abbreviation)` in PropertyValueAliases.txt -/
def AliasHeader (line name : List Char) : Prop :=
  ∃ ab w, Blank w ∧ Word name ∧ line = "# ".toList ++ name ++ " (".toList ++ ab ++ ')' :: w

/-- A comment that does not end with a parenthesis, or a blank line. -/
def AliasPlain (line : List Char) : Prop :=
  Blank line ∨ ∃ s w, Blank w ∧ (∀ c, s.getLast? = some c → Ink c ∧ c ≠ ')') ∧ line = '#' :: s ++ w

/-- `property ; abbreviation ; name …` -/
def AliasLine (line : List Char) (e : List Char × List Char) : Prop :=
  ∃ p w₁ w₂ w₃ w₄ rest, Word p ∧ Word e.1 ∧ Word e.2 ∧ Blank w₁ ∧ Blank w₂ ∧ Blank w₃ ∧ Blank w₄ ∧
    (rest = [] ∨ ∃ c r, rest = c :: r ∧ (c = ' ' ∨ c = '\t' ∨ c = ';')) ∧
    line = p ++ w₁ ++ ';' :: w₂ ++ e.1 ++ w₃ ++ ';' :: w₄ ++ e.2 ++ rest

/-- Words separated by white space. -/
inductive WordsOf : List Char → List (List Char) → Prop
  | one {w} : Word w → WordsOf w [w]
  | cons {w b s ws} : Word w → Blank b → b ≠ [] → WordsOf s ws → WordsOf (w ++ b ++ s) (w :: ws)

/-- `name; value` as the value of a data line (DerivedCoreProperties.txt). -/
def TwoPart (s name value : List Char) : Prop :=
  ∃ w w', Blank w ∧ Blank w' ∧ Word name ∧ Word value ∧ s = name ++ w ++ ';' :: w' ++ value

/-- A line of emoji-variation-sequences.txt: `base selector ; style; # comment`. -/
def VariationLine (line : List Char) (base : Nat) : Prop :=
  ∃ h w sel rest, HexOf h base ∧ base ≤ 0x10FFFF ∧ Blank w ∧ w ≠ [] ∧ (∀ c ∈ sel, c ≠ ';' ∧ c ≠ '#') ∧
    line = h ++ w ++ sel ++ ';' :: rest

/-- A line of UnicodeData.txt, and whether the codepoint is mirrored (field 9). -/
def MirrorLine (line : List Char) (e : Nat × Bool) : Prop :=
  ∃ fs : List (List Char), fs.length = 15 ∧ line = join fs ∧ (∀ f ∈ fs, ';' ∉ f) ∧ HexOf (fs.getD 0 []) e.1 ∧
    e.1 ≤ 0x10FFFF ∧ fs.getD 9 [] = if e.2 then ['Y'] else ['N']

/-- A line of Blocks.txt: always a range. -/
def BlockLine (line : List Char) (e : Entry) : Prop :=
  ∃ h₁ h₂ w₂ w₃ w₄ tail, HexOf h₁ e.1 ∧ HexOf h₂ e.2.1 ∧ Blank w₂ ∧ Blank w₃ ∧ Value e.2.2 ∧ Blank w₄ ∧ Tail tail ∧
    e.1 ≤ e.2.1 ∧ e.2.1 ≤ 0x10FFFF ∧
    line = h₁ ++ ['.', '.'] ++ h₂ ++ w₂ ++ [';'] ++ w₃ ++ e.2.2 ++ w₄ ++ tail

/-- A line of BidiMirroring.txt: a codepoint and its mirror image. -/
def GlyphLine (line : List Char) (e : Nat × Nat) : Prop :=
  ∃ v, DataLine line e.1 e.1 v ∧ e.1 ≤ 0x10FFFF ∧ HexOf v e.2 ∧ e.2 ≤ 0x10FFFF

end Verif.Spec.UcdFile

namespace Verif.Spec.Ucd

/-- No codepoint is listed twice. -/
def Separate (es : List Entry) : Prop := es.Pairwise fun a b => a.2.1 < b.1 ∨ b.2.1 < a.1

/-- The entries are listed in ascending order. -/
def Ascending (es : List Entry) : Prop := es.Pairwise fun a b => a.2.1 < b.1

/-- The entries with a given value. -/
def withValue (es : List Entry) (v : List Char) : List Entry := es.filter fun e => decide (e.2.2 = v)

/-- The long names of the widths (UAX #11). -/
def widths : List (String × String) :=
  [("A", "Ambiguous"), ("F", "FullWidth"), ("H", "HalfWidth"), ("N", "Neutral"), ("Na", "Narrow"), ("W", "Wide")]

/-- A title as a C++ identifier: spaces and hyphens become underscores. -/
def Identifier (title ident : List Char) : Prop :=
  ident.length = title.length ∧ ∀ i (h : i < title.length) (h' : i < ident.length),
    ident[i] = if title[i] = ' ' ∨ title[i] = '-' then '_' else title[i]

/-- The planes, as in the Unicode Standard, section 2.8. -/
def planeNames : List String :=
  ["Basic_Multilingual_Plane", "Supplementary_Multilingual_Plane", "Supplementary_Ideographic_Plane",
   "Tertiary_Ideographic_Plane", "Unassigned", "Unassigned", "Unassigned", "Unassigned", "Unassigned", "Unassigned",
   "Unassigned", "Unassigned", "Unassigned", "Unassigned", "Supplementary_Special_purpose_Plane",
   "Supplementary_Private_Use_Area_Plane", "Supplementary_Private_Use_Area_Plane"]

/-- Codepoint `c` as in the names of ideographs: upper case hexadecimal, at least four digits. -/
def HexName (c : Nat) (s : List Char) : Prop := Verif.Spec.UcdFile.HexOf s c ∧ (s.length = 4 ∨ 4 < s.length ∧ s.head? ≠ some '0') ∧
  ∀ x ∈ s, x.isLower = false

/-- The name of `c` according to DerivedName.txt, where a final `*` stands for the codepoint. -/
def NameOf (es : List Entry) (c : Nat) (n : List Char) : Prop :=
  ∃ v, Assigns es c v ∧ ((v.getLast? ≠ some '*' ∧ n = v) ∨ ∃ s h, v = s ++ ['*'] ∧ HexName c h ∧ n = s ++ h)

/-- The contents of the files. -/
structure Contents where
  aliases : List (List Char × List (List Char × List Char))
  gc : List (List Char × List Entry)
  core : List Entry
  scripts : List Entry
  isc : List Entry
  sce : List Entry
  blocks : List Entry
  gcb : List (List Char × List Entry)
  wb : List (List Char × List Entry)
  eaw : List Entry
  hst : List Entry
  emoji : List Entry
  evs : List Nat
  mirrored : List (Nat × Bool)
  glyphs : List (Nat × Nat)
  ages : List Entry
  names : List Entry

/-- The entries of all sections. -/
def allOf (secs : List (List Char × List Entry)) : List Entry := secs.flatMap (·.2)

end Verif.Spec.Ucd
