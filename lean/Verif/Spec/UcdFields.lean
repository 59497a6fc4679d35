import Verif.Spec.UcdFile

/-!
# Independent specification: the multi-field files of the Unicode Character Database

UAX #44 and the headers of the files: `UnicodeData.txt` (15 fields separated by semicolons), `CaseFolding.txt`
(`code; status; mapping; # name`), `SpecialCasing.txt` (`code; lower; title; upper; (condition_list;)? # comment`),
`CompositionExclusions.txt` (`code # comment`), `DerivedNormalizationProps.txt` (`code(s) ; property (; value)? # comment`).
-/

namespace Verif.Spec.UcdFile

/-- Fields separated by semicolons. -/
def join : List (List Char) → List Char
  | [] => []
  | [f] => f
  | f :: g :: r => f ++ ';' :: join (g :: r)

def Spaces (s : List Char) : Prop := ∀ c ∈ s, c = ' '

/-- Hexadecimal numerals of Unicode codepoints, separated by spaces. -/
inductive CpSeq : List Char → List Nat → Prop
  | one {h n} : HexOf h n → n ≤ 0x10FFFF → CpSeq h [n]
  | cons {h n w s ns} : HexOf h n → n ≤ 0x10FFFF → Spaces w → w ≠ [] → CpSeq s ns → CpSeq (h ++ w ++ s) (n :: ns)

/-- A field with a possibly empty list of codepoints. -/
def CpField (s : List Char) (ns : List Nat) : Prop :=
  (Spaces s ∧ ns = []) ∨ ∃ w t w', s = w ++ t ++ w' ∧ Spaces w ∧ Spaces w' ∧ CpSeq t ns

/-- An optional codepoint. -/
def OptCp (s : List Char) (o : Option Nat) : Prop :=
  (s = [] ∧ o = none) ∨ ∃ n, HexOf s n ∧ n ≤ 0x10FFFF ∧ o = some n

/-- `s` is a decimal numeral for `n`. -/
inductive DecOf : List Char → Nat → Prop
  | one {c v} : "0123456789".toList[v]? = some c → DecOf [c] v
  | snoc {s n c v} : DecOf s n → "0123456789".toList[v]? = some c → DecOf (s ++ [c]) (n * 10 + v)

/-- A decomposition: none, canonical, or compatibility with its tag. -/
inductive Decomposition where
  | none
  | canonical (cps : List Nat)
  | compat (tag : List Char) (cps : List Nat)
deriving DecidableEq, Repr

/-- Field 5 of UnicodeData.txt. -/
inductive DecompField : List Char → Decomposition → Prop
  | none : DecompField [] .none
  | canonical {s ns} : CpSeq s ns → DecompField s (.canonical ns)
  | compat {tag w s ns} : '>' ∉ tag → tag ≠ "canonical".toList → Spaces w → CpSeq s ns →
      DecompField ('<' :: tag ++ '>' :: w ++ s) (.compat tag ns)

/-- What UnicodeData.txt says about a codepoint (the fields the library uses). -/
structure UdEntry where
  cp : Nat
  ccc : Nat
  decomp : Decomposition
  upper : Option Nat
  lower : Option Nat
  title : Option Nat
deriving DecidableEq, Repr

/-- A line of UnicodeData.txt. -/
def UdLine (line : List Char) (e : UdEntry) : Prop :=
  ∃ fs : List (List Char), fs.length = 15 ∧ line = join fs ∧ (∀ f ∈ fs, ';' ∉ f) ∧
    HexOf (fs.getD 0 []) e.cp ∧ e.cp ≤ 0x10FFFF ∧ DecOf (fs.getD 3 []) e.ccc ∧ e.ccc ≤ 254 ∧
    DecompField (fs.getD 5 []) e.decomp ∧
    OptCp (fs.getD 12 []) e.upper ∧ OptCp (fs.getD 13 []) e.lower ∧ OptCp (fs.getD 14 []) e.title

/-- A comment line or a blank line. -/
def Comment (line : List Char) : Prop := (∃ t, line = '#' :: t) ∨ Blank line

/-- A file in which a line is a comment or a data line of the given kind, with the entries in order. -/
inductive FileWith {E : Type} (Line : List Char → E → Prop) : List (List Char) → List E → Prop
  | nil : FileWith Line [] []
  | skip {line stored lines es} : Comment line → Stored line stored → FileWith Line lines es →
      FileWith Line (stored :: lines) es
  | data {line stored lines es e} : Line line e → Stored line stored → FileWith Line lines es →
      FileWith Line (stored :: lines) (e :: es)

/-- What CaseFolding.txt says: status (`C`, `F`, `S` or `T`) and mapping. -/
structure FoldEntry where
  cp : Nat
  status : Char
  mapping : List Nat
deriving DecidableEq, Repr

/-- A line of CaseFolding.txt. -/
def FoldLine (line : List Char) (e : FoldEntry) : Prop :=
  ∃ h w w' m rest, line = h ++ ';' :: (w ++ e.status :: w') ++ ';' :: m ++ ';' :: rest ∧ HexOf h e.cp ∧ e.cp ≤ 0x10FFFF ∧
    Blank w ∧ Blank w' ∧ e.status ∈ ['C', 'F', 'S', 'T'] ∧ CpField m e.mapping

/-- What SpecialCasing.txt says; `conditional` mappings depend on a language or context. -/
structure SpecialEntry where
  cp : Nat
  lower : List Nat
  title : List Nat
  upper : List Nat
  conditional : Bool
deriving DecidableEq, Repr

/-- A line of SpecialCasing.txt. -/
def SpecialLine (line : List Char) (e : SpecialEntry) : Prop :=
  ∃ h l t u cond w rest, line = h ++ ';' :: l ++ ';' :: t ++ ';' :: u ++ ';' :: cond ++ w ++ '#' :: rest ∧
    HexOf h e.cp ∧ e.cp ≤ 0x10FFFF ∧ CpField l e.lower ∧ CpField t e.title ∧ CpField u e.upper ∧ Blank w ∧
    ((e.conditional = false ∧ cond = []) ∨
      (e.conditional = true ∧ ∃ c, cond = c ++ [';'] ∧ '#' ∉ c))

end Verif.Spec.UcdFile
