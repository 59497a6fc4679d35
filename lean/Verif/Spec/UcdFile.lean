/-!
# Independent specification: lines of the Unicode Character Database

UAX #44, section 4.2: `HEX ; value # comment` and `HEX..HEX ; value # comment`; comment lines start with `#`.
-/

namespace Verif.Spec.UcdFile

/-- `c` is the hexadecimal digit of value `v`. -/
def Digit (c : Char) (v : Nat) : Prop :=
  "0123456789ABCDEF".toList[v]? = some c ∨ "0123456789abcdef".toList[v]? = some c

/-- `s` is a numeral (one or more digits) for `n` in base 16. -/
inductive HexOf : List Char → Nat → Prop
  | one {c v} : Digit c v → HexOf [c] v
  | snoc {s n c v} : HexOf s n → Digit c v → HexOf (s ++ [c]) (n * 16 + v)

/-- A run of spaces and tabs. -/
def Blank (s : List Char) : Prop := ∀ c ∈ s, c = ' ' ∨ c = '\t'

/-- A field value: no comment sign, no surrounding white space. -/
structure Value (s : List Char) : Prop where
  noHash : '#' ∉ s
  head : ∀ c, s.head? = some c → c ≠ ' ' ∧ c ≠ '\t' ∧ c ≠ '\r' ∧ c ≠ '\n'
  last : ∀ c, s.getLast? = some c → c ≠ ' ' ∧ c ≠ '\t' ∧ c ≠ '\r' ∧ c ≠ '\n'

/-- What may follow the fields: nothing, or a comment with arbitrary content. -/
def Tail (s : List Char) : Prop := s = [] ∨ ∃ t, s = '#' :: t

/-- The line assigns `value` to the codepoints `a … b`. -/
inductive DataLine : List Char → Nat → Nat → List Char → Prop
  | range {w₁ h₁ h₂ w₂ w₃ value w₄ tail a b} : Blank w₁ → HexOf h₁ a → HexOf h₂ b → Blank w₂ → Blank w₃ → Value value →
      Blank w₄ → Tail tail →
      DataLine (w₁ ++ h₁ ++ ['.', '.'] ++ h₂ ++ w₂ ++ [';'] ++ w₃ ++ value ++ w₄ ++ tail) a b value
  | single {w₁ h w₂ w₃ value w₄ tail a} : Blank w₁ → HexOf h a → Blank w₂ → Blank w₃ → Value value →
      Blank w₄ → Tail tail →
      DataLine (w₁ ++ h ++ w₂ ++ [';'] ++ w₃ ++ value ++ w₄ ++ tail) a a value

/-- A line without data: a comment line, a directive line starting with `@`, or a blank line. -/
def NoData (line : List Char) : Prop := (∃ t, line = '#' :: t) ∨ (∃ t, line = '@' :: t) ∨ Blank line

/-- A line as stored in the file: with or without a carriage return before the line feed. -/
def Stored (line stored : List Char) : Prop := stored = line ∨ stored = line ++ ['\r']

end Verif.Spec.UcdFile
