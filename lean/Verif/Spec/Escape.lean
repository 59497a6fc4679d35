/-!
# Independent specification: the notations in which the command line tools show bytes

Texts are lists of bytes.  Nothing here mentions the model.
-/

namespace Verif.Spec.Escape

/-- `std::isprint` in the C locale, on ASCII; nothing is said about other bytes (other locales differ, and for a
negative `char` the call is undefined). -/
def PrintsAscii (isprint : Nat → Bool) : Prop := ∀ b, b < 0x80 → (isprint b = true ↔ 0x20 ≤ b ∧ b ≤ 0x7E)

/-- an upper case hexadecimal digit -/
inductive HexUpper : Nat → Nat → Prop
  | dec {v} : v < 10 → HexUpper (0x30 + v) v
  | alpha {v} : 10 ≤ v → v < 16 → HexUpper (0x41 + (v - 10)) v

/-- a lower case hexadecimal digit -/
inductive HexLower : Nat → Nat → Prop
  | dec {v} : v < 10 → HexLower (0x30 + v) v
  | alpha {v} : 10 ≤ v → v < 16 → HexLower (0x61 + (v - 10)) v

/-- a hexadecimal digit of either case -/
def HexDigit (d v : Nat) : Prop := HexUpper d v ∨ HexLower d v

/-- The number written by hexadecimal digits, most significant first. -/
inductive HexNumber : List Nat → Nat → Prop
  | one {d v} : HexDigit d v → HexNumber [d] v
  | snoc {ds n d v} : HexNumber ds n → HexDigit d v → HexNumber (ds ++ [d]) (n * 16 + v)

/-- The number written by decimal digits. -/
inductive DecNumber : List Nat → Nat → Prop
  | one {v} : v < 10 → DecNumber [0x30 + v] v
  | snoc {ds n v} : DecNumber ds n → v < 10 → DecNumber (ds ++ [0x30 + v]) (n * 10 + v)

/-- One byte in the notation of string literals: itself (other than backslash and quote), a short escape, `\033` or
`\xHH`. -/
inductive LiteralPiece : List Nat → Nat → Prop
  | plain {b} : 0x20 ≤ b → b ≠ 0x7F → b ≠ 0x5C → b ≠ 0x22 → LiteralPiece [b] b
  | backslash : LiteralPiece [0x5C, 0x5C] 0x5C
  | quote : LiteralPiece [0x5C, 0x22] 0x22
  | tab : LiteralPiece [0x5C, 0x74] 0x09
  | carriageReturn : LiteralPiece [0x5C, 0x72] 0x0D
  | newline : LiteralPiece [0x5C, 0x6E] 0x0A
  | escape : LiteralPiece [0x5C, 0x30, 0x33, 0x33] 0x1B
  | hex {h l x y} : HexUpper h x → HexUpper l y → LiteralPiece [0x5C, 0x78, h, l] (x * 16 + y)

/-- A text in the notation of string literals. -/
inductive Literal : List Nat → List Nat → Prop
  | nil : Literal [] []
  | cons {p b rest bs} : LiteralPiece p b → Literal rest bs → Literal (p ++ rest) (b :: bs)

/-- One byte as `\x` and two columns of lower case digits, the first blank instead of `0`; or the byte itself. -/
inductive HexPiece (Raw : Nat → Prop) : List Nat → Nat → Prop
  | plain {b} : Raw b → HexPiece Raw [b] b
  | short {l y} : HexLower l y → HexPiece Raw [0x5C, 0x78, 0x20, l] y
  | long {h l x y} : HexLower h x → HexLower l y → 0 < x → HexPiece Raw [0x5C, 0x78, h, l] (x * 16 + y)

/-- A text in which every byte is shown raw or in hexadecimal. -/
inductive HexText (Raw : Nat → Prop) : List Nat → List Nat → Prop
  | nil : HexText Raw [] []
  | cons {p b rest bs} : HexPiece Raw p b → HexText Raw rest bs → HexText Raw (p ++ rest) (b :: bs)

end Verif.Spec.Escape
