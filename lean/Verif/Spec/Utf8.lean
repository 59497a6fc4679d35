/-!
# Independent specification: Unicode scalar values and the UTF-8 / UTF-16 encoding forms

Transcribed from the Unicode Standard (Table 3-6/3-7, D91), by arithmetic on ranges; does not mention the
model.
-/

namespace Verif.Spec

/-- Unicode scalar value (D76). -/
def IsScalar (c : Nat) : Prop := c < 0xD800 ∨ (0xE000 ≤ c ∧ c ≤ 0x10FFFF)

instance : DecidablePred IsScalar := fun _ => inferInstanceAs (Decidable (_ ∨ _))

/-- A trailing byte `10xxxxxx`. -/
def IsCont (b : Nat) : Prop := 0x80 ≤ b ∧ b ≤ 0xBF

instance : DecidablePred IsCont := fun _ => inferInstanceAs (Decidable (_ ∧ _))

/-- `WellFormed bs c`: `bs` is the (unique) well-formed UTF-8 sequence for scalar `c`: the byte ranges of
Unicode Table 3-7 and the bit distribution of Table 3-6. -/
inductive WellFormed : List Nat → Nat → Prop
  | one  {b : Nat} : b ≤ 0x7F → WellFormed [b] b
  | two  {b0 b1 : Nat} : 0xC2 ≤ b0 → b0 ≤ 0xDF → IsCont b1 →
      WellFormed [b0, b1] ((b0 - 0xC0) * 64 + (b1 - 0x80))
  | three {b0 b1 b2 : Nat} :
      (b0 = 0xE0 ∧ 0xA0 ≤ b1 ∧ b1 ≤ 0xBF)
      ∨ (0xE1 ≤ b0 ∧ b0 ≤ 0xEC ∧ IsCont b1)
      ∨ (b0 = 0xED ∧ 0x80 ≤ b1 ∧ b1 ≤ 0x9F)
      ∨ (0xEE ≤ b0 ∧ b0 ≤ 0xEF ∧ IsCont b1) →
      IsCont b2 →
      WellFormed [b0, b1, b2] ((b0 - 0xE0) * 4096 + (b1 - 0x80) * 64 + (b2 - 0x80))
  | four {b0 b1 b2 b3 : Nat} :
      (b0 = 0xF0 ∧ 0x90 ≤ b1 ∧ b1 ≤ 0xBF)
      ∨ (0xF1 ≤ b0 ∧ b0 ≤ 0xF3 ∧ IsCont b1)
      ∨ (b0 = 0xF4 ∧ 0x80 ≤ b1 ∧ b1 ≤ 0x8F) →
      IsCont b2 → IsCont b3 →
      WellFormed [b0, b1, b2, b3]
        ((b0 - 0xF0) * 262144 + (b1 - 0x80) * 4096 + (b2 - 0x80) * 64 + (b3 - 0x80))

/-- A byte string is well-formed UTF-8 for a sequence of scalar values. -/
inductive WellFormedStr : List Nat → List Nat → Prop
  | nil : WellFormedStr [] []
  | cons {bs c rest cs} : WellFormed bs c → WellFormedStr rest cs → WellFormedStr (bs ++ rest) (c :: cs)

/-- UTF-16 encoding form (D91): the code unit sequence for a scalar value. -/
inductive WellFormed16 : List Nat → Nat → Prop
  | bmp {c : Nat} : IsScalar c → c ≤ 0xFFFF → WellFormed16 [c] c
  | pair {h l : Nat} : 0xD800 ≤ h → h ≤ 0xDBFF → 0xDC00 ≤ l → l ≤ 0xDFFF →
      WellFormed16 [h, l] (0x10000 + (h - 0xD800) * 0x400 + (l - 0xDC00))

inductive WellFormed16Str : List Nat → List Nat → Prop
  | nil : WellFormed16Str [] []
  | cons {us c rest cs} : WellFormed16 us c → WellFormed16Str rest cs →
      WellFormed16Str (us ++ rest) (c :: cs)

end Verif.Spec
