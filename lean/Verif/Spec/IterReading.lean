/-!
# How an iterator decoder divides its input (specification for C10)

Independent of the model: the classical (RFC 2279) division of a byte string into sequences of one to six
bytes by their first byte, and the division of UTF-16 code units into single units and surrogate pairs.
Nothing here mentions decoder states, subtractions of magic constants, or the library's loop.
-/

namespace Verif.Spec.Iter

/-- A continuation byte. -/
def Cont (b : Nat) : Prop := 0x80 ≤ b ∧ b < 0xC0

/-- `Lead b n p`: the byte `b` announces `n` continuation bytes and itself carries the payload `p`. -/
inductive Lead : Nat → Nat → Nat → Prop
  | two {p} : p < 32 → Lead (0xC0 + p) 1 p
  | three {p} : p < 16 → Lead (0xE0 + p) 2 p
  | four {p} : p < 8 → Lead (0xF0 + p) 3 p
  | five {p} : p < 4 → Lead (0xF8 + p) 4 p
  | six {p} : p < 2 → Lead (0xFC + p) 5 p

/-- The number written by the payload of the lead byte and six bits of every continuation byte. -/
def value : Nat → List Nat → Nat
  | p, [] => p
  | p, x :: t => value (p * 64 + (x - 0x80)) t

/-- One step of the division of a byte string: the bytes taken and the number they stand for, if any. -/
inductive Piece8 : List Nat → Option Nat → Prop
  /-- ASCII stands for itself. -/
  | ascii {b} : b < 0x80 → Piece8 [b] (some b)
  /-- A continuation byte out of place is dropped. -/
  | stray {b} : Cont b → Piece8 [b] none
  /-- 0xFE and 0xFF are dropped. -/
  | never {b} : 0xFE ≤ b → Piece8 [b] none
  /-- A complete sequence. -/
  | full {b n p t} : Lead b n p → t.length = n → (∀ x ∈ t, Cont x) → Piece8 (b :: t) (some (value p t))
  /-- A sequence that meets something else too early: everything including the offending byte is dropped. -/
  | broken {b n p t x} : Lead b n p → t.length < n → (∀ y ∈ t, Cont y) → ¬ Cont x →
      Piece8 (b :: (t ++ [x])) none

/-- The beginning of a sequence, without its end. -/
inductive Cut8 : List Nat → Prop
  | cut {b n p t} : Lead b n p → t.length < n → (∀ x ∈ t, Cont x) → Cut8 (b :: t)

/-- One step of the division of UTF-16 code units. -/
inductive Piece16 : List Nat → Option Nat → Prop
  /-- Any unit that is not a surrogate. -/
  | single {u} : u < 0xD800 ∨ 0xE000 ≤ u → Piece16 [u] (some u)
  /-- A low surrogate out of place is dropped. -/
  | low {u} : 0xDC00 ≤ u → u < 0xE000 → Piece16 [u] none
  /-- A surrogate pair. -/
  | pair {h l} : h < 0x400 → l < 0x400 →
      Piece16 [0xD800 + h, 0xDC00 + l] (some (0x10000 + h * 0x400 + l))
  /-- A high surrogate before anything else: both are dropped. -/
  | broken {h x} : h < 0x400 → (x < 0xDC00 ∨ 0xE000 ≤ x) → Piece16 [0xD800 + h, x] none

/-- A high surrogate with nothing behind it. -/
inductive Cut16 : List Nat → Prop
  | cut {h} : h < 0x400 → Cut16 [0xD800 + h]

/-- A division of the whole input into pieces, with the numbers they stand for in order. -/
inductive Reading (Piece : List Nat → Option Nat → Prop) : List Nat → List Nat → Prop
  | nil : Reading Piece [] []
  | cons {p o r cs} : Piece p o → Reading Piece r cs → Reading Piece (p ++ r) (o.toList ++ cs)

/-- The input divides into pieces up to a sequence that lacks its end. -/
def EndsCut (Piece : List Nat → Option Nat → Prop) (Cut : List Nat → Prop) (input : List Nat) : Prop :=
  ∃ pre cs last, input = pre ++ last ∧ Reading Piece pre cs ∧ Cut last

end Verif.Spec.Iter
