import Mathlib.Data.List.Basic
/-!
# A line of text, as the scanner fills it

Written from the description of the scanner, without its model.  Given are the characters of a text (which characters there are is said by
Spec/ScanBorder) and their widths.
-/

namespace Verif.Spec.Line

/-- What is put on the line, and told, as a whole.  If it is what follows an ASCII character within one character (combining marks), then `base` is that
ASCII character, otherwise `base` is empty. -/
structure Glyph where
  base : List Nat
  text : List Nat
deriving DecidableEq

/-- ASCII characters are put on the line one by one, without what belongs to them; every other character as a whole. -/
def glyphs : List (List Nat) → List Glyph
  | [] => []
  | [] :: cls => glyphs cls
  | (a :: t) :: cls =>
    if a < 0x80 then
      if t = [] then ⟨[], [a]⟩ :: glyphs cls else ⟨[], [a]⟩ :: ⟨[a], t⟩ :: glyphs cls
    else ⟨[], a :: t⟩ :: glyphs cls

/-- The columns the receiver is told: those of the whole character, with the ASCII character in front. -/
def Glyph.columns (width : List Nat → Nat) (x : Glyph) : Nat := width (x.base ++ x.text)

/-- The columns it adds to the line. -/
def Glyph.adds (width : List Nat → Nat) (x : Glyph) : Nat := width (x.base ++ x.text) - width x.base

/-- The glyph can be put on a line of `max` columns, of which `n` are taken: at no codepoint in it the line is too short.  At the beginning of the line and
directly behind an ASCII character (`fresh`) there must be a free column, even if the glyph takes none. -/
def Fits (width : List Nat → Nat) (max n : Nat) (fresh : Bool) (x : Glyph) : Prop :=
  (fresh = true → n < max) ∧ ∀ q, q ≠ [] → q <+: x.text → n + (width (x.base ++ q) - width x.base) ≤ max

/-- The glyph is an ASCII character. -/
def Glyph.ascii (x : Glyph) : Bool := x.text.all (· < 0x80)

/-- The glyphs can be put on the line one behind the other, from column `n` on; `m` columns are taken afterwards. -/
inductive Places (width : List Nat → Nat) (max : Nat) : (n : Nat) → (fresh : Bool) → List Glyph → (m : Nat) → (fresh' : Bool) → Prop
  | nil (n fresh) : Places width max n fresh [] n fresh
  | cons {n fresh x xs m fresh'} : Fits width max n fresh x → Places width max (n + x.adds width) x.ascii xs m fresh' →
      Places width max n fresh (x :: xs) m fresh'

/-- `front` is what fits on a line of `max` columns: it fits, and the next glyph, if there is one, does not. -/
def Filled (width : List Nat → Nat) (max : Nat) (all front : List Glyph) (m : Nat) : Prop :=
  ∃ back fresh, all = front ++ back ∧ Places width max 0 true front m fresh ∧ ∀ x xs, back = x :: xs → ¬ Fits width max m fresh x

end Verif.Spec.Line
