import Verif.Spec.Grapheme
/-!
# Where the scanner sees borders between characters

Written from the description of the scanner, without its model: ASCII characters are always characters of their own; between characters that are
not ASCII the rules of the incremental grapheme API decide, which look back to the last ASCII character.
-/

namespace Verif.Spec.GB
open Verif.Ucd

/-- The part of `l` the segmenter still knows: from the last ASCII character on, or everything if there is none. -/
def Since (l s : List Nat) : Prop :=
  ∃ p, l = p ++ s ∧ s ≠ [] ∧ (∀ y ∈ s.tail, 0x80 ≤ y) ∧ (p = [] ∨ ∃ x t, s = x :: t ∧ x < 0x80)

/-- A border between the text `l` and the codepoint `b`. -/
def ScanBorder (U : Table) (l : List Nat) (b : Nat) : Prop :=
  b < 0x80 ∨ ∃ s, Since l s ∧ BoundaryInc U s b

/-- What the UCD says about the characters that have text and emoji presentation, and about Indic consonants. -/
structure VariationOk (U : Table) : Prop where
  base : ∀ c, (U c).isEmojiVariationBase = true → (U c).gcb = .Other
  consonant : ∀ c, (U c).incb = .Consonant → (U c).gcb = .Other

end Verif.Spec.GB
