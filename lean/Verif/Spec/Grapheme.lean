import Verif.Model.Ucd
/-!
# Independent specification: UAX #29 extended grapheme cluster boundaries

`pre` is the text before the position (non-empty, its last codepoint is `a`), `b` the codepoint after it.
The rules are transcribed from UAX #29 (revision with GB9c), over the character data `U`.
-/

namespace Verif.Spec.GB
open Verif.Ucd

variable (U : Table)

/-- GB3 `CR × LF` -/
def gb3 (a b : Nat) : Prop := (U a).gcb = .CR ∧ (U b).gcb = .LF
/-- GB4 `(Control | CR | LF) ÷` -/
def gb4 (a : Nat) : Prop := (U a).gcb = .Control ∨ (U a).gcb = .CR ∨ (U a).gcb = .LF
/-- GB5 `÷ (Control | CR | LF)` -/
def gb5 (b : Nat) : Prop := (U b).gcb = .Control ∨ (U b).gcb = .CR ∨ (U b).gcb = .LF
/-- GB6 `L × (L | V | LV | LVT)` -/
def gb6 (a b : Nat) : Prop :=
  (U a).gcb = .L ∧ ((U b).gcb = .L ∨ (U b).gcb = .V ∨ (U b).gcb = .LV ∨ (U b).gcb = .LVT)
/-- GB7 `(LV | V) × (V | T)` -/
def gb7 (a b : Nat) : Prop :=
  ((U a).gcb = .LV ∨ (U a).gcb = .V) ∧ ((U b).gcb = .V ∨ (U b).gcb = .T)
/-- GB8 `(LVT | T) × T` -/
def gb8 (a b : Nat) : Prop := ((U a).gcb = .LVT ∨ (U a).gcb = .T) ∧ (U b).gcb = .T
/-- GB9 `× (Extend | ZWJ)` -/
def gb9 (b : Nat) : Prop := (U b).gcb = .Extend ∨ (U b).gcb = .ZWJ
/-- GB9a `× SpacingMark` -/
def gb9a (b : Nat) : Prop := (U b).gcb = .SpacingMark
/-- GB9b `Prepend ×` -/
def gb9b (a : Nat) : Prop := (U a).gcb = .Prepend
/-- GB9c `\p{InCB=Consonant} [\p{InCB=Extend}\p{InCB=Linker}]* \p{InCB=Linker} [\p{InCB=Extend}\p{InCB=Linker}]*
× \p{InCB=Consonant}` -/
def gb9c (pre : List Nat) (b : Nat) : Prop :=
  (U b).incb = .Consonant ∧ ∃ p c m, pre = p ++ c :: m ∧ (U c).incb = .Consonant ∧
    (∀ x ∈ m, (U x).incb = .Extend ∨ (U x).incb = .Linker) ∧ ∃ x ∈ m, (U x).incb = .Linker
/-- GB11 `\p{Extended_Pictographic} Extend* ZWJ × \p{Extended_Pictographic}` -/
def gb11 (pre : List Nat) (b : Nat) : Prop :=
  (U b).isExtPict ∧ ∃ p e m z, pre = p ++ e :: (m ++ [z]) ∧ (U e).isExtPict ∧
    (∀ x ∈ m, (U x).gcb = .Extend) ∧ (U z).gcb = .ZWJ
/-- GB12/GB13 `(sot | [^RI]) (RI RI)* RI × RI` -/
def gb12 (pre : List Nat) (b : Nat) : Prop :=
  (U b).gcb = .Regional_Indicator ∧ ∃ p ris, pre = p ++ ris ∧
    (∀ x ∈ ris, (U x).gcb = .Regional_Indicator) ∧ ris.length % 2 = 1 ∧
    (∀ q y, p = q ++ [y] → (U y).gcb ≠ .Regional_Indicator)

/-- Boundary between `pre ++ [a]` and `b`, the rules applying in order, with rules GB11 and GB12/13 as
parameters. -/
def BoundaryWith (r11 r12 : List Nat → Nat → Prop) (pre : List Nat) (a b : Nat) : Prop :=
  ¬ gb3 U a b ∧
    (gb4 U a ∨ gb5 U b ∨
      ¬ (gb6 U a b ∨ gb7 U a b ∨ gb8 U a b ∨ gb9 U b ∨ gb9a U b ∨ gb9b U a ∨
          gb9c U (pre ++ [a]) b ∨ r11 (pre ++ [a]) b ∨ r12 (pre ++ [a]) b))

/-- Is there a grapheme cluster boundary between `pre ++ [a]` and `b` according to UAX #29? -/
def Boundary (pre : List Nat) (a b : Nat) : Prop := BoundaryWith U (gb11 U) (gb12 U) pre a b

/-- … with left context `l` (non-empty) followed by `b`. -/
def BoundaryAt (l : List Nat) (b : Nat) : Prop := ∃ p a, l = p ++ [a] ∧ Boundary U p a b

/-! ### The rules as the library actually implements them -/

/-- GB11 with `Extend*` replaced by `(Extend | ZWJ)*`. -/
def gb11x (pre : List Nat) (b : Nat) : Prop :=
  (U b).isExtPict ∧ ∃ p e m z, pre = p ++ e :: (m ++ [z]) ∧ (U e).isExtPict ∧
    (∀ x ∈ m, (U x).gcb = .Extend ∨ (U x).gcb = .ZWJ) ∧ (U z).gcb = .ZWJ
/-- GB12/GB13, except that in a run of regional indicators preceded by a Prepend the first one is not
counted. -/
def gb12x (pre : List Nat) (b : Nat) : Prop :=
  (U b).gcb = .Regional_Indicator ∧ ∃ p ris, pre = p ++ ris ∧
    (∀ x ∈ ris, (U x).gcb = .Regional_Indicator) ∧ ris ≠ [] ∧
    (∀ q y, p = q ++ [y] → (U y).gcb ≠ .Regional_Indicator) ∧
    ((∃ q y, p = q ++ [y] ∧ (U y).gcb = .Prepend) ∧ ris.length % 2 = 0 ∨
     (¬ ∃ q y, p = q ++ [y] ∧ (U y).gcb = .Prepend) ∧ ris.length % 2 = 1)
/-- The flag rule of the incremental API: only the first two codepoints of the text can form a flag. -/
def gb12inc (pre : List Nat) (b : Nat) : Prop :=
  (U b).gcb = .Regional_Indicator ∧ ∃ a, pre = [a] ∧ (U a).gcb = .Regional_Indicator

/-- Boundaries of `grapheme_segmenter`. -/
def BoundaryX (l : List Nat) (b : Nat) : Prop :=
  ∃ p a, l = p ++ [a] ∧ BoundaryWith U (gb11x U) (gb12x U) p a b
/-- Breaks reported by the incremental API. -/
def BoundaryInc (l : List Nat) (b : Nat) : Prop :=
  ∃ p a, l = p ++ [a] ∧ BoundaryWith U (gb11x U) (gb12inc U) p a b

/-- Within `l`, no two ZWJ are separated by `Extend`s only. -/
def NoZwjExtendZwj (l : List Nat) : Prop :=
  ∀ p z m z' q, l = p ++ z :: (m ++ z' :: q) → (U z).gcb = .ZWJ → (∀ x ∈ m, (U x).gcb = .Extend) →
    (U z').gcb ≠ .ZWJ

/-- No `Prepend` is directly followed by two regional indicators. -/
def NoPrependFlag (l : List Nat) : Prop :=
  ∀ p x y z q, l = p ++ x :: y :: z :: q → (U x).gcb = .Prepend → (U y).gcb = .Regional_Indicator →
    (U z).gcb ≠ .Regional_Indicator

/-- No two adjacent regional indicators. -/
def NoFlags (l : List Nat) : Prop :=
  ∀ p x y q, l = p ++ x :: y :: q → (U x).gcb = .Regional_Indicator → (U y).gcb ≠ .Regional_Indicator

/-- Facts about the Unicode character data the segmenter relies on (all true of the UCD):
ASCII has no special properties besides the controls; the conjunct, pictographic and flag classes are
compatible with the cluster break classes. -/
structure DataOk : Prop where
  ascii_gcb : ∀ c, c < 128 → (U c).gcb = .Other ∨ (U c).gcb = .CR ∨ (U c).gcb = .LF ∨ (U c).gcb = .Control
  ascii_incb : ∀ c, c < 128 → (U c).incb = .None
  ascii_extpict : ∀ c, c < 128 → (U c).isExtPict = false
  /-- CR and LF are ASCII -/
  crlf_plain : ∀ c, (U c).gcb = .CR ∨ (U c).gcb = .LF → (U c).incb = .None ∧ (U c).isExtPict = false
  incb_extend : ∀ c, (U c).incb = .Extend ∨ (U c).incb = .Linker →
    (U c).gcb = .Extend ∨ (U c).gcb = .ZWJ ∨ (U c).gcb = .SpacingMark
  incb_consonant : ∀ c, (U c).incb = .Consonant →
    (U c).gcb ≠ .Control ∧ (U c).gcb ≠ .CR ∧ (U c).gcb ≠ .LF ∧ (U c).gcb ≠ .Regional_Indicator
  extpict_gcb : ∀ c, (U c).isExtPict = true → (U c).gcb = .Other

end Verif.Spec.GB
