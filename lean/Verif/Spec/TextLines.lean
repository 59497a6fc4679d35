import Verif.Model.Ucd
/-!
# Places where a text may be cut: line ends and control characters

UAX #29: GB4, GB5 (break before and after every control character) and WB3a, WB3b (before and after every newline character), except between CR and
LF (GB3, WB3).
-/

namespace Verif.Spec.TextLines
open Verif.Ucd

/-- Between the characters `x` and `y` of a text there is a border of grapheme clusters, whatever the rest of the text is: one of them is a
control character or a line end, and they are not CR and LF. -/
def HardG (U : Table) (x y : Nat) : Prop :=
  ((U x).gcb ∈ [GCB.Control, .CR, .LF] ∨ (U y).gcb ∈ [GCB.Control, .CR, .LF]) ∧ ¬ ((U x).gcb = .CR ∧ (U y).gcb = .LF)

/-- The same for words. -/
def HardW (U : Table) (x y : Nat) : Prop :=
  ((U x).wb ∈ [WB.Newline, .CR, .LF] ∨ (U y).wb ∈ [WB.Newline, .CR, .LF]) ∧ ¬ ((U x).wb = .CR ∧ (U y).wb = .LF)

/-- The lines of a text, each with its line end (a character `LE`) but the last. -/
def Lines (LE : Nat → Prop) (lines : List (List Nat)) (last text : List Nat) : Prop :=
  text = lines.flatten ++ last ∧ ∀ l ∈ lines, ∃ q c, l = q ++ [c] ∧ LE c

end Verif.Spec.TextLines
