import Verif.Spec.Grapheme
/-!
A small concrete character table used only to show that the hypotheses of the theorems are satisfiable and
to exhibit concrete counterexamples.  Every entry has the value the real UCD gives that codepoint.
-/

namespace Verif.Toy
open Verif.Ucd

/-- A fragment of the UCD; every other codepoint is an ordinary letter of width 1. -/
def toy : Table := fun c =>
  if c = 0x0D then { gcb := .CR, charWidth := 0, wb := .CR }
  else if c = 0x0A then { gcb := .LF, charWidth := 0, wb := .LF }
  else if c < 0x20 then { gcb := .Control, charWidth := 0 }
  else if c = 0x20 then { wb := .WSegSpace }
  else if c < 0x7F then { wb := .ALetter }
  else if c < 0xA0 then { gcb := .Control, charWidth := 0 }
  else if c = 0x301 then { gcb := .Extend, incb := .Extend, charWidth := 0, wb := .Extend }
  else if c = 0x600 then { gcb := .Prepend, charWidth := 0, wb := .Numeric }
  else if c = 0x903 then { gcb := .SpacingMark, charWidth := 0, generalCategory := .Spacing_Mark, wb := .Extend }
  else if c = 0x915 then { incb := .Consonant, wb := .ALetter }
  else if c = 0x94D then { gcb := .Extend, incb := .Linker, charWidth := 0, flags := 0x80, wb := .Extend }
  else if c = 0x1100 then { gcb := .L, charWidth := 2, wb := .ALetter }
  else if c = 0x1161 then { gcb := .V, charWidth := 0, wb := .ALetter }
  else if c = 0x11A8 then { gcb := .T, charWidth := 0, wb := .ALetter }
  else if c = 0x200D then { gcb := .ZWJ, incb := .Extend, charWidth := 0, wb := .ZWJ }
  else if c = 0x231A then { flags := 0x23, flags2 := 1, charWidth := 2 }
  else if c = 0x2764 then { flags := 0x21, flags2 := 1, charWidth := 1 }
  else if 0x1F3FB ≤ c ∧ c ≤ 0x1F3FF then { gcb := .Extend, flags := 0x0B, charWidth := 2, wb := .Extend }
  else if c = 0xFE0F then { gcb := .Extend, charWidth := 0, wb := .Extend }
  else if c = 0xFE0E then { gcb := .Extend, charWidth := 0, wb := .Extend }
  else if 0x1F1E6 ≤ c ∧ c ≤ 0x1F1FF then
    { gcb := .Regional_Indicator, charWidth := 1, wb := .Regional_Indicator }
  else if 0x1F600 ≤ c ∧ c ≤ 0x1F64F then { flags := 0x23, charWidth := 2 }
  else { wb := .ALetter }

theorem ite_elim {α : Type} (Q : α → Prop) {c : Prop} [Decidable c] {x y : α}
    (h1 : c → Q x) (h2 : ¬ c → Q y) : Q (if c then x else y) := by
  split
  · exact h1 ‹_›
  · exact h2 ‹_›

/-- The toy data satisfies the hypotheses on the character data. -/
theorem toy_ok : Spec.GB.DataOk toy := by
  let Q : Nat → Props → Prop := fun c p =>
      (c < 128 → (p.gcb = .Other ∨ p.gcb = .CR ∨ p.gcb = .LF ∨ p.gcb = .Control) ∧ p.incb = .None ∧
        p.isExtPict = false) ∧
      (p.gcb = .CR ∨ p.gcb = .LF → p.incb = .None ∧ p.isExtPict = false) ∧
      (p.incb = .Extend ∨ p.incb = .Linker → p.gcb = .Extend ∨ p.gcb = .ZWJ ∨ p.gcb = .SpacingMark) ∧
      (p.incb = .Consonant → p.gcb ≠ .Control ∧ p.gcb ≠ .CR ∧ p.gcb ≠ .LF ∧ p.gcb ≠ .Regional_Indicator) ∧
      (p.isExtPict = true → p.gcb = .Other)
  have key : ∀ c, Q c (toy c) := by
    intro c
    unfold toy
    repeat' refine ite_elim (Q c) (fun h => ?_) (fun h => ?_)
    all_goals refine ⟨?_, ?_⟩
    all_goals first | decide | (intro h; first | omega | (refine ⟨by decide, by decide, by decide⟩))
  exact ⟨fun c h => ((key c).1 h).1, fun c h => ((key c).1 h).2.1,
    fun c h => ((key c).1 h).2.2, fun c => (key c).2.1, fun c => (key c).2.2.1,
    fun c => (key c).2.2.2.1, fun c => (key c).2.2.2.2⟩

end Verif.Toy
