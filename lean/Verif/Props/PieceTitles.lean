import Verif.Props.Pieces
import Verif.Props.Case
/-!
# C84 Titlecase of pieces
-/

namespace Verif.Props.Pieces
open Verif.Ucd Verif.Spec.Case Verif.Case Verif.Word Verif.Props.Case

theorem title_words (U : Table) (T : CaseTables) (hT : TablesSorted T) (text : List Nat) :
    toTitlecase U T text = (segments U text).flatMap (titleWordSpec (isCased U) (titleOf T) (lowerOf T)) := by
  obtain ⟨cased, title, lower, g1, g2, g3, g4⟩ := C35_titlecase U T hT text
  have e1 : cased = isCased U := by
    funext x
    have h : isCased U x = true ↔ (U x).generalCategory = .Uppercase_Letter ∨ (U x).generalCategory = .Lowercase_Letter
        ∨ (U x).generalCategory = .Titlecase_Letter := by simp [isCased, or_assoc]
    exact Bool.eq_iff_iff.2 ((g1 x).trans h.symm)
  have e2 : title = titleOf T := by
    funext x
    exact mapsTo_unique _ _ _ hT.ft hT.st x _ _ (g2 x) (C33_codepoint T hT x).2.2.1
  have e3 : lower = lowerOf T := by
    funext x
    exact mapsTo_unique _ _ _ hT.fl hT.sl x _ _ (g3 x) (C33_codepoint T hT x).2.1
  rw [g4, e1, e2, e3]

/-- **C84, titlecase.** A text cut between two words can be title-cased in two parts. -/
theorem C84_titlecase {U : Table} (D : Word.WordDataOk U) (T : CaseTables) (hT : TablesSorted T) (text : List Nat) (cs ds : List (List Nat))
    (h : segments U text = cs ++ ds) :
    toTitlecase U T text = toTitlecase U T cs.flatten ++ toTitlecase U T ds.flatten := by
  obtain ⟨h1, h2⟩ := split_segments D cs text ds h
  rw [title_words U T hT, title_words U T hT, title_words U T hT, h, h1, h2, List.flatMap_append]

/-- Non-vacuity, and the condition is needed: inside a word the second part begins with a capital. -/
example : segments lettered [0x61, 0x42, 0x20, 0x1C6] = [[0x61, 0x42], [0x20]] ++ [[0x1C6]] ∧
    toTitlecase lettered sample [0x61, 0x42, 0x20, 0x1C6] = toTitlecase lettered sample [0x61, 0x42, 0x20] ++ toTitlecase lettered sample [0x1C6] ∧
    toTitlecase lettered sample [0x61, 0x42] ≠ toTitlecase lettered sample [0x61] ++ toTitlecase lettered sample [0x42] := by decide +kernel

end Verif.Props.Pieces
