import Verif.Model.TgParser
/-!
# Lines of a text

Written without the model of the reader: what it means that a text consists of certain lines, whatever the line ends.
-/

namespace Verif.Spec.UcdFile
open Verif.Tg (Str)

/-- The text consists of the lines: each ends with a newline, or a carriage return and a newline; the last one may end with the text. -/
inductive TextOf : List Str → Str → Prop where
  | nil : TextOf [] []
  | last (l : Str) (h : l ≠ []) : TextOf [l] l
  | unix (l : Str) {ls : List Str} {s : Str} (h : TextOf ls s) : TextOf (l :: ls) (l ++ '\n' :: s)
  | dos (l : Str) {ls : List Str} {s : Str} (h : TextOf ls s) : TextOf (l :: ls) (l ++ '\r' :: '\n' :: s)

/-- No characters that belong to line ends. -/
def CleanLines (ls : List Str) : Prop := ∀ l ∈ ls, '\n' ∉ l ∧ '\r' ∉ l

/-- Two texts that differ in line ends only. -/
def SameLines (s s' : Str) : Prop := ∃ ls, CleanLines ls ∧ TextOf ls s ∧ TextOf ls s'

end Verif.Spec.UcdFile
