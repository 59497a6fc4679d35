import Mathlib.Computability.Language

/-!
# The emoji presentation grammar

Transcription of the grammar of emoji_presentation_scanner.rl:30-88 as formal languages over category values.
The scanner of a Ragel `|* … *|` block takes the longest match; among rules matching the same text, the first.
-/

namespace Verif.Spec.Emoji

/-- One given symbol. -/
def sym (a : Int) : Language Int := {[a]}

/-- One or more. -/
def plus (L : Language Int) : Language Int := L * KStar.kstar L

/-- `any_emoji` -/
def anyEmoji : Language Int := sym 1 + sym 2 + sym 7 + sym 3 + sym 13 + sym 0

/-- `emoji_combining_enclosing_circle_backslash_sequence` -/
def backslashSeq : Language Int := anyEmoji * sym 9

/-- `emoji_presentation_sequence` -/
def presentationSeq : Language Int := anyEmoji * sym 12

/-- `emoji_modifier_sequence` -/
def modifierSeq : Language Int := sym 3 * sym 4

/-- `emoji_flag_sequence` -/
def flagSeq : Language Int := sym 6 * sym 6

/-- `emoji_tag_sequence` -/
def tagSeq : Language Int := sym 13 * (plus (sym 14) * sym 15)

/-- `emoji_keycap_sequence` -/
def keycapSeq : Language Int := sym 7 * (sym 12 * sym 8)

/-- `emoji_zwj_element` -/
def zwjElement : Language Int := presentationSeq + modifierSeq + anyEmoji

/-- `emoji_zwj_sequence` -/
def zwjSeq : Language Int := zwjElement * plus (sym 10 * zwjElement)

/-- `emoji_presentation`, `emoji_run` -/
def emojiRun : Language Int :=
  sym 2 + sym 13 + sym 3 + presentationSeq + modifierSeq + flagSeq + tagSeq + keycapSeq + zwjSeq + backslashSeq

/-- `text_presentation_emoji` -/
def textPresentation : Language Int := anyEmoji * sym 11

/-- `text_run`: any one symbol. -/
def textRun : Language Int := {w | w.length = 1}

/-- `w` is a token, with `is_emoji` set to `e` by the first rule that matches it. -/
def IsToken (w : List Int) (e : Bool) : Prop :=
  (w ∈ textPresentation ∧ e = false) ∨
  (w ∉ textPresentation ∧ w ∈ emojiRun ∧ e = true) ∨
  (w ∉ textPresentation ∧ w ∉ emojiRun ∧ w ∈ textRun ∧ e = false)

/-- The longest prefix of `input` that is a token has length `n` and presentation `e`. -/
def LongestToken (input : List Int) (n : Nat) (e : Bool) : Prop :=
  0 < n ∧ n ≤ input.length ∧ IsToken (input.take n) e ∧
    ∀ m, n < m → m ≤ input.length → ∀ e', ¬ IsToken (input.take m) e'

end Verif.Spec.Emoji
