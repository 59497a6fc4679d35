import Verif.Model.Grapheme
import Verif.Model.Convert
/-!
# Model of `width.{h,cpp}`

`int` and `unsigned` members are `Int`/`Nat`: overflow (which needs clusters of more than 2^30 codepoints) is not
modelled.
-/

namespace Verif.Width
open Verif.Ucd Verif.Grapheme

/-- `width(char32_t)`: width.cpp:26-29. -/
def width1 (U : Table) (c : Nat) : Nat := (U c).charWidth

/-- `joinsEmojiSequence`: width.cpp:34-38. -/
def joinsEmoji (U : Table) (c : Nat) : Bool := (U c).isExtPict || decide ((U c).gcb = .Regional_Indicator)

/-- `class grapheme_cluster_width_accumulator`, data members: width.h:50-60. -/
structure Acc where
  lastMeasured : Nat := 0
  lastMeasuredWidth : Nat := 0
  lastMeasuredIsOpen : Bool := false
  total : Int := 0
  current : Int := 0
  previousWasVirama : Bool := false
  skipNext : Bool := false
  regionalIndicators : Nat := 0
deriving DecidableEq, Repr

/-- The measuring branch: width.cpp:119-148. -/
def measureCp (U : Table) (c : Nat) (s : Acc) : Acc :=
  if (U c).charWidth ≠ 0 then
    { s with
      total := if s.previousWasVirama then s.total
               else if s.current ≠ 0 then s.total + s.current else s.total
      current := if s.previousWasVirama then 2 else ((U c).charWidth : Int)
      lastMeasured := c
      lastMeasuredWidth := (U c).charWidth
      lastMeasuredIsOpen := true
      previousWasVirama := false }
  else if (U c).isVirama then { s with previousWasVirama := true }
  else if (U c).generalCategory = .Spacing_Mark ∧ s.lastMeasuredIsOpen then
    { s with current := 2, lastMeasuredIsOpen := false, previousWasVirama := false }
  else { s with previousWasVirama := false }

/-- The cascade after the run-length update: width.cpp:57-148; `before` is `regionalIndicatorsBefore`. -/
def push' (U : Table) (c : Nat) (before : Nat) (s : Acc) : Acc :=
  if s.skipNext then { s with skipNext := false }
  else if c = 0x200D then
    if !s.previousWasVirama then { s with skipNext := true, lastMeasuredWidth := 0 } else s
  else if c = 0xFE0F ∧ s.lastMeasuredIsOpen then
    { s with
      current := if (U s.lastMeasured).isEmojiVariationBase ∧ (U s.lastMeasured).charWidth = 1 then 2
                 else s.current
      lastMeasuredIsOpen := false }
  else if c = 0xFE0E ∧ s.lastMeasuredIsOpen then
    { s with
      total := if (U s.lastMeasured).isEmojiVariationBase ∧ s.lastMeasuredWidth = 2 then s.total - 1
               else s.total }
  else if (U c).gcb = .Regional_Indicator ∧ before % 2 = 1 then { s with lastMeasured := c }
  else if 0x1F3FB ≤ c ∧ c ≤ 0x1F3FF ∧ joinsEmoji U s.lastMeasured then s
  else measureCp U c s

/-- `grapheme_cluster_width_accumulator::push`: width.cpp:41-149. -/
def push (U : Table) (s : Acc) (c : Nat) : Acc :=
  push' U c s.regionalIndicators
    { s with regionalIndicators := if (U c).gcb = .Regional_Indicator then s.regionalIndicators + 1 else 0 }

/-- `grapheme_cluster_width_accumulator::width`: width.cpp:151-155. -/
def Acc.width (s : Acc) : Nat := if s.total + s.current > 0 then (s.total + s.current).toNat else 0

/-- Pushing a whole cluster into a fresh accumulator: width.cpp:165-168. -/
def accWidth (U : Table) (cluster : List Nat) : Nat := (cluster.foldl (push U) {}).width

/-- `grapheme_cluster_width(std::u32string_view)`: width.cpp:157-169. -/
def clusterWidth (U : Table) (cluster : List Nat) : Nat :=
  match cluster with
  | [] => 0
  | [c] => width1 U c
  | cs => accWidth U cs

/-- The `while (segmenter.codepointsAvailable())` loop: width.cpp:180-184; input: codepoints from `right_`. -/
def widthLoop (U : Table) : Nat → List Nat → Nat → Nat
  | 0, _, acc => acc
  | _ + 1, [], acc => acc
  | fuel + 1, c :: cs, acc =>
    let (cl, r) := advance U (c :: cs)
    widthLoop U fuel r (acc + clusterWidth U cl)

/-- `grapheme_cluster_width(std::string_view)`: width.cpp:171-186; `k` is the SIMD width of the CPU. -/
def textWidth (U : Table) (k : Nat) (bytes : List Nat) : Nat :=
  let u32 := Convert.fromUtf8Str k bytes
  if u32 = [] then 0
  else
    -- the segmenter's constructor advances once (grapheme_segmenter.h:60-64)
    let (cl, r) := advance U u32
    widthLoop U r.length r (0 + clusterWidth U cl)

end Verif.Width
