import Verif.Model.Ucd
/-!
# Model of `word_segmenter.{h,cpp}`
-/

namespace Verif.Word
open Verif.Ucd

/-- `struct word_segmenter_state`: word_segmenter.h:24-45. -/
structure WState where
  rawPrev : WB := .Other
  prev : WB := .Other
  prevPrev : WB := .Other
  riCounter : Nat := 0
  sawTransparent : Bool := false
deriving DecidableEq

/-- word_segmenter.cpp:24-27 -/
def isAHLetter (w : WB) : Bool := w = .ALetter || w = .Hebrew_Letter
/-- word_segmenter.cpp:30-33 -/
def isMidNumLetQ (w : WB) : Bool := w = .MidNumLet || w = .Single_Quote
/-- word_segmenter.cpp:36-39 -/
def isMidLetterLike (w : WB) : Bool := w = .MidLetter || isMidNumLetQ w
/-- word_segmenter.cpp:42-45 -/
def isMidNumLike (w : WB) : Bool := w = .MidNum || isMidNumLetQ w
/-- word_segmenter.cpp:48-51 -/
def isTransparent (w : WB) : Bool := w = .Extend || w = .Format || w = .ZWJ
/-- word_segmenter.cpp:54-57 -/
def isNewlineClass (w : WB) : Bool := w = .Newline || w = .CR || w = .LF

/-- `peek_next_non_transparent`: word_segmenter.cpp:61-70. -/
def peekNext (U : Table) : List Nat → Option WB
  | [] => none
  | c :: cs => if !isTransparent (U c).wb then some (U c).wb else peekNext U cs

/-- `update_effective`: word_segmenter.cpp:73-80 (`ri_counter` is a `uint8_t`). -/
def updateEffective (w : WB) (s : WState) : WState :=
  { prevPrev := s.prev
    prev := w
    rawPrev := w
    riCounter := if w = .Regional_Indicator then (s.riCounter + 1) % 256 else 0
    sawTransparent := false }

/-- `word_process_init`: word_segmenter.cpp:84-104.  `saw_transparent` keeps its old value. -/
def processInit (U : Table) (c : Nat) (s : WState) : WState :=
  if isTransparent (U c).wb then
    { s with rawPrev := (U c).wb, prevPrev := .Other, prev := .Other, riCounter := 0 }
  else
    { s with rawPrev := (U c).wb, prevPrev := .Other, prev := (U c).wb
             riCounter := if (U c).wb = .Regional_Indicator then 1 else 0 }

/-- The rules WB3d, WB5-WB16: word_segmenter.cpp:162-289.  All of these branches update the state in the same
way, so only the disjunction of their conditions matters. -/
def joins (s : WState) (B : WB) (next : Option WB) : Bool :=
  let A := s.prev
  -- WB3d, line 166
  (A = .WSegSpace && B = .WSegSpace && !s.sawTransparent)
  -- WB5, line 173
  || (isAHLetter A && isAHLetter B)
  -- WB6, lines 180-188
  || (isAHLetter A && isMidLetterLike B && next.any isAHLetter)
  -- WB7, line 191
  || (isMidLetterLike A && isAHLetter B && isAHLetter s.prevPrev)
  -- WB7a, line 198
  || (A = .Hebrew_Letter && B = .Single_Quote)
  -- WB7b, lines 205-213
  || (A = .Hebrew_Letter && B = .Double_Quote && next.any (· = .Hebrew_Letter))
  -- WB7c, line 216
  || (A = .Double_Quote && B = .Hebrew_Letter && s.prevPrev = .Hebrew_Letter)
  -- WB8, line 223
  || (A = .Numeric && B = .Numeric)
  -- WB9, line 230
  || (isAHLetter A && B = .Numeric)
  -- WB10, line 237
  || (A = .Numeric && isAHLetter B)
  -- WB11, line 244
  || (isMidNumLike A && B = .Numeric && s.prevPrev = .Numeric)
  -- WB12, lines 251-259
  || (A = .Numeric && isMidNumLike B && next.any (· = .Numeric))
  -- WB13, line 262
  || (A = .Katakana && B = .Katakana)
  -- WB13a, lines 269-270
  || (B = .ExtendNumLet && (isAHLetter A || A = .Numeric || A = .Katakana || A = .ExtendNumLet))
  -- WB13b, line 277
  || (A = .ExtendNumLet && (isAHLetter B || B = .Numeric || B = .Katakana))
  -- WB15/WB16, line 285
  || (A = .Regional_Indicator && B = .Regional_Indicator && s.riCounter % 2 == 1)

/-- `word_process_breakable`: word_segmenter.cpp:106-294.  Returns the new state and the verdict. -/
def processBreakable (U : Table) (c : Nat) (rest : List Nat) (s : WState) : WState × Bool :=
  let B := (U c).wb
  -- WB3, lines 114-118
  if s.rawPrev = .CR ∧ B = .LF then (updateEffective B s, false)
  -- WB3a, lines 121-135
  else if isNewlineClass s.rawPrev then
    if isTransparent B then
      ({ s with rawPrev := B, prev := .Other, prevPrev := .Other, riCounter := 0 }, true)
    else (updateEffective B s, true)
  -- WB3b, lines 138-142
  else if isNewlineClass B then (updateEffective B s, true)
  -- WB3c, lines 145-149
  else if s.rawPrev = .ZWJ ∧ (U c).isExtPict then (updateEffective B s, false)
  -- WB4, lines 153-159
  else if isTransparent B then ({ s with rawPrev := B, sawTransparent := true }, false)
  -- WB3d, WB5-WB16, WB999, lines 162-293
  else (updateEffective B s, !joins s B (peekNext U rest))

/-- The loop of `word_segmenter::operator++`: word_segmenter.h:83-90.  Returns the state, the codepoints stepped
over and the rest. -/
def extendSegment (U : Table) : WState → List Nat → WState × List Nat × List Nat
  | s, [] => (s, [], [])
  | s, c :: cs =>
    match processBreakable U c cs s with
    | (s', true) => (s', [], c :: cs)
    | (s', false) =>
      let r := extendSegment U s' cs
      (r.1, c :: r.2.1, r.2.2)

/-- Iterating `++` from the position where `cs` remains (word_segmenter.h:75-93); the state object persists
across advances.  `fuel` bounds the number of advances. -/
def segmentsLoop (U : Table) : Nat → WState → List Nat → List (List Nat)
  | 0, _, _ => []
  | _ + 1, _, [] => []
  | fuel + 1, s, c :: cs =>
    let r := extendSegment U (processInit U c s) cs
    (c :: r.2.1) :: segmentsLoop U fuel r.1 r.2.2

/-- All segments of a text, from a freshly constructed segmenter (word_segmenter.h:65-69). -/
def segments (U : Table) (text : List Nat) : List (List Nat) :=
  segmentsLoop U text.length {} text

/-- The incremental protocol: `word_process_init` on the first codepoint, then `word_process_breakable` on each
following one with the remaining text as lookahead (word_segmenter.h:47-59). -/
def incrementalFrom (U : Table) : WState → List Nat → List Bool
  | _, [] => []
  | s, c :: cs =>
    let r := processBreakable U c cs s
    r.2 :: incrementalFrom U r.1 cs

def incremental (U : Table) : List Nat → List Bool
  | [] => []
  | c :: cs => incrementalFrom U (processInit U c {}) cs

end Verif.Word
