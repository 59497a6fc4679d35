import Verif.Model.Ucd
import Verif.Model.Utf8
/-!
# Model of `grapheme_segmenter.{h,cpp}` and `utf8_grapheme_segmenter.h`
-/

namespace Verif.Grapheme
open Verif.Ucd

/-- `struct grapheme_segmenter_state`: grapheme_segmenter.h:29-46. -/
structure GState where
  previousCodepoint : Nat
  previousProperties : Props
  riCounter : Nat
  incbState : Nat
  extpicState : Nat

/-- Default-constructed state: grapheme_segmenter.h:31-45. -/
def GState.default (U : Table) : GState :=
  { previousCodepoint := 0, previousProperties := U 0, riCounter := 0, incbState := 0, extpicState := 0 }

/-- `grapheme_process_init`: grapheme_segmenter.cpp:19-29.  Every member is overwritten, so the result does
not depend on the old state. -/
def processInit (U : Table) (next : Nat) : GState :=
  let pb := U next
  { previousCodepoint := next
    previousProperties := pb
    riCounter := if pb.gcb = .Regional_Indicator then 1 else 0
    incbState := if pb.incb = .Consonant then 1 else 0
    extpicState := if pb.isExtPict then 1 else 0 }

/-- `Control | CR | LF` (grapheme_segmenter.cpp:97, 101). -/
def isCtl (g : GCB) : Bool := g = .Control || g = .CR || g = .LF

/-- GB9c state machine update: grapheme_segmenter.cpp:70-81. -/
def incbNext (pb : Props) (prev : Nat) : Nat :=
  if pb.incb = .Consonant then 1
  else if pb.incb = .Linker ∧ prev ≥ 1 then 2
  else if pb.incb = .Extend ∧ prev ≥ 1 then prev
  else 0

/-- GB11 state machine update: grapheme_segmenter.cpp:85-94. -/
def extpicNext (pb : Props) (prev : Nat) : Nat :=
  if prev ≠ 0 ∨ pb.isExtPict then
    if pb.isExtPict then 1
    else if (pb.gcb = .Extend ∨ pb.gcb = .ZWJ) ∧ prev = 1 then prev
    else 0
  else prev

/-- Outcome of the rule cascade grapheme_segmenter.cpp:96-153. -/
inductive Verdict where
  /-- `return true` -/
  | brk
  /-- `return false` -/
  | join
  /-- `return false` after updating `ri_counter` (lines 146-150) -/
  | joinFlag
deriving DecidableEq

/-- The rule cascade GB4 … GB999: grapheme_segmenter.cpp:96-153.  `A` is the class of the previous codepoint,
`pb` the properties of the next one, `prevIncb`/`prevExtpic` the states before the update, `ri` the counter
after line 51. -/
def cascade (A : GCB) (pb : Props) (prevIncb prevExtpic ri : Nat) : Verdict :=
  let B := pb.gcb
  -- GB4, GB5, lines 97-102
  if isCtl A then .brk
  else if isCtl B then .brk
  -- GB6-GB8, lines 106-118
  else if A = .L ∧ (B = .L ∨ B = .V ∨ B = .LV ∨ B = .LVT) then .join
  else if (A = .LV ∨ A = .V) ∧ (B = .V ∨ B = .T) then .join
  else if (A = .LVT ∨ A = .T) ∧ B = .T then .join
  -- GB9, GB9a, GB9b, lines 121-130
  else if B = .Extend ∨ B = .ZWJ then .join
  else if B = .SpacingMark then .join
  else if A = .Prepend then .join
  -- GB9c, lines 135-136
  else if pb.incb = .Consonant ∧ prevIncb = 2 then .join
  -- GB11, lines 140-141
  else if A = .ZWJ ∧ pb.isExtPict ∧ prevExtpic = 1 then .join
  -- GB12/GB13, lines 146-150
  else if A = .Regional_Indicator ∧ A = B ∧ ri = 1 then .joinFlag
  -- GB999, line 153
  else .brk

/-- `grapheme_process_breakable`: grapheme_segmenter.cpp:31-154.  Returns the new state and the verdict
(`true` = the two codepoints belong to different clusters). -/
def processBreakable (U : Table) (next : Nat) (s : GState) : GState × Bool :=
  let a := s.previousCodepoint
  let A := s.previousProperties.gcb
  let b := next
  let pb := U b
  let B := pb.gcb
  -- lines 50-51
  let ri := if B = .Regional_Indicator then s.riCounter else 0
  -- GB3, lines 55-56
  if A = .CR ∧ B = .LF then
    (⟨b, pb, ri, s.incbState, s.extpicState⟩, false)
  -- US-ASCII shortcut, lines 61-66
  else if a < 128 ∧ b < 128 then
    (⟨b, pb, ri, 0, 0⟩, true)
  else
    match cascade A pb s.incbState s.extpicState ri with
    | .brk => (⟨b, pb, ri, incbNext pb s.incbState, extpicNext pb s.extpicState⟩, true)
    | .join => (⟨b, pb, ri, incbNext pb s.incbState, extpicNext pb s.extpicState⟩, false)
    | .joinFlag => (⟨b, pb, (ri + 1) % 2, incbNext pb s.incbState, extpicNext pb s.extpicState⟩, false)

/-- The inner loop of `grapheme_segmenter::operator++`: grapheme_segmenter.h:78-79.  Input: state and the
codepoints from `right_`; output: codepoints stepped over, and the rest. -/
def extendCluster (U : Table) : GState → List Nat → List Nat × List Nat
  | _, [] => ([], [])
  | s, c :: cs =>
    match processBreakable U c s with
    | (_, true) => ([], c :: cs)
    | (s', false) =>
      let (t, r) := extendCluster U s' cs
      (c :: t, r)

/-- `grapheme_segmenter::operator++`: grapheme_segmenter.h:70-82.  Input: codepoints from `right_` to `end_`;
output: the new `[left_, right_)` and the codepoints from the new `right_`. -/
def advance (U : Table) : List Nat → List Nat × List Nat
  | [] => ([], [])
  | c :: cs =>
    let (t, r) := extendCluster U (processInit U c) cs
    (c :: t, r)

/-- The iteration `while (seg.codepointsAvailable()) ++seg` of clients (width.cpp:178-184, capi.cpp:23-36):
clusters produced by repeatedly advancing; `fuel` bounds the number of advances. -/
def clustersLoop (U : Table) : Nat → List Nat → List (List Nat)
  | 0, _ => []
  | _ + 1, [] => []
  | fuel + 1, c :: cs =>
    let (cl, r) := advance U (c :: cs)
    cl :: clustersLoop U fuel r

/-- All clusters of a text; for the empty text there are none (clients test `empty()` first).  `text.length`
advances always suffice because every advance consumes at least one codepoint. -/
def clusters (U : Table) (text : List Nat) : List (List Nat) :=
  clustersLoop U text.length text

/-- The incremental protocol: `grapheme_process_init` on the first codepoint, then
`grapheme_process_breakable` on every following one (grapheme_segmenter.h:48-54, scan.cpp).  The list of
verdicts, one per codepoint after the first. -/
def incrementalFrom (U : Table) : GState → List Nat → List Bool
  | _, [] => []
  | s, c :: cs =>
    let (s', br) := processBreakable U c s
    br :: incrementalFrom U s' cs

def incremental (U : Table) : List Nat → List Bool
  | [] => []
  | c :: cs => incrementalFrom U (processInit U c) cs

end Verif.Grapheme
