/-!
# Emoji presentation scanner and segmenter

emoji_presentation_scanner.c (the Ragel-generated, table-driven scanner that is compiled) and
emoji_segmenter.{h,cpp}.  Category values are those of `enum class EmojiSegmentationCategory`
(emoji_segmenter.h:31-50): `-1` (Invalid) … `15`.
-/

namespace Verif.Emoji

/-! ## The tables: emoji_presentation_scanner.c:24-97 -/

/-- emoji_presentation_scanner.c:24-29 -/
def actions : List Nat :=
  [0, 1, 0, 1, 1, 1, 5, 1,
   6, 1, 7, 1, 8, 1, 9, 1,
   10, 1, 11, 2, 2, 3, 2, 2,
   4]

/-- emoji_presentation_scanner.c:31-34 -/
def keyOffsets : List Nat := [0, 5, 7, 14, 18, 20, 21, 24, 29, 30, 34, 36]

/-- emoji_presentation_scanner.c:36-43 -/
def transKeys : List Nat :=
  [3, 7, 13, 0, 2, 14, 15, 2,
   3, 6, 7, 13, 0, 1, 9, 10,
   11, 12, 10, 12, 10, 4, 10, 12,
   4, 9, 10, 11, 12, 6, 9, 10,
   11, 12, 8, 10, 9, 10, 11, 12,
   14, 0]

/-- emoji_presentation_scanner.c:45-48 -/
def singleLengths : List Nat := [3, 2, 5, 4, 2, 1, 3, 5, 1, 4, 2, 5]

/-- emoji_presentation_scanner.c:50-53 -/
def rangeLengths : List Nat := [1, 0, 1, 0, 0, 0, 0, 0, 0, 0, 0, 0]

/-- emoji_presentation_scanner.c:55-58 -/
def indexOffsets : List Nat := [0, 5, 8, 15, 20, 23, 25, 29, 35, 37, 42, 45]

/-- emoji_presentation_scanner.c:60-68 -/
def indicies : List Nat :=
  [2, 1, 1, 1, 0, 4, 5, 3,
   7, 8, 10, 11, 12, 6, 9, 5,
   13, 14, 15, 0, 13, 15, 16, 13,
   16, 15, 13, 15, 16, 15, 5, 13,
   14, 15, 16, 5, 17, 5, 13, 14,
   18, 17, 5, 13, 16, 5, 13, 14,
   15, 4, 16, 0]

/-- emoji_presentation_scanner.c:70-74 -/
def transTargs : List Nat := [2, 4, 6, 2, 1, 2, 3, 3, 7, 2, 8, 9, 11, 0, 2, 5, 2, 2, 10]

/-- emoji_presentation_scanner.c:76-80 -/
def transActions : List Nat := [17, 19, 19, 15, 0, 7, 22, 19, 19, 9, 0, 22, 19, 0, 5, 19, 11, 13, 19]

/-- emoji_presentation_scanner.c:92-95 -/
def eofTrans : List Nat := [1, 4, 0, 1, 17, 17, 17, 17, 18, 18, 17, 17]

/-- Table read.  All reads are inside the tables for states 0…11 (the default is never used; wrong entries would make
the theorems about the scanner fail). -/
def rd (t : List Nat) (i : Nat) : Nat := t.getD i 0

/-! ## The interpreter: emoji_presentation_scanner.c:107-296 -/

/-- Binary search over the single keys, emoji_presentation_scanner.c:155-171, `_upper` given exclusively (`hi`).
`fuel` bounds the number of rounds by the number of keys. -/
def searchSingle (base : Nat) (c : Int) : Nat → Nat → Nat → Option Nat
  | 0, _, _ => none
  | fuel + 1, lo, hi =>
    if hi ≤ lo then none
    else if c < (rd transKeys (base + (lo + (hi - 1 - lo) / 2)) : Nat) then
      searchSingle base c fuel lo (lo + (hi - 1 - lo) / 2)
    else if c > (rd transKeys (base + (lo + (hi - 1 - lo) / 2)) : Nat) then
      searchSingle base c fuel (lo + (hi - 1 - lo) / 2 + 1) hi
    else some (lo + (hi - 1 - lo) / 2)

/-- Binary search over the key ranges, emoji_presentation_scanner.c:178-194; positions are counted in pairs of keys,
so `(((_upper-_lower) >> 1) & ~1)` bytes are `(upper - lower) / 2` pairs. -/
def searchRange (base : Nat) (c : Int) : Nat → Nat → Nat → Option Nat
  | 0, _, _ => none
  | fuel + 1, lo, hi =>
    if hi ≤ lo then none
    else if c < (rd transKeys (base + 2 * (lo + (hi - 1 - lo) / 2)) : Nat) then
      searchRange base c fuel lo (lo + (hi - 1 - lo) / 2)
    else if c > (rd transKeys (base + 2 * (lo + (hi - 1 - lo) / 2) + 1) : Nat) then
      searchRange base c fuel (lo + (hi - 1 - lo) / 2 + 1) hi
    else some (lo + (hi - 1 - lo) / 2)

/-- The transition taken in state `cs` on category `c`: emoji_presentation_scanner.c:150-199. -/
def trans (cs : Nat) (c : Int) : Nat :=
  rd indicies (
    match searchSingle (rd keyOffsets cs) c (rd singleLengths cs) 0 (rd singleLengths cs) with
    | some i => rd indexOffsets cs + i
    | none =>
      match searchRange (rd keyOffsets cs + rd singleLengths cs) c (rd rangeLengths cs) 0 (rd rangeLengths cs) with
      | some i => rd indexOffsets cs + rd singleLengths cs + i
      | none => rd indexOffsets cs + rd singleLengths cs + rd rangeLengths cs)

/-- What a list of actions does: return `(te, is_emoji)`, or go on with new `te` and `act`.
(`ts` is written but never read and is left out.) -/
inductive Eff where
  | ret (te : Nat) (emoji : Bool)
  | cont (te act : Nat)
deriving DecidableEq, Repr

/-- The actions at positions `i, i+1, …` (`n` of them), at input position `p`:
emoji_presentation_scanner.c:206-262. -/
def execActs (p : Nat) : Nat → Nat → Nat → Nat → Eff
  | 0, _, te, act => .cont te act
  | n + 1, i, te, act =>
    match rd actions i with
    | 2 => execActs p n (i + 1) (p + 1) act
    | 3 => execActs p n (i + 1) te 2
    | 4 => execActs p n (i + 1) te 3
    | 5 => .ret (p + 1) false
    | 6 => .ret (p + 1) true
    | 7 => .ret (p + 1) false
    | 8 => .ret p true
    | 9 => .ret p false
    | 10 => .ret te true
    | 11 => if act = 2 then .ret te true else if act = 3 then .ret te false else execActs p n (i + 1) te act
    | _ => execActs p n (i + 1) te act

/-- `_eof_trans:` emoji_presentation_scanner.c:200-262: the actions of transition `t`. -/
def doTrans (t p te act : Nat) : Eff :=
  if rd transActions t = 0 then .cont te act
  else execActs p (rd actions (rd transActions t)) (rd transActions t + 1) te act

/-- `_resume … _test_eof`: emoji_presentation_scanner.c:137-295 in state `cs` at position `p` with the categories
`rest` still to be read.  `none`: after the end-of-input transition the code would go on reading behind the end. -/
def scanFrom (cs p te act : Nat) : List Int → Option (Nat × Bool)
  | [] =>
    if rd eofTrans cs > 0 then
      match doTrans (rd eofTrans cs - 1) p te act with
      | .ret te e => some (te, e)
      | .cont _ _ => none
    else some (p, false)
  | c :: rest =>
    match doTrans (trans cs c) p te act with
    | .ret te e => some (te, e)
    | .cont te act => scanFrom (rd transTargs (trans cs c)) (p + 1) te act rest

/-- `scan_emoji_presentation`: emoji_presentation_scanner.c:107-296, started at cursor `p` with the categories from
there to the end of the text; the result is the cursor returned and `*is_emoji`. -/
def scan (p : Nat) (rest : List Int) : Option (Nat × Bool) := scanFrom 2 p 0 0 rest

/-! ## `emoji_segmenter` -/

/-- Member variables, emoji_segmenter.h:63-71 (without the buffer). -/
structure St where
  curBegin : Nat := 0
  curEnd : Nat := 0
  nextBegin : Nat := 0
  isEmoji : Bool := false
  isNext : Bool := false
deriving DecidableEq, Repr

/-- `consume_once`: emoji_segmenter.cpp:157-163: (returned cursor, new `isNextEmoji_`).  The scanner is a parameter
so that the segmenter can also be studied for any scanner.  `cats` are the categories of the whole text. -/
def consumeOnce (sc : Nat → List Int → Option (Nat × Bool)) (cats : List Int) (curEnd : Nat) : Nat × Bool :=
  (sc curEnd (cats.drop curEnd)).getD (cats.length, false)

/-- Constructor: emoji_segmenter.cpp:111-115. -/
def init (sc : Nat → List Int → Option (Nat × Bool)) (cats : List Int) : St :=
  if cats.length = 0 then {} else { isNext := (consumeOnce sc cats 0).2 }

/-- The `do … while` of `consume`, emoji_segmenter.cpp:137-148, as (`currentCursorEnd_`, `isNextEmoji_`).
(`nextCursorBegin_ = o` at line 143 is overwritten at line 152.)  Fuel: the number of codepoints left. -/
def consumeLoop (sc : Nat → List Int → Option (Nat × Bool)) (cats : List Int) (isEmoji : Bool) :
    Nat → Nat → Bool → Nat × Bool
  | 0, curEnd, isNext => (curEnd, isNext)
  | fuel + 1, curEnd, _ =>
    if isEmoji ≠ (consumeOnce sc cats curEnd).2 then (curEnd, (consumeOnce sc cats curEnd).2)
    else if (consumeOnce sc cats curEnd).1 < cats.length then
      consumeLoop sc cats isEmoji fuel (consumeOnce sc cats curEnd).1 (consumeOnce sc cats curEnd).2
    else ((consumeOnce sc cats curEnd).1, (consumeOnce sc cats curEnd).2)

/-- `consume`: emoji_segmenter.cpp:117-155: the new state, and the reported (is emoji, end offset) or `none` for
`return false`. -/
def consume (sc : Nat → List Int → Option (Nat × Bool)) (cats : List Int) (s : St) : St × Option (Bool × Nat) :=
  if cats.length ≤ s.nextBegin then
    ({ s with curBegin := s.curEnd, curEnd := s.nextBegin, isEmoji := s.isNext }, none)
  else
    ({ curBegin := s.curEnd
       curEnd := (consumeLoop sc cats s.isNext (cats.length - s.nextBegin) s.nextBegin s.isNext).1
       nextBegin := (consumeLoop sc cats s.isNext (cats.length - s.nextBegin) s.nextBegin s.isNext).1
       isEmoji := s.isNext
       isNext := (consumeLoop sc cats s.isNext (cats.length - s.nextBegin) s.nextBegin s.isNext).2 },
     some (s.isNext, (consumeLoop sc cats s.isNext (cats.length - s.nextBegin) s.nextBegin s.isNext).1))

/-- `while (seg.consume(...))`, with fuel. -/
def runsLoop (sc : Nat → List Int → Option (Nat × Bool)) (cats : List Int) : Nat → St → List (Bool × Nat)
  | 0, _ => []
  | n + 1, s =>
    match consume sc cats s with
    | (_, none) => []
    | (s', some r) => r :: runsLoop sc cats n s'

/-- All segments of a text, given by the categories of its codepoints. -/
def runs (cats : List Int) : List (Bool × Nat) := runsLoop scan cats cats.length (init scan cats)

end Verif.Emoji
