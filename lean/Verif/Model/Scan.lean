import Verif.Model.Grapheme
import Verif.Model.Width
import Verif.Model.Utf8
/-!
# Model of `scan.{h,cpp}`, `scan_simd_impl.h` and the vector primitives of `intrinsics.h` it uses

Pointers are integers: `0` is the address of the first byte of the string view handed to the modelled
function.  `size_t` columns are `Nat`.
-/

namespace Verif.Scan
open Verif.Ucd Verif.Utf8 Verif.Grapheme Verif.Width

/-! ## Byte classes -/

/-- `is_control`: scan.cpp:44-47. -/
def isControl (b : Nat) : Bool := b < 0x20
/-- `is_c1_control`: scan.cpp:52-56. -/
def isC1 (b : Nat) : Bool := 0x80 ≤ b && b ≤ 0x9F
/-- `is_complex`: scan.cpp:59-62. -/
def isComplex (b : Nat) : Bool := (b &&& 0x80) != 0
/-- The lambda `is_ascii`: scan_simd_impl.h:92-96. -/
def isAscii (b : Nat) : Bool := !(decide (b < 0x20)) && !((b &&& 0x80) != 0)

/-! ## The vectorised ASCII scan -/

/-- The compiled variants of the vector code: `std::simd` (scan_simd_impl.h:30-44, with `char` signed or
not) and the intrinsics (45-90) on x86-64 with 128/256/512 bits and AArch64 with 128 bits; `none` is the
plain build without vector code (the `#if` chain at 30/45/90 leaves only the scalar loop). -/
inductive Variant where
  | stdSimd (signedChar : Bool)
  | intrin128 | intrin256 | intrin512
  | none
deriving DecidableEq, Repr

/-- Value of a byte read as `signed char`. -/
def toSigned (b : Nat) : Int := if b < 0x80 then b else (b : Int) - 256

/-- `intrinsics<…>::less` against `set1_epi8(0x20)`, one mask bit per byte: a *signed* comparison
(intrinsics.h:60, 115, 171, 251-254).  For `std::simd` the signedness is that of `char`
(scan_simd_impl.h:35). -/
def lessBit (v : Variant) (b : Nat) : Bool :=
  match v with
  | .stdSimd false => decide (b < 0x20)
  | _ => decide (toSigned b < 0x20)

/-- The bytes of the block whose `& 0x80` compares equal to `0x80`, in 32-bit lanes (`cmpeq_epi32`): a lane
is equal iff its four bytes all are; the resulting per-byte mask. -/
def laneMask : List Nat → List Bool
  | a :: b :: c :: d :: rest =>
    let e := [a, b, c, d].all (fun x => (x &&& 0x80) == 0x80)
    e :: e :: e :: e :: laneMask rest
  | _ => []

/-- `movemask == 0xFFFF` resp. `0xFFFFFFFF`: the first `n` bits are set and all others clear. -/
def maskIsOnes (n : Nat) (m : List Bool) : Bool := (m.take n).all (· == true) && (m.drop n).all (· == false)

/-- The second operand of `or_mask`: scan_simd_impl.h:80 (intrinsics: `equal` returns a *bool*, which
converts to a mask whose only possible bit is bit 0: intrinsics.h:58, 113, 169, 246-249) and 36 (`std::simd`:
one bit per byte). -/
def complexMask (v : Variant) (block : List Nat) : List Bool :=
  match v with
  | .stdSimd _ => block.map (fun b => (b &&& 0x80) == 0x80)
  | .intrin128 => maskIsOnes 16 (laneMask block) :: List.replicate (block.length - 1) false
  | .intrin256 => maskIsOnes 16 (laneMask block) :: List.replicate (block.length - 1) false
  | .intrin512 =>
    maskIsOnes 32 (block.map (fun b => (b &&& 0x80) == 0x80)) :: List.replicate (block.length - 1) false
  | .none => block.map (fun _ => false)

/-- `ctrl_or_complex_mask`: scan_simd_impl.h:37, 81. -/
def mask (v : Variant) (block : List Nat) : List Bool :=
  List.zipWith (· || ·) (block.map (lessBit v)) (complexMask v block)

/-- Bytes per vector, `simd_size`: scan_simd_impl.h:26, for the width the variant is instantiated with. -/
def blockSize (v : Variant) (w : Nat) : Nat :=
  match v with
  | .intrin128 => 16
  | .intrin256 => 32
  | .intrin512 => 64
  | _ => w

/-- How far `input` moves over a clean block: `simd_size` with `std::simd` (scan_simd_impl.h:43), but
`sizeof(simd_size)`, i.e. `sizeof(int) = 4`, with intrinsics (scan_simd_impl.h:88). -/
def stride (v : Variant) (w : Nat) : Nat :=
  match v with
  | .stdSimd _ => w
  | _ => 4

/-- The vector loop scan_simd_impl.h:32-44 / 76-89: `s` holds the bytes from `input` to `end`; the result is
the number of bytes `input` moves.  `input < end - simd_size` is `blockSize < s.length`. -/
def vecLoop (v : Variant) (w : Nat) : Nat → List Nat → Nat
  | 0, _ => 0
  | fuel + 1, s =>
    if blockSize v w < s.length then
      if (mask v (s.take (blockSize v w))).any id then
        (mask v (s.take (blockSize v w))).findIdx id
      else stride v w + vecLoop v w fuel (s.drop (stride v w))
    else 0

/-- The vector part of the function; empty when compiled without vector code. -/
def vecPart (v : Variant) (w : Nat) (s : List Nat) : Nat :=
  match v with
  | .none => 0
  | v => vecLoop v w s.length s

/-- The scalar loop: scan_simd_impl.h:97-98. -/
def scalarPart : List Nat → Nat
  | [] => 0
  | b :: bs => if isAscii b then 1 + scalarPart bs else 0

/-- `scan_for_text_ascii_simd<SimdBitWidth>`: scan_simd_impl.h:24-101, and through it
`scan_for_text_ascii` and its 256/512 bit versions (scan.cpp:65-79, scan256.cpp, scan512.cpp). -/
def scanAscii (v : Variant) (w : Nat) (text : List Nat) (maxColumnCount : Nat) : Nat :=
  let s := text.take (min text.length maxColumnCount)
  vecPart v w s + scalarPart (s.drop (vecPart v w s))

/-! ## The scanner -/

/-- `struct scan_state` without `next`: scan.h:46-67. -/
structure State where
  utf8 : DecState := {}
  hint : Nat := 0
  g : GState
  acc : Acc := {}
  reported : Nat := 0

/-- A default-constructed `scan_state`. -/
def State.init (U : Table) : State := { g := GState.default U }

/-- Calls made on the `grapheme_cluster_receiver`: scan.h:70-78. -/
inductive Event where
  | ascii (bytes : List Nat)
  | cluster (bytes : List Nat) (columns : Nat)
  | invalid
deriving DecidableEq, Repr

/-- Local variables of `scan_for_text_nonascii` (scan.cpp:86-101) together with the state and the calls made
on the receiver.  Offsets are relative to `text.data()`. -/
structure Loop where
  st : State
  count : Nat := 0
  input : Nat := 0
  clusterStart : Nat := 0
  byteCount : Nat := 0
  countedHere : Nat := 0
  resultEnd : Int
  events : List Event := []

/-- `flushOpenCluster(clusterEnd)`: scan.cpp:106-111. -/
def flush (text : List Nat) (e : Nat) (L : Loop) : Loop :=
  { L with
    events := if e > L.clusterStart then
        L.events ++ [.cluster ((text.drop L.clusterStart).take (e - L.clusterStart)) L.st.reported]
      else L.events
    clusterStart := e }

/-- The control branch: scan.cpp:121-136. -/
def atControl (U : Table) (text : List Nat) (L : Loop) : Loop :=
  let F := flush text L.input L
  { F with
    count := if L.st.utf8.expectedLength ≠ 0 then L.count + 1 else L.count
    events := if L.st.utf8.expectedLength ≠ 0 then F.events ++ [.invalid] else F.events
    st := { utf8 := if L.st.utf8.expectedLength ≠ 0 then {} else L.st.utf8
            hint := 0, g := GState.default U, acc := {}, reported := 0 }
    resultEnd := L.input }

/-- `breakable` (scan.cpp:153-160): new segmenter state and verdict. -/
def isBreakable (U : Table) (st : State) (cp : Nat) : GState × Bool :=
  if st.hint = 0 then (processInit U cp, true) else processBreakable U cp st.g

/-- Leaving or continuing the loop. -/
inductive Flow where
  | go (L : Loop)
  | stop (L : Loop)

/-- The codepoint opens a cluster: scan.cpp:162-184.  `g` is the segmenter state after `breakable`; `L.input`
is already past the codepoint and `cpStart` is `codepointStart`. -/
def openCluster (U : Table) (text : List Nat) (max cpStart cp : Nat) (L : Loop) : Flow :=
  let next := push U {} cp
  if L.count + next.width > max then .stop { L with input := cpStart }
  else
    let F := flush text cpStart L
    .go { F with
      count := L.count + next.width
      countedHere := next.width
      st := { L.st with acc := next, reported := next.width }
      resultEnd := L.input }

/-- The codepoint joins the open cluster: scan.cpp:186-219. -/
def joinCluster (U : Table) (max cp : Nat) (L : Loop) : Flow :=
  let acc := push U L.st.acc cp
  if acc.width ≥ L.st.reported then
    if acc.width - L.st.reported ≠ 0 ∧ L.count + (acc.width - L.st.reported) > max then
      .stop { L with
        count := L.count - L.countedHere
        input := L.clusterStart
        resultEnd := L.clusterStart
        st := { L.st with acc := {}, reported := 0 } }
    else
      .go { L with
        count := L.count + (acc.width - L.st.reported)
        countedHere := L.countedHere + (acc.width - L.st.reported)
        st := { L.st with acc := acc, reported := acc.width }
        resultEnd := L.input }
  else
    .go { L with
      count := L.count - min (L.st.reported - acc.width) L.countedHere
      countedHere := L.countedHere - min (L.st.reported - acc.width) L.countedHere
      st := { L.st with acc := acc, reported := acc.width }
      resultEnd := L.input }

/-- The branch `Success`: scan.cpp:145-220.  `L.input`/`L.byteCount` are those after lines 139-140. -/
def onSuccess (U : Table) (text : List Nat) (max cp : Nat) (L : Loop) : Flow :=
  let r := isBreakable U L.st cp
  let L' := { L with byteCount := 0, st := { L.st with hint := cp, g := r.1 } }
  if r.2 then openCluster U text max (L.input - L.byteCount) cp L'
  else joinCluster U max cp L'

/-- The branch `Invalid`: scan.cpp:222-234. -/
def onInvalid (U : Table) (text : List Nat) (L : Loop) : Loop :=
  let F := flush text (L.input - L.byteCount) L
  { F with
    count := L.count + 1
    events := F.events ++ [.invalid]
    countedHere := 0
    st := { utf8 := { L.st.utf8 with expectedLength := 0 }, hint := 0, g := GState.default U, acc := {},
            reported := 0 }
    byteCount := 0 }

/-- Lines 139-140: one byte goes through the decoder. -/
def consume (L : Loop) (u : DecState) : Loop :=
  { L with st := { L.st with utf8 := u }, input := L.input + 1, byteCount := L.byteCount + 1 }

/-- One iteration of the loop scan.cpp:113-235 for the byte `b = *input`. -/
def step (U : Table) (text : List Nat) (max : Nat) (b : Nat) (L : Loop) : Flow :=
  if L.count > max then .stop L
  else if isControl b || !isComplex b || (L.st.utf8.expectedLength == 0 && isC1 b) then
    .stop (atControl U text L)
  else
    match fromUtf8 L.st.utf8 b with
    | (u, .incomplete) => .go (consume L u)
    | (u, .success cp) => onSuccess U text max cp (consume L u)
    | (u, .invalid) => .go (onInvalid U text (consume L u))

/-- The loop scan.cpp:113-235; the list argument holds the bytes from `input` to `end`. -/
def loop (U : Table) (text : List Nat) (max : Nat) : List Nat → Loop → Loop
  | [], L => L
  | b :: rest, L =>
    match step U text max b L with
    | .stop L' => L'
    | .go L' => loop U text max rest L'

/-- `resultStart`: scan.cpp:100. -/
def resultStart (st : State) : Int := if st.utf8.expectedLength ≠ 0 then -(st.utf8.currentLength : Int) else 0

/-- `scan_for_text_nonascii`: scan.cpp:81-244.  The returned record holds the final `state` (`st`), the new
`state.next` (`input`), `count`, the events, and `resultEnd`; `result.start` is `resultStart st`. -/
def scanNonAscii (U : Table) (st : State) (text : List Nat) (max : Nat) : Loop :=
  let L := loop U text max text { st := st, resultEnd := resultStart st }
  flush text L.input L

/-- `scan_result` (scan.h:26-39), the new state, `state.next`, and the calls on the receiver.  Addresses are
relative to the first byte of the text passed to `scan_text`. -/
structure Out where
  count : Nat
  start : Int
  fin : Int
  st : State
  next : Int
  events : List Event

/-- State seeded with the last ASCII character: scan.cpp:303-308. -/
def seed (U : Table) (st : State) (c : Nat) : State :=
  { st with hint := c, g := processInit U c, acc := push U {} c, reported := 1 }

/-- The loop scan.cpp:287-340.  `text` is the (shrinking) string view, `base` its address, `fin` the address
of its end, `complex` is `nextState == NextState::Complex`. -/
def mainLoop (U : Table) (v : Variant) (w max : Nat) (fin : Int) : Nat → Bool → List Nat → Int → Out → Out
  | 0, _, _, _, R => R
  | fuel + 1, complex, text, base, R =>
    if R.count < max ∧ R.next ≠ fin then
      if complex then
        let S := scanNonAscii U R.st text (max - R.count)
        let R' : Out := { R with
          count := R.count + S.count
          fin := base + S.resultEnd
          st := S.st
          next := base + S.input
          events := R.events ++ S.events }
        let consumed := (S.resultEnd - resultStart R.st).toNat
        if consumed = 0 then R'
        else mainLoop U v w max fin fuel false (text.drop consumed) (base + consumed) R'
      else
        let n := scanAscii v w text (max - R.count)
        if n = 0 then R
        else
          mainLoop U v w max fin fuel true (text.drop n) (base + n)
            { R with
              count := R.count + n
              fin := R.fin + n
              st := seed U R.st (text.getD (n - 1) 0)
              next := R.next + n
              events := R.events ++ [.ascii (text.take n)] }
    else R

/-- `scan_text`: scan.cpp:251-346.  `pre` holds the bytes that lie directly in front of the text in the same
allocation (none when the text starts its buffer); `next` is `state.next` (`none` = `nullptr`).  Reading
outside `pre ++ text` is the outcome `oob`.  Line 280 may let the view start before the text, when a resumed
sequence has not been completed; line 286 then reads there. -/
def scanText (U : Table) (v : Variant) (w : Nat) (st : State) (next : Option Int) (pre text : List Nat) (max : Nat) :
    Mem Out :=
  let R0 : Out := { count := 0, start := 0, fin := 0, st := st, next := next.getD 0, events := [] }
  if st.utf8.expectedLength ≠ 0 then
    let S := scanNonAscii U st text max
    let R : Out := { count := S.count, start := resultStart st, fin := S.resultEnd, st := S.st, next := S.input, events := S.events }
    if 0 ≤ S.resultEnd then
      match text.drop S.resultEnd.toNat with
      | [] => .ok R
      | b :: bs => .ok (mainLoop U v w max text.length (text.length + 1) (isComplex b) (b :: bs) S.resultEnd R)
    else if S.resultEnd.natAbs ≤ pre.length then
      match pre.drop (pre.length - S.resultEnd.natAbs) ++ text with
      | [] => .ok R
      | b :: bs =>
        .ok (mainLoop U v w max text.length (pre.length + text.length + 1) (isComplex b) (b :: bs) S.resultEnd R)
    else .oob
  else
    match text with
    | [] => .ok R0
    | b :: bs => .ok (mainLoop U v w max text.length (text.length + 1) (isComplex b) (b :: bs) 0 R0)

end Verif.Scan
