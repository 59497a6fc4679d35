import Verif.Model.Width
import Verif.Model.Convert
/-!
# Model of `capi.h` / `capi.cpp`

`int` results are `Nat`/`Int`: overflow of a 32-bit `int` counter (which needs texts of more than 2^31 clusters,
columns or bytes) is not modelled.  `u8u32_stream_convert_create`/`_destroy` (capi.cpp:82-85, 97-101) only allocate
and free the decoder state; they are represented by the initial state `{}`.
-/

namespace Verif.Capi
open Verif.Ucd Verif.Grapheme Verif.Width Verif.Utf8 Verif.Convert

/-- The loop of `u32_gc_count`: capi.cpp:30-34; input: codepoints from `right_`, and `count`. -/
def gcCountLoop (U : Table) : Nat → List Nat → Nat → Nat
  | 0, _, count => count
  | _ + 1, [], count => count
  | fuel + 1, c :: cs, count => gcCountLoop U fuel (advance U (c :: cs)).2 (count + 1)

/-- `u32_gc_count`: capi.cpp:23-36.  The segmenter's constructor advances once (grapheme_segmenter.h:60-64). -/
def u32GcCount (U : Table) (cps : List Nat) : Nat :=
  if cps = [] then 0 else gcCountLoop U cps.length (advance U cps).2 1

/-- `u8_gc_count`: capi.cpp:38-42; `k` is the SIMD width of the CPU. -/
def u8GcCount (U : Table) (k : Nat) (bytes : List Nat) : Nat := u32GcCount U (fromUtf8Str k bytes)

/-- `processCluster` of `u32_gc_width`: capi.cpp:49-54.  `cluster.front()` of an empty view is undefined
behaviour: outcome `oob`. -/
def processCluster (U : Table) (mode : Int) (total : Nat) (cluster : List Nat) : Mem Nat :=
  if mode = 0 then
    match cluster with
    | [] => .oob
    | c :: _ => .ok (total + width1 U c)
  else .ok (total + clusterWidth U cluster)

/-- The loop of `u32_gc_width`: capi.cpp:56-60. -/
def gcWidthLoop (U : Table) (mode : Int) : Nat → List Nat → Nat → Mem Nat
  | 0, _, total => .ok total
  | _ + 1, [], total => .ok total
  | fuel + 1, c :: cs, total =>
    match processCluster U mode total (advance U (c :: cs)).1 with
    | .oob => .oob
    | .ok t => gcWidthLoop U mode fuel (advance U (c :: cs)).2 t

/-- `u32_gc_width`: capi.cpp:44-62. -/
def u32GcWidth (U : Table) (cps : List Nat) (mode : Int) : Mem Nat :=
  match processCluster U mode 0 (advance U cps).1 with
  | .oob => .oob
  | .ok t => gcWidthLoop U mode cps.length (advance U cps).2 t

/-- `u8_gc_width`: capi.cpp:64-68. -/
def u8GcWidth (U : Table) (k : Nat) (bytes : List Nat) (mode : Int) : Mem Nat :=
  u32GcWidth U (fromUtf8Str k bytes) mode

/-- `u32_grapheme_unbreakable`: capi.cpp:70-75. -/
def graphemeUnbreakable (U : Table) (a b : Nat) : Nat :=
  if !(processBreakable U b (processInit U a)).2 then 1 else 0

/-- `u8u32_stream_convert_run`: capi.cpp:87-95.  New decoder state, new value of `*output`, return value. -/
def streamRun (handle : DecState) (input : Nat) (output : Nat) : DecState × Nat × Nat :=
  match decode8 handle input with
  | (h', some c) => (h', c, 1)
  | (h', none) => (h', output, 0)

/-- `for (k = 0; k < bufLength; ++k) dest[k] = buf[k]`: capi.cpp:116-117.  Memory is a function from addresses to
bytes. -/
def writeBytes (mem : Nat → Nat) (dest : Nat) : List Nat → (Nat → Nat)
  | [] => mem
  | b :: bs => writeBytes (fun i => if i = dest then b else mem i) (dest + 1) bs

/-- The loop of `u32u8_convert`: capi.cpp:108-123; memory, `dest`, `dlen`, `nwritten`.  Result: the memory and the
returned `int`. -/
def u32u8Loop : List Nat → (Nat → Nat) → Nat → Nat → Nat → (Nat → Nat) × Int
  | [], mem, _, _, nwritten => (mem, nwritten)
  | c :: cs, mem, dest, dlen, nwritten =>
    if ¬ (encode8 c).length < dlen then (mem, -1)
    else u32u8Loop cs (writeBytes mem dest (encode8 c)) (dest + (encode8 c).length) (dlen - (encode8 c).length)
      (nwritten + (encode8 c).length)

/-- `u32u8_convert`: capi.cpp:103-124. -/
def u32u8Convert (source : List Nat) (mem : Nat → Nat) (dest dlen : Nat) : (Nat → Nat) × Int :=
  u32u8Loop source mem dest dlen 0

/-! ### Macros of capi.h (on 32-bit values)

`u32_is_valid_codepoint` (capi.h:40-41) has unbalanced parentheses, so it has no meaning to model. -/

/-- `u32_unused_bit_mask`: capi.h:51. -/
def unusedBitMask (c : Nat) : Nat := c >>> 21
/-- `u32_unused_bit_capacity`: capi.h:60, with a 32-bit `u32_char_t`. -/
def unusedBitCapacity : Nat := 8 * 4 - 21
/-- `u32_unused_bit_get`: capi.h:65. -/
def unusedBitGet (c i : Nat) : Bool := (c &&& (1 <<< (i + 21))) != 0
/-- `u32_unused_bit_on`: capi.h:70. -/
def unusedBitOn (c i : Nat) : Nat := c ||| (1 <<< (i + 21))
/-- `u32_unused_bit_off`: capi.h:75; `~x` on 32 bits is `x xor 0xFFFFFFFF`. -/
def unusedBitOff (c i : Nat) : Nat := c &&& ((1 <<< (i + 21)) ^^^ 0xFFFFFFFF)
/-- `u32_unused_bit_cleared`: capi.h:80. -/
def unusedBitCleared (c : Nat) : Nat := c &&& 0x1FFFFF

end Verif.Capi
