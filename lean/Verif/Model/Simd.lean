import Verif.Spec.Vector
import Verif.Model.Convert
/-!
# Model of `intrinsics.h` and of the vector code built on it, at the level of registers and addresses

Models `intrinsics.h`, the `LIBUNICODE_USE_INTRINSICS` branches of `scan_simd_impl.h` and
`convert_simd_impl.h`.  Registers and instructions are those of `Verif.Spec.Vector`; masks of type `int` are
represented by their 32-bit pattern.  Pointers are indices into the buffer they point into; every access
checks the buffer.  Loops carry fuel; running out of it is a failure, so that success includes termination.
-/

namespace Verif.Simd
open Verif.Vec Verif.Utf8 Verif.Convert

/-- The specialisations of `struct intrinsics`: intrinsics.h:39-92 (x86, 128 bits), 94-148 (256), 150-203 (512)
and 210-379 (AArch64). -/
inductive Isa where
  | sse | avx2 | avx512 | neon
deriving DecidableEq, Repr

/-- `SimdBitWidth / 8`: scan_simd_impl.h:26, convert_simd_impl.h:40, 149. -/
def size : Isa → Nat
  | .sse => 16 | .avx2 => 32 | .avx512 => 64 | .neon => 16

/-- `intrinsics<128>::movemask_epi8` on AArch64: intrinsics.h:266-341. -/
def neonMovemask (a : Nat) : Nat :=
  let highBits := ushr 8 16 a 7
  let paired16 := usra 16 8 highBits highBits 7
  let paired32 := usra 32 4 paired16 paired16 14
  let paired64 := usra 64 2 paired32 paired32 28
  lane 8 paired64 0 ||| (lane 8 paired64 8 <<< 8)

/-- `set1_epi8`: intrinsics.h:48, 103, 159, 222. -/
def set1 (isa : Isa) (v : Nat) : Nat := setBytes (size isa) v

/-- `and_vec`: intrinsics.h:52, 107, 163, 231-234. -/
def andVec (a b : Nat) : Nat := a &&& b

/-- `load`: intrinsics.h:56, 111, 167, 241-244. -/
def load (isa : Isa) (mem : List Nat) (p : Nat) : Mem Nat := loadu (size isa) mem p

/-- `equal`: intrinsics.h:58, 113, 169, 246-249. -/
def equal (isa : Isa) (a b : Nat) : Bool :=
  match isa with
  | .sse => decide (movemask8 16 (cmpeq 32 4 a b) = 0xFFFF)
  | .avx2 => decide (movemask8 32 (cmpeq 32 8 a b) = 0xFFFF)
  | .avx512 => decide (cmpeqMask8 64 a b = 0xFFFFFFFF)
  | .neon => decide (neonMovemask (cmpeq 32 4 a b) = 0xFFFF)

/-- `less`: intrinsics.h:60, 115, 171, 251-254. -/
def less (isa : Isa) (a b : Nat) : Nat :=
  match isa with
  | .sse => movemask8 16 (cmplt8 16 a b)
  | .avx2 => movemask8 32 (cmpgt8 32 b a)
  | .avx512 => cmpltMask8 64 a b
  | .neon => neonMovemask (cmplt8 16 a b)

/-- `or_mask`: intrinsics.h:66, 123, 177, 260; the `bool` returned by `equal` converts to a mask. -/
def orMask (m : Nat) (b : Bool) : Nat := m ||| (if b then 1 else 0)

/-- `all_ascii`: intrinsics.h:75, 132, 186, 346. -/
def allAscii (isa : Isa) (a : Nat) : Bool :=
  match isa with
  | .sse => decide (movemask8 16 a = 0)
  | .avx2 => decide (movemask8 32 a = 0)
  | .avx512 => decide (movemask8 64 a = 0)
  | .neon => decide (neonMovemask a = 0)

/-! ## scan_for_text_ascii_simd -/

/-- `ctrl_or_complex_mask`: scan_simd_impl.h:73-74, 79-81. -/
def ctrlOrComplex (isa : Isa) (batch : Nat) : Nat :=
  orMask (less isa batch (set1 isa 0x20)) (equal isa (andVec batch (set1 isa 0x80)) (set1 isa 0x80))

/-- The vector loop: scan_simd_impl.h:76-89; `p` is `input - text.data()`, `fin` is `end - text.data()`.  The
comparison is made in the integers (for a text shorter than a register, `end - simd_size` points before the
text). -/
def scanLoop (isa : Isa) (text : List Nat) (fin : Nat) : Nat → Nat → Mem Nat
  | 0, _ => .oob
  | fuel + 1, p =>
    if (p : Int) < (fin : Int) - (size isa : Int) then
      match load isa text p with
      | .oob => .oob
      | .ok batch =>
        if ctrlOrComplex isa batch ≠ 0 then .ok (p + ctz (ctrlOrComplex isa batch))
        else scanLoop isa text fin fuel (p + 4)
    else .ok p

/-- The lambda `is_ascii`: scan_simd_impl.h:92-96. -/
def isAscii (b : Nat) : Bool := !(decide (b < 0x20)) && !((b &&& 0x80) != 0)

/-- The scalar loop: scan_simd_impl.h:97-98; it stops at `end` only when it meets it exactly. -/
def scanTail (text : List Nat) (fin : Nat) : Nat → Nat → Mem Nat
  | 0, _ => .oob
  | fuel + 1, p =>
    if p = fin then .ok p
    else
      match text[p]? with
      | none => .oob
      | some b => if isAscii b then scanTail text fin fuel (p + 1) else .ok p

/-- `scan_for_text_ascii_simd<SimdBitWidth>`: scan_simd_impl.h:24-101. -/
def scan (isa : Isa) (text : List Nat) (maxColumnCount : Nat) : Mem Nat :=
  match scanLoop isa text (min text.length maxColumnCount) (text.length + 1) 0 with
  | .oob => .oob
  | .ok p => scanTail text (min text.length maxColumnCount) (text.length + 1) p

/-! ## convert_utf8_to_utf32_simd, convert_utf8_to_utf16_simd -/

/-- The stores of one block, UTF-32: convert_simd_impl.h:70-98 (x86) and 112-117 (AArch64): offset from `dst`,
number of elements, register. -/
def widen32 (isa : Isa) (batch : Nat) : List (Nat × Nat × Nat) :=
  match isa with
  | .sse =>
    [(0, 4, zext 8 32 4 batch), (4, 4, zext 8 32 4 (srlBytes batch 4)),
     (8, 4, zext 8 32 4 (srlBytes batch 8)), (12, 4, zext 8 32 4 (srlBytes batch 12))]
  | .avx2 =>
    [(0, 8, zext 8 32 8 (part 128 batch 0)), (8, 8, zext 8 32 8 (srlBytes (part 128 batch 0) 8)),
     (16, 8, zext 8 32 8 (part 128 batch 1)), (24, 8, zext 8 32 8 (srlBytes (part 128 batch 1) 8))]
  | .avx512 =>
    [(0, 16, zext 8 32 16 (part 128 batch 0)), (16, 16, zext 8 32 16 (part 128 batch 1)),
     (32, 16, zext 8 32 16 (part 128 batch 2)), (48, 16, zext 8 32 16 (part 128 batch 3))]
  | .neon =>
    [(0, 4, zext 16 32 4 (part 64 (zext 8 16 8 (part 64 batch 0)) 0)),
     (4, 4, zext 16 32 4 (part 64 (zext 8 16 8 (part 64 batch 0)) 1)),
     (8, 4, zext 16 32 4 (part 64 (zext 8 16 8 (part 64 batch 1)) 0)),
     (12, 4, zext 16 32 4 (part 64 (zext 8 16 8 (part 64 batch 1)) 1))]

/-- The stores of one block, UTF-16: convert_simd_impl.h:177-199 (x86) and 213-216 (AArch64). -/
def widen16 (isa : Isa) (batch : Nat) : List (Nat × Nat × Nat) :=
  match isa with
  | .sse => [(0, 8, zext 8 16 8 batch), (8, 8, zext 8 16 8 (srlBytes batch 8))]
  | .avx2 => [(0, 16, zext 8 16 16 (part 128 batch 0)), (16, 16, zext 8 16 16 (part 128 batch 1))]
  | .avx512 => [(0, 32, zext 8 16 32 (part 256 batch 0)), (32, 32, zext 8 16 32 (part 256 batch 1))]
  | .neon => [(0, 8, zext 8 16 8 (part 64 batch 0)), (8, 8, zext 8 16 8 (part 64 batch 1))]

/-- Perform the stores at `dst` (index `d`) in order. -/
def storeAll (u : Nat) : List (Nat × Nat × Nat) → Nat → List Nat → Mem (List Nat)
  | [], _, out => .ok out
  | (k, n, r) :: rest, d, out =>
    match storeu u n out (d + k) r with
    | .oob => .oob
    | .ok out' => storeAll u rest d out'

/-- The vector loops: convert_simd_impl.h:63-101, 105-120 (`u = 32`), 170-202, 206-219 (`u = 16`); `p` is
`src - input`, `d` is `dst - output`, `n` is `inputSize`.  Result: `src`, `dst` and the buffer. -/
def convLoop (isa : Isa) (u : Nat) (widen : Nat → List (Nat × Nat × Nat)) (input : List Nat) (n : Nat) :
    Nat → Nat → Nat → List Nat → Mem (Nat × Nat × List Nat)
  | 0, _, _, _ => .oob
  | fuel + 1, p, d, out =>
    if p + size isa ≤ n then
      match load isa input p with
      | .oob => .oob
      | .ok batch =>
        if allAscii isa batch then
          match storeAll u (widen batch) d out with
          | .oob => .oob
          | .ok out' => convLoop isa u widen input n fuel (p + size isa) (d + size isa) out'
        else .ok (p, d, out)
    else .ok (p, d, out)

/-- `*dst++ = …` for each unit the encoder writes: convert_simd_impl.h:130, convert.h (`encoder<char16_t>`). -/
def putAll : List Nat → Nat → List Nat → Mem (Nat × List Nat)
  | [], d, out => .ok (d, out)
  | x :: xs, d, out => if d < out.length then putAll xs (d + 1) (out.set d x) else .oob

/-- The scalar tails: convert_simd_impl.h:125-131, 224-231. -/
def convTail (write : Nat → List Nat) (input : List Nat) (n : Nat) :
    Nat → DecState → Nat → Nat → List Nat → Mem (Nat × List Nat)
  | 0, _, _, _, _ => .oob
  | fuel + 1, s, p, d, out =>
    if p < n then
      match input[p]? with
      | none => .oob
      | some b =>
        match decode8 s b with
        | (s', none) => convTail write input n fuel s' (p + 1) d out
        | (s', some c) =>
          match putAll (write c) d out with
          | .oob => .oob
          | .ok (d', out') => convTail write input n fuel s' (p + 1) d' out'
    else .ok (d, out)

/-- The whole function template: number of units written and the output buffer. -/
def convert (isa : Isa) (u : Nat) (widen : Nat → List (Nat × Nat × Nat)) (write : Nat → List Nat)
    (input out : List Nat) : Mem (Nat × List Nat) :=
  match convLoop isa u widen input input.length (input.length + 1) 0 0 out with
  | .oob => .oob
  | .ok (p, d, out') => convTail write input input.length (input.length + 1) {} p d out'

/-- `convert_utf8_to_utf32_simd<SimdBitWidth>`: convert_simd_impl.h:37-134. -/
def convert32 (isa : Isa) (input out : List Nat) : Mem (Nat × List Nat) :=
  convert isa 32 (widen32 isa) encode32 input out

/-- `convert_utf8_to_utf16_simd<SimdBitWidth>`: convert_simd_impl.h:146-234. -/
def convert16 (isa : Isa) (input out : List Nat) : Mem (Nat × List Nat) :=
  convert isa 16 (widen16 isa) encode16 input out

end Verif.Simd
