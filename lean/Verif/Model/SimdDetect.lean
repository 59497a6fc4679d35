import Verif.Spec.Cpu
import Verif.Model.Simd
/-!
# Model of `simd_detector.cpp` and of the dispatch in `scan.cpp` and `convert.cpp`

The x86-64 build; on other processors `max_simd_size` is the constant 128 (simd_detector.cpp:177-182) and the dispatch is
compiled out.  32-bit registers are natural numbers below `2^32`; the single signed comparison (`nIds >= 7`) is modelled
as such.  The `static` local that caches the result is not modelled (the result is a constant of the machine).
-/

namespace Verif.SimdDetect
open Verif.Cpu Verif.Utf8 Verif.Simd

/-- Outcome of executing code on a machine: a value, an undefined instruction, or an access outside a buffer. -/
inductive Exec (α : Type) where
  | ok (a : α)
  | undefinedInstruction
  | outOfBounds
deriving DecidableEq, Repr

/-- Sequencing. -/
def Exec.bind {α β : Type} : Exec α → (α → Exec β) → Exec β
  | .ok a, f => f a
  | .undefinedInstruction, _ => .undefinedInstruction
  | .outOfBounds, _ => .outOfBounds

/-- `xgetbv(0)`: simd_detector.cpp:44-49; undefined unless the operating system has set `OSXSAVE`. -/
def xgetbv (m : Machine) : Exec Nat :=
  if (m.cpuid 1 0).ecx.testBit 27 = true then .ok m.xcr0 else .undefinedInstruction

/-- `x & (1 << k)` as a condition. -/
def bit (x k : Nat) : Bool := decide (x &&& (1 <<< k) ≠ 0)

/-- A 32-bit pattern read as `int32_t`. -/
def int32 (x : Nat) : Int := if x < 2 ^ 31 then x else (x : Int) - 2 ^ 32

/-- `detect_os_avx`: simd_detector.cpp:57-74. -/
def detectOsAvx (m : Machine) : Exec Bool :=
  if (bit (m.cpuid 1 0).ecx 27 && bit (m.cpuid 1 0).ecx 28) = true then
    (xgetbv m).bind fun x => .ok (decide (x &&& 0x6 = 0x6))
  else .ok false

/-- `detect_os_avx512`: simd_detector.cpp:76-82. -/
def detectOsAvx512 (m : Machine) : Exec Bool :=
  (detectOsAvx m).bind fun a =>
    if a = true then (xgetbv m).bind fun x => .ok (decide (x &&& 0xe6 = 0xe6)) else .ok false

/-- `max_simd_size`: simd_detector.cpp:84-175. -/
def maxSimdSize (m : Machine) : Exec Nat :=
  (detectOsAvx m).bind fun a =>
    if a = true then
      if int32 (m.cpuid 0 0).eax ≥ 7 then
        if bit (m.cpuid 7 0).ebx 5 = true then
          (detectOsAvx512 m).bind fun z =>
            if (z && bit (m.cpuid 7 0).ebx 16 && bit (m.cpuid 7 0).ebx 30 && bit (m.cpuid 7 0).ecx 12) = true then .ok 512
            else .ok 256
        else .ok 128
      else .ok 128
    else .ok 128

/-- The version the dispatchers choose: scan.cpp:68-79, convert.cpp:15-21, 27-33. -/
def choose (w : Nat) : Isa := if w = 512 then .avx512 else if w = 256 then .avx2 else .sse

/-- The extensions whose instructions `scan_for_text_ascii_simd` executes (the intrinsics of scan_simd_impl.h:72-89, and the
compiler flags of src/libunicode/CMakeLists.txt:171-203: a translation unit is compiled with exactly these). -/
def scanNeeds : Isa → List Feature
  | .sse => [.sse2]
  | .avx2 => [.avx, .avx2]
  | .avx512 => [.avx, .avx2, .avx512f, .avx512bw]
  | .neon => []

/-- The extensions whose instructions the converters execute: convert_simd_impl.h:63-101, 170-202.  At 128 bits the SSE4.1
instructions `PMOVZXBD`, `PMOVZXBW` are reached when the text begins with 16 ASCII bytes. -/
def convertNeeds (isa : Isa) (input : List Nat) : List Feature :=
  match isa with
  | .sse =>
    if (decide (16 ≤ input.length) && (input.take 16).all (fun b => decide (b < 0x80))) = true then [.sse2, .sse41] else [.sse2]
  | .avx2 => [.avx, .avx2]
  | .avx512 => [.avx, .avx2, .avx512f, .avx512bw]
  | .neon => []

open Classical in
/-- Execute code that needs the given extensions. -/
noncomputable def execute {α : Type} (m : Machine) (needs : List Feature) (r : Mem α) : Exec α :=
  if ∀ f ∈ needs, Supports m f then
    match r with
    | .ok a => .ok a
    | .oob => .outOfBounds
  else .undefinedInstruction

/-- `scan_for_text_ascii`: scan.cpp:65-79. -/
noncomputable def scanForTextAscii (m : Machine) (text : List Nat) (max : Nat) : Exec Nat :=
  (maxSimdSize m).bind fun w => execute m (scanNeeds (choose w)) (scan (choose w) text max)

/-- `convert_utf8_to_utf32`: convert.cpp:12-22. -/
noncomputable def convertUtf8ToUtf32 (m : Machine) (input out : List Nat) : Exec (Nat × List Nat) :=
  (maxSimdSize m).bind fun w => execute m (convertNeeds (choose w) input) (convert32 (choose w) input out)

/-- `convert_utf8_to_utf16`: convert.cpp:24-34. -/
noncomputable def convertUtf8ToUtf16 (m : Machine) (input out : List Nat) : Exec (Nat × List Nat) :=
  (maxSimdSize m).bind fun w => execute m (convertNeeds (choose w) input) (convert16 (choose w) input out)

end Verif.SimdDetect
