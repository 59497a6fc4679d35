import Mathlib.Tactic.Common
/-!
# What `CPUID` and `XGETBV` say about an x86-64 processor

Intel SDM, volume 1, chapters 13-15 ("Detection of …") and volume 2 (`CPUID`, `XGETBV`).  Nothing here mentions the
library.
-/

namespace Verif.Cpu

/-- The four registers `CPUID` returns. -/
structure Regs where
  eax : Nat := 0
  ebx : Nat := 0
  ecx : Nat := 0
  edx : Nat := 0
deriving DecidableEq, Repr

/-- A processor with the operating system running on it: the answers of `CPUID` (leaf, sub-leaf) and the register `XCR0`,
in which the operating system enables the saving of vector registers. -/
structure Machine where
  cpuid : Nat → Nat → Regs
  xcr0 : Nat

/-- Instruction set extensions. -/
inductive Feature where
  | sse2 | sse41 | avx | avx2 | avx512f | avx512bw
deriving DecidableEq, Repr

/-- The operating system has enabled `XGETBV` (otherwise it is an undefined instruction). -/
def OsXsave (m : Machine) : Prop := (m.cpuid 1 0).ecx.testBit 27 = true

/-- The operating system saves the XMM and YMM registers. -/
def YmmSaved (m : Machine) : Prop := OsXsave m ∧ m.xcr0.testBit 1 = true ∧ m.xcr0.testBit 2 = true

/-- The operating system saves the mask registers and all of the ZMM registers as well. -/
def ZmmSaved (m : Machine) : Prop :=
  YmmSaved m ∧ m.xcr0.testBit 5 = true ∧ m.xcr0.testBit 6 = true ∧ m.xcr0.testBit 7 = true

/-- Leaf 7 exists. -/
def HasLeaf7 (m : Machine) : Prop := 7 ≤ (m.cpuid 0 0).eax

/-- An instruction of the extension can be executed. -/
def Supports (m : Machine) : Feature → Prop
  | .sse2 => True                       -- part of x86-64
  | .sse41 => (m.cpuid 1 0).ecx.testBit 19 = true
  | .avx => YmmSaved m ∧ (m.cpuid 1 0).ecx.testBit 28 = true
  | .avx2 => YmmSaved m ∧ (m.cpuid 1 0).ecx.testBit 28 = true ∧ HasLeaf7 m ∧ (m.cpuid 7 0).ebx.testBit 5 = true
  | .avx512f => ZmmSaved m ∧ (m.cpuid 1 0).ecx.testBit 28 = true ∧ HasLeaf7 m ∧ (m.cpuid 7 0).ebx.testBit 16 = true
  | .avx512bw =>
    ZmmSaved m ∧ (m.cpuid 1 0).ecx.testBit 28 = true ∧ HasLeaf7 m ∧ (m.cpuid 7 0).ebx.testBit 16 = true ∧
      (m.cpuid 7 0).ebx.testBit 30 = true

end Verif.Cpu
