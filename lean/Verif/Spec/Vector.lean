import Verif.Model.Utf8
/-!
# What the vector instructions do

The part of the Intel SDM and of the Arm ARM (AdvSIMD, little endian) that `intrinsics.h` uses: a register is
the natural number whose base-256 digits are its bytes, the byte at the lowest address first.  Reinterpreting
a register as lanes of another width is therefore the identity.  Nothing here mentions the library; this file
is the trusted description of the hardware.
-/

namespace Verif.Vec
open Verif.Utf8

/-- Lane `i` of width `w` bits of a register. -/
def lane (w r i : Nat) : Nat := r / 2 ^ (w * i) % 2 ^ w

/-- The register whose `n` lanes of `w` bits are `f 0`, `f 1`, …, each truncated to `w` bits. -/
def ofLanes (w : Nat) : Nat → (Nat → Nat) → Nat
  | 0, _ => 0
  | n + 1, f => ofLanes w n f + f n % 2 ^ w * 2 ^ (w * n)

/-- A byte read as a signed number. -/
def signed8 (b : Nat) : Int := if b < 128 then b else (b : Int) - 256

/-- `MOVDQU` load of `n` bytes at address `p`; reading outside the buffer is the outcome `oob`. -/
def loadu (n : Nat) (mem : List Nat) (p : Nat) : Mem Nat :=
  if p + n ≤ mem.length then .ok (ofLanes 8 n (fun i => mem.getD (p + i) 0)) else .oob

/-- `MOVDQU` store of a register of `n` elements of `u` bits to element `p` of a buffer of such elements;
writing outside the buffer is the outcome `oob`. -/
def storeu (u n : Nat) (mem : List Nat) (p r : Nat) : Mem (List Nat) :=
  if p + n ≤ mem.length then .ok (mem.take p ++ (List.range n).map (lane u r) ++ mem.drop (p + n)) else .oob

/-- Broadcast a byte to `n` lanes (`VPBROADCASTB`, `DUP`). -/
def setBytes (n v : Nat) : Nat := ofLanes 8 n (fun _ => v)

/-- `PCMPEQD` / `CMEQ.4S`: lanes of `w` bits, all ones where equal. -/
def cmpeq (w n a b : Nat) : Nat := ofLanes w n (fun i => if lane w a i = lane w b i then 2 ^ w - 1 else 0)

/-- Signed byte comparison `a < b` (`CMGT.16B` with swapped operands, `_mm_cmplt_epi8`). -/
def cmplt8 (n a b : Nat) : Nat :=
  ofLanes 8 n (fun i => if signed8 (lane 8 a i) < signed8 (lane 8 b i) then 255 else 0)

/-- Signed byte comparison `a > b` (`PCMPGTB`). -/
def cmpgt8 (n a b : Nat) : Nat :=
  ofLanes 8 n (fun i => if signed8 (lane 8 b i) < signed8 (lane 8 a i) then 255 else 0)

/-- `PMOVMSKB` / `VPMOVB2M`: bit `i` of the result is the top bit of byte `i`. -/
def movemask8 (n a : Nat) : Nat := ofLanes 1 n (fun i => lane 8 a i / 128)

/-- `VPCMPB` with predicate LT into a mask register. -/
def cmpltMask8 (n a b : Nat) : Nat :=
  ofLanes 1 n (fun i => if signed8 (lane 8 a i) < signed8 (lane 8 b i) then 1 else 0)

/-- `VPCMPEQB` into a mask register. -/
def cmpeqMask8 (n a b : Nat) : Nat := ofLanes 1 n (fun i => if lane 8 a i = lane 8 b i then 1 else 0)

/-- Zero-extension of the `n` lowest lanes of `v` bits to lanes of `w` bits (`PMOVZXBW/BD`, `UXTL`). -/
def zext (v w n a : Nat) : Nat := ofLanes w n (fun i => lane v a i)

/-- `PSRLDQ`: shift the whole register right by `k` bytes. -/
def srlBytes (a k : Nat) : Nat := a / 2 ^ (8 * k)

/-- The part number `i` of `w` bits of a register (`VEXTRACTI128`, `VEXTRACTI32X4`, `VEXTRACTI64X4`, the
register casts, `vget_low`, `vget_high`). -/
def part (w a i : Nat) : Nat := lane w a i

/-- `USHR`: unsigned shift right by `k`, lane by lane. -/
def ushr (w n a k : Nat) : Nat := ofLanes w n (fun i => lane w a i / 2 ^ k)

/-- `USRA`: unsigned shift right by `k` and accumulate, lane by lane, modulo the lane size. -/
def usra (w n a b k : Nat) : Nat := ofLanes w n (fun i => lane w a i + lane w b i / 2 ^ k)

/-- `TZCNT` / `__builtin_ctz` for a value below `2^fuel`. -/
def ctzFuel : Nat → Nat → Nat
  | 0, _ => 0
  | fuel + 1, x => if x % 2 = 1 then 0 else 1 + ctzFuel fuel (x / 2)

/-- `__builtin_ctz` / `__builtin_ctzl` (undefined for `0`). -/
def ctz (x : Nat) : Nat := ctzFuel 64 x

end Verif.Vec
