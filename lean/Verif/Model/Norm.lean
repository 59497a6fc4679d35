import Verif.Model.Utf8
/-!
# Normalization

normalization.{h,cpp}.  The generated data tables are parameters; that the look-ups (`lower_bound`, `binary_search`)
return exactly the table entries is C36.
-/

namespace Verif.Norm

/-- The generated tables, through the look-up functions of normalization.cpp:47-89. -/
structure Tables where
  /-- `canonical_combining_class`, normalization.cpp:53-63,252-255 (0 when not listed) -/
  ccc : Nat → Nat
  /-- `find_decomposition(canonical_decomposition_table, ·)`, normalization.cpp:68-77 (`[]` when not listed) -/
  canon : Nat → List Nat
  /-- `find_decomposition(compatibility_decomposition_table, ·)` -/
  compat : Nat → List Nat
  /-- the composition table search of normalization.cpp:116-131 (0 when not listed) -/
  comp : Nat → Nat → Nat
  /-- `is_composition_exclusion`, normalization.cpp:293-296 -/
  excl : Nat → Bool
  /-- `nfc_qc_no_table`, `nfc_qc_maybe_table`, `nfd_qc_no_table`, … : normalization.cpp:307-333 -/
  nfcNo : Nat → Bool
  nfcMaybe : Nat → Bool
  nfdNo : Nat → Bool
  nfkcNo : Nat → Bool
  nfkcMaybe : Nat → Bool
  nfkdNo : Nat → Bool
  /-- Bound on the nesting of the decomposition tables (no counterpart in the code, which recurses freely;
  see `decompose`). -/
  depth : Nat

/-! ## Hangul: normalization.cpp:28-39, 475-534 -/

def SBase : Nat := 0xAC00
def LBase : Nat := 0x1100
def VBase : Nat := 0x1161
def TBase : Nat := 0x11A7
def LCount : Nat := 19
def VCount : Nat := 21
def TCount : Nat := 28
/-- normalization.cpp:37 -/
def NCount : Nat := VCount * TCount
/-- normalization.cpp:38 -/
def SCount : Nat := LCount * NCount

/-- normalization.cpp:475-478 -/
def isHangulSyllable (c : Nat) : Bool := c ≥ SBase && c < SBase + SCount
/-- normalization.cpp:480-483 -/
def isHangulL (c : Nat) : Bool := c ≥ LBase && c < LBase + LCount
/-- normalization.cpp:485-488 -/
def isHangulV (c : Nat) : Bool := c ≥ VBase && c < VBase + VCount
/-- normalization.cpp:490-493 -/
def isHangulT (c : Nat) : Bool := c > TBase && c < TBase + TCount

/-- `hangul_decompose`: normalization.cpp:495-515; the codepoints written. -/
def hangulDecompose (s : Nat) : List Nat :=
  if isHangulSyllable s then
    if (s - SBase) % TCount > 0 then
      [LBase + (s - SBase) / NCount, VBase + ((s - SBase) % NCount) / TCount, TBase + (s - SBase) % TCount]
    else [LBase + (s - SBase) / NCount, VBase + ((s - SBase) % NCount) / TCount]
  else []

/-- `hangul_compose`: normalization.cpp:517-534 (`t = 0`: no trailing jamo). -/
def hangulCompose (l v t : Nat) : Nat :=
  if !isHangulL l || !isHangulV v then 0
  else if t = 0 then SBase + ((l - LBase) * NCount + (v - VBase) * TCount)
  else if !isHangulT t then 0
  else SBase + ((l - LBase) * NCount + (v - VBase) * TCount) + (t - TBase)

/-- `try_compose`: normalization.cpp:92-132 (0: no composition). -/
def tryCompose (T : Tables) (a b : Nat) : Nat :=
  if a ≥ LBase ∧ a < LBase + LCount then
    if b ≥ VBase ∧ b < VBase + VCount then SBase + ((a - LBase) * VCount + (b - VBase)) * TCount
    else T.comp a b
  else if a ≥ SBase ∧ a < SBase + SCount then
    if (a - SBase) % TCount = 0 then
      if b ≥ TBase ∧ b < TBase + TCount then a + (b - TBase) else T.comp a b
    else T.comp a b
  else T.comp a b

/-! ## Decomposition -/

/-- The mapping applied to a codepoint that is not a Hangul syllable: normalization.cpp:144-147. -/
def mapping (T : Tables) (k : Bool) (c : Nat) : List Nat :=
  if T.canon c = [] ∧ k = true then T.compat c else T.canon c

/-- `decompose_recursive`: normalization.cpp:134-157, as the list appended to `output`.  The recursion of the code
follows the tables; here it is cut off after `fuel` levels.  For tables without cycles (`Ranked`) the cut-off is never
reached and `decompose` satisfies the code's recursion equation (`decompose_eq`). -/
def decomposeN (T : Tables) (k : Bool) : Nat → Nat → List Nat
  | 0, c => [c]
  | fuel + 1, c =>
    if isHangulSyllable c then hangulDecompose c
    else if mapping T k c = [] then [c]
    else (mapping T k c).flatMap (decomposeN T k fuel)

/-- `decompose_recursive(cp, output, k)`. -/
def decompose (T : Tables) (k : Bool) (c : Nat) : List Nat := decomposeN T k (T.depth + 1) c

/-! ## Canonical ordering -/

/-- The `while` of normalization.cpp:173-180: `x` moves left through the part before it, which is given in reverse. -/
def moveLeft (T : Tables) (x : Nat) : List Nat → List Nat
  | [] => [x]
  | p :: ps => if T.ccc p = 0 ∨ T.ccc p ≤ T.ccc x then x :: p :: ps else p :: moveLeft T x ps

/-- One round of the `for`: normalization.cpp:166-181. -/
def orderStep (T : Tables) (rev : List Nat) (x : Nat) : List Nat :=
  if T.ccc x = 0 then x :: rev else moveLeft T x rev

/-- `canonical_order`: normalization.cpp:160-182.  (Nothing moves at index 0, so starting there instead of at 1 is the
same.) -/
def canonicalOrder (T : Tables) (text : List Nat) : List Nat := (text.foldl (orderStep T) []).reverse

/-! ## Composition -/

/-- Loop state of `compose`: normalization.cpp:190-206. -/
structure CSt where
  result : List Nat
  starter : Nat
  lastCcc : Nat
deriving DecidableEq, Repr

/-- normalization.cpp:214-218 -/
def candidate (T : Tables) (s : CSt) (cp : Nat) : Nat :=
  if s.lastCcc < T.ccc cp ∨ s.lastCcc = 0 then tryCompose T s.starter cp else 0

/-- One round of the main loop: normalization.cpp:208-240. -/
def composeStep (T : Tables) (s : CSt) (cp : Nat) : CSt :=
  if candidate T s cp ≠ 0 ∧ T.excl (candidate T s cp) = false then { s with starter := candidate T s cp }
  else if T.ccc cp = 0 then ⟨s.result ++ [s.starter], cp, 0⟩
  else ⟨s.result ++ [cp], s.starter, T.ccc cp⟩

/-- `compose`: normalization.cpp:185-244. -/
def compose (T : Tables) (d : List Nat) : List Nat :=
  match d.dropWhile (fun c => T.ccc c != 0) with
  | [] => d.takeWhile (fun c => T.ccc c != 0)
  | s :: rest =>
    (rest.foldl (composeStep T) ⟨d.takeWhile (fun c => T.ccc c != 0), s, 0⟩).result ++
      [(rest.foldl (composeStep T) ⟨d.takeWhile (fun c => T.ccc c != 0), s, 0⟩).starter]

/-! ## String normalization -/

/-- normalization.h:28-34 -/
inductive Form where
  | NFC | NFD | NFKC | NFKD
deriving DecidableEq, Repr

/-- `use_compatibility`, normalization.cpp:344 -/
def Form.k : Form → Bool
  | .NFC => false | .NFD => false | .NFKC => true | .NFKD => true

/-- whether step 3 runs, normalization.cpp:357 -/
def Form.composes : Form → Bool
  | .NFC => true | .NFD => false | .NFKC => true | .NFKD => false

/-- `normalize(u32string_view, form)`: normalization.cpp:339-361. -/
def normalize (T : Tables) (f : Form) (text : List Nat) : List Nat :=
  if f.composes then compose T (canonicalOrder T (text.flatMap (decompose T f.k)))
  else canonicalOrder T (text.flatMap (decompose T f.k))

/-- normalization.h:37-42 -/
inductive QC where
  | Yes | No | Maybe
deriving DecidableEq, Repr

/-- The per-codepoint property: normalization.cpp:307-333. -/
def qcOf (T : Tables) (f : Form) (c : Nat) : QC :=
  match f with
  | .NFC => if T.nfcNo c then .No else if T.nfcMaybe c then .Maybe else .Yes
  | .NFD => if T.nfdNo c then .No else .Yes
  | .NFKC => if T.nfkcNo c then .No else if T.nfkcMaybe c then .Maybe else .Yes
  | .NFKD => if T.nfkdNo c then .No else .Yes

/-- Loop of `quick_check`: normalization.cpp:379-419. -/
def quickCheckFrom (T : Tables) (f : Form) (last : Nat) (res : QC) : List Nat → QC
  | [] => res
  | c :: cs =>
    if T.ccc c ≠ 0 ∧ last > T.ccc c then .No
    else
      match qcOf T f c with
      | .No => .No
      | .Maybe => quickCheckFrom T f (T.ccc c) .Maybe cs
      | .Yes => quickCheckFrom T f (T.ccc c) res cs

/-- `quick_check`: normalization.cpp:374-420. -/
def quickCheck (T : Tables) (f : Form) (text : List Nat) : QC := quickCheckFrom T f 0 .Yes text

/-- `is_normalized`: normalization.cpp:428-439. -/
def isNormalized (T : Tables) (f : Form) (text : List Nat) : Bool :=
  match quickCheck T f text with
  | .Yes => true
  | .No => false
  | .Maybe => decide (normalize T f text = text)

/-- `is_canonically_equivalent`: normalization.cpp:451-454. -/
def canonEquiv (T : Tables) (a b : List Nat) : Bool := decide (normalize T .NFD a = normalize T .NFD b)

/-- `is_compatibility_equivalent`: normalization.cpp:461-464. -/
def compatEquiv (T : Tables) (a b : List Nat) : Bool := decide (normalize T .NFKD a = normalize T .NFKD b)

/-! ## Streaming normalizer: normalization.cpp:540-594 -/

/-- `normalizer::is_boundary`: normalization.cpp:544-560. -/
def isBoundary (T : Tables) (f : Form) (c : Nat) : Bool :=
  if T.ccc c ≠ 0 then false
  else match f with
    | .NFD => true
    | .NFKD => true
    | .NFC => decide (qcOf T .NFC c = .Yes)
    | .NFKC => decide (qcOf T .NFKC c = .Yes)

/-- `normalizer::feed`: normalization.cpp:572-583: (new `_pending`, returned text). -/
def feed (T : Tables) (f : Form) (pending : List Nat) (c : Nat) : List Nat × List Nat :=
  if pending ≠ [] ∧ isBoundary T f c = true then ([c], normalize T f pending) else (pending ++ [c], [])

/-- `normalizer::flush`: normalization.cpp:562-570,585-588. -/
def flush (T : Tables) (f : Form) (pending : List Nat) : List Nat × List Nat := ([], normalize T f pending)

/-- A history of `feed` calls: final `_pending` and everything returned, concatenated. -/
def feedAll (T : Tables) (f : Form) (pending : List Nat) : List Nat → List Nat × List Nat
  | [] => (pending, [])
  | c :: cs =>
    ((feedAll T f (feed T f pending c).1 cs).1, (feed T f pending c).2 ++ (feedAll T f (feed T f pending c).1 cs).2)

end Verif.Norm
