import Verif.Model.Simd
import Verif.Lemmas.Vector
import Verif.Props.ScanAscii
import Verif.Props.Convert
/-!
# Property C57: the vector code, at the level of instructions and addresses
-/

namespace Verif.Props.Simd
open Verif.Vec Verif.Simd Verif.Utf8 Verif.Convert Verif.Props.Scan

/-! ## Masks -/

theorem lane16 (r i : Nat) : lane 16 r i = lane 8 r (2 * i) + 256 * lane 8 r (2 * i + 1) := lane_double 8 r i
theorem lane32 (r i : Nat) : lane 32 r i = lane 16 r (2 * i) + 65536 * lane 16 r (2 * i + 1) := lane_double 16 r i
theorem lane64 (r i : Nat) : lane 64 r i = lane 32 r (2 * i) + 4294967296 * lane 32 r (2 * i + 1) :=
  lane_double 32 r i

/-- **C57.**  The AArch64 emulation of `PMOVMSKB` by shifts and additions collects exactly the top bits of the
sixteen bytes, whatever the register holds. -/
theorem C57_neon_movemask (r : Nat) : neonMovemask r = movemask8 16 r := by
  have hs : ∀ i, lane 8 r i / 128 ≤ 1 := fun i => by
    have := lane_lt 8 r i
    omega
  -- eight bits of one half
  have half : ∀ (k : Nat), k < 2 →
      lane 8 (usra 64 2 (usra 32 4 (usra 16 8 (ushr 8 16 r 7) (ushr 8 16 r 7) 7) (usra 16 8 (ushr 8 16 r 7) (ushr 8 16 r 7) 7) 14)
        (usra 32 4 (usra 16 8 (ushr 8 16 r 7) (ushr 8 16 r 7) 7) (usra 16 8 (ushr 8 16 r 7) (ushr 8 16 r 7) 7) 14) 28) (8 * k)
      = lane 8 r (8 * k) / 128 + 2 * (lane 8 r (8 * k + 1) / 128) + 4 * (lane 8 r (8 * k + 2) / 128)
        + 8 * (lane 8 r (8 * k + 3) / 128) + 16 * (lane 8 r (8 * k + 4) / 128) + 32 * (lane 8 r (8 * k + 5) / 128)
        + 64 * (lane 8 r (8 * k + 6) / 128) + 128 * (lane 8 r (8 * k + 7) / 128) := by
    intro k hk
    have h8 : ∀ i, i < 16 → lane 8 (ushr 8 16 r 7) i = lane 8 r i / 128 := by
      intro i hi
      rw [ushr, lane_ofLanes _ _ _ _ hi]
      have := hs i
      omega
    generalize ushr 8 16 r 7 = a at h8 ⊢
    have h16 : ∀ i, i < 8 → lane 16 (usra 16 8 a a 7) i
        = lane 8 r (2 * i) / 128 + 258 * (lane 8 r (2 * i + 1) / 128) := by
      intro i hi
      rw [usra, lane_ofLanes _ _ _ _ hi, lane16, h8 _ (by omega), h8 _ (by omega)]
      have h1 := hs (2 * i)
      have h2 := hs (2 * i + 1)
      omega
    generalize usra 16 8 a a 7 = b at h16 ⊢
    have h32 : ∀ i, i < 4 → ∃ g, g < 2 ^ 19 ∧ lane 32 (usra 32 4 b b 14) i
        = lane 8 r (4 * i) / 128 + 2 * (lane 8 r (4 * i + 1) / 128) + 4 * (lane 8 r (4 * i + 2) / 128)
          + 8 * (lane 8 r (4 * i + 3) / 128) + 256 * g := by
      intro i hi
      rw [usra, lane_ofLanes _ _ _ _ hi, lane32, h16 _ (by omega), h16 _ (by omega)]
      have e0 : 2 * (2 * i) = 4 * i := by omega
      have e2 : 2 * (2 * i + 1) = 4 * i + 2 := by omega
      rw [e0, e2]
      have h0 := hs (4 * i)
      have h1 := hs (4 * i + 1)
      have h2 := hs (4 * i + 2)
      have h3 := hs (4 * i + 2 + 1)
      refine ⟨lane 8 r (4 * i + 1) / 128 + 256 * (lane 8 r (4 * i + 2) / 128) + (4 + 258 * 256) * (lane 8 r (4 * i + 2 + 1) / 128), by omega, ?_⟩
      rw [show 4 * i + 3 = 4 * i + 2 + 1 from rfl]
      generalize lane 8 r (4 * i) / 128 = x0 at *
      generalize lane 8 r (4 * i + 1) / 128 = x1 at *
      generalize lane 8 r (4 * i + 2) / 128 = x2 at *
      generalize lane 8 r (4 * i + 2 + 1) / 128 = x3 at *
      have d : (x0 + 258 * x1 + 65536 * (x2 + 258 * x3)) / 2 ^ 14 = 4 * (x2 + 258 * x3) := by omega
      rw [d, Nat.mod_eq_of_lt (by omega)]
      omega
    generalize usra 32 4 b b 14 = c at h32 ⊢
    have e : lane 8 (usra 64 2 c c 28) (8 * k) = lane 64 (usra 64 2 c c 28) k % 256 := by
      have := lane_lane 8 8 (usra 64 2 c c 28) k 0 (by decide)
      rw [Nat.add_zero] at this
      rw [← this]
      show lane 64 _ k / 2 ^ (8 * 0) % 2 ^ 8 = _
      rw [Nat.mul_zero, Nat.pow_zero, Nat.div_one]
    rw [e, usra, lane_ofLanes _ _ _ _ hk, lane64]
    obtain ⟨g0, hg0, e0⟩ := h32 (2 * k) (by omega)
    obtain ⟨g1, hg1, e1⟩ := h32 (2 * k + 1) (by omega)
    rw [e0, e1]
    rw [show 4 * (2 * k) = 8 * k by omega, show 4 * (2 * k + 1) = 8 * k + 4 by omega]
    have h0 := hs (8 * k)
    have h1 := hs (8 * k + 1)
    have h2 := hs (8 * k + 2)
    have h3 := hs (8 * k + 3)
    have h4 := hs (8 * k + 4)
    have h5 := hs (8 * k + 5)
    have h6 := hs (8 * k + 6)
    have h7 := hs (8 * k + 7)
    rw [show 8 * k + 4 + 1 = 8 * k + 5 from rfl, show 8 * k + 4 + 2 = 8 * k + 6 from rfl, show 8 * k + 4 + 3 = 8 * k + 7 from rfl]
    generalize lane 8 r (8 * k) / 128 = x0 at *
    generalize lane 8 r (8 * k + 1) / 128 = x1 at *
    generalize lane 8 r (8 * k + 2) / 128 = x2 at *
    generalize lane 8 r (8 * k + 3) / 128 = x3 at *
    generalize lane 8 r (8 * k + 4) / 128 = x4 at *
    generalize lane 8 r (8 * k + 5) / 128 = x5 at *
    generalize lane 8 r (8 * k + 6) / 128 = x6 at *
    generalize lane 8 r (8 * k + 7) / 128 = x7 at *
    clear e0 e1 e h32 h16 h8 hs
    have d : (x0 + 2 * x1 + 4 * x2 + 8 * x3 + 256 * g0 + 4294967296 * (x4 + 2 * x5 + 4 * x6 + 8 * x7 + 256 * g1)) / 2 ^ 28
        = 16 * (x4 + 2 * x5 + 4 * x6 + 8 * x7 + 256 * g1) := by omega
    rw [d, Nat.mod_eq_of_lt (b := 2 ^ 64) (by omega)]
    omega
  have l0 := half 0 (by decide)
  have l1 := half 1 (by decide)
  rw [Nat.mul_zero] at l0
  rw [Nat.mul_one] at l1
  unfold neonMovemask
  simp only
  rw [l0, l1]
  have hlt : lane 8 r 0 / 128 + 2 * (lane 8 r (0 + 1) / 128) + 4 * (lane 8 r (0 + 2) / 128)
        + 8 * (lane 8 r (0 + 3) / 128) + 16 * (lane 8 r (0 + 4) / 128) + 32 * (lane 8 r (0 + 5) / 128)
        + 64 * (lane 8 r (0 + 6) / 128) + 128 * (lane 8 r (0 + 7) / 128) < 2 ^ 8 := by
    have h0 := hs 0
    have h1 := hs (0 + 1)
    have h2 := hs (0 + 2)
    have h3 := hs (0 + 3)
    have h4 := hs (0 + 4)
    have h5 := hs (0 + 5)
    have h6 := hs (0 + 6)
    have h7 := hs (0 + 7)
    omega
  rw [Nat.or_comm, ← Nat.shiftLeft_add_eq_or_of_lt hlt, Nat.shiftLeft_eq]
  simp only [movemask8, ofLanes, Nat.mod_eq_of_lt (Nat.lt_of_le_of_lt (hs _) (by decide : 1 < 2 ^ 1))]
  norm_num
  ring

theorem lane_set (n v i : Nat) (h : i < n) : lane 8 (setBytes n v) i = v % 256 := lane_ofLanes 8 n _ i h

theorem movemask_bits (n a i : Nat) : (movemask8 n a).testBit i = (decide (i < n) && decide (128 ≤ lane 8 a i)) := by
  rw [movemask8, testBit_ofLanes]
  have := lane_lt 8 a i
  congr 1
  rw [decide_eq_decide]
  omega

theorem lane_cmplt (n a b i : Nat) (h : i < n) :
    decide (128 ≤ lane 8 (cmplt8 n a b) i) = decide (signed8 (lane 8 a i) < signed8 (lane 8 b i)) := by
  rw [cmplt8, lane_ofLanes _ _ _ _ h]
  split
  · next h => simp [h]
  · next h => simp [h]

/-- Bit `i` of `less(a, set1(0x20))` says whether byte `i`, as a signed number, is below 0x20; there are no other bits. -/
theorem less_bits (isa : Isa) (a i : Nat) :
    (less isa a (set1 isa 0x20)).testBit i = (decide (i < size isa) && decide (signed8 (lane 8 a i) < 0x20)) := by
  rcases Nat.lt_or_ge i (size isa) with h | h
  · have hset : signed8 (lane 8 (set1 isa 0x20) i) = 0x20 := by rw [set1, lane_set _ _ _ h]; rfl
    cases isa
    · rw [less, movemask_bits, lane_cmplt 16 _ _ _ h, hset]; rfl
    · rw [less, movemask_bits]
      show (_ && decide (128 ≤ lane 8 (cmplt8 32 _ _) i)) = _
      rw [lane_cmplt 32 _ _ _ h, hset]; rfl
    · rw [less, cmpltMask8, testBit_ofLanes, hset]
      congr 1
      rw [decide_eq_decide]
      split
      · next h => simp [h]
      · next h => simp [h]
    · rw [less, C57_neon_movemask, movemask_bits, lane_cmplt 16 _ _ _ h, hset]; rfl
  · cases isa
    · rw [less, movemask_bits]; simp only [size] at h; simp [Nat.not_lt.2 h, size]
    · rw [less, movemask_bits]; simp only [size] at h; simp [Nat.not_lt.2 h, size]
    · rw [less, cmpltMask8, testBit_ofLanes]; simp only [size] at h; simp [Nat.not_lt.2 h, size]
    · rw [less, C57_neon_movemask, movemask_bits]; simp only [size] at h; simp [Nat.not_lt.2 h, size]

theorem cmpeq_first (n a b : Nat) (h0 : 0 < n) (h : 128 ≤ lane 8 (cmpeq 32 n a b) 0) : lane 8 a 0 = lane 8 b 0 := by
  have e : ∀ x, lane 8 x 0 = lane 32 x 0 % 256 := by
    intro x
    have := lane_lane 8 4 x 0 0 (by decide)
    rw [Nat.mul_zero, Nat.add_zero] at this
    rw [← this]
    show lane 32 x 0 / 2 ^ (8 * 0) % 2 ^ 8 = _
    rw [Nat.mul_zero, Nat.pow_zero, Nat.div_one]
  rw [e, cmpeq, lane_ofLanes _ _ _ _ h0] at h
  rw [e, e]
  split at h
  · next h' => rw [h']
  · simp at h

/-- When `equal` says yes, at least the first byte agrees. -/
theorem equal_first (isa : Isa) (a b : Nat) (h : equal isa a b = true) : lane 8 a 0 = lane 8 b 0 := by
  cases isa
  · have h := congrArg (fun m => Nat.testBit m 0) (of_decide_eq_true h)
    simp only [movemask_bits] at h
    refine cmpeq_first 4 a b (by decide) ?_
    simpa using h
  · have h := congrArg (fun m => Nat.testBit m 0) (of_decide_eq_true h)
    simp only [movemask_bits] at h
    refine cmpeq_first 8 a b (by decide) ?_
    simpa using h
  · have h := congrArg (fun m => Nat.testBit m 0) (of_decide_eq_true h)
    simp only [cmpeqMask8, testBit_ofLanes] at h
    split at h
    · next h' => exact h'
    · simp at h
  · have h := congrArg (fun m => Nat.testBit m 0) (of_decide_eq_true h)
    simp only [C57_neon_movemask, movemask_bits] at h
    refine cmpeq_first 4 a b (by decide) ?_
    simpa using h

theorem size_pos (isa : Isa) : 0 < size isa := by cases isa <;> decide

theorem signed_iff (b : Nat) (hb : b < 256) : signed8 b < 0x20 ↔ ¬ Printable b := by
  unfold signed8 Printable
  split <;> omega

theorem and80 : ∀ b < 256, b &&& 0x80 = 0x80 → 0x80 ≤ b := by decide +kernel

/-- **C57.**  The mask computed for a block has exactly one bit for every byte that is not printable ASCII, and no
other bit — although `equal` compares against the wrong all-ones patterns and returns a `bool`. -/
theorem C57_scan_mask (isa : Isa) (batch i : Nat) :
    (ctrlOrComplex isa batch).testBit i = true ↔ i < size isa ∧ ¬ Printable (lane 8 batch i) := by
  rw [ctrlOrComplex, orMask, Nat.testBit_or, less_bits]
  have hlt := lane_lt 8 batch i
  have hs := signed_iff (lane 8 batch i) hlt
  have key : (if equal isa (andVec batch (set1 isa 128)) (set1 isa 128) = true then 1 else 0).testBit i = true →
      i < size isa ∧ ¬ Printable (lane 8 batch i) := by
    split
    · next he =>
      intro h
      have hi : i = 0 := by
        cases i with
        | zero => rfl
        | succ i => rw [Nat.testBit_succ] at h; simp at h
      subst hi
      refine ⟨size_pos isa, ?_⟩
      have e := equal_first isa _ _ he
      rw [andVec, lane_and, set1, lane_set _ _ _ (size_pos isa)] at e
      have := and80 _ hlt e
      unfold Printable
      omega
    · intro h; simp at h
  rw [Bool.or_eq_true]
  constructor
  · rintro (h | h)
    · simp only [Bool.and_eq_true, decide_eq_true_eq] at h
      exact ⟨h.1, hs.1 h.2⟩
    · exact key h
  · rintro ⟨h1, h2⟩
    refine .inl ?_
    simp only [Bool.and_eq_true, decide_eq_true_eq]
    exact ⟨h1, hs.2 h2⟩

/-! ## The scan -/

theorem load_ok (isa : Isa) (mem : List Nat) (p : Nat) (h : p + size isa ≤ mem.length) :
    load isa mem p = .ok (ofLanes 8 (size isa) (fun i => mem.getD (p + i) 0)) := if_pos h

theorem lane_load (n : Nat) (mem : List Nat) (p i : Nat) (hb : ∀ b ∈ mem, b < 256) (hi : i < n) (h : p + n ≤ mem.length) :
    mem[p + i]? = some (lane 8 (ofLanes 8 n (fun i => mem.getD (p + i) 0)) i) := by
  have hl : p + i < mem.length := by omega
  rw [lane_ofLanes _ _ _ _ hi, List.getD_eq_getElem?_getD, List.getElem?_eq_getElem hl, Option.getD_some]
  have := hb mem[p + i] (List.getElem_mem hl)
  rw [Nat.mod_eq_of_lt (b := 2 ^ 8) this]

/-- Everything before `p` is printable. -/
def Clean (text : List Nat) (p : Nat) : Prop := ∀ j < p, ∃ b, text[j]? = some b ∧ Printable b

theorem mask_lt (isa : Isa) (batch : Nat) : ctrlOrComplex isa batch < 2 ^ 64 := by
  refine Nat.lt_pow_two_of_testBit _ fun i hi => ?_
  cases h : (ctrlOrComplex isa batch).testBit i with
  | false => rfl
  | true =>
    have := ((C57_scan_mask isa batch i).1 h).1
    have : size isa ≤ 64 := by cases isa <;> decide
    omega

theorem scanLoop_spec (isa : Isa) (text : List Nat) (hb : ∀ b ∈ text, b < 256) (fin : Nat) (hfin : fin ≤ text.length) :
    ∀ fuel p, p ≤ fin → fin < fuel + p → Clean text p →
      ∃ q, scanLoop isa text fin fuel p = .ok q ∧ q ≤ fin ∧ Clean text q := by
  intro fuel
  induction fuel with
  | zero => intro p h1 h2; omega
  | succ fuel ih =>
    intro p h1 h2 hc
    rw [scanLoop]
    by_cases hlt : (p : Int) < (fin : Int) - (size isa : Int)
    · rw [if_pos hlt]
      have hin : p + size isa ≤ text.length := by omega
      rw [load_ok isa text p hin]
      simp only
      have hl := fun i hi => lane_load (size isa) text p i hb hi hin
      generalize ofLanes 8 (size isa) (fun i => text.getD (p + i) 0) = batch at hl
      by_cases hm : ctrlOrComplex isa batch ≠ 0
      · rw [if_pos hm]
        obtain ⟨c1, c2⟩ := ctzFuel_spec 64 (ctrlOrComplex isa batch) hm (mask_lt isa batch)
        rw [C57_scan_mask] at c1
        refine ⟨_, rfl, ?_, ?_⟩
        · show p + ctzFuel 64 _ ≤ fin
          omega
        · intro j hj
          rcases Nat.lt_or_ge j p with h | h
          · exact hc j h
          · have hj' : j - p < ctzFuel 64 (ctrlOrComplex isa batch) := by
              have : j < p + ctzFuel 64 (ctrlOrComplex isa batch) := hj
              omega
            have hb' := c2 (j - p) hj'
            have hlt' : j - p < size isa := by omega
            have he := hl (j - p) hlt'
            rw [show p + (j - p) = j by omega] at he
            refine ⟨_, he, ?_⟩
            by_contra hn
            have := (C57_scan_mask isa batch (j - p)).2 ⟨hlt', hn⟩
            rw [hb'] at this
            cases this
      · rw [if_neg hm]
        have h4 : 4 ≤ size isa := by cases isa <;> decide
        refine ih (p + 4) (by omega) (by omega) ?_
        intro j hj
        rcases Nat.lt_or_ge j p with h | h
        · exact hc j h
        · have hlt' : j - p < size isa := by omega
          have he := hl (j - p) hlt'
          rw [show p + (j - p) = j by omega] at he
          refine ⟨_, he, ?_⟩
          by_contra hn
          have := (C57_scan_mask isa batch (j - p)).2 ⟨hlt', hn⟩
          have hm0 : ctrlOrComplex isa batch = 0 := not_not.1 hm
          rw [hm0, Nat.zero_testBit] at this
          cases this
    · rw [if_neg hlt]
      exact ⟨p, rfl, h1, hc⟩

theorem isAscii_iff (b : Nat) (hb : b < 256) : Simd.isAscii b = true ↔ Printable b := Scan.isAscii_iff b hb

theorem scanTail_spec (text : List Nat) (hb : ∀ b ∈ text, b < 256) (fin : Nat) (hfin : fin ≤ text.length) :
    ∀ fuel p, p ≤ fin → fin < fuel + p → Clean text p →
      ∃ q, scanTail text fin fuel p = .ok q ∧ q ≤ fin ∧ Clean text q ∧
        (q = fin ∨ ∃ b, text[q]? = some b ∧ ¬ Printable b) := by
  intro fuel
  induction fuel with
  | zero => intro p h1 h2; omega
  | succ fuel ih =>
    intro p h1 h2 hc
    rw [scanTail]
    by_cases hp : p = fin
    · rw [if_pos hp]
      exact ⟨p, rfl, h1, hc, .inl hp⟩
    · rw [if_neg hp]
      have hl : p < text.length := by omega
      rw [List.getElem?_eq_getElem hl]
      simp only
      have hbb := hb text[p] (List.getElem_mem hl)
      by_cases ha : Simd.isAscii text[p] = true
      · rw [if_pos ha]
        refine ih (p + 1) (by omega) (by omega) ?_
        intro j hj
        rcases Nat.lt_or_ge j p with h | h
        · exact hc j h
        · have : j = p := by omega
          subst this
          exact ⟨_, List.getElem?_eq_getElem hl, (isAscii_iff _ hbb).1 ha⟩
      · rw [if_neg ha]
        exact ⟨p, rfl, h1, hc, .inr ⟨_, List.getElem?_eq_getElem hl, fun h => ha ((isAscii_iff _ hbb).2 h)⟩⟩

/-- **C57.**  For every instruction set, every byte string and every limit, the vectorised scan terminates, reads only
bytes of the text, and returns the length of the longest prefix of printable ASCII bytes within the limit. -/
theorem C57_scan (isa : Isa) (text : List Nat) (hb : ∀ b ∈ text, b < 256) (max : Nat) :
    ∃ n, Simd.scan isa text max = .ok n ∧ LongestPrintable text max n := by
  obtain ⟨p, e1, h1, c1⟩ := scanLoop_spec isa text hb (min text.length max) (by omega) (text.length + 1) 0 (by omega)
    (by omega) (fun j hj => by omega)
  obtain ⟨q, e2, h2, c2, h3⟩ := scanTail_spec text hb (min text.length max) (by omega) (text.length + 1) p h1
    (by omega) c1
  refine ⟨q, ?_, by omega, by omega, ?_, ?_⟩
  · rw [Simd.scan, e1]; exact e2
  · intro b hbm
    rw [List.mem_iff_getElem?] at hbm
    obtain ⟨j, hj⟩ := hbm
    rw [List.getElem?_take] at hj
    split at hj
    · next hjq =>
      obtain ⟨b', e, hp⟩ := c2 j hjq
      rw [e] at hj
      cases hj
      exact hp
    · cases hj
  · rcases h3 with h3 | h3
    · omega
    · exact .inr (.inr h3)

/-- **C57.**  Hence the byte-level description of the scan that the rest of the development uses is what the
instructions compute. -/
theorem C57_scan_refines (isa : Isa) (v : Verif.Scan.Variant) (w : Nat) (text : List Nat) (hb : ∀ b ∈ text, b < 256) (max : Nat) :
    Simd.scan isa text max = .ok (Verif.Scan.scanAscii v w text max) := by
  obtain ⟨n, e, h⟩ := C57_scan isa text hb max
  rw [e, longest_unique text max n _ h (C11_longest_prefix v w text hb max)]

end Verif.Props.Simd
