import Verif.Props.Simd
/-!
# Property C57, conversions: the vectorised UTF-8 decoders at the level of instructions and addresses
-/

namespace Verif.Props.Simd
open Verif.Vec Verif.Simd Verif.Utf8 Verif.Convert Verif.Props.Scan

/-- `all_ascii` says yes exactly when no byte of the register has its top bit set. -/
theorem C57_all_ascii (isa : Isa) (a : Nat) :
    allAscii isa a = true ↔ ∀ i < size isa, lane 8 a i < 0x80 := by
  have key : ∀ n, movemask8 n a = 0 ↔ ∀ i < n, lane 8 a i < 0x80 := by
    intro n
    constructor
    · intro h i hi
      have := movemask_bits n a i
      rw [h, Nat.zero_testBit] at this
      by_contra hc
      have : 128 ≤ lane 8 a i := by omega
      simp_all
    · intro h
      refine Nat.eq_of_testBit_eq fun i => ?_
      rw [movemask_bits, Nat.zero_testBit]
      rcases Nat.lt_or_ge i n with hi | hi
      · have := h i hi
        have : ¬ 128 ≤ lane 8 a i := by omega
        simp [this]
      · simp [Nat.not_lt.2 hi]
  cases isa
  · rw [allAscii, decide_eq_true_eq]; exact key 16
  · rw [allAscii, decide_eq_true_eq]; exact key 32
  · rw [allAscii, decide_eq_true_eq]; exact key 64
  · rw [allAscii, decide_eq_true_eq, C57_neon_movemask]; exact key 16

/-! ## Stores -/

/-- The bytes `k`, …, `k + n - 1` of a register. -/
def bytesFrom (batch k n : Nat) : List Nat := (List.range n).map (fun i => lane 8 batch (k + i))

theorem bytesFrom_append (batch k n m : Nat) : bytesFrom batch k n ++ bytesFrom batch (k + n) m = bytesFrom batch k (n + m) := by
  simp only [bytesFrom, List.range_add, List.map_append, List.map_map]
  congr 1
  refine List.map_congr_left fun i _ => ?_
  show _ = lane 8 batch (k + (n + i))
  rw [Nat.add_assoc]

theorem bytesFrom_length (batch k n : Nat) : (bytesFrom batch k n).length = n := by simp [bytesFrom]

theorem store_step (u : Nat) (k n r : Nat) (rest : List (Nat × Nat × Nat)) (d : Nat) (out done : List Nat)
    (hk : done.length = k) (hd : d + k + n ≤ out.length) :
    storeAll u ((k, n, r) :: rest) d (out.take d ++ done ++ out.drop (d + k))
      = storeAll u rest d (out.take d ++ (done ++ (List.range n).map (lane u r)) ++ out.drop (d + (k + n))) := by
  have hlen : (out.take d ++ done ++ out.drop (d + k)).length = out.length := by
    simp only [List.length_append, List.length_take, List.length_drop]; omega
  rw [storeAll, storeu, if_pos (by rw [hlen]; exact hd)]
  simp only
  congr 1
  have h1 : (out.take d ++ done).length = d + k := by
    simp only [List.length_append, List.length_take]; omega
  have e1 : (out.take d ++ done ++ out.drop (d + k)).take (d + k) = out.take d ++ done := by
    rw [← h1, List.take_left]
  have e2 : (out.take d ++ done ++ out.drop (d + k)).drop (d + k + n) = out.drop (d + (k + n)) := by
    rw [← List.drop_drop, ← h1, List.drop_left, h1, List.drop_drop, Nat.add_assoc]
  rw [e1, e2]
  simp only [List.append_assoc]

/-- A store of zero-extended bytes writes those bytes. -/
theorem zext_bytes (w n a batch k : Nat) (hw : 8 ≤ w) (h : ∀ i < n, lane 8 a i = lane 8 batch (k + i)) :
    (List.range n).map (lane w (zext 8 w n a)) = bytesFrom batch k n := by
  refine List.map_congr_left fun i hi => ?_
  have hi := List.mem_range.1 hi
  rw [zext, lane_ofLanes _ _ _ _ hi, h i hi]
  exact Nat.mod_eq_of_lt (Nat.lt_of_lt_of_le (lane_lt 8 _ _) (Nat.pow_le_pow_right (by decide) hw))

theorem lane_part128 (a j i : Nat) (h : i < 16) : lane 8 (part 128 a j) i = lane 8 a (16 * j + i) :=
  lane_lane 8 16 a j i h
theorem lane_part256 (a j i : Nat) (h : i < 32) : lane 8 (part 256 a j) i = lane 8 a (32 * j + i) :=
  lane_lane 8 32 a j i h
theorem lane_part64 (a j i : Nat) (h : i < 8) : lane 8 (part 64 a j) i = lane 8 a (8 * j + i) :=
  lane_lane 8 8 a j i h

/-- The two-stage widening of AArch64. -/
theorem neon_bytes (batch j h : Nat) (hh : h < 2) :
    (List.range 4).map (lane 32 (zext 16 32 4 (part 64 (zext 8 16 8 (part 64 batch j)) h)))
      = bytesFrom batch (8 * j + 4 * h) 4 := by
  refine List.map_congr_left fun i hi => ?_
  have hi := List.mem_range.1 hi
  have e : lane 16 (part 64 (zext 8 16 8 (part 64 batch j)) h) i = lane 8 batch (8 * j + 4 * h + i) := by
    have e1 : lane 16 (part 64 (zext 8 16 8 (part 64 batch j)) h) i = lane 16 (zext 8 16 8 (part 64 batch j)) (4 * h + i) :=
      lane_lane 16 4 _ h i hi
    rw [e1, zext, lane_ofLanes _ _ _ _ (by omega), lane_part64 _ _ _ (by omega), Nat.add_assoc]
    exact Nat.mod_eq_of_lt (Nat.lt_of_lt_of_le (lane_lt 8 _ _) (by decide))
  rw [zext, lane_ofLanes _ _ _ _ hi, e]
  exact Nat.mod_eq_of_lt (Nat.lt_of_lt_of_le (lane_lt 8 _ _) (by decide))

/-- **C57.**  The stores of one block, UTF-32: the bytes of the register, widened, in their order, to consecutive
elements; nothing else changes; all within the buffer. -/
theorem C57_widen32 (isa : Isa) (batch d : Nat) (out : List Nat) (hd : d + size isa ≤ out.length) :
    storeAll 32 (widen32 isa batch) d out
      = .ok (out.take d ++ bytesFrom batch 0 (size isa) ++ out.drop (d + size isa)) := by
  have h0 : out = out.take d ++ [] ++ out.drop (d + 0) := by simp
  conv => lhs; rw [h0]
  cases isa
  · simp only [size] at hd
    rw [widen32, store_step _ _ _ _ _ _ _ _ (by simp) (by omega), zext_bytes 32 4 _ batch 0 (by decide) (by simp),
      store_step _ _ _ _ _ _ _ _ (by simp [bytesFrom_length]) (by omega), zext_bytes 32 4 _ batch 4 (by decide) (fun i _ => lane_srl _ _ _),
      store_step _ _ _ _ _ _ _ _ (by simp [bytesFrom_length]) (by omega), zext_bytes 32 4 _ batch 8 (by decide) (fun i _ => lane_srl _ _ _),
      store_step _ _ _ _ _ _ _ _ (by simp [bytesFrom_length]) (by omega), zext_bytes 32 4 _ batch 12 (by decide) (fun i _ => lane_srl _ _ _)]
    rw [List.nil_append, bytesFrom_append batch 0 4 4, bytesFrom_append batch 0 8 4, bytesFrom_append batch 0 12 4]
    rfl
  · simp only [size] at hd
    rw [widen32, store_step _ _ _ _ _ _ _ _ (by simp) (by omega),
      zext_bytes 32 8 _ batch 0 (by decide) (fun i hi => lane_part128 _ 0 _ (by omega)),
      store_step _ _ _ _ _ _ _ _ (by simp [bytesFrom_length]) (by omega),
      zext_bytes 32 8 _ batch 8 (by decide) (fun i hi => by rw [lane_srl, lane_part128 _ 0 _ (by omega), Nat.mul_zero, Nat.zero_add]),
      store_step _ _ _ _ _ _ _ _ (by simp [bytesFrom_length]) (by omega),
      zext_bytes 32 8 _ batch 16 (by decide) (fun i hi => lane_part128 _ 1 _ (by omega)),
      store_step _ _ _ _ _ _ _ _ (by simp [bytesFrom_length]) (by omega),
      zext_bytes 32 8 _ batch 24 (by decide) (fun i hi => by rw [lane_srl, lane_part128 _ 1 _ (by omega), ← Nat.add_assoc])]
    rw [List.nil_append, bytesFrom_append batch 0 8 8, bytesFrom_append batch 0 16 8, bytesFrom_append batch 0 24 8]
    rfl
  · simp only [size] at hd
    rw [widen32, store_step _ _ _ _ _ _ _ _ (by simp) (by omega),
      zext_bytes 32 16 _ batch 0 (by decide) (fun i hi => lane_part128 _ 0 _ (by omega)),
      store_step _ _ _ _ _ _ _ _ (by simp [bytesFrom_length]) (by omega),
      zext_bytes 32 16 _ batch 16 (by decide) (fun i hi => lane_part128 _ 1 _ (by omega)),
      store_step _ _ _ _ _ _ _ _ (by simp [bytesFrom_length]) (by omega),
      zext_bytes 32 16 _ batch 32 (by decide) (fun i hi => lane_part128 _ 2 _ (by omega)),
      store_step _ _ _ _ _ _ _ _ (by simp [bytesFrom_length]) (by omega),
      zext_bytes 32 16 _ batch 48 (by decide) (fun i hi => lane_part128 _ 3 _ (by omega))]
    rw [List.nil_append, bytesFrom_append batch 0 16 16, bytesFrom_append batch 0 32 16, bytesFrom_append batch 0 48 16]
    rfl
  · simp only [size] at hd
    rw [widen32, store_step _ _ _ _ _ _ _ _ (by simp) (by omega), neon_bytes batch 0 0 (by decide),
      store_step _ _ _ _ _ _ _ _ (by simp [bytesFrom_length]) (by omega), neon_bytes batch 0 1 (by decide),
      store_step _ _ _ _ _ _ _ _ (by simp [bytesFrom_length]) (by omega), neon_bytes batch 1 0 (by decide),
      store_step _ _ _ _ _ _ _ _ (by simp [bytesFrom_length]) (by omega), neon_bytes batch 1 1 (by decide)]
    show Mem.ok (out.take d ++ ([] ++ bytesFrom batch 0 4 ++ bytesFrom batch 4 4 ++ bytesFrom batch 8 4 ++ bytesFrom batch 12 4) ++ _) = _
    rw [List.nil_append, bytesFrom_append batch 0 4 4, bytesFrom_append batch 0 8 4, bytesFrom_append batch 0 12 4]
    rfl

/-- **C57.**  The stores of one block, UTF-16. -/
theorem C57_widen16 (isa : Isa) (batch d : Nat) (out : List Nat) (hd : d + size isa ≤ out.length) :
    storeAll 16 (widen16 isa batch) d out
      = .ok (out.take d ++ bytesFrom batch 0 (size isa) ++ out.drop (d + size isa)) := by
  have h0 : out = out.take d ++ [] ++ out.drop (d + 0) := by simp
  conv => lhs; rw [h0]
  cases isa
  · simp only [size] at hd
    rw [widen16, store_step _ _ _ _ _ _ _ _ (by simp) (by omega), zext_bytes 16 8 _ batch 0 (by decide) (by simp),
      store_step _ _ _ _ _ _ _ _ (by simp [bytesFrom_length]) (by omega), zext_bytes 16 8 _ batch 8 (by decide) (fun i _ => lane_srl _ _ _)]
    rw [List.nil_append, bytesFrom_append batch 0 8 8]
    rfl
  · simp only [size] at hd
    rw [widen16, store_step _ _ _ _ _ _ _ _ (by simp) (by omega),
      zext_bytes 16 16 _ batch 0 (by decide) (fun i hi => lane_part128 _ 0 _ (by omega)),
      store_step _ _ _ _ _ _ _ _ (by simp [bytesFrom_length]) (by omega),
      zext_bytes 16 16 _ batch 16 (by decide) (fun i hi => lane_part128 _ 1 _ (by omega))]
    rw [List.nil_append, bytesFrom_append batch 0 16 16]
    rfl
  · simp only [size] at hd
    rw [widen16, store_step _ _ _ _ _ _ _ _ (by simp) (by omega),
      zext_bytes 16 32 _ batch 0 (by decide) (fun i hi => lane_part256 _ 0 _ (by omega)),
      store_step _ _ _ _ _ _ _ _ (by simp [bytesFrom_length]) (by omega),
      zext_bytes 16 32 _ batch 32 (by decide) (fun i hi => lane_part256 _ 1 _ (by omega))]
    rw [List.nil_append, bytesFrom_append batch 0 32 32]
    rfl
  · simp only [size] at hd
    rw [widen16, store_step _ _ _ _ _ _ _ _ (by simp) (by omega),
      zext_bytes 16 8 _ batch 0 (by decide) (fun i hi => lane_part64 _ 0 _ (by omega)),
      store_step _ _ _ _ _ _ _ _ (by simp [bytesFrom_length]) (by omega),
      zext_bytes 16 8 _ batch 8 (by decide) (fun i hi => lane_part64 _ 1 _ (by omega))]
    rw [List.nil_append, bytesFrom_append batch 0 8 8]
    rfl

/-! ## The loops -/

/-- What a block of stores has to do. -/
def Widens (isa : Isa) (u : Nat) (widen : Nat → List (Nat × Nat × Nat)) : Prop :=
  ∀ batch d out, d + size isa ≤ out.length →
    storeAll u (widen batch) d out = .ok (out.take d ++ bytesFrom batch 0 (size isa) ++ out.drop (d + size isa))

theorem bytes_load (n : Nat) (mem : List Nat) (p : Nat) (hb : ∀ b ∈ mem, b < 256) (h : p + n ≤ mem.length) :
    bytesFrom (ofLanes 8 n (fun i => mem.getD (p + i) 0)) 0 n = (mem.drop p).take n := by
  refine List.ext_getElem? fun i => ?_
  rcases Nat.lt_or_ge i n with hi | hi
  · rw [bytesFrom, List.getElem?_map, List.getElem?_range hi, List.getElem?_take, if_pos hi, List.getElem?_drop,
      lane_load n mem p i hb hi h, Option.map_some, Nat.zero_add]
  · rw [List.getElem?_eq_none (by rw [bytesFrom_length]; exact hi), List.getElem?_eq_none]
    simp only [List.length_take]; omega

theorem convLoop_spec (isa : Isa) (u : Nat) (widen : Nat → List (Nat × Nat × Nat)) (hw : Widens isa u widen)
    (input : List Nat) (hb : ∀ b ∈ input, b < 256) (out : List Nat) (hout : input.length ≤ out.length) :
    ∀ fuel p, p ≤ input.length → input.length < fuel + p → (∀ b ∈ input.take p, b < 0x80) →
      ∃ q, convLoop isa u widen input input.length fuel p p (input.take p ++ out.drop p)
          = .ok (q, q, input.take q ++ out.drop q) ∧ q ≤ input.length ∧ ∀ b ∈ input.take q, b < 0x80 := by
  intro fuel
  induction fuel with
  | zero => intro p h1 h2; omega
  | succ fuel ih =>
    intro p h1 h2 hc
    rw [convLoop]
    by_cases hp : p + size isa ≤ input.length
    · rw [if_pos hp, load_ok isa input p hp]
      simp only
      have hbytes := bytes_load (size isa) input p hb hp
      generalize ofLanes 8 (size isa) (fun i => input.getD (p + i) 0) = batch at hbytes
      by_cases ha : allAscii isa batch = true
      · have hl1 : (input.take p ++ out.drop p).length = out.length := by
          simp only [List.length_append, List.length_take, List.length_drop]; omega
        have hp0 : (input.take p).length = p := by rw [List.length_take]; omega
        have e : (input.take p ++ out.drop p).take p ++ bytesFrom batch 0 (size isa) ++ (input.take p ++ out.drop p).drop (p + size isa)
            = input.take (p + size isa) ++ out.drop (p + size isa) := by
          have e1 : (input.take p ++ out.drop p).take p = input.take p := by
            conv => lhs; arg 1; rw [← hp0]
            rw [List.take_left]
          have e2 : (input.take p ++ out.drop p).drop (p + size isa) = out.drop (p + size isa) := by
            rw [← List.drop_drop]
            conv => lhs; arg 2; arg 1; rw [← hp0]
            rw [List.drop_left, List.drop_drop]
          rw [e1, e2, hbytes, List.take_add]
        rw [if_pos ha, hw batch p _ (by rw [hl1]; omega)]
        simp only [e]
        refine ih (p + size isa) hp (by have := size_pos isa; omega) ?_
        intro b hbm
        rw [List.take_add, ← hbytes, List.mem_append] at hbm
        rcases hbm with h | h
        · exact hc b h
        · simp only [bytesFrom, List.mem_map, List.mem_range, Nat.zero_add] at h
          obtain ⟨i, hi, rfl⟩ := h
          exact (C57_all_ascii isa batch).1 ha i hi
      · rw [if_neg ha]
        exact ⟨p, rfl, h1, hc⟩
    · rw [if_neg hp]
      exact ⟨p, rfl, h1, hc⟩

theorem putAll_spec (xs : List Nat) : ∀ (done out : List Nat), done.length + xs.length ≤ out.length →
    putAll xs done.length (done ++ out.drop done.length)
      = .ok ((done ++ xs).length, (done ++ xs) ++ out.drop (done ++ xs).length) := by
  induction xs with
  | nil => intro done out h; simp [putAll]
  | cons x xs ih =>
    intro done out h
    simp only [List.length_cons] at h
    have hl : (done ++ out.drop done.length).length = out.length := by
      simp only [List.length_append, List.length_drop]; omega
    rw [putAll, if_pos (by rw [hl]; omega)]
    have e : (done ++ out.drop done.length).set done.length x = (done ++ [x]) ++ out.drop (done ++ [x]).length := by
      rw [List.set_append_right _ _ (Nat.le_refl _), Nat.sub_self, List.length_append, List.length_singleton,
        List.append_assoc]
      congr 1
      rw [List.drop_eq_getElem_cons (show done.length < out.length by omega)]
      rfl
    have hlen : done.length + 1 = (done ++ [x]).length := by simp
    rw [e, hlen, ih (done ++ [x]) out (by simp only [List.length_append, List.length_singleton]; omega)]
    simp only [List.append_assoc, List.singleton_append]

theorem convTail_spec (write : Nat → List Nat) (input : List Nat) (out : List Nat) :
    ∀ fuel s p (done : List Nat), p ≤ input.length → input.length < fuel + p →
      done.length + (scalarLoop write s (input.drop p)).length ≤ out.length →
      convTail write input input.length fuel s p done.length (done ++ out.drop done.length)
        = .ok ((done ++ scalarLoop write s (input.drop p)).length,
            (done ++ scalarLoop write s (input.drop p)) ++ out.drop (done ++ scalarLoop write s (input.drop p)).length) := by
  intro fuel
  induction fuel with
  | zero => intro s p done h1 h2; omega
  | succ fuel ih =>
    intro s p done h1 h2 h3
    rw [convTail]
    by_cases hp : p < input.length
    · rw [if_pos hp, List.getElem?_eq_getElem hp]
      simp only
      rw [List.drop_eq_getElem_cons hp, scalarLoop] at h3 ⊢
      generalize decode8 s input[p] = r at h3 ⊢
      obtain ⟨s', _ | c⟩ := r
      · simp only at h3 ⊢
        exact ih s' (p + 1) done hp (by omega) h3
      · simp only at h3 ⊢
        rw [List.length_append] at h3
        rw [putAll_spec (write c) done out (by omega)]
        simp only
        have := ih s' (p + 1) (done ++ write c) hp (by omega) (by rw [List.length_append]; omega)
        rw [this, List.append_assoc]
    · rw [if_neg hp, List.drop_eq_nil_of_le (show input.length ≤ p by omega), scalarLoop, List.append_nil]

theorem convert_spec (isa : Isa) (u : Nat) (widen : Nat → List (Nat × Nat × Nat)) (hw : Widens isa u widen)
    (write : Nat → List Nat) (hwr : ∀ b, b < 0x80 → write b = [b])
    (input : List Nat) (hb : ∀ b ∈ input, b < 256) (out : List Nat) (hout : input.length ≤ out.length)
    (hfit : (scalarLoop write {} input).length ≤ input.length) :
    convert isa u widen write input out
      = .ok ((scalarLoop write {} input).length, scalarLoop write {} input ++ out.drop (scalarLoop write {} input).length) := by
  obtain ⟨q, e, hq, ha⟩ := convLoop_spec isa u widen hw input hb out hout (input.length + 1) 0 (by omega) (by omega) (by simp)
  rw [List.take_zero, List.nil_append, List.drop_zero] at e
  rw [convert, e]
  simp only
  have hlen : (input.take q).length = q := by rw [List.length_take]; omega
  have hs := scalarLoop_ascii write hwr (input.take q) (input.drop q) ha
  rw [List.take_append_drop] at hs
  have := convTail_spec write input out (input.length + 1) {} q (input.take q) hq (by omega) (by
    rw [← List.length_append, ← hs]; omega)
  rw [hlen, ← hs] at this
  exact this

/-- **C57.**  `convert_utf8_to_utf32_simd`, for every instruction set, every byte string and every output buffer of at
least as many elements: it terminates, reads only the input, writes only the buffer; the buffer then starts with what
the scalar decoder produces and is unchanged after it, and the number returned is the number of codepoints. -/
theorem C57_convert32 (isa : Isa) (input : List Nat) (hb : ∀ b ∈ input, b < 256) (out : List Nat) (hout : input.length ≤ out.length) :
    convert32 isa input out
      = .ok ((scalarLoop encode32 {} input).length, scalarLoop encode32 {} input ++ out.drop (scalarLoop encode32 {} input).length) :=
  convert_spec isa 32 _ (fun batch d o h => C57_widen32 isa batch d o h) encode32 encode32_ascii input hb out hout
    (scalarLoop32_length {} input)

/-- **C57.**  `convert_utf8_to_utf16_simd`, likewise. -/
theorem C57_convert16 (isa : Isa) (input : List Nat) (hb : ∀ b ∈ input, b < 256) (out : List Nat) (hout : input.length ≤ out.length) :
    convert16 isa input out
      = .ok ((scalarLoop encode16 {} input).length, scalarLoop encode16 {} input ++ out.drop (scalarLoop encode16 {} input).length) :=
  convert_spec isa 16 _ (fun batch d o h => C57_widen16 isa batch d o h) encode16 encode16_ascii input hb out hout
    (scalarLoop16_length {} (.inl rfl) input hb)

/-- **C57.**  Hence the block-level descriptions that the rest of the development uses are what the instructions compute:
`from_utf8` / `convert_to<char32_t>` / `convert_to<char16_t>` size a string to the number of bytes, convert and truncate. -/
theorem C57_convert_refines (isa : Isa) (k : Nat) (input : List Nat) (hb : ∀ b ∈ input, b < 256) (out32 out16 : List Nat)
    (h32 : input.length ≤ out32.length) (h16 : input.length ≤ out16.length) :
    (∃ n buf, convert32 isa input out32 = .ok (n, buf) ∧ buf.take n = fromUtf8Str k input) ∧
    (∃ n buf, convert16 isa input out16 = .ok (n, buf) ∧ buf.take n = convertTo16FromUtf8 k input) := by
  refine ⟨⟨_, _, C57_convert32 isa input hb out32 h32, ?_⟩, ⟨_, _, C57_convert16 isa input hb out16 h16, ?_⟩⟩
  · rw [List.take_left, fromUtf8Str_eq]
  · rw [List.take_left, convertTo16FromUtf8_eq]

-- one block of each width and a tail with a two-byte sequence and a truncated one
example : ∀ isa, scan isa (List.replicate 70 0x41 ++ [0x1B, 0x42]) 100 = .ok 70 := by
  intro isa; cases isa <;> decide +kernel
example : ∀ isa, scan isa ([0x41, 0x42] ++ List.replicate 70 0xC3) 100 = .ok 2 := by
  intro isa; cases isa <;> decide +kernel
example : ∀ isa, convert32 isa (List.replicate 64 0x41 ++ [0xC3, 0xA9, 0xE2]) (List.replicate 67 7)
    = .ok (65, List.replicate 64 0x41 ++ [0xE9, 7, 7]) := by
  intro isa; cases isa <;> decide +kernel
example : ∀ isa, convert16 isa (List.replicate 64 0x41 ++ [0xF0, 0x9F, 0x98, 0x80]) (List.replicate 68 7)
    = .ok (66, List.replicate 64 0x41 ++ [0xD83D, 0xDE00, 7, 7]) := by
  intro isa; cases isa <;> decide +kernel

end Verif.Props.Simd
