import Verif.Model.SimdDetect
import Verif.Props.SimdConvert
import Mathlib.Tactic.IntervalCases
import Mathlib.Tactic.FinCases
/-!
# Property C58: run-time dispatch only executes what the machine supports
-/

namespace Verif.Props.Simd
open Verif.Vec Verif.Simd Verif.Utf8 Verif.Convert Verif.Props.Scan Verif.Cpu Verif.SimdDetect

theorem bit_iff (x k : Nat) : bit x k = true ↔ x.testBit k = true := by
  rw [bit, decide_eq_true_eq, Nat.one_shiftLeft]
  constructor
  · intro h
    by_contra hc
    refine h (Nat.eq_of_testBit_eq fun i => ?_)
    rw [Nat.testBit_and, Nat.testBit_two_pow, Nat.zero_testBit]
    by_cases hi : k = i
    · subst hi; simpa using hc
    · simp [hi]
  · intro h h0
    have := congrArg (fun v => Nat.testBit v k) h0
    simp [Nat.testBit_and, h] at this

theorem mask6 (x : Nat) : x &&& 0x6 = 0x6 ↔ x.testBit 1 = true ∧ x.testBit 2 = true := by
  constructor
  · intro h
    have h1 := congrArg (fun v => Nat.testBit v 1) h
    have h2 := congrArg (fun v => Nat.testBit v 2) h
    simp only [Nat.testBit_and] at h1 h2
    exact ⟨(Bool.and_eq_true_iff.1 (h1.trans (by decide))).1, (Bool.and_eq_true_iff.1 (h2.trans (by decide))).1⟩
  · rintro ⟨h1, h2⟩
    refine Nat.eq_of_testBit_eq fun i => ?_
    rw [Nat.testBit_and]
    cases hi : Nat.testBit 6 i with
    | false => rw [Bool.and_false]
    | true =>
      have : i = 1 ∨ i = 2 := by
        have hlt : i < 3 := by
          by_contra hc
          rw [Nat.testBit_lt_two_pow (Nat.lt_of_lt_of_le (by decide : 6 < 2 ^ 3) (Nat.pow_le_pow_right (by decide) (Nat.le_of_not_lt hc)))] at hi
          cases hi
        interval_cases i <;> revert hi <;> decide
      rcases this with rfl | rfl
      · rw [h1]; rfl
      · rw [h2]; rfl

theorem maskE6 (x : Nat) : x &&& 0xe6 = 0xe6 ↔
    (x.testBit 1 = true ∧ x.testBit 2 = true) ∧ x.testBit 5 = true ∧ x.testBit 6 = true ∧ x.testBit 7 = true := by
  constructor
  · intro h
    have key : ∀ k, Nat.testBit 0xe6 k = true → x.testBit k = true := by
      intro k hk
      have := congrArg (fun v => Nat.testBit v k) h
      simp only [Nat.testBit_and] at this
      exact (Bool.and_eq_true_iff.1 (this.trans hk)).1
    exact ⟨⟨key 1 (by decide), key 2 (by decide)⟩, key 5 (by decide), key 6 (by decide), key 7 (by decide)⟩
  · rintro ⟨⟨h1, h2⟩, h5, h6, h7⟩
    refine Nat.eq_of_testBit_eq fun i => ?_
    rw [Nat.testBit_and]
    cases hi : Nat.testBit 0xe6 i with
    | false => rw [Bool.and_false]
    | true =>
      have hlt : i < 8 := by
        by_contra hc
        rw [Nat.testBit_lt_two_pow (Nat.lt_of_lt_of_le (by decide : 0xe6 < 2 ^ 8) (Nat.pow_le_pow_right (by decide) (Nat.le_of_not_lt hc)))] at hi
        cases hi
      rw [Bool.and_true]
      interval_cases i <;> first | assumption | exact absurd hi (by decide)

theorem osAvx_spec (m : Machine) :
    ∃ a, detectOsAvx m = .ok a ∧ (a = true ↔ Supports m .avx) := by
  rw [detectOsAvx]
  by_cases h : (bit (m.cpuid 1 0).ecx 27 && bit (m.cpuid 1 0).ecx 28) = true
  · rw [if_pos h]
    rw [Bool.and_eq_true, bit_iff, bit_iff] at h
    rw [xgetbv, if_pos h.1]
    refine ⟨_, rfl, ?_⟩
    rw [decide_eq_true_eq, mask6]
    exact ⟨fun hx => ⟨⟨h.1, hx⟩, h.2⟩, fun hx => hx.1.2⟩
  · rw [if_neg h]
    refine ⟨false, rfl, ?_⟩
    rw [Bool.and_eq_true, bit_iff, bit_iff] at h
    constructor
    · intro h; cases h
    · intro hx; exact absurd ⟨hx.1.1, hx.2⟩ h

theorem osAvx512_spec (m : Machine) :
    ∃ a, detectOsAvx512 m = .ok a ∧ (a = true ↔ ZmmSaved m ∧ (m.cpuid 1 0).ecx.testBit 28 = true) := by
  obtain ⟨a, e, ha⟩ := osAvx_spec m
  rw [detectOsAvx512, e]
  show ∃ b, (if a = true then _ else _) = _ ∧ _
  by_cases h : a = true
  · rw [if_pos h]
    have hs := ha.1 h
    rw [xgetbv, if_pos (show (m.cpuid 1 0).ecx.testBit 27 = true from hs.1.1)]
    refine ⟨_, rfl, ?_⟩
    rw [decide_eq_true_eq, maskE6]
    exact ⟨fun hx => ⟨⟨hs.1, hx.2⟩, hs.2⟩, fun hx => ⟨hx.1.1.2, hx.1.2⟩⟩
  · rw [if_neg h]
    refine ⟨false, rfl, ?_⟩
    constructor
    · intro h; cases h
    · intro hx; exact absurd (ha.2 ⟨hx.1.1, hx.2⟩) h

/-- **C58.**  On every machine, detection itself executes no undefined instruction and answers 128, 256 or 512; it answers
256 or 512 exactly when AVX2 is usable, and 512 exactly when AVX2 and the AVX-512 extensions F, BW and BITALG are (for
machines whose `CPUID` has fewer than 2^31 leaves, as they all do). -/
theorem C58_detect (m : Machine) (hleaf : (m.cpuid 0 0).eax < 2 ^ 31) :
    ∃ w, maxSimdSize m = .ok w ∧ (w = 128 ∨ w = 256 ∨ w = 512) ∧
      (w ≠ 128 ↔ Supports m .avx2) ∧
      (w = 512 ↔ Supports m .avx2 ∧ Supports m .avx512bw ∧ (m.cpuid 7 0).ecx.testBit 12 = true) := by
  obtain ⟨a, e, ha⟩ := osAvx_spec m
  obtain ⟨z, ez, hz⟩ := osAvx512_spec m
  have h32 : int32 (m.cpuid 0 0).eax = ((m.cpuid 0 0).eax : Int) := if_pos hleaf
  rw [maxSimdSize, e]
  show ∃ w, (if a = true then _ else _) = _ ∧ _
  by_cases h : a = true
  · have hs := ha.1 h
    rw [if_pos h, h32]
    by_cases h7 : (((m.cpuid 0 0).eax : Nat) : Int) ≥ 7
    · rw [if_pos h7]
      have h7' : HasLeaf7 m := by unfold HasLeaf7; omega
      by_cases h5 : bit (m.cpuid 7 0).ebx 5 = true
      · have havx2 : Supports m .avx2 := ⟨hs.1, hs.2, h7', (bit_iff _ _).1 h5⟩
        rw [if_pos h5, ez]
        show ∃ w, (if (z && _ && _ && _) = true then _ else _) = _ ∧ _
        by_cases hall : (z && bit (m.cpuid 7 0).ebx 16 && bit (m.cpuid 7 0).ebx 30 && bit (m.cpuid 7 0).ecx 12) = true
        · rw [if_pos hall]
          simp only [Bool.and_eq_true, bit_iff] at hall
          obtain ⟨⟨⟨h1, h2⟩, h3⟩, h4⟩ := hall
          have := hz.1 h1
          exact ⟨512, rfl, by simp, ⟨fun _ => havx2, fun _ => by decide⟩,
            ⟨fun _ => ⟨havx2, ⟨this.1, this.2, h7', h2, h3⟩, h4⟩, fun _ => rfl⟩⟩
        · rw [if_neg hall]
          refine ⟨256, rfl, by simp, ⟨fun _ => havx2, fun _ => by decide⟩, ⟨fun h => absurd h (by decide), ?_⟩⟩
          rintro ⟨_, hbw, h4⟩
          refine absurd ?_ hall
          simp only [Bool.and_eq_true, bit_iff]
          exact ⟨⟨⟨hz.2 ⟨hbw.1, hbw.2.1⟩, hbw.2.2.2.1⟩, hbw.2.2.2.2⟩, h4⟩
      · rw [if_neg h5]
        rw [bit_iff] at h5
        exact ⟨128, rfl, by simp, ⟨fun h => absurd rfl h, fun h => absurd h.2.2.2 h5⟩,
          ⟨fun h => absurd h (by decide), fun h => absurd h.1.2.2.2 h5⟩⟩
    · rw [if_neg h7]
      have hn : ¬ HasLeaf7 m := by unfold HasLeaf7; omega
      exact ⟨128, rfl, by simp, ⟨fun h => absurd rfl h, fun h => absurd h.2.2.1 hn⟩,
        ⟨fun h => absurd h (by decide), fun h => absurd h.1.2.2.1 hn⟩⟩
  · rw [if_neg h]
    have hn : ¬ Supports m .avx2 := fun h2 => h (ha.2 ⟨h2.1, h2.2.1⟩)
    exact ⟨128, rfl, by simp, ⟨fun h => absurd rfl h, fun h => absurd h hn⟩,
      ⟨fun h => absurd h (by decide), fun h => absurd h.1 hn⟩⟩

/-- The chosen version, apart from its 128-bit form, only needs what is there. -/
theorem chosen_supported (m : Machine) (hleaf : (m.cpuid 0 0).eax < 2 ^ 31) :
    ∃ w, maxSimdSize m = .ok w ∧
      ((choose w = .sse) ∨
       (choose w = .avx2 ∧ ∀ f ∈ [Feature.avx, .avx2], Supports m f) ∨
       (choose w = .avx512 ∧ ∀ f ∈ [Feature.avx, .avx2, .avx512f, .avx512bw], Supports m f)) := by
  obtain ⟨w, e, hw, h2, h5⟩ := C58_detect m hleaf
  refine ⟨w, e, ?_⟩
  rcases hw with rfl | rfl | rfl
  · exact .inl rfl
  · refine .inr (.inl ⟨rfl, ?_⟩)
    have := h2.1 (by decide)
    intro f hf
    fin_cases hf
    · exact ⟨this.1, this.2.1⟩
    · exact this
  · refine .inr (.inr ⟨rfl, ?_⟩)
    obtain ⟨h, hb, _⟩ := h5.1 rfl
    intro f hf
    fin_cases hf
    · exact ⟨h.1, h.2.1⟩
    · exact h
    · exact ⟨hb.1, hb.2.1, hb.2.2.1, hb.2.2.2.1⟩
    · exact hb

theorem execute_ok {α : Type} (m : Machine) (needs : List Feature) (a : α) (h : ∀ f ∈ needs, Supports m f) :
    execute m needs (.ok a) = .ok a := if_pos h

/-- **C58.**  `scan_for_text_ascii`, with its run-time dispatch, on every machine, text and limit: no undefined instruction,
no access outside the text, and the longest printable prefix. -/
theorem C58_scan (m : Machine) (hleaf : (m.cpuid 0 0).eax < 2 ^ 31) (text : List Nat) (hb : ∀ b ∈ text, b < 256) (max : Nat) :
    ∃ n, scanForTextAscii m text max = .ok n ∧ LongestPrintable text max n := by
  obtain ⟨w, e, hw⟩ := chosen_supported m hleaf
  obtain ⟨n, en, hn⟩ := C57_scan (choose w) text hb max
  refine ⟨n, ?_, hn⟩
  rw [scanForTextAscii, e]
  show execute m (scanNeeds (choose w)) _ = _
  rw [en]
  refine execute_ok m _ n ?_
  rcases hw with h | ⟨h, hf⟩ | ⟨h, hf⟩
  · rw [h]
    intro f hf
    rw [List.mem_singleton.1 hf]
    exact trivial
  · rw [h]; exact hf
  · rw [h]; exact hf

theorem convert_needs (m : Machine) (hleaf : (m.cpuid 0 0).eax < 2 ^ 31) (input : List Nat)
    (h41 : Supports m .avx2 ∨ Supports m .sse41 ∨ ¬ (16 ≤ input.length ∧ ∀ b ∈ input.take 16, b < 0x80)) :
    ∃ w, maxSimdSize m = .ok w ∧ ∀ f ∈ convertNeeds (choose w) input, Supports m f := by
  obtain ⟨w, e, hw⟩ := chosen_supported m hleaf
  refine ⟨w, e, ?_⟩
  rcases hw with h | ⟨h, hf⟩ | ⟨h, hf⟩
  · rw [h]
    have hno : ¬ Supports m .avx2 := by
      obtain ⟨w', e', h1, h2, _⟩ := C58_detect m hleaf
      rw [e] at e'
      cases e'
      intro ha
      have := h2.2 ha
      rcases h1 with rfl | rfl | rfl
      · exact this rfl
      · cases h
      · cases h
    intro f hf
    rw [convertNeeds] at hf
    split at hf
    · next hc =>
      simp only [Bool.and_eq_true, decide_eq_true_eq, List.all_eq_true] at hc
      have h41 : Supports m .sse41 := by
        rcases h41 with h | h | h
        · exact absurd h hno
        · exact h
        · exact absurd hc h
      fin_cases hf
      · exact trivial
      · exact h41
    · rw [List.mem_singleton.1 hf]
      exact trivial
  · rw [h]; exact hf
  · rw [h]; exact hf

/-- **C58** (partial: the processor must have SSE4.1, or AVX2, or the text must not begin with 16 ASCII bytes; see
`C58_fails_sse41`).  UTF-8 to UTF-32 and UTF-16 conversion with run-time dispatch: no undefined instruction, no access
outside the buffers, and the result of the scalar decoder. -/
theorem C58_convert_partial (m : Machine) (hleaf : (m.cpuid 0 0).eax < 2 ^ 31) (input : List Nat) (hb : ∀ b ∈ input, b < 256)
    (h41 : Supports m .avx2 ∨ Supports m .sse41 ∨ ¬ (16 ≤ input.length ∧ ∀ b ∈ input.take 16, b < 0x80))
    (out : List Nat) (hout : input.length ≤ out.length) :
    convertUtf8ToUtf32 m input out
      = .ok ((scalarLoop encode32 {} input).length, scalarLoop encode32 {} input ++ out.drop (scalarLoop encode32 {} input).length) ∧
    convertUtf8ToUtf16 m input out
      = .ok ((scalarLoop encode16 {} input).length, scalarLoop encode16 {} input ++ out.drop (scalarLoop encode16 {} input).length) := by
  obtain ⟨w, e, hn⟩ := convert_needs m hleaf input h41
  rw [convertUtf8ToUtf32, convertUtf8ToUtf16, e]
  show execute m _ _ = _ ∧ execute m _ _ = _
  rw [C57_convert32 (choose w) input hb out hout, C57_convert16 (choose w) input hb out hout]
  exact ⟨execute_ok m _ _ hn, execute_ok m _ _ hn⟩

/-! ## Concrete machines -/

/-- An x86-64 processor of the first generation: nothing beyond the baseline. -/
def oldMachine : Machine := { cpuid := fun leaf _ => if leaf = 0 then { eax := 1 } else {}, xcr0 := 0 }

/-- A processor with AVX2 under an operating system that saves the YMM registers; AVX-512 present but not enabled. -/
def avx2Machine : Machine :=
  { cpuid := fun leaf _ =>
      if leaf = 0 then { eax := 22 }
      else if leaf = 1 then { ecx := 2 ^ 19 + 2 ^ 27 + 2 ^ 28 }
      else if leaf = 7 then { ebx := 2 ^ 5 + 2 ^ 16 + 2 ^ 30, ecx := 2 ^ 12 }
      else {}
    xcr0 := 7 }

/-- The same with AVX-512 enabled. -/
def avx512Machine : Machine := { avx2Machine with xcr0 := 0xe7 }

example : maxSimdSize oldMachine = .ok 128 := by decide +kernel
example : maxSimdSize avx2Machine = .ok 256 := by decide +kernel
example : maxSimdSize avx512Machine = .ok 512 := by decide +kernel
example : Supports avx512Machine .avx512bw := by
  have h := (C58_detect avx512Machine (by decide))
  obtain ⟨w, e, -, -, h5⟩ := h
  have : maxSimdSize avx512Machine = .ok 512 := by decide +kernel
  rw [this] at e
  cases e
  exact (h5.1 rfl).2.1

/-- **C58 is false of the code** on x86-64 processors without SSE4.1: the 128-bit conversion, chosen when nothing better is
found, executes `PMOVZXBD`/`PMOVZXBW`; 16 ASCII bytes are enough. -/
theorem C58_fails_sse41 :
    convertUtf8ToUtf32 oldMachine (List.replicate 16 0x41) (List.replicate 16 0) = .undefinedInstruction ∧
    convertUtf8ToUtf16 oldMachine (List.replicate 16 0x41) (List.replicate 16 0) = .undefinedInstruction := by
  have e : maxSimdSize oldMachine = .ok 128 := by decide +kernel
  have hn : ¬ ∀ f ∈ convertNeeds (choose 128) (List.replicate 16 0x41), Supports oldMachine f := by
    intro h
    have : Supports oldMachine .sse41 := h .sse41 (by decide)
    exact absurd this (by show ¬ (Nat.testBit 0 19 = true); decide)
  rw [convertUtf8ToUtf32, convertUtf8ToUtf16, e]
  exact ⟨if_neg hn, if_neg hn⟩

end Verif.Props.Simd
