import Mathlib.Data.List.Induction
import Verif.Lemmas.Utf8
import Verif.Lemmas.Convert
/-!
# Properties C01-C05: UTF-8 encoding and incremental decoding
-/

namespace Verif.Props
open Verif.Utf8 Verif.Spec Verif.Convert

/-! ## C01 round trip for one codepoint -/

/-- **C01.** From any idle decoder, the bytes of `to_utf8(c)` are answered `Incomplete … Incomplete
Success(c)` and the decoder is idle again, having counted exactly the bytes written. -/
theorem C01_utf8_roundtrip (s : DecState) (hidle : s.expectedLength = 0) (c : Nat) (hc : c ≤ 0x1FFFFF) :
    (feed s (toUtf8 c)).2 = List.replicate ((toUtf8 c).length - 1) .incomplete ++ [.success c] ∧
    (feed s (toUtf8 c)).1.expectedLength = 0 ∧
    (feed s (toUtf8 c)).1.currentLength = (toUtf8 c).length :=
  feed_toUtf8 s hidle c hc

example : (feed {} (toUtf8 0x1F600)).2 = [.incomplete, .incomplete, .incomplete, .success 0x1F600] := by
  decide

private theorem ptrLoop_feed (s : DecState) (xs rest : List Nat) (n : Nat) (c : Nat)
    (h : (feed s xs).2 = List.replicate n .incomplete ++ [.success c]) :
    fromUtf8PtrLoop s (xs ++ rest) = .ok (.success c, (feed s xs).1.currentLength) := by
  induction n generalizing s xs with
  | zero =>
    match xs with
    | [] => simp [feed] at h
    | [b] =>
      simp only [feed, List.replicate, List.nil_append, List.cons.injEq, and_true] at h
      simp only [List.cons_append, List.nil_append, fromUtf8PtrLoop, feed]
      generalize fromUtf8 s b = d at *
      obtain ⟨d1, d2⟩ := d
      simp only at h
      subst h; rfl
    | b :: b' :: t => simp [feed] at h
  | succ n ih =>
    match xs with
    | [] => simp [feed] at h
    | b :: t =>
      simp only [feed, List.replicate, List.cons_append, List.cons.injEq] at h
      simp only [List.cons_append, fromUtf8PtrLoop, feed]
      generalize fromUtf8 s b = d at *
      obtain ⟨d1, d2⟩ := d
      obtain ⟨h1, h2⟩ := h
      simp only at h1 h2 ⊢
      subst h1
      exact ih d1 t h2

/-- **C01.** The pointer overload returns `c`, reports the number of bytes written, never reads past the
encoding, whatever follows it in memory. -/
theorem C01_utf8_ptr_roundtrip (c : Nat) (hc : c ≤ 0x1FFFFF) (rest : List Nat) :
    fromUtf8Ptr (toUtf8 c ++ rest) = .ok (.success c, (toUtf8 c).length) := by
  have h := feed_toUtf8 {} rfl c hc
  rw [fromUtf8Ptr, ptrLoop_feed {} (toUtf8 c) rest _ c h.1, h.2.2]

example : fromUtf8Ptr (toUtf8 0x20AC ++ [0x41]) = .ok (.success 0x20AC, 3) := by decide

/-- The bound is sharp: the first value not representable is mangled (it does not fit in 21 bits). -/
theorem C01_bound_sharp : fromUtf8Ptr (toUtf8 0x200000) = .ok (.success 0, 4) := by decide

/-! ## C02 round trip for strings -/

/-- **C02.** `from_utf8(to_utf8(s)) == s` on every CPU (`k` is the detected SIMD width). -/
theorem C02_utf8_string_roundtrip (k : Nat) (cs : List Nat) (hc : ∀ c ∈ cs, c ≤ 0x1FFFFF) :
    fromUtf8Str k (toUtf8Str cs) = cs := by
  rw [fromUtf8Str_eq, toUtf8Str_eq]
  have := scalarLoop_str encode32 cs hc []
  simp only [List.append_nil, scalarLoop] at this
  rw [this]
  exact flatMap_single cs

example : fromUtf8Str 256 (toUtf8Str [0x41, 0xE9, 0x20AC, 0x1F600, 0]) = [0x41, 0xE9, 0x20AC, 0x1F600, 0] := by
  decide

/-- **C02.** The incremental decoder sees the same characters and reports nothing invalid. -/
theorem C02_utf8_incremental_string (cs : List Nat) (hc : ∀ c ∈ cs, c ≤ 0x1FFFFF) (s : DecState)
    (hs : s.expectedLength = 0) :
    successes (feed s (toUtf8Str cs)).2 = cs ∧ Result.invalid ∉ (feed s (toUtf8Str cs)).2 ∧
    (feed s (toUtf8Str cs)).1.expectedLength = 0 := by
  rw [toUtf8Str_eq]
  induction cs generalizing s with
  | nil => simp [feed, successes, hs]
  | cons c cs ih =>
    obtain ⟨h1, h2, h3⟩ := feed_toUtf8 s hs c (hc c (by simp))
    obtain ⟨i1, i2, i3⟩ := ih (fun c h => hc c (by simp [h])) _ h2
    simp only [List.flatMap_cons, feed_append]
    refine ⟨?_, ?_, i3⟩
    · simp only [successes, List.filterMap_append] at *
      rw [i1, h1]
      simp
    · simp [h1, i2]

/-- **C02.** Encoding is a homomorphism. -/
theorem C02_to_utf8_append (xs ys : List Nat) :
    toUtf8Str (xs ++ ys) = toUtf8Str xs ++ toUtf8Str ys := by
  simp only [toUtf8Str_eq, List.flatMap_append]

/-! ## C03 well-formed output -/

/-- **C03.** The encoding of every scalar value is the well-formed sequence of Table 3-7 for it. -/
theorem C03_to_utf8_wellformed (c : Nat) (h : IsScalar c) : WellFormed (toUtf8 c) c := by
  unfold IsScalar at h
  rw [toUtf8_eq]
  split
  · exact .one (by omega)
  split
  · have := @WellFormed.two (c / 64 % 32 + 0xC0) (c % 64 + 0x80) (by omega) (by omega)
      (by unfold IsCont; omega)
    rwa [show (c / 64 % 32 + 0xC0 - 0xC0) * 64 + (c % 64 + 0x80 - 0x80) = c by omega] at this
  split
  · have := @WellFormed.three (c / 4096 % 16 + 0xE0) (c / 64 % 64 + 0x80) (c % 64 + 0x80)
      (by unfold IsCont; omega) (by unfold IsCont; omega)
    rwa [show (c / 4096 % 16 + 0xE0 - 0xE0) * 4096 + (c / 64 % 64 + 0x80 - 0x80) * 64
      + (c % 64 + 0x80 - 0x80) = c by omega] at this
  · have := @WellFormed.four (c / 262144 % 8 + 0xF0) (c / 4096 % 64 + 0x80) (c / 64 % 64 + 0x80)
      (c % 64 + 0x80) (by unfold IsCont; omega) (by unfold IsCont; omega) (by unfold IsCont; omega)
    rwa [show (c / 262144 % 8 + 0xF0 - 0xF0) * 262144 + (c / 4096 % 64 + 0x80 - 0x80) * 4096
      + (c / 64 % 64 + 0x80 - 0x80) * 64 + (c % 64 + 0x80 - 0x80) = c by omega] at this

example : IsScalar 0x10FFFF ∧ WellFormed (toUtf8 0x10FFFF) 0x10FFFF :=
  ⟨by decide, C03_to_utf8_wellformed _ (by decide)⟩

/-- **C03.** Conversely every well-formed sequence is the encoder's output for its scalar value, so the
encoder's output is the *only* well-formed one. -/
theorem C03_wellformed_unique (bs : List Nat) (c : Nat) (h : WellFormed bs c) :
    IsScalar c ∧ bs = toUtf8 c := by
  unfold IsScalar
  rw [toUtf8_eq]
  cases h with
  | one h => exact ⟨by omega, by rw [if_pos (by omega)]⟩
  | two h0 h0' h1 =>
    unfold IsCont at h1
    refine ⟨by omega, ?_⟩
    rw [if_neg (by omega), if_pos (by omega)]
    simp; omega
  | three h h2 =>
    unfold IsCont at *
    refine ⟨by omega, ?_⟩
    rw [if_neg (by omega), if_neg (by omega), if_pos (by omega)]
    simp; omega
  | four h h2 h3 =>
    unfold IsCont at *
    refine ⟨by omega, ?_⟩
    rw [if_neg (by omega), if_neg (by omega), if_neg (by omega)]
    simp; omega

/-- **C03.** The encoding has 1-4 bytes, each a byte. -/
theorem C03_to_utf8_length (c : Nat) :
    (toUtf8 c).length = (if c ≤ 0x7F then 1 else if c ≤ 0x7FF then 2 else if c ≤ 0xFFFF then 3 else 4) ∧
    ∀ b ∈ toUtf8 c, b < 256 := by
  refine ⟨?_, toUtf8_lt256 c⟩
  rw [toUtf8_eq]
  repeat' split
  all_goals rfl

/-- **C03.** No encoding is a proper prefix of (or equal to) another codepoint's encoding. -/
theorem C03_prefix_free (c d : Nat) (hc : c ≤ 0x1FFFFF) (hd : d ≤ 0x1FFFFF) (rest : List Nat)
    (h : toUtf8 d = toUtf8 c ++ rest) : c = d ∧ rest = [] := by
  have h1 := C01_utf8_ptr_roundtrip c hc rest
  have h2 := C01_utf8_ptr_roundtrip d hd []
  rw [List.append_nil, h, h1] at h2
  injection h2 with h2
  injection h2 with h3 h4
  injection h3 with h3
  refine ⟨h3, ?_⟩
  rw [List.length_append] at h4
  have : rest.length = 0 := by
    have h5 : (toUtf8 c ++ rest).length = (toUtf8 c).length := by rw [← h, h3]
    simp only [List.length_append] at h5; omega
  exact List.length_eq_zero_iff.1 this

/-- **C03.** Distinct codepoints have distinct encodings. -/
theorem C03_injective (c d : Nat) (hc : c ≤ 0x1FFFFF) (hd : d ≤ 0x1FFFFF) (h : toUtf8 c = toUtf8 d) :
    c = d :=
  (C03_prefix_free c d hc hd [] (by rw [List.append_nil, h])).1

/-- **C03.** Encoding of strings is injective as well (unique decodability). -/
theorem C03_string_injective (xs ys : List Nat) (hx : ∀ c ∈ xs, c ≤ 0x1FFFFF)
    (hy : ∀ c ∈ ys, c ≤ 0x1FFFFF) (h : toUtf8Str xs = toUtf8Str ys) : xs = ys := by
  rw [← C02_utf8_string_roundtrip 128 xs hx, h, C02_utf8_string_roundtrip 128 ys hy]

/-! ## C04 what the incremental decoder accepts -/

/-- What the incremental decoder really accepts: an ASCII byte, or a lead byte followed by the announced
number of bytes that are not lead bytes (they need not be continuation bytes). -/
inductive Loose : List Nat → Nat → Prop
  | one  {b} : b < 0x80 → Loose [b] b
  | two  {b0 b1} : 0xC0 ≤ b0 → b0 < 0xE0 → (b1 < 0xC0 ∨ 0xF8 ≤ b1) →
      Loose [b0, b1] ((b0 - 0xC0) * 64 + b1 % 64)
  | three {b0 b1 b2} : 0xE0 ≤ b0 → b0 < 0xF0 → (b1 < 0xC0 ∨ 0xF8 ≤ b1) → (b2 < 0xC0 ∨ 0xF8 ≤ b2) →
      Loose [b0, b1, b2] ((b0 - 0xE0) * 4096 + b1 % 64 * 64 + b2 % 64)
  | four {b0 b1 b2 b3} : 0xF0 ≤ b0 → b0 < 0xF8 → (b1 < 0xC0 ∨ 0xF8 ≤ b1) → (b2 < 0xC0 ∨ 0xF8 ≤ b2) →
      (b3 < 0xC0 ∨ 0xF8 ≤ b3) →
      Loose [b0, b1, b2, b3] ((b0 - 0xF0) * 262144 + b1 % 64 * 4096 + b2 % 64 * 64 + b3 % 64)

/-- Bytes of the character in progress, reconstructed from the history. -/
private inductive Pend : DecState → List Nat → Prop
  | idle {s : DecState} : s.expectedLength = 0 → Pend s []
  | l2 {s : DecState} {b0} : 0xC0 ≤ b0 → b0 < 0xE0 → s = ⟨b0 - 0xC0, 2, 1⟩ → Pend s [b0]
  | l3 {s : DecState} {b0} : 0xE0 ≤ b0 → b0 < 0xF0 → s = ⟨b0 - 0xE0, 3, 1⟩ → Pend s [b0]
  | l31 {s : DecState} {b0 b1} : 0xE0 ≤ b0 → b0 < 0xF0 → (b1 < 0xC0 ∨ 0xF8 ≤ b1) →
      s = ⟨(b0 - 0xE0) * 64 + b1 % 64, 3, 2⟩ → Pend s [b0, b1]
  | l4 {s : DecState} {b0} : 0xF0 ≤ b0 → b0 < 0xF8 → s = ⟨b0 - 0xF0, 4, 1⟩ → Pend s [b0]
  | l41 {s : DecState} {b0 b1} : 0xF0 ≤ b0 → b0 < 0xF8 → (b1 < 0xC0 ∨ 0xF8 ≤ b1) →
      s = ⟨(b0 - 0xF0) * 64 + b1 % 64, 4, 2⟩ → Pend s [b0, b1]
  | l42 {s : DecState} {b0 b1 b2} : 0xF0 ≤ b0 → b0 < 0xF8 → (b1 < 0xC0 ∨ 0xF8 ≤ b1) →
      (b2 < 0xC0 ∨ 0xF8 ≤ b2) →
      s = ⟨((b0 - 0xF0) * 64 + b1 % 64) * 64 + b2 % 64, 4, 3⟩ → Pend s [b0, b1, b2]

private theorem pend_start (s : DecState) (b : Nat) (hb : b < 256) :
    ((startByte s b).2 = .success b ∧ b < 0x80 ∧ (startByte s b).1.expectedLength = s.expectedLength) ∨
    ((startByte s b).2 = .incomplete ∧ 0xC0 ≤ b ∧ b < 0xF8 ∧ Pend (startByte s b).1 [b]) ∨
    ((startByte s b).2 = .invalid ∧ Pend (startByte s b).1 [] ∧ (b < 0xC0 ∨ 0xF8 ≤ b) ∧ 0x80 ≤ b) := by
  rw [startByte_eq s b hb]
  split
  · left; simp; assumption
  split
  · right; right; exact ⟨rfl, .idle rfl, by omega, by omega⟩
  split
  · right; left; exact ⟨rfl, by omega, by omega, .l2 (by omega) (by omega) rfl⟩
  split
  · right; left; exact ⟨rfl, by omega, by omega, .l3 (by omega) (by omega) rfl⟩
  split
  · right; left; exact ⟨rfl, by omega, by omega, .l4 (by omega) (by omega) rfl⟩
  · right; right; exact ⟨rfl, .idle rfl, by omega, by omega⟩

/-- One step: either a character is completed from pending bytes plus the new byte, or the byte joins the
pending bytes, or an error is reported and the pending bytes are exactly the new lead byte or nothing. -/
private theorem pend_step (s : DecState) (p : List Nat) (b : Nat) (hb : b < 256) (h : Pend s p) :
    (∃ v, (fromUtf8 s b).2 = .success v ∧ Loose (p ++ [b]) v ∧ Pend (fromUtf8 s b).1 []) ∨
    ((fromUtf8 s b).2 = .incomplete ∧ Pend (fromUtf8 s b).1 (p ++ [b])) ∨
    ((fromUtf8 s b).2 = .invalid ∧
      ((Pend (fromUtf8 s b).1 [b] ∧ 0xC0 ≤ b ∧ b < 0xF8 ∧ p ≠ []) ∨
       (Pend (fromUtf8 s b).1 [] ∧ p = [] ∧ 0x80 ≤ b ∧ (b < 0xC0 ∨ 0xF8 ≤ b)))) := by
  by_cases h0 : s.expectedLength = 0
  · have hp : p = [] := by cases h <;> simp_all
    subst hp
    rw [fromUtf8_idle s b h0]
    rcases pend_start s b hb with ⟨h1, h2, h3⟩ | ⟨h1, h2, h3, h4⟩ | ⟨h1, h2, h3, h4⟩
    · left; exact ⟨b, h1, .one h2, .idle (h3.trans h0)⟩
    · right; left; exact ⟨h1, h4⟩
    · right; right; exact ⟨h1, .inr ⟨h2, rfl, h4, h3⟩⟩
  · have hp : p ≠ [] := by cases h <;> simp_all
    by_cases hl : 0xC0 ≤ b ∧ b < 0xF8
    · right; right
      rw [fromUtf8_lead s b hl.1 hl.2 h0]
      refine ⟨rfl, .inl ⟨?_, hl.1, hl.2, hp⟩⟩
      rcases pend_start { s with expectedLength := 0 } b hb with ⟨h1, h2, h3⟩ | ⟨h1, h2, h3, h4⟩ | ⟨h1, h2, h3, h4⟩
      · omega
      · exact h4
      · omega
    · have hl' : b < 0xC0 ∨ 0xF8 ≤ b := by omega
      cases h with
      | idle h => exact absurd h h0
      | l2 a1 a2 a3 =>
        subst a3
        rw [fromUtf8_cont _ b hb (by simp) hl' (by simp; omega)]
        left; exact ⟨_, rfl, .two a1 a2 hl', .idle rfl⟩
      | l3 a1 a2 a3 =>
        subst a3
        rw [fromUtf8_cont _ b hb (by simp) hl' (by simp; omega)]
        right; left; exact ⟨rfl, .l31 a1 a2 hl' rfl⟩
      | l31 a1 a2 a3 a4 =>
        subst a4
        rw [fromUtf8_cont _ b hb (by simp) hl' (by simp; omega)]
        left
        refine ⟨_, rfl, ?_, .idle rfl⟩
        rename_i b0 b1
        have := Loose.three a1 a2 a3 hl'
        rwa [show (b0 - 0xE0) * 4096 + b1 % 64 * 64 + b % 64 = ((b0 - 224) * 64 + b1 % 64) * 64 + b % 64
          by omega] at this
      | l4 a1 a2 a3 =>
        subst a3
        rw [fromUtf8_cont _ b hb (by simp) hl' (by simp; omega)]
        right; left; exact ⟨rfl, .l41 a1 a2 hl' rfl⟩
      | l41 a1 a2 a3 a4 =>
        subst a4
        rw [fromUtf8_cont _ b hb (by simp) hl' (by simp; omega)]
        right; left; exact ⟨rfl, .l42 a1 a2 a3 hl' rfl⟩
      | l42 a1 a2 a3 a4 a5 =>
        subst a5
        rw [fromUtf8_cont _ b hb (by simp) hl' (by simp; omega)]
        left
        refine ⟨_, rfl, ?_, .idle rfl⟩
        rename_i b0 b1 b2
        have := Loose.four a1 a2 a3 a4 hl'
        rwa [show (b0 - 0xF0) * 262144 + b1 % 64 * 4096 + b2 % 64 * 64 + b % 64
          = (((b0 - 240) * 64 + b1 % 64) * 64 + b2 % 64) * 64 + b % 64 by omega] at this

private theorem pend_feed (h : List Nat) (hb : ∀ b ∈ h, b < 256) :
    ∃ pre p, h = pre ++ p ∧ Pend (feed {} h).1 p := by
  induction h using List.reverseRecOn with
  | nil => exact ⟨[], [], rfl, .idle rfl⟩
  | append_singleton h b ih =>
    obtain ⟨pre, p, hp, hP⟩ := ih (fun x hx => hb x (by simp [hx]))
    have hs := pend_step _ p b (hb b (by simp)) hP
    rw [feed_append]
    simp only [feed]
    rcases hs with ⟨v, _, _, h3⟩ | ⟨_, h3⟩ | ⟨_, ⟨h3, _⟩ | ⟨h3, _⟩⟩
    · exact ⟨h ++ [b], [], by simp, h3⟩
    · exact ⟨pre, p ++ [b], by rw [← List.append_assoc, ← hp], h3⟩
    · exact ⟨h, [b], rfl, h3⟩
    · exact ⟨h ++ [b], [], by simp, h3⟩

/-- Full claim of **C04** (what a strict decoder would satisfy): whenever the decoder reports `Success(v)`,
the bytes received since the last report end in a well-formed UTF-8 sequence for `v`. -/
def C04_StrictDecoder : Prop :=
  ∀ (h : List Nat) (b v : Nat), (∀ x ∈ h ++ [b], x < 256) →
    (fromUtf8 (feed {} h).1 b).2 = .success v →
    ∃ pre bs, h ++ [b] = pre ++ bs ∧ WellFormed bs v

/-- **C04 is false of the code**: `C3 28` is reported as `Success(U+00E8)`. -/
theorem C04_strict_fails : ¬ C04_StrictDecoder := by
  intro h
  obtain ⟨pre, bs, h1, h2⟩ := h [0xC3] 0x28 0xE8 (by decide) (by decide)
  have h3 := (C03_wellformed_unique bs 0xE8 h2).2
  rw [show toUtf8 0xE8 = [0xC3, 0xA8] by decide] at h3
  subst h3
  match pre, h1 with
  | [], h => simp at h
  | [_], h => simp at h
  | _ :: _ :: _, h => simp at h

/-- Further ill-formed inputs reported as `Success`: overlong NUL, overlong '/', a surrogate, a value above
U+10FFFF. -/
theorem C04_more_ill_formed_accepted :
    (feed {} [0xC0, 0x80]).2 = [.incomplete, .success 0] ∧
    (feed {} [0xE0, 0x80, 0xAF]).2 = [.incomplete, .incomplete, .success 0x2F] ∧
    (feed {} [0xED, 0xA0, 0x80]).2 = [.incomplete, .incomplete, .success 0xD800] ∧
    (feed {} [0xF7, 0xBF, 0xBF, 0xBF]).2 = [.incomplete, .incomplete, .incomplete, .success 0x1FFFFF] := by
  decide

/-- **C04 (proved part).** For every history, a reported `Success(v)` is justified by the bytes just
received: they end with a lead byte followed by the announced number of non-lead bytes whose payload bits
are exactly `v`; nothing received earlier influences `v`.  Missing from the full claim: rejection of
overlong forms, surrogates, values above U+10FFFF and of non-continuation bytes inside a sequence. -/
theorem C04_success_justified_partial (h : List Nat) (b v : Nat) (hb : ∀ x ∈ h ++ [b], x < 256)
    (hr : (fromUtf8 (feed {} h).1 b).2 = .success v) :
    ∃ pre bs, h ++ [b] = pre ++ bs ∧ Loose bs v := by
  obtain ⟨pre, p, hp, hP⟩ := pend_feed h (fun x hx => hb x (by simp [hx]))
  rcases pend_step _ p b (hb b (by simp)) hP with ⟨v', h1, h2, _⟩ | ⟨h1, _⟩ | ⟨h1, _⟩
  · rw [h1] at hr; injection hr with hr; subst hr
    exact ⟨pre, p ++ [b], by rw [← List.append_assoc, ← hp], h2⟩
  · rw [h1] at hr; cases hr
  · rw [h1] at hr; cases hr

/-- **C04 (proved part).** If all non-lead, non-ASCII bytes are genuine continuation bytes in their places —
i.e. the accepted bytes are a lead byte, continuation bytes, in shortest form, not a surrogate and in range —
then the accepted sequence is the well-formed one. -/
theorem C04_loose_wellformed_partial (bs : List Nat) (v : Nat) (h : Loose bs v)
    (hcont : ∀ b ∈ bs.tail, IsCont b) (hscalar : IsScalar v) (hshort : (toUtf8 v).length = bs.length) :
    WellFormed bs v := by
  rw [(C03_to_utf8_length v).1] at hshort
  unfold IsScalar at hscalar
  cases h with
  | one h => exact .one (by omega)
  | @two b0 b1 h0 h0' h1 =>
    have c1 : IsCont b1 := hcont b1 (by simp)
    have := @WellFormed.two b0 b1
    unfold IsCont at *
    simp only [List.length_cons, List.length_nil] at hshort
    have h := this (by split at hshort <;> (try split at hshort) <;> omega) (by omega) c1
    rwa [show (b0 - 192) * 64 + (b1 - 128) = (b0 - 192) * 64 + b1 % 64 by omega] at h
  | @three b0 b1 b2 h0 h0' h1 h2 =>
    have c1 : IsCont b1 := hcont b1 (by simp)
    have c2 : IsCont b2 := hcont b2 (by simp)
    have := @WellFormed.three b0 b1 b2
    unfold IsCont at *
    simp only [List.length_cons, List.length_nil] at hshort
    have h := this (by split at hshort <;> (try split at hshort) <;> (try split at hshort) <;> omega) c2
    rwa [show (b0 - 224) * 4096 + (b1 - 128) * 64 + (b2 - 128)
      = (b0 - 224) * 4096 + b1 % 64 * 64 + b2 % 64 by omega] at h
  | @four b0 b1 b2 b3 h0 h0' h1 h2 h3 =>
    have c1 : IsCont b1 := hcont b1 (by simp)
    have c2 : IsCont b2 := hcont b2 (by simp)
    have c3 : IsCont b3 := hcont b3 (by simp)
    have := @WellFormed.four b0 b1 b2 b3
    unfold IsCont at *
    simp only [List.length_cons, List.length_nil] at hshort
    have h := this (by split at hshort <;> (try split at hshort) <;> (try split at hshort) <;> omega) c2 c3
    rwa [show (b0 - 240) * 262144 + (b1 - 128) * 4096 + (b2 - 128) * 64 + (b3 - 128)
      = (b0 - 240) * 262144 + b1 % 64 * 4096 + b2 % 64 * 64 + b3 % 64 by omega] at h

example : Loose [0xE2, 0x82, 0xAC] 0x20AC := .three (by decide) (by decide) (by decide) (by decide)

/-- **C04 (proved part).** Error reporting: a stray continuation byte or a byte F8..FF outside a sequence is
`Invalid`; a lead byte inside an unfinished sequence is `Invalid`; nothing else is. -/
theorem C04_invalid_iff (h : List Nat) (b : Nat) (hb : ∀ x ∈ h ++ [b], x < 256) :
    (fromUtf8 (feed {} h).1 b).2 = .invalid ↔
      if (feed {} h).1.expectedLength = 0 then (0x80 ≤ b ∧ b < 0xC0) ∨ 0xF8 ≤ b
      else 0xC0 ≤ b ∧ b < 0xF8 := by
  obtain ⟨pre, p, hp, hP⟩ := pend_feed h (fun x hx => hb x (by simp [hx]))
  have hb' := hb b (by simp)
  split
  · rename_i h0
    rw [fromUtf8_idle _ b h0, startByte_eq _ b hb']
    repeat' split
    all_goals simp
    all_goals omega
  · rename_i h0
    constructor
    · intro hi
      rcases pend_step _ p b hb' hP with ⟨v', h1, h2, _⟩ | ⟨h1, _⟩ | ⟨h1, ⟨_, h2, h3, _⟩ | ⟨_, h2, _⟩⟩
      · rw [h1] at hi; cases hi
      · rw [h1] at hi; cases hi
      · exact ⟨h2, h3⟩
      · subst h2; cases hP; contradiction
    · intro hl; rw [fromUtf8_lead _ b hl.1 hl.2 h0]

example : ∀ x ∈ [0xE2, 0x82] ++ [0xC3], x < 256 := by decide

/-! ## C05 resynchronisation -/

/-- Full claim of **C05**: after any history the next well-formed character is decoded. -/
def C05_Resync : Prop :=
  ∀ (h : List Nat) (c : Nat), (∀ x ∈ h, x < 256) → IsScalar c →
    (feed {} (h ++ toUtf8 c)).2.getLast? = some (.success c)

/-- **C05 is false of the code**: the ASCII character after a truncated sequence is swallowed. -/
theorem C05_resync_fails : ¬ C05_Resync := by
  intro h
  have := h [0xC3] 0x28 (by decide) (by decide)
  revert this; decide

/-- **C05 (proved part).** After *any* byte history, every codepoint encoded in two or more bytes is decoded
correctly and leaves the decoder idle.  Missing from the full claim: ASCII characters while the decoder is
in the middle of a truncated sequence. -/
theorem C05_resync_multibyte_partial (h : List Nat) (c : Nat) (hc : 0x80 ≤ c) (hc' : c ≤ 0x1FFFFF) :
    (feed {} (h ++ toUtf8 c)).2.getLast? = some (.success c) ∧
    (feed {} (h ++ toUtf8 c)).1.expectedLength = 0 := by
  rw [feed_append]
  generalize (feed {} h).1 = s
  generalize (feed {} h).2 = rs
  have hidle : ∀ t : DecState, t.expectedLength = 0 →
      (rs ++ (feed t (toUtf8 c)).2).getLast? = some (.success c) ∧
        (feed t (toUtf8 c)).1.expectedLength = 0 := by
    intro t ht
    obtain ⟨h1, h2, _⟩ := feed_toUtf8 t ht c hc'
    exact ⟨by rw [h1, ← List.append_assoc]; simp, h2⟩
  by_cases h0 : s.expectedLength = 0
  · exact hidle s h0
  · have hi := hidle { s with expectedLength := 0 } rfl
    have hform : ∃ b b' bs, toUtf8 c = b :: b' :: bs ∧ 0xC0 ≤ b ∧ b < 0xF8 := by
      rw [toUtf8_eq, if_neg (by omega)]
      repeat' split
      all_goals exact ⟨_, _, _, rfl, by omega, by omega⟩
    obtain ⟨b, b', bs, he, hb, hb'⟩ := hform
    rw [he] at hi ⊢
    have e1 : fromUtf8 { s with expectedLength := 0 } b = startByte { s with expectedLength := 0 } b :=
      fromUtf8_idle _ _ rfl
    simp only [feed, e1] at hi
    simp only [feed, fromUtf8_lead s b hb hb' h0]
    simpa [List.getLast?_append, List.getLast?_cons] using hi

/-- **C05 (proved part).** ASCII is decoded whenever the previous character was complete. -/
theorem C05_resync_ascii_partial (h : List Nat) (c : Nat) (hc : c < 0x80)
    (hidle : (feed {} h).1.expectedLength = 0) :
    (feed {} (h ++ [c])).2.getLast? = some (.success c) := by
  rw [feed_append]
  simp only [feed, fromUtf8_idle _ _ hidle, startByte_eq _ c (by omega), if_pos hc]
  simp

example : (feed {} [0xE2, 0xFF, 0x20, 0xC3]).1.expectedLength ≠ 0 ∧
    (feed {} ([0xE2, 0x82] ++ toUtf8 0x20AC)).2.getLast? = some (.success 0x20AC) := by decide

/-- **C05 (proved part).** An unfinished sequence never swallows more than three following bytes: from any
reachable state, after at most three non-lead bytes the decoder is idle again. -/
theorem C05_bounded_damage (h : List Nat) (hb : ∀ x ∈ h, x < 256) (b1 b2 b3 : Nat)
    (h1 : b1 < 0xC0 ∨ (0xF8 ≤ b1 ∧ b1 < 256)) (h2 : b2 < 0xC0 ∨ (0xF8 ≤ b2 ∧ b2 < 256))
    (h3 : b3 < 0xC0 ∨ (0xF8 ≤ b3 ∧ b3 < 256)) :
    (feed {} (h ++ [b1, b2, b3])).1.expectedLength = 0 := by
  obtain ⟨pre, p, hp, hP⟩ := pend_feed h hb
  rw [feed_append]
  generalize (feed {} h).1 = s at hP
  have hs : ∀ (s : DecState) (b : Nat), (b < 0xC0 ∨ (0xF8 ≤ b ∧ b < 256)) → ∀ p, Pend s p →
      Pend (fromUtf8 s b).1 [] ∨ (p ≠ [] ∧ Pend (fromUtf8 s b).1 (p ++ [b])) := by
    intro s b hb p hP
    have hb' : b < 256 := by omega
    by_cases hi : p = []
    · subst hi
      have : s.expectedLength = 0 := by cases hP; assumption
      left
      rw [fromUtf8_idle s b this, startByte_eq s b hb']
      repeat' split
      all_goals first | omega | exact .idle (by simpa using this)
    · rcases pend_step s p b hb' hP with ⟨v', _, _, h⟩ | ⟨_, h⟩ | ⟨_, ⟨_, h4, h5, _⟩ | ⟨h, _⟩⟩
      · exact .inl h
      · exact .inr ⟨hi, h⟩
      · omega
      · exact .inl h
  have idle : ∀ s, Pend s [] → s.expectedLength = 0 := by intro s h; cases h; assumption
  simp only [feed]
  have e0 : ∀ s b, (b < 0xC0 ∨ (0xF8 ≤ b ∧ b < 256)) → Pend s [] → Pend (fromUtf8 s b).1 [] := by
    intro s b hb hP
    rcases hs s b hb [] hP with h | ⟨h, _⟩
    · exact h
    · exact absurd rfl h
  rcases hs s b1 h1 p hP with q | ⟨hp0, q⟩
  · exact idle _ (e0 _ _ h3 (e0 _ _ h2 q))
  rcases hs _ b2 h2 _ q with q | ⟨_, q⟩
  · exact idle _ (e0 _ _ h3 q)
  rcases hs _ b3 h3 _ q with q | ⟨_, q⟩
  · exact idle _ q
  · exfalso
    have hl : ∀ s p, Pend s p → p.length ≤ 3 := by intro s p h; cases h <;> simp
    have := hl _ _ q
    simp only [List.length_append, List.length_cons, List.length_nil] at this
    have : 0 < p.length := List.length_pos_iff.2 hp0
    omega

end Verif.Props
