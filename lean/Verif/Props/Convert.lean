import Verif.Props.Utf8
/-!
# Properties C06-C10: UTF-16, transcoding, SIMD, buffer bounds, iterator safety
-/

namespace Verif.Props
open Verif.Utf8 Verif.Spec Verif.Convert

/-! ## C06 UTF-16 -/

private theorem wf16_encode16 (c : Nat) (h : IsScalar c) : WellFormed16 (encode16 c) c := by
  have h' := h
  unfold IsScalar at h
  unfold encode16
  split
  · rw [Nat.mod_eq_of_lt (by omega)]; exact .bmp h' (by omega)
  split
  · rw [if_neg (by omega), Nat.mod_eq_of_lt (by omega)]; exact .bmp h' (by omega)
  rw [if_pos (by omega), and_3FF, Nat.shiftRight_eq_div_pow]
  have := @WellFormed16.pair ((0xD7C0 + c / 2^10) % 2^16) ((0xDC00 + c % 1024) % 2^16)
    (by omega) (by omega) (by omega) (by omega)
  rwa [show 0x10000 + ((0xD7C0 + c / 2^10) % 2^16 - 0xD800) * 0x400
    + ((0xDC00 + c % 1024) % 2^16 - 0xDC00) = c by omega] at this

private theorem wf16_unique (us : List Nat) (c : Nat) (h : WellFormed16 us c) :
    IsScalar c ∧ us = encode16 c := by
  cases h with
  | bmp h h' =>
    refine ⟨h, ?_⟩
    unfold IsScalar at h
    unfold encode16
    split
    · rw [Nat.mod_eq_of_lt (by omega)]
    · rw [if_pos (by omega), if_neg (by omega), Nat.mod_eq_of_lt (by omega)]
  | pair h1 h2 h3 h4 =>
    refine ⟨by unfold IsScalar; omega, ?_⟩
    unfold encode16
    rw [if_neg (by omega), if_neg (by omega), if_pos (by omega), and_3FF, Nat.shiftRight_eq_div_pow]
    simp; omega

private theorem flatMap_scalars (cs : List Nat) (write : Nat → List Nat) (hw : ∀ c, ¬ IsScalar c → write c = []) :
    cs.flatMap write = (cs.filter (fun c => decide (IsScalar c))).flatMap write := by
  induction cs with
  | nil => rfl
  | cons c cs ih =>
    simp only [List.flatMap_cons, List.filter_cons]
    split
    · simp [ih]
    · rename_i h
      rw [hw c (by simpa using h), ih]; simp

private theorem encode16_nonscalar (c : Nat) (h : ¬ IsScalar c) : encode16 c = [] := by
  unfold IsScalar at h
  unfold encode16
  repeat' split
  all_goals first | omega | rfl

private theorem wf16_flatMap (cs : List Nat) (h : ∀ c ∈ cs, IsScalar c) :
    WellFormed16Str (cs.flatMap encode16) cs := by
  induction cs with
  | nil => exact .nil
  | cons c cs ih =>
    simp only [List.flatMap_cons]
    exact .cons (wf16_encode16 c (h c (by simp))) (ih (fun c hc => h c (by simp [hc])))

private theorem wf16_str (us cs : List Nat) (h : WellFormed16Str us cs) :
    (∀ c ∈ cs, IsScalar c) ∧ us = cs.flatMap encode16 := by
  induction h with
  | nil => simp
  | cons h _ ih =>
    obtain ⟨h1, h2⟩ := wf16_unique _ _ h
    refine ⟨?_, by rw [List.flatMap_cons, ← ih.2, ← h2]⟩
    intro c hc
    rcases List.mem_cons.1 hc with rfl | hc
    · exact h1
    · exact ih.1 c hc

private theorem wf8_flatMap (cs : List Nat) (h : ∀ c ∈ cs, IsScalar c) :
    WellFormedStr (cs.flatMap toUtf8) cs := by
  induction cs with
  | nil => exact .nil
  | cons c cs ih =>
    simp only [List.flatMap_cons]
    exact .cons (C03_to_utf8_wellformed c (h c (by simp))) (ih (fun c hc => h c (by simp [hc])))

private theorem wf8_str (bs cs : List Nat) (h : WellFormedStr bs cs) :
    (∀ c ∈ cs, IsScalar c) ∧ bs = cs.flatMap toUtf8 := by
  induction h with
  | nil => simp
  | cons h _ ih =>
    obtain ⟨h1, h2⟩ := C03_wellformed_unique _ _ h
    refine ⟨?_, by rw [List.flatMap_cons, ← ih.2, ← h2]⟩
    intro c hc
    rcases List.mem_cons.1 hc with rfl | hc
    · exact h1
    · exact ih.1 c hc

private theorem scalar_le (c : Nat) (h : IsScalar c) : c ≤ 0x1FFFFF := by unfold IsScalar at h; omega

/-- **C06.** For *every* UTF-32 string (also with surrogates or out-of-range values) the UTF-16 conversion
never fails and its output is the well-formed UTF-16 of the scalar values in it: everything else is
dropped, no lone surrogate is ever emitted. -/
theorem C06_utf16_output_wellformed (cs : List Nat) :
    ∃ us, convertTo16From32 cs = .ok us ∧
      WellFormed16Str us (cs.filter (fun c => decide (IsScalar c))) := by
  refine ⟨_, convert32_any encode16 cs, ?_⟩
  rw [flatMap_scalars cs encode16 encode16_nonscalar]
  exact wf16_flatMap _ (by simp)

/-- **C06.** Well-formed UTF-16 converts back to exactly the codepoints it encodes. -/
theorem C06_utf16_decode_wellformed (us cs : List Nat) (h : WellFormed16Str us cs) :
    convertTo32From16 us = .ok cs := by
  obtain ⟨h1, rfl⟩ := wf16_str us cs h
  have := convertIt_flatMap decode16It encode32 encode16 cs (fun c hc => encode16_ne_nil c (h1 c hc))
    (fun c hc rest => decode16_read c (h1 c hc) rest)
  rw [convertTo32From16, this]
  exact congrArg Mem.ok (flatMap_single cs)

/-- **C06.** UTF-32 → UTF-16 → UTF-32 is the identity on strings of scalar values. -/
theorem C06_utf16_roundtrip (cs : List Nat) (h : ∀ c ∈ cs, IsScalar c) :
    ∃ us, convertTo16From32 cs = .ok us ∧ convertTo32From16 us = .ok cs :=
  ⟨_, convert32_any encode16 cs, C06_utf16_decode_wellformed _ _ (wf16_flatMap cs h)⟩

example : convertTo16From32 [0x41, 0xD800, 0x1F600, 0x110000, 0xFFFF] =
    .ok [0x41, 0xD83D, 0xDE00, 0xFFFF] := by decide
example : convertTo32From16 [0x41, 0xD83D, 0xDE00, 0xFFFF] = .ok [0x41, 0x1F600, 0xFFFF] := by decide

/-! ## C07 transcoding diagram -/

/-- **C07.** On well-formed UTF-8 the direct UTF-8 → UTF-16 conversion (any CPU) equals
UTF-8 → UTF-32 → UTF-16, both are the well-formed UTF-16 of the text. -/
theorem C07_utf8_to_utf16_direct (k k' : Nat) (bs cs : List Nat) (h : WellFormedStr bs cs) :
    fromUtf8Str k bs = cs ∧
    convertTo16From32 (fromUtf8Str k bs) = .ok (convertTo16FromUtf8 k' bs) ∧
    WellFormed16Str (convertTo16FromUtf8 k' bs) cs := by
  obtain ⟨h1, rfl⟩ := wf8_str bs cs h
  have h2 := C02_utf8_string_roundtrip k cs (fun c hc => scalar_le c (h1 c hc))
  rw [toUtf8Str_eq] at h2
  have h3 := scalarLoop_str encode16 cs (fun c hc => scalar_le c (h1 c hc)) []
  simp only [List.append_nil, scalarLoop] at h3
  rw [h2, convertTo16FromUtf8_eq, h3]
  exact ⟨rfl, convert32_any encode16 cs, wf16_flatMap cs h1⟩

/-- **C07.** UTF-16 → UTF-8 yields the bytes of encoding the UTF-32 text directly, and every leg of the
triangle UTF-8 / UTF-16 / UTF-32 is inverse to the opposite leg. -/
theorem C07_utf16_to_utf8 (us cs : List Nat) (h : WellFormed16Str us cs) :
    convertTo8From16 us = .ok (toUtf8Str cs) ∧ convertTo8From32 cs = .ok (toUtf8Str cs) ∧
    WellFormedStr (toUtf8Str cs) cs ∧ ∀ k, convertTo16FromUtf8 k (toUtf8Str cs) = us := by
  obtain ⟨h1, rfl⟩ := wf16_str us cs h
  have h0 : WellFormedStr (toUtf8Str cs) cs := by rw [toUtf8Str_eq]; exact wf8_flatMap cs h1
  refine ⟨?_, ?_, h0, ?_⟩
  · have := convertIt_flatMap decode16It encode8 encode16 cs (fun c hc => encode16_ne_nil c (h1 c hc))
      (fun c hc rest => decode16_read c (h1 c hc) rest)
    rw [convertTo8From16, this, toUtf8Str_eq]; rfl
  · rw [convertTo8From32, convert32_any, toUtf8Str_eq]; rfl
  · intro k
    exact (wf16_str _ _ (C07_utf8_to_utf16_direct k k _ cs h0).2.2).2

example : WellFormed16Str [0x41, 0xD83D, 0xDE00] [0x41, 0x1F600] :=
  .cons (us := [0x41]) (.bmp (by decide) (by decide))
    (.cons (us := [0xD83D, 0xDE00]) (rest := []) (.pair (by decide) (by decide) (by decide) (by decide)) .nil)

/-! ## C08 SIMD = scalar -/

/-- **C08.** For every byte string, block width `w` (16, 32, 64 in the code) and both output encodings the
vectorised conversion returns what feeding the byte decoder one byte at a time returns. -/
theorem C08_simd_eq_scalar (w : Nat) (bs : List Nat) :
    utf8ToUtf32Simd w bs = scalarLoop encode32 {} bs ∧
    utf8ToUtf16Simd w bs = scalarLoop encode16 {} bs :=
  ⟨utf8ToUtf32Simd_eq w bs, utf8ToUtf16Simd_eq w bs⟩

/-- **C08.** Hence the library-level results do not depend on the detected CPU. -/
theorem C08_cpu_independent (k k' : Nat) (bs : List Nat) :
    fromUtf8Str k bs = fromUtf8Str k' bs ∧ convertTo16FromUtf8 k bs = convertTo16FromUtf8 k' bs := by
  simp only [fromUtf8Str_eq, convertTo16FromUtf8_eq, and_self]

-- 17 bytes: one full block of 16 ASCII bytes, then a truncated sequence
example : utf8ToUtf32Simd 16 (List.replicate 16 0x41 ++ [0xC3, 0xA9, 0xE2]) = List.replicate 16 0x41 ++ [0xE9] := by
  decide

/-- **C08.** A pure ASCII string is converted to itself, of whatever length and for every CPU. -/
theorem C08_ascii_identity (k : Nat) (bs : List Nat) (h : ∀ b ∈ bs, b < 0x80) :
    fromUtf8Str k bs = bs ∧ convertTo16FromUtf8 k bs = bs := by
  rw [fromUtf8Str_eq, convertTo16FromUtf8_eq]
  have h1 := scalarLoop_ascii encode32 encode32_ascii bs [] h
  have h2 := scalarLoop_ascii encode16 encode16_ascii bs [] h
  simp only [List.append_nil, scalarLoop] at h1 h2
  exact ⟨h1, h2⟩

/-! ## C09 output bound -/

/-- **C09.** Converting `n` arbitrary bytes writes at most `n` output units, for every CPU: the result
buffer, pre-sized to `n`, is never overrun. -/
theorem C09_output_fits (k : Nat) (bs : List Nat) (hb : ∀ b ∈ bs, b < 256) :
    (fromUtf8Str k bs).length ≤ bs.length ∧ (convertTo16FromUtf8 k bs).length ≤ bs.length := by
  rw [fromUtf8Str_eq, convertTo16FromUtf8_eq]
  exact ⟨scalarLoop32_length {} bs, scalarLoop16_length {} (.inl rfl) bs hb⟩

/-- Every prefix of the work fits as well: no intermediate write leaves the buffer. -/
theorem C09_output_fits_prefix (k : Nat) (bs : List Nat) (hb : ∀ b ∈ bs, b < 256) (n : Nat) :
    (convertTo16FromUtf8 k (bs.take n)).length ≤ bs.length := by
  have := (C09_output_fits k (bs.take n) (fun b h => hb b (List.mem_of_mem_take h))).2
  simp only [List.length_take] at this
  omega

example : ∀ b ∈ [0xF0, 0x90, 0xFF, 0x41, 0xF4], b < 256 := by decide

/-- **C09.** Every decoded value fits in 21 bits, whatever the bytes. -/
theorem C09_values_bounded (k : Nat) (bs : List Nat) (hb : ∀ b ∈ bs, b < 256) :
    ∀ c ∈ fromUtf8Str k bs, c < 2^21 := by
  rw [fromUtf8Str_eq]
  suffices ∀ (s : DecState), DecInv s → ∀ c ∈ scalarLoop encode32 s bs, c < 2^21 from
    this {} (.inl rfl)
  intro s hs
  induction bs generalizing s with
  | nil => simp [scalarLoop]
  | cons b bs ih =>
    have h := decode8_inv s b (hb b (by simp)) hs
    have ih := ih (fun b h => hb b (by simp [h])) (decode8 s b).1 h.1
    rw [scalarLoop]
    generalize decode8 s b = d at *
    obtain ⟨d1, d2⟩ := d
    cases d2 with
    | none => exact ih
    | some c =>
      intro x hx
      simp only [encode32, List.cons_append, List.nil_append, List.mem_cons] at hx
      rcases hx with rfl | hx
      · exact h.2.2.1
      · exact ih x hx

/-! ## C10 iterator decoders -/

/-- Full claim of **C10**: the iterator overloads never dereference the end iterator. -/
def C10_NeverOutOfBounds : Prop :=
  (∀ bs : List Nat, (∀ b ∈ bs, b < 256) → convertTo32From8It bs ≠ .oob) ∧
  (∀ us : List Nat, (∀ u ∈ us, u < 65536) → convertTo32From16 us ≠ .oob)

/-- **C10 is false of the code**: a truncated UTF-8 sequence / a trailing high surrogate makes the decoder
dereference the end iterator. -/
theorem C10_out_of_bounds : ¬ C10_NeverOutOfBounds ∧
    convertTo32From8It [0x41, 0xC3] = .oob ∧ convertTo32From16 [0x41, 0xD83D] = .oob := by
  refine ⟨?_, by decide, by decide⟩
  intro h
  exact h.1 [0x41, 0xC3] (by decide) (by decide)

/-- **C10 (proved part).** Well-formed UTF-8 is decoded exactly and without leaving the range. -/
theorem C10_wellformed_exact_partial (bs cs : List Nat) (h : WellFormedStr bs cs) :
    convertTo32From8It bs = .ok cs := by
  obtain ⟨h1, rfl⟩ := wf8_str bs cs h
  have := convertIt_flatMap decode8It encode32 toUtf8 cs (fun c _ => toUtf8_ne_nil c)
    (fun c hc rest => decode8It_wf _ c (C03_to_utf8_wellformed c (h1 c hc)) rest)
  rw [convertTo32From8It, this]
  exact congrArg Mem.ok (flatMap_single cs)

example : WellFormedStr [0x41, 0xC3, 0xA9] [0x41, 0xE9] :=
  .cons (bs := [0x41]) (.one (by decide)) (.cons (bs := [0xC3, 0xA9]) (rest := [])
    (.two (b0 := 0xC3) (b1 := 0xA9) (by decide) (by decide) (by decide)) .nil)

/-- Reading continuation bytes only leaves the range if all remaining bytes are continuation bytes. -/
private theorem conts8_oob (n : Nat) (bs : List Nat) (h : conts8 n bs = .oob) :
    ∀ b ∈ bs, b / 64 = 2 := by
  induction n generalizing bs with
  | zero => simp [conts8] at h
  | succ n ih =>
    cases bs with
    | nil => simp
    | cons b bs =>
      simp only [conts8, cont8, shr6] at h
      by_cases hb : b / 64 = 2
      · rw [if_neg (by simpa using hb)] at h
        simp only at h
        have : conts8 n bs = .oob := by
          revert h
          cases conts8 n bs with
          | oob => simp
          | ok r => obtain ⟨r1, r2⟩ := r; cases r2 <;> simp
        intro x hx
        rcases List.mem_cons.1 hx with rfl | hx
        · exact hb
        · exact ih bs this x hx
      · rw [if_pos (by simpa using hb)] at h
        simp at h

private theorem conts8_suffix (n : Nat) (bs r : List Nat) (o) (h : conts8 n bs = .ok (r, o)) : r <:+ bs := by
  induction n generalizing bs o with
  | zero => simp [conts8] at h; rw [h.1]; exact List.suffix_refl _
  | succ n ih =>
    cases bs with
    | nil => simp [conts8, cont8] at h
    | cons b bs =>
      simp only [conts8, cont8, shr6] at h
      by_cases hb : b / 64 = 2
      · rw [if_neg (by simpa using hb)] at h
        simp only at h
        revert h
        cases hc : conts8 n bs with
        | oob => simp
        | ok p =>
          obtain ⟨r1, r2⟩ := p
          have := ih bs r2
          cases r2 with
          | none =>
            simp only [Mem.ok.injEq, Prod.mk.injEq]
            rintro ⟨rfl, rfl⟩
            exact (ih bs none hc).trans (List.suffix_cons b bs)
          | some v =>
            simp only [Mem.ok.injEq, Prod.mk.injEq]
            rintro ⟨rfl, rfl⟩
            exact (ih bs (some v) hc).trans (List.suffix_cons b bs)
      · rw [if_pos (by simpa using hb)] at h
        simp only [Mem.ok.injEq, Prod.mk.injEq] at h
        rw [← h.1]
        exact List.suffix_cons b bs

private theorem decode8It_suffix (bs r : List Nat) (o) (h : decode8It bs = .ok (r, o)) :
    ∃ b t, bs = b :: t ∧ r <:+ t := by
  cases bs with
  | nil => simp [decode8It] at h
  | cons c0 rest =>
    refine ⟨c0, rest, rfl, ?_⟩
    simp only [decode8It] at h
    repeat' split at h
    all_goals first
      | (simp only [Mem.ok.injEq, Prod.mk.injEq] at h; rw [← h.1]; first
          | exact List.suffix_refl _
          | exact conts8_suffix _ _ _ _ (by assumption))
      | simp at h

private theorem decode8It_oob (bs : List Nat) (hne : bs ≠ []) (h : decode8It bs = .oob) :
    ∃ b t, bs = b :: t ∧ 0xC0 ≤ b ∧ ∀ x ∈ t, x / 64 = 2 := by
  cases bs with
  | nil => simp at hne
  | cons c0 rest =>
    simp only [decode8It] at h
    repeat' split at h
    all_goals first
      | (simp at h; done)
      | exact ⟨c0, rest, rfl, by omega, conts8_oob _ _ (by assumption)⟩

/-- **C10 (proved part).** The only inputs for which the UTF-8 iterator decoder leaves its range are those
that end in a truncated sequence: a lead byte followed by nothing but continuation bytes.  In particular any
text whose last byte is ASCII (e.g. newline-terminated) is safe, however malformed it is otherwise. -/
theorem C10_oob_only_truncated_partial (write : Nat → List Nat) (bs : List Nat)
    (h : convertIt decode8It write bs = .oob) :
    ∃ pre b t, bs = pre ++ b :: t ∧ 0xC0 ≤ b ∧ ∀ x ∈ t, x / 64 = 2 := by
  suffices ∀ fuel bs, convertLoop decode8It write fuel bs = .oob →
      ∃ pre b t, bs = pre ++ b :: t ∧ 0xC0 ≤ b ∧ ∀ x ∈ t, x / 64 = 2 from this _ bs h
  intro fuel
  induction fuel with
  | zero => intro bs h; simp [convertLoop] at h
  | succ fuel ih =>
    intro bs h
    cases bs with
    | nil => simp [convertLoop] at h
    | cons b0 bs0 =>
      simp only [convertLoop] at h
      cases hd : decode8It (b0 :: bs0) with
      | oob =>
        obtain ⟨b, t, h1, h2⟩ := decode8It_oob _ (by simp) hd
        exact ⟨[], b, t, h1, h2⟩
      | ok r =>
        obtain ⟨r, o⟩ := r
        rw [hd] at h
        simp only at h
        have h' : convertLoop decode8It write fuel r = .oob := by
          revert h; cases convertLoop decode8It write fuel r <;> simp
        obtain ⟨pre, b, t, h1, h2⟩ := ih r h'
        obtain ⟨b', t', h3, h4⟩ := decode8It_suffix _ _ _ hd
        obtain ⟨p, hp⟩ := h4
        refine ⟨b' :: (p ++ pre), b, t, ?_, h2⟩
        rw [h3, ← hp, h1]; simp

/-- **C10.** In particular: bytes ending in ASCII are always converted without leaving the range. -/
theorem C10_safe_if_ascii_terminated (write : Nat → List Nat) (bs : List Nat) (z : Nat) (hz : z < 0x80) :
    convertIt decode8It write (bs ++ [z]) ≠ .oob := by
  intro h
  obtain ⟨pre, b, t, h1, h2, h3⟩ := C10_oob_only_truncated_partial write _ h
  have hlast : (bs ++ [z]).getLast? = (pre ++ b :: t).getLast? := by rw [h1]
  cases t using List.reverseRecOn with
  | nil => simp [List.getLast?_append] at hlast; omega
  | append_singleton t x =>
    have := h3 x (by simp)
    rw [← List.cons_append, ← List.append_assoc, List.getLast?_append, List.getLast?_append] at hlast
    simp at hlast; omega

/-- **C10 (proved part).** The UTF-16 iterator decoder leaves its range only if the last code unit is a
high surrogate. -/
theorem C10_utf16_oob_only_truncated_partial (write : Nat → List Nat) (us : List Nat)
    (h : convertIt decode16It write us = .oob) :
    ∃ pre u, us = pre ++ [u] ∧ 0xD800 ≤ u ∧ u < 0xDC00 := by
  suffices ∀ fuel us, convertLoop decode16It write fuel us = .oob →
      ∃ pre u, us = pre ++ [u] ∧ 0xD800 ≤ u ∧ u < 0xDC00 from this _ us h
  intro fuel
  induction fuel with
  | zero => intro us h; simp [convertLoop] at h
  | succ fuel ih =>
    intro us h
    have step : ∀ (p r : List Nat) (o), us = p ++ r → decode16It us = .ok (r, o) →
        ∃ pre u, us = pre ++ [u] ∧ 0xD800 ≤ u ∧ u < 0xDC00 := by
      intro p r o hr hd
      cases us with
      | nil => simp [convertLoop] at h
      | cons u0 us0 =>
        simp only [convertLoop, hd] at h
        have h' : convertLoop decode16It write fuel r = .oob := by
          revert h; cases convertLoop decode16It write fuel r <;> simp
        obtain ⟨pre, u, h1, h2⟩ := ih r h'
        exact ⟨p ++ pre, u, by rw [hr, h1]; simp, h2⟩
    match us with
    | [] => simp [convertLoop] at h
    | c0 :: rest =>
      by_cases h1 : c0 < 0xD800
      · exact step [c0] rest (some c0) rfl (by simp [decode16It, h1])
      by_cases h2 : c0 < 0xDC00
      · match rest with
        | [] => exact ⟨[], c0, rfl, by omega, h2⟩
        | c1 :: rest' =>
          by_cases h3 : c1 >>> 10 = 0x37
          · exact step [c0, c1] rest' _ rfl (by simp only [decode16It, h1, h2, if_false, if_true, h3]; rfl)
          · exact step [c0, c1] rest' none rfl (by simp [decode16It, h1, h2, h3])
      by_cases h3 : c0 < 0xE000
      · exact step [c0] rest none rfl (by simp [decode16It, h1, h2, h3])
      · exact step [c0] rest (some c0) rfl (by simp [decode16It, h1, h2, h3])

example : convertIt decode16It encode32 [0xD800, 0x41] = .ok [] := by decide

/-- **C10.** On well-formed UTF-8 the iterator overload and the bulk (SIMD) overload agree. -/
theorem C10_iterator_eq_bulk (k : Nat) (bs cs : List Nat) (h : WellFormedStr bs cs) :
    convertTo32From8It bs = .ok (fromUtf8Str k bs) ∧
    convertTo16From8It bs = .ok (convertTo16FromUtf8 k bs) := by
  have h7 := C07_utf8_to_utf16_direct k k bs cs h
  refine ⟨by rw [C10_wellformed_exact_partial bs cs h, h7.1], ?_⟩
  obtain ⟨h1, rfl⟩ := wf8_str bs cs h
  have := convertIt_flatMap decode8It encode16 toUtf8 cs (fun c _ => toUtf8_ne_nil c)
    (fun c hc rest => decode8It_wf _ c (C03_to_utf8_wellformed c (h1 c hc)) rest)
  rw [convertTo16From8It, this, ← (wf16_str _ _ h7.2.2).2]

end Verif.Props
