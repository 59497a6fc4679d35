import Verif.Model.Capi
import Verif.Props.Grapheme
import Verif.Props.Width
import Verif.Props.Utf8
import Verif.Props.Convert
import Verif.Spec.Toy
/-!
# C39 (C API agrees with the C++ API and respects buffers), C47 (unused-bit macros)
-/

namespace Verif.Props.Capi
open Verif.Ucd Verif.Grapheme Verif.Width Verif.Utf8 Verif.Convert Verif.Capi Verif.Spec Verif.Spec.GB Verif.Toy

/-! ## counting -/

theorem gcCountLoop_eq (U : Table) (fuel : Nat) (cs : List Nat) (n : Nat) :
    gcCountLoop U fuel cs n = n + (clustersLoop U fuel cs).length := by
  induction fuel generalizing cs n with
  | zero => rfl
  | succ f ih =>
    cases cs with
    | nil => rfl
    | cons c cs =>
      simp only [gcCountLoop, clustersLoop, List.length_cons]
      rw [ih]; omega

theorem clusters_cons' (U : Table) (c : Nat) (cs : List Nat) :
    clusters U (c :: cs) = (advance U (c :: cs)).1 :: clusters U (advance U (c :: cs)).2 ∧
      (advance U (c :: cs)).2.length ≤ cs.length := by
  have hl := congrArg List.length (advance_append U (c :: cs))
  simp only [advance, List.cons_append, List.length_cons, List.length_append] at hl
  have hle : (advance U (c :: cs)).2.length ≤ cs.length := by simp only [advance]; omega
  refine ⟨?_, hle⟩
  rw [← C15_terminates U (advance U (c :: cs)).2 cs.length hle]
  simp only [clusters, List.length_cons, clustersLoop]

/-- **C39, counting.** `u32_gc_count` returns the number of grapheme clusters of the text, for every text. -/
theorem C39_u32_count (U : Table) (cs : List Nat) : u32GcCount U cs = (clusters U cs).length := by
  cases cs with
  | nil => rfl
  | cons c cs =>
    obtain ⟨h1, h2⟩ := clusters_cons' U c cs
    unfold u32GcCount
    rw [if_neg (by simp), gcCountLoop_eq, h1,
      C15_terminates U (advance U (c :: cs)).2 (c :: cs).length (by simp only [List.length_cons]; omega)]
    simp only [List.length_cons]; omega

/-- **C39, counting UTF-8.** `u8_gc_count` of the UTF-8 form of a text counts the text's clusters, on every CPU;
for arbitrary bytes it counts the clusters of the decoded text. -/
theorem C39_u8_count (U : Table) (k : Nat) :
    (∀ bytes, u8GcCount U k bytes = (clusters U (fromUtf8Str k bytes)).length) ∧
    (∀ cs : List Nat, (∀ c ∈ cs, c ≤ 0x1FFFFF) → u8GcCount U k (toUtf8Str cs) = (clusters U cs).length) := by
  refine ⟨fun bytes => C39_u32_count U _, fun cs hc => ?_⟩
  unfold u8GcCount
  rw [C02_utf8_string_roundtrip k cs hc, C39_u32_count]

/-- "e" + combining acute, CR LF, a flag: three clusters. -/
example : u32GcCount toy [0x65, 0x301, 0x0D, 0x0A, 0x1F1E6, 0x1F1E8] = 3 := by decide

/-! ## width -/

theorem gcWidthLoop_mod (U : Table) (mode : Int) (hm : mode ≠ 0) (fuel : Nat) (cs : List Nat) (n : Nat) :
    gcWidthLoop U mode fuel cs n = .ok (n + ((clustersLoop U fuel cs).map (clusterWidth U)).sum) := by
  induction fuel generalizing cs n with
  | zero => rfl
  | succ f ih =>
    cases cs with
    | nil => rfl
    | cons c cs =>
      simp only [gcWidthLoop, clustersLoop, List.map_cons, List.sum_cons, processCluster, if_neg hm]
      rw [ih, Nat.add_assoc]

/-- Width of the first codepoint of a cluster (0 if there is none). -/
def baseWidth (U : Table) (cl : List Nat) : Nat := (cl.head?.map fun c => (U c).charWidth).getD 0

theorem gcWidthLoop_non (U : Table) (fuel : Nat) (cs : List Nat) (n : Nat) :
    gcWidthLoop U 0 fuel cs n = .ok (n + ((clustersLoop U fuel cs).map (baseWidth U)).sum) := by
  induction fuel generalizing cs n with
  | zero => rfl
  | succ f ih =>
    cases cs with
    | nil => rfl
    | cons c cs =>
      simp only [gcWidthLoop, clustersLoop, List.map_cons, List.sum_cons, processCluster, if_true, advance]
      rw [ih, Nat.add_assoc]; rfl

/-- **C39, width.** In the documented `GC_WIDTH_MODE_MODIFIABLE` mode (any non-zero mode) `u32_gc_width` is the sum
of the widths of the grapheme clusters, for every text including the empty one. -/
theorem C39_u32_width (U : Table) (cs : List Nat) (mode : Int) (hm : mode ≠ 0) :
    u32GcWidth U cs mode = .ok ((clusters U cs).map (clusterWidth U)).sum := by
  cases cs with
  | nil => simp [u32GcWidth, advance, processCluster, hm, clusterWidth, gcWidthLoop, clusters, clustersLoop]
  | cons c cs =>
    obtain ⟨h1, h2⟩ := clusters_cons' U c cs
    unfold u32GcWidth
    simp only [processCluster, if_neg hm]
    rw [gcWidthLoop_mod U mode hm, h1,
      C15_terminates U (advance U (c :: cs)).2 (c :: cs).length (by simp only [List.length_cons]; omega)]
    simp

/-- **C39, legacy width.** In the mode `GC_WIDTH_MODE_NON_MODIFIABLE` every cluster counts as its base codepoint
alone; this is defined for every non-empty text. -/
theorem C39_u32_width_legacy (U : Table) (cs : List Nat) (h : cs ≠ []) :
    u32GcWidth U cs 0 = .ok ((clusters U cs).map (baseWidth U)).sum := by
  cases cs with
  | nil => exact absurd rfl h
  | cons c cs =>
    obtain ⟨h1, h2⟩ := clusters_cons' U c cs
    unfold u32GcWidth
    simp only [processCluster, if_true, advance]
    have := gcWidthLoop_non U (c :: cs).length (advance U (c :: cs)).2 (0 + width1 U c)
    simp only [advance] at this
    rw [this, h1]
    have h3 := C15_terminates U (advance U (c :: cs)).2 (c :: cs).length (by simp only [List.length_cons]; omega)
    simp only [advance] at h3 ⊢
    rw [h3]
    simp [baseWidth, width1]

/-- **C39, defect.** The legacy mode on an empty text takes the front of an empty view: undefined behaviour. -/
theorem C39_fails_empty_legacy (U : Table) : u32GcWidth U [] 0 = .oob := rfl

/-- **C39, UTF-8 width.** `u8_gc_width` agrees with the C++ `grapheme_cluster_width(std::string_view)`, for every
byte string. -/
theorem C39_u8_width (U : Table) (k : Nat) (bytes : List Nat) (mode : Int) (hm : mode ≠ 0) :
    u8GcWidth U k bytes mode = .ok (textWidth U k bytes) := by
  unfold u8GcWidth
  rw [C39_u32_width U _ mode hm, C21_sum_any]

example : u32GcWidth toy [0x2764, 0xFE0F, 0x61] 1 = .ok 3 ∧ u32GcWidth toy [0x2764, 0xFE0F, 0x61] 0 = .ok 2 := by
  decide

/-! ## `u32_grapheme_unbreakable` -/

/-- **C39, two codepoints.** `u32_grapheme_unbreakable(a, b)` is 1 exactly when the segmenter keeps the text `a b`
in one cluster, otherwise 0. -/
theorem C39_unbreakable_segmenter (U : Table) (a b : Nat) :
    (graphemeUnbreakable U a b = 1 ↔ clusters U [a, b] = [[a, b]]) ∧
    (graphemeUnbreakable U a b = 0 ↔ clusters U [a, b] = [[a], [b]]) := by
  unfold graphemeUnbreakable
  simp only [clusters, List.length_cons, List.length_nil, clustersLoop, advance, extendCluster]
  cases h : processBreakable U b (processInit U a) with
  | mk s br => cases br <;> simp [clustersLoop, advance, extendCluster]

/-- **C39, two codepoints, UAX #29.** For well-behaved character data this is exactly the absence of a UAX #29
boundary in the two-codepoint text. -/
theorem C39_unbreakable_uax29 {U : Table} (D : DataOk U) (a b : Nat) :
    graphemeUnbreakable U a b = 1 ↔ ¬ BoundaryAt U [a] b := by
  have h := C14_uax29_partial D [a] b [] (by simp)
    (by
      intro p z m z' q h
      have := congrArg List.length h
      simp only [List.length_append, List.length_cons, List.length_nil] at this; omega)
    (by
      intro p x y z q h
      have := congrArg List.length h
      simp only [List.length_append, List.length_cons, List.length_nil] at this; omega)
  simp only [List.cons_append, List.nil_append] at h
  rw [← h, (C39_unbreakable_segmenter U a b).1]
  constructor
  · rintro h ⟨s₁, s₂, h1, h2⟩
    rw [h] at h1
    cases s₁ with
    | nil => simp at h2
    | cons x s₁ =>
      simp only [List.cons_append, List.cons.injEq] at h1
      rw [← h1.1] at h2
      have := congrArg List.length h2
      simp at this
  · intro h
    by_contra h1
    apply h
    have h0 : graphemeUnbreakable U a b ≠ 1 := fun h2 => h1 ((C39_unbreakable_segmenter U a b).1.1 h2)
    have h0' : graphemeUnbreakable U a b = 0 := by
      unfold graphemeUnbreakable at h0 ⊢
      split
      · rename_i hh; rw [if_pos hh] at h0; exact absurd rfl h0
      · rfl
    exact ⟨[[a]], [[b]], (C39_unbreakable_segmenter U a b).2.1 h0', by simp⟩

example : graphemeUnbreakable toy 0x65 0x301 = 1 ∧ graphemeUnbreakable toy 0x65 0x66 = 0 := by decide

/-! ## streaming conversion -/

/-- A client that feeds bytes one at a time and keeps `*output` whenever the call returned 1. -/
def streamAll : DecState → Nat → List Nat → List Nat
  | _, _, [] => []
  | h, out, b :: bs =>
    if (streamRun h b out).2.2 = 1 then (streamRun h b out).2.1 :: streamAll (streamRun h b out).1 (streamRun h b out).2.1 bs
    else streamAll (streamRun h b out).1 (streamRun h b out).2.1 bs

/-- **C39, stream protocol.** Every call returns 0 or 1, and when it returns 0 the output cell is untouched. -/
theorem C39_stream_untouched (h : DecState) (b out : Nat) :
    (streamRun h b out).2.2 = 0 ∧ (streamRun h b out).2.1 = out ∨ (streamRun h b out).2.2 = 1 := by
  unfold streamRun
  cases hd : decode8 h b with
  | mk h' o => cases o <;> simp

/-- The codepoint delivered does not depend on the previous content of the output cell. -/
theorem streamAll_eq (h : DecState) (out : Nat) (bs : List Nat) :
    streamAll h out bs = scalarLoop encode32 h bs := by
  induction bs generalizing h out with
  | nil => rfl
  | cons b bs ih =>
    simp only [streamAll, scalarLoop]
    rcases hd : decode8 h b with ⟨h', _ | c⟩
    · have e : streamRun h b out = (h', out, 0) := by simp [streamRun, hd]
      rw [e]; simp [ih]
    · have e : streamRun h b out = (h', c, 1) := by simp [streamRun, hd]
      rw [e]; simp [ih, encode32]

/-- **C39, stream = bulk.** Feeding any byte string through the streaming converter delivers exactly what the bulk
conversion of the whole string yields, on every CPU, whatever the output cell held. -/
theorem C39_stream_eq_bulk (k out : Nat) (bs : List Nat) : streamAll {} out bs = fromUtf8Str k bs := by
  rw [streamAll_eq, fromUtf8Str_eq]

/-- **C39, stream round trip.** -/
theorem C39_stream_roundtrip (out : Nat) (cs : List Nat) (hc : ∀ c ∈ cs, c ≤ 0x1FFFFF) :
    streamAll {} out (toUtf8Str cs) = cs := by
  rw [C39_stream_eq_bulk 128, C02_utf8_string_roundtrip 128 cs hc]

example : streamAll {} 7 [0xC3, 0xA4, 0x41, 0xE2, 0x82, 0xAC] = [0xE4, 0x41, 0x20AC] := by decide

/-! ## `u32u8_convert` -/

theorem writeBytes_spec (mem : Nat → Nat) (dest : Nat) (bs : List Nat) (i : Nat) :
    writeBytes mem dest bs i = if dest ≤ i ∧ i < dest + bs.length then bs.getD (i - dest) 0 else mem i := by
  induction bs generalizing mem dest with
  | nil => simp [writeBytes]; intro h1 h2; omega
  | cons b bs ih =>
    simp only [writeBytes, ih, List.length_cons]
    by_cases h1 : i = dest
    · subst h1
      rw [if_neg (by omega), if_pos (by omega)]; simp
    · by_cases h2 : dest + 1 ≤ i ∧ i < dest + 1 + bs.length
      · rw [if_pos h2, if_pos (by omega)]
        have : i - dest = (i - (dest + 1)) + 1 := by omega
        rw [this]; simp
      · rw [if_neg h2, if_neg h1, if_neg (by omega)]

theorem writeBytes_append (mem : Nat → Nat) (dest : Nat) (xs ys : List Nat) :
    writeBytes (writeBytes mem dest xs) (dest + xs.length) ys = writeBytes mem dest (xs ++ ys) := by
  induction xs generalizing mem dest with
  | nil => rfl
  | cons x xs ih =>
    simp only [writeBytes, List.cons_append, List.length_cons]
    rw [← ih]
    congr 1; omega

/-- What the loop does: it writes the encoding of a prefix `p`, the whole source on success, and otherwise the
longest prefix that leaves at least one byte of the destination unused. -/
theorem u32u8Loop_spec (source : List Nat) (mem : Nat → Nat) (dest dlen n : Nat) :
    ∃ p r, source = p ++ r ∧ (u32u8Loop source mem dest dlen n).1 = writeBytes mem dest (toUtf8Str p) ∧
      (p = [] ∨ (toUtf8Str p).length < dlen) ∧
      ((r = [] ∧ (u32u8Loop source mem dest dlen n).2 = ((n + (toUtf8Str p).length : Nat) : Int)) ∨
       (∃ c r', r = c :: r' ∧ dlen ≤ (toUtf8Str (p ++ [c])).length ∧
         (u32u8Loop source mem dest dlen n).2 = -1)) := by
  induction source generalizing mem dest dlen n with
  | nil => exact ⟨[], [], rfl, rfl, Or.inl rfl, Or.inl ⟨rfl, rfl⟩⟩
  | cons c cs ih =>
    unfold u32u8Loop
    by_cases h : (encode8 c).length < dlen
    · rw [if_neg (by simpa using h)]
      obtain ⟨p, r, h1, h2, h3, h4⟩ := ih (writeBytes mem dest (encode8 c)) (dest + (encode8 c).length)
        (dlen - (encode8 c).length) (n + (encode8 c).length)
      have e : ∀ q, toUtf8Str (c :: q) = encode8 c ++ toUtf8Str q := fun q => by
        rw [toUtf8Str_eq, toUtf8Str_eq, List.flatMap_cons, encode8_eq]
      refine ⟨c :: p, r, by rw [h1]; rfl, ?_, Or.inr ?_, ?_⟩
      · rw [h2, e, writeBytes_append]
      · rw [e, List.length_append]
        rcases h3 with h3 | h3
        · subst h3; simp only [toUtf8Str, List.foldl_nil, List.length_nil]; omega
        · omega
      · rcases h4 with ⟨h5, h6⟩ | ⟨x, r', h5, h6, h7⟩
        · left
          refine ⟨h5, ?_⟩
          rw [h6, e, List.length_append]
          congr 1; omega
        · right
          refine ⟨x, r', h5, ?_, h7⟩
          rw [List.cons_append, e, List.length_append]; omega
    · rw [if_pos h]
      refine ⟨[], c :: cs, rfl, rfl, Or.inl rfl, Or.inr ⟨c, cs, rfl, ?_, rfl⟩⟩
      rw [List.nil_append, toUtf8Str_eq]
      simp only [List.flatMap_cons, List.flatMap_nil, List.append_nil, ← encode8_eq]
      omega

/-- **C39, memory safety.** `u32u8_convert` never writes outside `[dest, dest + dlen)`, whatever it returns. -/
theorem C39_convert_in_bounds (source : List Nat) (mem : Nat → Nat) (dest dlen i : Nat)
    (hi : i < dest ∨ dest + dlen ≤ i) : (u32u8Convert source mem dest dlen).1 i = mem i := by
  obtain ⟨p, r, -, h2, h3, -⟩ := u32u8Loop_spec source mem dest dlen 0
  unfold u32u8Convert
  rw [h2, writeBytes_spec, if_neg]
  rcases h3 with rfl | h3
  · simp only [toUtf8Str, List.foldl_nil, List.length_nil]; omega
  · omega

/-- **C39, success.** When `u32u8_convert` returns `n ≥ 0`, `n` is the length of the UTF-8 encoding of the whole
source, the `n` bytes from `dest` are that encoding, and nothing else was changed. -/
theorem C39_convert_success (source : List Nat) (mem : Nat → Nat) (dest dlen : Nat)
    (h : 0 ≤ (u32u8Convert source mem dest dlen).2) :
    (u32u8Convert source mem dest dlen).2 = ((toUtf8Str source).length : Int) ∧
    (∀ i (hi : i < (toUtf8Str source).length),
      (u32u8Convert source mem dest dlen).1 (dest + i) = (toUtf8Str source)[i]) ∧
    (∀ i, i < dest ∨ dest + (toUtf8Str source).length ≤ i → (u32u8Convert source mem dest dlen).1 i = mem i) := by
  obtain ⟨p, r, h1, h2, h3, h4⟩ := u32u8Loop_spec source mem dest dlen 0
  unfold u32u8Convert at h ⊢
  rcases h4 with ⟨h5, h6⟩ | ⟨x, r', h5, h6, h7⟩
  · subst h5
    rw [List.append_nil] at h1
    subst h1
    refine ⟨by rw [h6]; omega, ?_, ?_⟩
    · intro i hi
      rw [h2, writeBytes_spec, if_pos (by omega)]
      have : dest + i - dest = i := by omega
      rw [this, List.getD_eq_getElem?_getD, List.getElem?_eq_getElem hi]; rfl
    · intro i hi
      rw [h2, writeBytes_spec, if_neg (by omega)]
  · omega

/-- **C39, when it succeeds.** Exactly when there is nothing to convert, or the destination has room for *more*
than the encoding. -/
theorem C39_convert_succeeds_iff (source : List Nat) (mem : Nat → Nat) (dest dlen : Nat) :
    0 ≤ (u32u8Convert source mem dest dlen).2 ↔ source = [] ∨ (toUtf8Str source).length < dlen := by
  obtain ⟨p, r, h1, h2, h3, h4⟩ := u32u8Loop_spec source mem dest dlen 0
  unfold u32u8Convert
  rcases h4 with ⟨h5, h6⟩ | ⟨x, r', h5, h6, h7⟩
  · subst h5
    rw [List.append_nil] at h1
    subst h1
    exact ⟨fun _ => h3, fun _ => by rw [h6]; omega⟩
  · rw [h7]
    constructor
    · intro h; omega
    · rintro (h | h)
      · rw [h5] at h1; rw [h1] at h; simp at h
      · exfalso
        rw [h1, h5] at h
        have : toUtf8Str (p ++ x :: r') = toUtf8Str (p ++ [x]) ++ toUtf8Str r' := by
          rw [toUtf8Str_eq, toUtf8Str_eq, toUtf8Str_eq, ← List.flatMap_append]; simp
        rw [this, List.length_append] at h
        omega

/-- **C39, failure.** Otherwise it returns −1, having stored the encoding of a proper prefix of the source (the
longest one shorter than the destination) and nothing else. -/
theorem C39_convert_failure (source : List Nat) (mem : Nat → Nat) (dest dlen : Nat)
    (h : ¬ 0 ≤ (u32u8Convert source mem dest dlen).2) :
    (u32u8Convert source mem dest dlen).2 = -1 ∧
    ∃ p c r, source = p ++ c :: r ∧ (p = [] ∨ (toUtf8Str p).length < dlen) ∧
      dlen ≤ (toUtf8Str (p ++ [c])).length ∧
      (∀ i (hi : i < (toUtf8Str p).length),
        (u32u8Convert source mem dest dlen).1 (dest + i) = (toUtf8Str p)[i]) ∧
      (∀ i, i < dest ∨ dest + (toUtf8Str p).length ≤ i → (u32u8Convert source mem dest dlen).1 i = mem i) := by
  obtain ⟨p, r, h1, h2, h3, h4⟩ := u32u8Loop_spec source mem dest dlen 0
  unfold u32u8Convert at h ⊢
  rcases h4 with ⟨h5, h6⟩ | ⟨x, r', h5, h6, h7⟩
  · rw [h6] at h; omega
  · refine ⟨h7, p, x, r', by rw [h1, h5], h3, h6, ?_, ?_⟩
    · intro i hi
      rw [h2, writeBytes_spec, if_pos (by omega)]
      have : dest + i - dest = i := by omega
      rw [this, List.getD_eq_getElem?_getD, List.getElem?_eq_getElem hi]; rfl
    · intro i hi
      rw [h2, writeBytes_spec, if_neg (by omega)]

/-- **C39 (full claim on buffer sizes).** A destination of exactly the encoded length suffices, as the header
documents ("Number of bytes to write to dest at most").  Refuted by `C39_fails_exact_fit`. -/
def C39_ExactFit : Prop :=
  ∀ (source : List Nat) (mem : Nat → Nat) (dest dlen : Nat), (toUtf8Str source).length ≤ dlen →
    0 ≤ (u32u8Convert source mem dest dlen).2

/-- **C39, defect.** Converting the single letter `A` into a one-byte buffer is refused. -/
theorem C39_fails_exact_fit : ¬ C39_ExactFit := by
  intro h
  have := h [0x41] (fun _ => 0) 0 1 (by decide)
  exact absurd this (by decide)

/-- ä€ into six bytes: five bytes written; the sixth and its surroundings keep their content. -/
example : (u32u8Convert [0xE4, 0x20AC] (fun _ => 9) 100 6).2 = 5 ∧
    (List.range 8).map (fun i => (u32u8Convert [0xE4, 0x20AC] (fun _ => 9) 100 6).1 (99 + i)) =
      [9, 0xC3, 0xA4, 0xE2, 0x82, 0xAC, 9, 9] := by decide

/-! ## C47: unused-bit macros -/

theorem one_shl_testBit (n j : Nat) : (1 <<< n).testBit j = decide (n = j) := by
  rw [Nat.shiftLeft_eq, Nat.one_mul, Nat.testBit_two_pow]

theorem get_testBit (c i : Nat) : unusedBitGet c i = c.testBit (i + 21) := by
  unfold unusedBitGet
  rw [Nat.testBit, Nat.shiftLeft_eq, Nat.one_mul]
  cases h : c.testBit (i + 21) with
  | true =>
    rw [Nat.testBit] at h
    rw [h]
    rw [bne_iff_ne]
    intro h0
    have := congrArg (fun x => Nat.testBit x (i + 21)) h0
    simp only [Nat.testBit_and, Nat.testBit_two_pow_self, Nat.zero_testBit, Bool.and_true] at this
    rw [Nat.testBit, h] at this; exact absurd this (by simp)
  | false =>
    have h' := h
    rw [Nat.testBit] at h'
    rw [h', bne_eq_false_iff_eq]
    apply Nat.eq_of_testBit_eq
    intro j
    rw [Nat.testBit_and, Nat.testBit_two_pow, Nat.zero_testBit]
    by_cases hj : i + 21 = j
    · subst hj; simp [h]
    · simp [hj]

theorem not32_testBit (m j : Nat) : (m ^^^ 0xFFFFFFFF).testBit j = (m.testBit j ^^ decide (j < 32)) := by
  rw [Nat.testBit_xor, show (0xFFFFFFFF : Nat) = 2 ^ 32 - 1 from rfl, Nat.testBit_two_pow_sub_one]

/-- **C47.** Setting / clearing an application bit is seen by `get`, and leaves every other application bit
alone — for every value and every index within the advertised capacity. -/
theorem C47_set_get (c i j : Nat) (hj : j < unusedBitCapacity) :
    unusedBitGet (unusedBitOn c i) j = (if i = j then true else unusedBitGet c j) ∧
    unusedBitGet (unusedBitOff c i) j = (if i = j then false else unusedBitGet c j) := by
  have hj' : j + 21 < 32 := by simp only [unusedBitCapacity] at hj; omega
  simp only [get_testBit, unusedBitOn, unusedBitOff, Nat.testBit_or, Nat.testBit_and, not32_testBit,
    one_shl_testBit]
  by_cases h : i = j
  · subst h; simp [hj']
  · have : ¬ i + 21 = j + 21 := by omega
    simp [h, hj']

/-- **C47.** The codepoint itself is never disturbed: clearing the unused bits yields the same codepoint before and
after, and for a plain codepoint it is the identity. -/
theorem C47_codepoint_kept (c i : Nat) :
    unusedBitCleared (unusedBitOn c i) = unusedBitCleared c ∧
    unusedBitCleared (unusedBitOff c i) = unusedBitCleared c ∧
    (c ≤ 0x1FFFFF → unusedBitCleared c = c ∧ unusedBitMask c = 0) := by
  have hm : ∀ x j, (x &&& 0x1FFFFF).testBit j = (x.testBit j && decide (j < 21)) := fun x j => by
    rw [Nat.testBit_and, show (0x1FFFFF : Nat) = 2 ^ 21 - 1 from rfl, Nat.testBit_two_pow_sub_one]
  refine ⟨?_, ?_, ?_⟩
  · apply Nat.eq_of_testBit_eq
    intro j
    simp only [unusedBitCleared, unusedBitOn, hm, Nat.testBit_or, one_shl_testBit]
    by_cases h : j < 21
    · have : ¬ i + 21 = j := by omega
      simp [h, this]
    · simp [h]
  · apply Nat.eq_of_testBit_eq
    intro j
    simp only [unusedBitCleared, unusedBitOff, hm, Nat.testBit_and, not32_testBit, one_shl_testBit]
    by_cases h : j < 21
    · have : ¬ i + 21 = j := by omega
      have h2 : j < 32 := by omega
      simp [h, this, h2]
    · simp [h]
  · intro h
    constructor
    · unfold unusedBitCleared
      rw [show (0x1FFFFF : Nat) = 2 ^ 21 - 1 from rfl, Nat.and_two_pow_sub_one_eq_mod, Nat.mod_eq_of_lt (by omega)]
    · unfold unusedBitMask
      rw [Nat.shiftRight_eq_div_pow]; exact Nat.div_eq_of_lt (by omega)

/-- **C47.** A 32-bit value is its codepoint plus its application bits. -/
theorem C47_decompose (c : Nat) : c = unusedBitMask c * 2 ^ 21 + unusedBitCleared c ∧
    (c < 2 ^ 32 → unusedBitMask c < 2 ^ unusedBitCapacity) := by
  unfold unusedBitMask unusedBitCleared unusedBitCapacity
  rw [show (0x1FFFFF : Nat) = 2 ^ 21 - 1 from rfl, Nat.and_two_pow_sub_one_eq_mod, Nat.shiftRight_eq_div_pow]
  constructor
  · have := Nat.div_add_mod c (2 ^ 21); omega
  · intro h; omega

example : unusedBitGet (unusedBitOn 0x1F600 10) 10 = true ∧ unusedBitCleared (unusedBitOn 0x1F600 10) = 0x1F600 ∧
    unusedBitOff (unusedBitOn 0x1F600 10) 10 = 0x1F600 := by decide

end Verif.Props.Capi
