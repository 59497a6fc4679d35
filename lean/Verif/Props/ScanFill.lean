import Verif.Lemmas.ScanFill
/-!
# Property C66: `scan_text` fills a line with whole grapheme clusters

`told` (Lemmas/ScanFill.lean) reads a receiver call as the characters it hands over, each with its bytes and its columns:
the characters of an ASCII run one by one with one column each, a cluster with the columns it was reported with.
-/

namespace Verif.Props.Scan
open Verif.Scan Verif.Ucd Verif.Utf8 Verif.Grapheme Verif.Width Verif.Toy Verif.Spec.GB

/-- What a terminal expects of one call on a line with `max` free columns: the receiver gets the first clusters of the text,
whole, in order, each once, with their bytes and their widths; the count is the sum of these widths and at most `max`; the
pointers of the result enclose these clusters; and the scan goes as far as it can — it stops at the end of the text, at a full
line, or in front of a cluster that is too wide for the columns left. -/
def FillsLine (U : Table) (cs : List Nat) (max : Nat) (R : Out) : Prop :=
  ∃ front back, clusters U cs = front ++ back ∧
    R.events.flatMap told = front.map (fun cl => (toUtf8Str cl, clusterWidth U cl)) ∧
    R.count = (front.map (clusterWidth U)).sum ∧ R.count ≤ max ∧
    R.start = 0 ∧ R.fin = (toUtf8Str front.flatten).length ∧ R.next = (toUtf8Str front.flatten).length ∧
    (back = [] ∨ R.count = max ∨ ∃ cl bs, back = cl :: bs ∧ max < R.count + clusterWidth U cl)

/-- The property for every text without control characters. -/
def C66_Fill : Prop :=
  ∀ (U : Table) (v : Variant) (w : Nat) (cs : List Nat) (max : Nat) (R : Out),
    DataOk U → WidthOk U → AsciiOk U → Scannable cs →
    scanText U v w (State.init U) none [] (toUtf8Str cs) max = .ok R → FillsLine U cs max R

/-- The code violates it: on a line of one column, "á" written as "a" and a combining accent is cut in two; the receiver is
told about the "a" alone. -/
theorem C66_fails_mark : ¬ C66_Fill := by
  intro h
  obtain ⟨front, back, h1, h2, _⟩ := h toy .none 16 [0x61, 0x301] 1 _ toy_ok toy_width_ok toy_ascii_ok
    (by intro c hc; simp at hc; omega) rfl
  have hc : clusters toy [0x61, 0x301] = [[0x61, 0x301]] := by decide +kernel
  rw [hc] at h1
  cases front with
  | nil => revert h2; decide +kernel
  | cons f fs =>
    have hf : f = [0x61, 0x301] := by
      simp only [List.cons_append, List.cons.injEq] at h1
      exact h1.1.symm
    have hfs : fs = [] := by
      simp only [List.cons_append, List.cons.injEq] at h1
      exact (List.append_eq_nil_iff.1 h1.2.symm).1
    subst hf hfs
    revert h2
    decide +kernel

/-- **C66 (partial).**  It holds for every limit, CPU and vector width and every text without control characters, U+FE0E, two
adjacent regional indicators, a `Prepend` directly before ASCII and a combining character directly behind ASCII. -/
theorem C66_fill_partial {U : Table} (D : DataOk U) (W : WidthOk U) (A : AsciiOk U) (v : Variant) (w : Nat) (cs : List Nat)
    (hsc : Scannable cs) (hvs : 0xFE0E ∉ cs) (hnf : NoFlags U cs) (hnp : NoPrependAscii U cs) (hm : NoMarkAfterAscii U cs)
    (max : Nat) (R : Out) (hR : scanText U v w (State.init U) none [] (toUtf8Str cs) max = .ok R) : FillsLine U cs max R := by
  suffices h : ∃ front back, Lined U cs max R front back by
    obtain ⟨front, back, h⟩ := h
    exact ⟨front, back, h.split, h.told, h.count, h.fits, h.start, by rw [h.fin, h.next], h.next, h.why⟩
  have P : Plain U cs := ⟨hsc, hvs, hnf, hnp, hm⟩
  cases cs with
  | nil =>
    rw [str_nil] at hR
    cases hR
    exact ⟨[], [], rfl, rfl, rfl, Nat.zero_le _, rfl, rfl, rfl, .inl rfl⟩
  | cons c q =>
    obtain ⟨b, bs, hb, hcx⟩ : ∃ b bs, toUtf8Str (c :: q) = b :: bs ∧ (isComplex b = true ↔ 0x80 ≤ c) := by
      rw [str_cons]
      by_cases hlt : c < 0x80
      · rw [toUtf8_low c hlt]
        exact ⟨c, _, rfl, isComplex_iff c (by omega)⟩
      · have hh := (toUtf8_high c (by omega) (hsc c (by simp)).2.2).1
        cases ht : toUtf8 c with
        | nil => exact absurd ht (toUtf8_ne_nil c)
        | cons b bs =>
          have := hh b (by rw [ht]; simp)
          refine ⟨b, bs ++ toUtf8Str q, rfl, ?_⟩
          rw [isComplex_iff b this.2]
          omega
    have hfuel : (toUtf8Str (c :: q)).length < (toUtf8Str (c :: q)).length + 1 := Nat.lt_succ_self _
    have key := fill_main D W A v w max (c :: q) P _ (isComplex b) [] (c :: q)
      { count := 0, start := 0, fin := 0, st := State.init U, next := 0, events := [] } hfuel
      ⟨rfl, rfl, rfl, rfl, Nat.zero_le _, rfl, by rw [List.flatten_nil, str_nil]; rfl, rfl, rfl⟩ (by
        cases hb' : isComplex b with
        | true => exact .inr (.inr ⟨c, q, rfl, hcx.1 hb', .inl rfl⟩)
        | false =>
          refine .inr (.inl ⟨c, q, rfl, ?_⟩)
          by_contra h
          have := hcx.2 (by omega)
          rw [hb'] at this
          exact absurd this (by decide))
    rw [hb] at hR key
    unfold scanText at hR
    simp only [State.init, ne_eq, not_true_eq_false, if_false, Mem.ok.injEq, Option.getD_none] at hR
    subst hR
    exact key

theorem pair_mem (cs p : List Nat) (a x : Nat) (q : List Nat) (h : cs = p ++ a :: x :: q) : (a, x) ∈ cs.zip cs.tail := by
  subst h
  induction p with
  | nil => simp
  | cons c p ih =>
    cases p with
    | nil => exact List.mem_cons_of_mem _ ih
    | cons d p => exact List.mem_cons_of_mem _ ih

/-- The hypotheses are met by "aé̈" with a ZWJ sequence and "b" in the middle of which the line of four columns ends … -/
example : ∃ R, scanText toy .none 16 (State.init toy) none []
      (toUtf8Str [0x61, 0xE9, 0x301, 0x62, 0x1F600, 0x200D, 0x2764, 0xFE0F, 0x62]) 4 = .ok R ∧
    Scannable [0x61, 0xE9, 0x301, 0x62, 0x1F600, 0x200D, 0x2764, 0xFE0F, 0x62] ∧
    0xFE0E ∉ [0x61, 0xE9, 0x301, 0x62, 0x1F600, 0x200D, 0x2764, 0xFE0F, 0x62] ∧
    NoFlags toy [0x61, 0xE9, 0x301, 0x62, 0x1F600, 0x200D, 0x2764, 0xFE0F, 0x62] ∧
    NoPrependAscii toy [0x61, 0xE9, 0x301, 0x62, 0x1F600, 0x200D, 0x2764, 0xFE0F, 0x62] ∧
    NoMarkAfterAscii toy [0x61, 0xE9, 0x301, 0x62, 0x1F600, 0x200D, 0x2764, 0xFE0F, 0x62] ∧
    R.count = 3 ∧ R.fin = 6 ∧ R.events.length = 3 :=
  ⟨_, rfl, by unfold Scannable; decide, by decide, 
    fun p a x q h => (show ∀ y ∈ ([0x61, 0xE9, 0x301, 0x62, 0x1F600, 0x200D, 0x2764, 0xFE0F, 0x62] : List Nat).zip
      [0xE9, 0x301, 0x62, 0x1F600, 0x200D, 0x2764, 0xFE0F, 0x62], (toy y.1).gcb = .Regional_Indicator →
      (toy y.2).gcb ≠ .Regional_Indicator by decide +kernel) (a, x) (pair_mem _ p a x q h),
    fun p a x q h => (show ∀ y ∈ ([0x61, 0xE9, 0x301, 0x62, 0x1F600, 0x200D, 0x2764, 0xFE0F, 0x62] : List Nat).zip
      [0xE9, 0x301, 0x62, 0x1F600, 0x200D, 0x2764, 0xFE0F, 0x62], (toy y.1).gcb = .Prepend → 0x80 ≤ y.2 by decide +kernel)
      (a, x) (pair_mem _ p a x q h),
    noMark_of_pairs _ _ (by decide +kernel), by decide +kernel, by decide +kernel, by decide +kernel⟩

end Verif.Props.Scan
