import Verif.Props.Norm
import Verif.Props.Case
import Verif.Props.Utf8Exact
/-!
# The remaining overloads: `from_utf8i` (C04), `is_normalized` of UTF-8 text (C31), the case classes (C35)
-/

namespace Verif.Props.Overloads
open Verif.Utf8 Verif.Ucd

theorem loose_lt {bs : List Nat} {v : Nat} (h : Loose bs v) : v < 0x200000 := by
  cases h <;> omega

/-- **C04, `from_utf8i`.** After any byte history the integer interface advances the decoder as the other one does and loses nothing: `-1` means
incomplete, `-2` invalid, and any other integer is the codepoint (no codepoint collides with the two). -/
theorem C04_integer (h : List Nat) (b : Nat) (hb : ∀ x ∈ h ++ [b], x < 256) :
    (fromUtf8i (feed {} h).1 b).1 = (fromUtf8 (feed {} h).1 b).1 ∧
    ((fromUtf8i (feed {} h).1 b).2 = 2^32 - 1 ↔ (fromUtf8 (feed {} h).1 b).2 = .incomplete) ∧
    ((fromUtf8i (feed {} h).1 b).2 = 2^32 - 2 ↔ (fromUtf8 (feed {} h).1 b).2 = .invalid) ∧
    ∀ v, v < 2^32 - 2 → ((fromUtf8i (feed {} h).1 b).2 = v ↔ (fromUtf8 (feed {} h).1 b).2 = .success v) := by
  have hl : ∀ v, (fromUtf8 (feed {} h).1 b).2 = .success v → v < 0x200000 := by
    intro v hv
    obtain ⟨_, _, -, h2⟩ := C04_success_justified_partial h b v hb hv
    exact loose_lt h2
  unfold fromUtf8i
  generalize fromUtf8 (feed {} h).1 b = r at *
  obtain ⟨s, r⟩ := r
  cases r with
  | invalid => simp; omega
  | incomplete => simp; omega
  | success v =>
    have := hl v rfl
    simp; omega

example : (fromUtf8i (feed {} [0xE2]).1 0x82).2 = 2^32 - 1 ∧ (fromUtf8i (feed {} [0xE2, 0x82]).1 0xAC).2 = 0x20AC ∧
    (fromUtf8i (feed {} [0xE2, 0x82]).1 0xC3).2 = 2^32 - 2 := by decide

/-- **C31, UTF-8.** On UTF-8 text `is_normalized` and `normalize` answer as on the codepoints it encodes, on every CPU (`simd` is the detected
width). -/
theorem C31_utf8 (T : Verif.Norm.Tables) (simd : Nat) (f : Verif.Norm.Form) (text : List Nat) (h : ∀ c ∈ text, c ≤ 0x1FFFFF) :
    Verif.Norm.isNormalized8 T simd f (toUtf8Str text) = Verif.Norm.isNormalized T f text := by
  unfold Verif.Norm.isNormalized8
  rw [C02_utf8_string_roundtrip simd text h]

/-- **C31, UTF-8**, decomposed forms: the answer is whether normalizing changes the text. -/
theorem C31_utf8_decomposed {T : Verif.Norm.Tables} (hT : Verif.Spec.Norm.Ranked T) (hJ : Verif.Spec.Norm.JamoOk T) (hQ : Verif.Props.Norm.QcOk T)
    (simd : Nat) (f : Verif.Norm.Form) (hf : f = .NFD ∨ f = .NFKD) (text : List Nat) (h : ∀ c ∈ text, c ≤ 0x1FFFFF) :
    Verif.Norm.isNormalized8 T simd f (toUtf8Str text) = true ↔ Verif.Norm.normalize T f text = text := by
  rw [C31_utf8 T simd f text h]
  exact (Verif.Props.Norm.C31_decomposed_forms hT hJ hQ f hf text).2.2

/-- **C35.** Cased letters are those of category Lu, Ll and Lt; case-ignorable codepoints are those of Unicode's D136 (category Mn, Me, Cf, Lm or
Sk, or Word_Break MidLetter, MidNumLet or Single_Quote). -/
theorem C35_classes (U : Table) (c : Nat) :
    (Verif.Case.isCased U c = true ↔
      (U c).generalCategory ∈ [.Uppercase_Letter, .Lowercase_Letter, .Titlecase_Letter]) ∧
    (Verif.Case.isCaseIgnorable U c = true ↔
      (U c).generalCategory ∈ [.Nonspacing_Mark, .Enclosing_Mark, .Format, .Modifier_Letter, .Modifier_Symbol] ∨
        (U c).wb ∈ [.MidLetter, .MidNumLet, .Single_Quote]) := by
  unfold Verif.Case.isCased Verif.Case.isCaseIgnorable
  simp only [Bool.or_eq_true, decide_eq_true_eq, List.mem_cons, List.not_mem_nil, or_false]
  tauto

end Verif.Props.Overloads
