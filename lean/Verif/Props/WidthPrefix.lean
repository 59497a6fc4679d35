import Verif.Props.TextPrefix
import Verif.Props.Width
/-!
# C83 Appending text takes no columns back
-/

namespace Verif.Props.WidthPrefix
open Verif.Ucd Verif.Spec Verif.Toy Verif.Grapheme Verif.Width

theorem extend_width {U : Table} (W : WidthOk U) : ∀ (e cl : List Nat), 0xFE0E ∉ e →
    clusterWidth U cl ≤ clusterWidth U (cl ++ e) ∧ clusterWidth U (cl ++ e) ≤ clusterWidth U cl + 2 * e.length := by
  intro e
  induction e with
  | nil => intro cl _; simp
  | cons c e ih =>
    intro cl h
    simp only [List.mem_cons, not_or] at h
    have h1 := C20_monotone W cl c (fun hc => h.1 hc.symm)
    have h2 := ih (cl ++ [c]) h.2
    rw [List.append_assoc, List.singleton_append] at h2
    rw [List.length_cons]
    omega

theorem visible_le (U : Table) (l : List Nat) : visible U l ≤ l.length := List.length_filter_le _ _

theorem sum_le {U : Table} (W : WidthOk U) (l : List (List Nat)) : (l.map (clusterWidth U)).sum ≤ 2 * l.flatten.length := by
  induction l with
  | nil => simp
  | cons x l ih =>
    have := C20_upper_bound W x
    have := visible_le U x
    simp only [List.map_cons, List.sum_cons, List.flatten_cons, List.length_append]
    omega

/-- **C83.** Appending text without U+FE0E never takes columns back, and each character appended takes at most two more. -/
theorem C83_columns {U : Table} (W : WidthOk U) (k : Nat) (a b : List Nat) (ha : ∀ c ∈ a, c ≤ 0x1FFFFF) (hb : ∀ c ∈ b, c ≤ 0x1FFFFF)
    (hv : 0xFE0E ∉ b) :
    textWidth U k (Utf8.toUtf8Str a) ≤ textWidth U k (Utf8.toUtf8Str (a ++ b)) ∧
    textWidth U k (Utf8.toUtf8Str (a ++ b)) ≤ textWidth U k (Utf8.toUtf8Str a) + 2 * b.length := by
  rw [C21_sum U k a ha, C21_sum U k (a ++ b) (by intro c hc; rcases List.mem_append.1 hc with h | h; exacts [ha c h, hb c h])]
  have pa := (C15_partition U a).concat
  have pab := (C15_partition U (a ++ b)).concat
  rcases List.eq_nil_or_concat (clusters U a) with h0 | ⟨cs, c, h0⟩
  · rw [h0] at pa ⊢
    have : a = [] := by simpa using pa.symm
    subst this
    have := sum_le W (clusters U ([] ++ b))
    rw [pab] at this
    simp only [List.nil_append] at this ⊢
    simp only [List.map_nil, List.sum_nil]
    omega
  · rw [List.concat_eq_append] at h0
    obtain ⟨e, rest, h1⟩ := TextPrefix.C80_graphemes U a b cs c h0
    rw [h0] at pa
    rw [h1] at pab
    have hsplit : e ++ rest.flatten = b := by
      have : cs.flatten ++ c ++ (e ++ rest.flatten) = cs.flatten ++ c ++ b := by
        simp only [List.flatten_append, List.flatten_cons, List.flatten_nil, List.append_nil] at pa pab
        rw [pa, ← pab, ← pa]
        simp
      exact List.append_cancel_left this
    have he : 0xFE0E ∉ e := fun h => hv (by rw [← hsplit]; simp [h])
    have hw := extend_width W e c he
    have hr := sum_le W rest
    have hl := congrArg List.length hsplit
    simp only [List.length_append] at hl
    rw [h0, h1]
    simp only [List.map_append, List.map_cons, List.map_nil, List.sum_append, List.sum_cons, List.sum_nil]
    omega

/-- The full claim. -/
def C83_Full : Prop := ∀ U : Table, WidthOk U → ∀ k a b, (∀ c ∈ a, c ≤ 0x1FFFFF) → (∀ c ∈ b, c ≤ 0x1FFFFF) →
  textWidth U k (Utf8.toUtf8Str a) ≤ textWidth U k (Utf8.toUtf8Str (a ++ b))

/-- A watch is two columns wide, and one when U+FE0E follows. -/
theorem C83_fails : ¬ C83_Full := by
  intro h
  have := h toy toy_width_ok 16 [0x231A] [0xFE0E] (by decide) (by decide)
  rw [C21_sum _ _ _ (by decide), C21_sum _ _ _ (by decide)] at this
  revert this
  decide

/-- Non-vacuity, both bounds: a mark takes nothing, a selector one more, a wide letter two more. -/
example : textWidth toy 16 (Utf8.toUtf8Str [0x2764]) = 1 ∧ textWidth toy 16 (Utf8.toUtf8Str ([0x2764] ++ [0x301])) = 1 ∧
    textWidth toy 16 (Utf8.toUtf8Str ([0x2764] ++ [0xFE0F])) = 2 ∧ textWidth toy 16 (Utf8.toUtf8Str ([0x2764] ++ [0x1100])) = 3 := by
  refine ⟨?_, ?_, ?_, ?_⟩ <;> (rw [C21_sum _ _ _ (by decide)]; decide)

end Verif.Props.WidthPrefix
