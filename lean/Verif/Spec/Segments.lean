/-!
# Segments of a text

`SegBoundary segs l`: after reading the text `l`, a reader of the segments `segs` is at the border of two
segments (or at the beginning or end of the text).
-/

namespace Verif.Spec

/-- `l` is exactly covered by an initial part of the segments. -/
def SegBoundary {α : Type} (segs : List (List α)) (l : List α) : Prop :=
  ∃ s₁ s₂, segs = s₁ ++ s₂ ∧ s₁.flatten = l

/-- `segs` cuts `text` into non-empty consecutive slices. -/
structure Partition {α : Type} (segs : List (List α)) (text : List α) : Prop where
  concat : segs.flatten = text
  nonempty : ∀ s ∈ segs, s ≠ []

theorem segBoundary_nil {α : Type} (segs : List (List α)) : SegBoundary segs [] := ⟨[], segs, rfl, rfl⟩

theorem segBoundary_cons {α : Type} (s : List α) (segs : List (List α)) (l : List α) (hl : l ≠ []) :
    SegBoundary (s :: segs) l ↔ ∃ l', l = s ++ l' ∧ SegBoundary segs l' := by
  constructor
  · rintro ⟨s₁, s₂, h1, h2⟩
    cases s₁ with
    | nil => simp at h2; exact absurd h2.symm (by simpa using hl)
    | cons x s₁ =>
      simp at h1
      exact ⟨s₁.flatten, by rw [← h2, h1.1]; simp, s₁, s₂, h1.2, rfl⟩
  · rintro ⟨l', h1, s₁, s₂, h2, h3⟩
    exact ⟨s :: s₁, s₂, by simp [h2], by simp [h3, h1]⟩

end Verif.Spec
