/-!
# Labelled ranges given by end offsets

The script, emoji and run segmenters report each segment by its *end offset* in the text and a label.
-/

namespace Verif.Spec

/-- The end offsets cut `0 … n` into consecutive non-empty ranges that cover it. -/
structure Covers (ends : List Nat) (n : Nat) : Prop where
  increasing : (0 :: ends).Pairwise (· < ·)
  complete : (0 :: ends).getLast (by simp) = n

/-- The slices of `text` that the end offsets describe, the first one starting at `b`. -/
def slices {α : Type} (text : List α) : Nat → List Nat → List (List α)
  | _, [] => []
  | b, e :: es => (text.drop b).take (e - b) :: slices text e es

/-- The label of the range that contains position `i`: that of the first range ending after `i`. -/
def labelAt {α : Type} (runs : List (α × Nat)) (i : Nat) : Option α :=
  (runs.find? (fun r => decide (i < r.2))).map Prod.fst

/-- `b ≤ i < e` for the range `[b, e)` of `runs`: `e` is an end offset and `b` the one before it (or 0). -/
def IsRange (ends : List Nat) (b e : Nat) : Prop :=
  ∃ l₁ l₂, 0 :: ends = l₁ ++ b :: e :: l₂

/-- `p` is a border of two ranges, or the beginning or the end of the text. -/
def IsBorder (ends : List Nat) (p : Nat) : Prop := p ∈ 0 :: ends

end Verif.Spec

namespace Verif.Spec

/-- What a segmenter reports for the labelled segments `segs` when the first of them starts at offset `b`:
label and end offset of each. -/
def endsOf {α β : Type} : Nat → List (α × List β) → List (α × Nat)
  | _, [] => []
  | b, (l, s) :: r => (l, b + s.length) :: endsOf (b + s.length) r

end Verif.Spec
