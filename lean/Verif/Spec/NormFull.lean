import Verif.Spec.Norm
/-!
# Decomposition and composition, independently of the program's own functions (Unicode D65–D68, D114–D117, chapter 3.12)

Only the *data* (`T.canon`, `T.compat`, `T.comp`, `T.excl`, `T.ccc`) are taken from the tables; the Hangul syllables are given by their
arithmetic.
-/

namespace Verif.Spec.Norm
open Verif.Norm

/-- One decomposition mapping of a codepoint: the arithmetic one of a Hangul syllable, the canonical one of the data, or, for the compatibility
forms and when there is no canonical one, the compatibility one. -/
inductive Maps (T : Tables) (k : Bool) : Nat → List Nat → Prop
  | lv (l v : Nat) : l < 19 → v < 21 → Maps T k (0xAC00 + (l * 21 + v) * 28) [0x1100 + l, 0x1161 + v]
  | lvt (l v t : Nat) : l < 19 → v < 21 → 0 < t → t < 28 →
      Maps T k (0xAC00 + (l * 21 + v) * 28 + t) [0x1100 + l, 0x1161 + v, 0x11A7 + t]
  | canon (c : Nat) : ¬ (0xAC00 ≤ c ∧ c ≤ 0xD7A3) → T.canon c ≠ [] → Maps T k c (T.canon c)
  | compat (c : Nat) : ¬ (0xAC00 ≤ c ∧ c ≤ 0xD7A3) → k = true → T.canon c = [] → T.compat c ≠ [] → Maps T k c (T.compat c)

/-- One codepoint of a text is replaced by its mapping. -/
inductive Step (T : Tables) (k : Bool) : List Nat → List Nat → Prop
  | mk (a b : List Nat) (c : Nat) (m : List Nat) : Maps T k c m → Step T k (a ++ c :: b) (a ++ m ++ b)

/-- Any number of replacements. -/
abbrev Steps (T : Tables) (k : Bool) : List Nat → List Nat → Prop := Relation.ReflTransGen (Step T k)

/-- A text none of whose codepoints has a mapping. -/
def Irreducible (T : Tables) (k : Bool) (text : List Nat) : Prop := ∀ c ∈ text, ∀ m, ¬ Maps T k c m

/-- D68/D65: `n` is a full canonical (`k`: compatibility) decomposition of `text`: mappings are applied until there is none left, then the marks
are exchanged into canonical order. -/
def FullDecomposition (T : Tables) (k : Bool) (text n : List Nat) : Prop :=
  ∃ d, Steps T k text d ∧ Irreducible T k d ∧ Reorders T.ccc d n ∧ Ordered T.ccc n

/-- D114: the primary composite of two codepoints: a Hangul syllable by arithmetic, or the entry of the composition data, unless it is excluded. -/
inductive PrimaryComposite (T : Tables) : Nat → Nat → Nat → Prop
  | lv (l v : Nat) : l < 19 → v < 21 → T.excl (0xAC00 + (l * 21 + v) * 28) = false →
      PrimaryComposite T (0x1100 + l) (0x1161 + v) (0xAC00 + (l * 21 + v) * 28)
  | lvt (l v t : Nat) : l < 19 → v < 21 → 0 < t → t < 28 → T.excl (0xAC00 + (l * 21 + v) * 28 + t) = false →
      PrimaryComposite T (0xAC00 + (l * 21 + v) * 28) (0x11A7 + t) (0xAC00 + (l * 21 + v) * 28 + t)
  | data (a b : Nat) : ¬ (0x1100 ≤ a ∧ a < 0x1113 ∧ 0x1161 ≤ b ∧ b < 0x1176) →
      ¬ (0xAC00 ≤ a ∧ a ≤ 0xD7A3 ∧ (a - 0xAC00) % 28 = 0 ∧ 0x11A7 ≤ b ∧ b < 0x11C3) →
      T.comp a b ≠ 0 → T.excl (T.comp a b) = false → PrimaryComposite T a b (T.comp a b)

end Verif.Spec.Norm
