import Mathlib.Logic.Relation
import Verif.Model.Norm
/-!
# Independent specification of normalization notions (Unicode chapter 3.11)
-/

namespace Verif.Spec.Norm

variable (ccc : Nat → Nat)

/-- D108: the ordered pair of adjacent codepoints `x y` is a reorderable pair. -/
def Reorderable (x y : Nat) : Prop := ccc x > ccc y ∧ ccc y > 0

/-- D109: exchange one reorderable pair. -/
inductive Swap : List Nat → List Nat → Prop
  | mk (a b : List Nat) (x y : Nat) : Reorderable ccc x y → Swap (a ++ x :: y :: b) (a ++ y :: x :: b)

/-- Any number of exchanges. -/
abbrev Reorders : List Nat → List Nat → Prop := Relation.ReflTransGen (Swap ccc)

/-- A string in canonical order: it contains no reorderable pair. -/
def Ordered (l : List Nat) : Prop := ∀ a b x y, l = a ++ x :: y :: b → ¬ Reorderable ccc x y

/-- A string of non-starters. -/
def Marks (l : List Nat) : Prop := ∀ c ∈ l, ccc c ≠ 0

open Verif.Norm

/-! ## What the theorems assume of the generated tables

All of these hold of the Unicode data; each is shown satisfiable by `Verif.Norm.toy` (Props/Norm.lean). -/

/-- Following decomposition mappings always ends (the tables have no cycle), within `T.depth` steps. -/
def Ranked (T : Tables) : Prop :=
  ∃ rank : Nat → Nat, (∀ c, rank c ≤ T.depth) ∧
    ∀ c, isHangulSyllable c = false → (∀ d ∈ T.canon c, rank d < rank c) ∧ (∀ d ∈ T.compat c, rank d < rank c)

/-- The conjoining jamo have no decomposition and are starters. -/
def JamoOk (T : Tables) : Prop :=
  ∀ c, isHangulL c ∨ isHangulV c ∨ isHangulT c → T.canon c = [] ∧ T.compat c = [] ∧ T.ccc c = 0 ∧
    isHangulSyllable c = false

/-- The composition table is derived from the decomposition table (tablegen/case_norm_generator.cpp:162-166). -/
def CompOk (T : Tables) : Prop :=
  ∀ a b, T.comp a b ≠ 0 → T.canon (T.comp a b) = [a, b] ∧ isHangulSyllable (T.comp a b) = false

/-! ## Canonical composition (D117 and the composition algorithm of chapter 3.11) -/

/-- A starter of the composed text with the marks that follow it. -/
structure Group where
  starter : Nat
  marks : List Nat
deriving DecidableEq, Repr

/-- The class of the last mark that stands between the starter and the current position (0: none). -/
def lastCcc (ms : List Nat) : Nat := (ms.getLast?.map ccc).getD 0

/-- D115: a codepoint of class `k` is not blocked from the starter of a group whose remaining marks are `ms`. -/
def NotBlocked (ms : List Nat) (c : Nat) : Prop := ms = [] ∨ lastCcc ccc ms < ccc c

instance (ms : List Nat) (c : Nat) : Decidable (NotBlocked ccc ms c) := inferInstanceAs (Decidable (_ ∨ _))

/-- Composition of the rest of the text, the current group being `g`: combine with the starter whenever a primary
composite (per `pc`) exists and the codepoint is not blocked; otherwise a starter opens a new group and a mark stays
behind its starter. -/
def composeGroups (pc : Nat → Nat → Option Nat) (g : Group) : List Nat → List Group
  | [] => [g]
  | c :: cs =>
    match (if NotBlocked ccc g.marks c then pc g.starter c else none) with
    | some p => composeGroups pc ⟨p, g.marks⟩ cs
    | none =>
      if ccc c = 0 then g :: composeGroups pc ⟨c, []⟩ cs
      else composeGroups pc ⟨g.starter, g.marks ++ [c]⟩ cs

/-- Split a text into its leading marks and, if there is a starter, the groups of the composed text. -/
def composition (pc : Nat → Nat → Option Nat) (d : List Nat) : List Nat × List Group :=
  match d.dropWhile (fun c => ccc c != 0) with
  | [] => (d, [])
  | s :: rest => (d.takeWhile (fun c => ccc c != 0), composeGroups ccc pc ⟨s, []⟩ rest)

/-- The composed text: every starter followed by its remaining marks. -/
def assemble (lead : List Nat) (gs : List Group) : List Nat := lead ++ gs.flatMap fun g => g.starter :: g.marks

/-- The primary composite of two codepoints as the code computes it. -/
def primary (T : Tables) (a b : Nat) : Option Nat :=
  if tryCompose T a b ≠ 0 ∧ T.excl (tryCompose T a b) = false then some (tryCompose T a b) else none

/-- The normalization form according to the Unicode algorithm (decompose, order, compose). -/
def unicodeNormalize (T : Tables) (f : Form) (text : List Nat) : List Nat :=
  if f.composes then
    assemble (composition T.ccc (primary T) (canonicalOrder T (text.flatMap (decompose T f.k)))).1
      (composition T.ccc (primary T) (canonicalOrder T (text.flatMap (decompose T f.k)))).2
  else canonicalOrder T (text.flatMap (decompose T f.k))

/-- The groups of the composed text of `text`. -/
def groupsOf (T : Tables) (k : Bool) (text : List Nat) : List Group :=
  (composition T.ccc (primary T) (canonicalOrder T (text.flatMap (decompose T k)))).2

/-- The decomposition form with the same `use_compatibility`. -/
def decomposed (f : Form) : Form := if f.k then .NFKD else .NFD

/-- `c` starts its own segment of the normalized text: its decomposition begins with a starter which, for the
composition forms, combines with nothing before it. -/
def SafeStart (T : Tables) (f : Form) (c : Nat) : Prop :=
  ∃ h t, decompose T f.k c = h :: t ∧ T.ccc h = 0 ∧ (f.composes = true → ∀ a, primary T a h = none)

/-- Where the streaming normalizer may cut a text: before a starter that, for the composition forms, has the quick-check value
Yes (normalization.cpp:544-560, UAX #15). -/
def Boundary (T : Tables) (f : Form) (c : Nat) : Prop :=
  T.ccc c = 0 ∧
    match f with
    | .NFD => True
    | .NFKD => True
    | .NFC => T.nfcNo c = false ∧ T.nfcMaybe c = false
    | .NFKC => T.nfkcNo c = false ∧ T.nfkcMaybe c = false

/-- The pieces of a text cut exactly before its boundaries. -/
structure Segments (T : Tables) (f : Form) (text : List Nat) (segs : List (List Nat)) : Prop where
  flatten : segs.flatten = text
  nonempty : ∀ s ∈ segs, s ≠ []
  inside : ∀ s ∈ segs, ∀ c ∈ s.tail, ¬ Boundary T f c
  starts : ∀ s ∈ segs.tail, ∀ c, s.head? = some c → Boundary T f c

/-- What the composition quick-check tables must satisfy for a boundary to start a segment of the normalized text:
a starter that combines with something before it, or whose mapping begins with a codepoint that is not a boundary, has
not the quick-check value Yes. -/
structure BoundaryOk (T : Tables) (f : Form) : Prop where
  second : ∀ a b, T.comp a b ≠ 0 → T.excl (T.comp a b) = false → ¬ Boundary T f b
  jamo : ∀ c, isHangulV c = true ∨ isHangulT c = true → ¬ Boundary T f c
  lead : ∀ c, isHangulL c = true → Boundary T f c
  first : ∀ c d ds, isHangulSyllable c = false → Boundary T f c → mapping T f.k c = d :: ds → Boundary T f d

end Verif.Spec.Norm
