import Verif.Spec.Norm
/-!
# A small excerpt of the Unicode normalization data, to show that hypotheses are satisfiable
-/

namespace Verif.Norm
open Verif.Spec.Norm

/-- Look-up in an association list. -/
def look {α : Type} (tab : List (Nat × α)) (dflt : α) (c : Nat) : α := (tab.lookup c).getD dflt

def cccTab : List (Nat × Nat) :=
  [(0x301, 230), (0x307, 230), (0x308, 230), (0x30A, 230), (0x316, 220), (0x323, 220), (0x344, 230), (0x93C, 7), (0xF71, 129), (0xF72, 130)]

def canonTab : List (Nat × List Nat) :=
  [(0xC5, [0x41, 0x30A]), (0xE9, [0x65, 0x301]), (0x344, [0x308, 0x301]), (0x958, [0x915, 0x93C]), (0xF73, [0xF71, 0xF72]),
   (0x1E63, [0x73, 0x323]), (0x1E69, [0x1E63, 0x307]), (0x1E9B, [0x17F, 0x307]), (0x212B, [0xC5])]

def compatTab : List (Nat × List Nat) := [(0x17F, [0x73]), (0xFB01, [0x66, 0x69])]

def compTab : List ((Nat × Nat) × Nat) :=
  [((0x41, 0x30A), 0xC5), ((0x65, 0x301), 0xE9), ((0x73, 0x323), 0x1E63), ((0x17F, 0x307), 0x1E9B),
   ((0x1E63, 0x307), 0x1E69), ((0x308, 0x301), 0x344), ((0xF71, 0xF72), 0xF73)]

/-- An excerpt of the Unicode data as the table generator writes them: only the codepoints of CompositionExclusions.txt are
excluded from composition (U+0958), the other full composition exclusions (U+0344, U+0F73) are in the composition table
(see C52). -/
def toy : Tables where
  ccc := look cccTab 0
  canon := look canonTab []
  compat := look compatTab []
  comp a b := (compTab.lookup (a, b)).getD 0
  excl c := decide (c ∈ [0x958])
  nfcNo c := decide (c ∈ [0x344, 0x958, 0xF73, 0x212B])
  nfcMaybe c := decide (c ∈ [0x301, 0x307, 0x30A, 0x323]) || isHangulV c || isHangulT c
  nfdNo c := isHangulSyllable c || decide (look canonTab [] c ≠ [])
  nfkcNo c := decide (c ∈ [0x344, 0x958, 0xF73, 0x212B, 0x17F, 0x1E9B, 0xFB01])
  nfkcMaybe c := decide (c ∈ [0x301, 0x307, 0x30A, 0x323]) || isHangulV c || isHangulT c
  nfkdNo c := isHangulSyllable c || decide (look canonTab [] c ≠ []) || decide (look compatTab [] c ≠ [])
  depth := 2

theorem look_cases {α : Type} (tab : List (Nat × α)) (dflt : α) (c : Nat) :
    look tab dflt c = dflt ∨ (c, look tab dflt c) ∈ tab := by
  unfold look
  induction tab with
  | nil => left; rfl
  | cons p tab ih =>
    rw [List.lookup_cons]
    by_cases h : (c == p.1) = true
    · simp only [h]
      right
      have : c = p.1 := by simpa using h
      simp [this]
    · simp only [h]
      rcases ih with h' | h'
      · left; exact h'
      · right; exact List.mem_cons_of_mem _ h'

def toyRank (c : Nat) : Nat :=
  if c ∈ [0x1E69, 0x1E9B, 0x212B] then 2
  else if c ∈ [0xC5, 0xE9, 0x344, 0x958, 0xF73, 0x1E63, 0x17F, 0xFB01] then 1 else 0

theorem toy_ranked : Ranked toy := by
  refine ⟨toyRank, ?_, ?_⟩
  · intro c
    show _ ≤ 2
    unfold toyRank
    split
    · omega
    · split <;> omega
  · intro c _
    constructor
    · rcases look_cases canonTab [] c with h | h
      · intro d hd; rw [show toy.canon c = [] from h] at hd; exact absurd hd List.not_mem_nil
      · have : ∀ p ∈ canonTab, ∀ d ∈ p.2, toyRank d < toyRank p.1 := by decide
        exact this _ h
    · rcases look_cases compatTab [] c with h | h
      · intro d hd; rw [show toy.compat c = [] from h] at hd; exact absurd hd List.not_mem_nil
      · have : ∀ p ∈ compatTab, ∀ d ∈ p.2, toyRank d < toyRank p.1 := by decide
        exact this _ h

theorem look_dflt {α : Type} (tab : List (Nat × α)) (dflt : α) (c : Nat) (h : ∀ p ∈ tab, p.1 ≠ c) :
    look tab dflt c = dflt := by
  rcases look_cases tab dflt c with h' | h'
  · exact h'
  · exact absurd rfl (h _ h')

theorem toy_jamo : JamoOk toy := by
  intro c hc
  have hc' : 4352 ≤ c ∧ c < 4547 := by
    unfold isHangulL isHangulV isHangulT at hc
    rw [Bool.and_eq_true, decide_eq_true_iff, decide_eq_true_iff, Bool.and_eq_true, decide_eq_true_iff,
      decide_eq_true_iff, Bool.and_eq_true, decide_eq_true_iff, decide_eq_true_iff] at hc
    simp only [LBase, VBase, TBase, LCount, VCount, TCount] at hc
    omega
  refine ⟨look_dflt _ _ _ ?_, look_dflt _ _ _ ?_, look_dflt _ _ _ ?_, ?_⟩
  · have : ∀ p ∈ canonTab, ¬ (4352 ≤ p.1 ∧ p.1 < 4547) := by decide
    intro p hp e
    exact this p hp (e ▸ hc')
  · have : ∀ p ∈ compatTab, ¬ (4352 ≤ p.1 ∧ p.1 < 4547) := by decide
    intro p hp e
    exact this p hp (e ▸ hc')
  · have : ∀ p ∈ cccTab, ¬ (4352 ≤ p.1 ∧ p.1 < 4547) := by decide
    intro p hp e
    exact this p hp (e ▸ hc')
  · have h1 : ¬ (44032 ≤ c) := by omega
    unfold isHangulSyllable
    rw [decide_eq_false (p := c ≥ SBase) h1]
    rfl

theorem lookup_mem {α β : Type} [BEq α] [LawfulBEq α] (tab : List (α × β)) (k : α) (v : β)
    (h : tab.lookup k = some v) : (k, v) ∈ tab := by
  induction tab with
  | nil => simp at h
  | cons p tab ih =>
    rw [List.lookup_cons] at h
    by_cases hk : (k == p.1) = true
    · simp only [hk] at h
      have h1 : k = p.1 := by simpa using hk
      have h2 : p.2 = v := by simpa using h
      simp [h1, ← h2]
    · simp only [hk] at h
      exact List.mem_cons_of_mem _ (ih h)

theorem toy_comp : CompOk toy := by
  intro a b h
  have hc : toy.comp a b = (compTab.lookup (a, b)).getD 0 := rfl
  cases hl : compTab.lookup (a, b) with
  | none => rw [hc, hl] at h; exact absurd rfl h
  | some v =>
    rw [hc, hl]
    have hm := lookup_mem _ _ _ hl
    have : ∀ p ∈ compTab, toy.canon p.2 = [p.1.1, p.1.2] ∧ isHangulSyllable p.2 = false := by decide
    exact this _ hm

end Verif.Norm
