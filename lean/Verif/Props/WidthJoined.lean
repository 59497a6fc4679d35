import Verif.Props.Width
/-!
# C20 What is joined takes no columns, also with a text selector behind it
-/

namespace Verif.Props.WidthJoined
open Verif.Ucd Verif.Spec Verif.Toy Verif.Grapheme Verif.Width

/-- No ZWJ and no virama so far. -/
def Plain (s : Acc) : Prop := s.skipNext = false ∧ s.previousWasVirama = false

theorem push_plain (U : Table) (s : Acc) (c : Nat) (hs : Plain s) (hz : c ≠ 0x200D) (hv : (U c).isVirama = false) : Plain (push U s c) := by
  obtain ⟨h1, h2⟩ := hs
  unfold push push' measureCp Plain
  dsimp only
  rw [h1, if_neg (by simp), if_neg hz, hv, if_neg (c := (false : Bool) = true) (by simp)]
  split_ifs <;> first | exact ⟨rfl, h2⟩ | exact ⟨rfl, rfl⟩

theorem foldl_plain (U : Table) : ∀ (l : List Nat) (s : Acc), Plain s → 0x200D ∉ l → (∀ c ∈ l, (U c).isVirama = false) → Plain (l.foldl (push U) s) := by
  intro l
  induction l with
  | nil => intro s h _ _; exact h
  | cons c l ih =>
    intro s h hz hv
    simp only [List.mem_cons, not_or] at hz
    exact ih _ (push_plain U s c h (fun e => hz.1 e.symm) (hv c (List.mem_cons_self ..))) hz.2 (fun d hd => hv d (List.mem_cons_of_mem _ hd))

/-- **C20, joined characters.** In a cluster without joiner and virama so far, a joiner and the character joined take no columns, and neither does a
text selector behind them take any away. -/
theorem C20_joined {U : Table} (W : WidthOk U) (hsel : (U 0xFE0E).charWidth = 0) (cl : List Nat) (hz : 0x200D ∉ cl)
    (hv : ∀ c ∈ cl, (U c).isVirama = false) (x : Nat) :
    clusterWidth U (cl ++ [0x200D, x]) = clusterWidth U cl ∧ clusterWidth U (cl ++ [0x200D, x, 0xFE0E]) = clusterWidth U cl := by
  simp only [clusterWidth_eq_acc W, accWidth, List.foldl_append, List.foldl_cons, List.foldl_nil]
  obtain ⟨h1, h2⟩ := foldl_plain U cl {} ⟨rfl, rfl⟩ hz hv
  generalize cl.foldl (push U) {} = s at *
  have hj : ∀ r, push U (push U s 0x200D) r = push' U r ((push U s 0x200D).regionalIndicators)
      { (push U s 0x200D) with regionalIndicators := if (U r).gcb = .Regional_Indicator then (push U s 0x200D).regionalIndicators + 1 else 0 } := fun _ => rfl
  have hx : (push U (push U s 0x200D) x).total = s.total ∧ (push U (push U s 0x200D) x).current = s.current ∧
      (push U (push U s 0x200D) x).skipNext = false ∧ (push U (push U s 0x200D) x).lastMeasuredWidth = 0 ∧
      (push U (push U s 0x200D) x).previousWasVirama = false := by
    rw [hj]
    unfold push push'
    simp [h1, h2]
  obtain ⟨x1, x2, x3, x4, x5⟩ := hx
  generalize push U (push U s 0x200D) x = t at *
  refine ⟨by unfold Acc.width; rw [x1, x2], ?_⟩
  have : (push U t 0xFE0E).total = s.total ∧ (push U t 0xFE0E).current = s.current := by
    unfold push push' measureCp
    dsimp only
    rw [x3, x4, hsel, if_neg (by simp), if_neg (by decide), if_neg (fun h => absurd h.1 (by decide)), if_neg (c := (_ ∧ 0 = 2)) (fun h => absurd h.2 (by decide))]
    split_ifs with g1 g2 g3 g4 g5 g6 <;> first | exact ⟨x1, x2⟩ | contradiction | (exfalso; simp_all)
  unfold Acc.width
  rw [this.1, this.2]

/-- Non-vacuity: a watch takes two columns, joined with a heart and followed by a text selector too; the selector alone takes one away. -/
example : clusterWidth toy [0x231A] = 2 ∧ clusterWidth toy ([0x231A] ++ [0x200D, 0x2764, 0xFE0E]) = 2 ∧ clusterWidth toy [0x231A, 0xFE0E] = 1 := by decide

end Verif.Props.WidthJoined
