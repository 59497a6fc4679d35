import Verif.Spec.Vector
import Mathlib.Tactic.Common
import Mathlib.Tactic.Ring
/-!
# Lanes of registers
-/

namespace Verif.Vec

theorem lane_lt (w r i : Nat) : lane w r i < 2 ^ w := Nat.mod_lt _ (Nat.two_pow_pos _)

theorem testBit_lane (w r i b : Nat) : (lane w r i).testBit b = (decide (b < w) && r.testBit (w * i + b)) := by
  rw [lane, Nat.testBit_mod_two_pow, Nat.testBit_div_two_pow, Nat.add_comm]

theorem ofLanes_lt (w n : Nat) (f : Nat → Nat) : ofLanes w n f < 2 ^ (w * n) := by
  induction n with
  | zero => simp [ofLanes]
  | succ n ih =>
    rw [ofLanes]
    have h1 : f n % 2 ^ w < 2 ^ w := Nat.mod_lt _ (Nat.two_pow_pos _)
    have h2 : 2 ^ (w * (n + 1)) = 2 ^ w * 2 ^ (w * n) := by rw [← Nat.pow_add]; congr 1; ring
    rw [h2]
    have h3 : (f n % 2 ^ w + 1) * 2 ^ (w * n) ≤ 2 ^ w * 2 ^ (w * n) := Nat.mul_le_mul_right _ h1
    rw [Nat.add_mul, Nat.one_mul] at h3
    omega

theorem lane_ofLanes (w n : Nat) (f : Nat → Nat) (i : Nat) (h : i < n) :
    lane w (ofLanes w n f) i = f i % 2 ^ w := by
  induction n with
  | zero => omega
  | succ n ih =>
    rw [ofLanes, lane]
    rcases Nat.lt_or_ge i n with hi | hi
    · have e : f n % 2 ^ w * 2 ^ (w * n) = 2 ^ (w * i) * (f n % 2 ^ w * 2 ^ (w * (n - i - 1)) * 2 ^ w) := by
        have : w * n = w * i + (w * (n - i - 1) + w) := by
          have : n = i + ((n - i - 1) + 1) := by omega
          conv => lhs; rw [this]
          ring
        rw [this, Nat.pow_add, Nat.pow_add]; ring
      rw [e, Nat.add_mul_div_left _ _ (Nat.two_pow_pos _), Nat.add_mul_mod_self_right]
      exact ih hi
    · have : i = n := by omega
      subst this
      rw [Nat.add_mul_div_right _ _ (Nat.two_pow_pos _), Nat.div_eq_of_lt (ofLanes_lt w i f), Nat.zero_add,
        Nat.mod_mod]

theorem lane_ofLanes_ge (w n : Nat) (f : Nat → Nat) (i : Nat) (h : n ≤ i) :
    lane w (ofLanes w n f) i = 0 := by
  rw [lane, Nat.div_eq_of_lt (Nat.lt_of_lt_of_le (ofLanes_lt w n f) (Nat.pow_le_pow_right (by decide) (Nat.mul_le_mul_left _ h))),
    Nat.zero_mod]

/-- A lane of a lane. -/
theorem lane_lane (w k r i j : Nat) (h : j < k) : lane w (lane (w * k) r i) j = lane w r (k * i + j) := by
  refine Nat.eq_of_testBit_eq fun b => ?_
  rw [testBit_lane, testBit_lane, testBit_lane]
  rcases Nat.lt_or_ge b w with hb | hb
  · have h1 : w * j + b < w * k := by
      have : w * (j + 1) ≤ w * k := Nat.mul_le_mul_left _ h
      rw [Nat.mul_add] at this; omega
    have h2 : w * k * i + (w * j + b) = w * (k * i + j) + b := by ring
    simp only [h1, h2, decide_true, Bool.true_and]
  · simp only [Nat.not_lt.2 hb, decide_false, Bool.false_and]

theorem lane_and (w a b i : Nat) : lane w (a &&& b) i = lane w a i &&& lane w b i := by
  refine Nat.eq_of_testBit_eq fun k => ?_
  rw [testBit_lane, Nat.testBit_and, Nat.testBit_and, testBit_lane, testBit_lane]
  cases decide (k < w) <;> simp

theorem lane_srl (r k i : Nat) : lane 8 (srlBytes r k) i = lane 8 r (k + i) := by
  rw [lane, lane, srlBytes, Nat.div_div_eq_div_mul, ← Nat.pow_add, Nat.mul_add]

theorem lane_one (r i : Nat) : lane 1 r i = (r.testBit i).toNat := by
  rw [lane, Nat.one_mul, Nat.pow_one, Nat.testBit_eq_decide_div_mod_eq]
  have : r / 2 ^ i % 2 < 2 := Nat.mod_lt _ (by decide)
  by_cases h : r / 2 ^ i % 2 = 1
  · simp [h]
  · simp only [h, decide_false, Bool.toNat_false]; omega

theorem testBit_ofLanes (n : Nat) (f : Nat → Nat) (i : Nat) :
    (ofLanes 1 n f).testBit i = (decide (i < n) && decide (f i % 2 = 1)) := by
  have h := lane_one (ofLanes 1 n f) i
  rcases Nat.lt_or_ge i n with hi | hi
  · rw [lane_ofLanes 1 n f i hi, Nat.pow_one] at h
    cases ht : (ofLanes 1 n f).testBit i
    · rw [ht] at h; simp [h]
    · rw [ht] at h; simp [h, hi]
  · rw [lane_ofLanes_ge 1 n f i hi] at h
    cases ht : (ofLanes 1 n f).testBit i
    · simp [Nat.not_lt.2 hi]
    · rw [ht] at h; simp at h

/-- Two bytes make a 16-bit lane, and so on. -/
theorem lane_double (w r i : Nat) : lane (w * 2) r i = lane w r (2 * i) + 2 ^ w * lane w r (2 * i + 1) := by
  have e0 := lane_lane w 2 r i 0 (by decide)
  have e1 := lane_lane w 2 r i 1 (by decide)
  rw [Nat.add_zero] at e0
  rw [← e0, ← e1]
  have hlt : lane (w * 2) r i < 2 ^ w * 2 ^ w := by rw [← Nat.pow_add, ← Nat.mul_two]; exact lane_lt _ _ _
  generalize lane (w * 2) r i = x at *
  rw [lane, lane, Nat.mul_zero, Nat.pow_zero, Nat.div_one, Nat.mul_one]
  have h2 : x / 2 ^ w < 2 ^ w := (Nat.div_lt_iff_lt_mul (Nat.two_pow_pos _)).2 hlt
  rw [Nat.mod_eq_of_lt h2]
  exact (Nat.mod_add_div x (2 ^ w)).symm

theorem ctzFuel_spec (fuel : Nat) : ∀ x, x ≠ 0 → x < 2 ^ fuel →
    x.testBit (ctzFuel fuel x) = true ∧ ∀ j < ctzFuel fuel x, x.testBit j = false := by
  induction fuel with
  | zero => intro x h0 h; rw [Nat.pow_zero] at h; omega
  | succ fuel ih =>
    intro x h0 h
    rw [ctzFuel]
    split
    · next h1 => exact ⟨by rw [Nat.testBit_zero]; simp [h1], fun j hj => by omega⟩
    · next h1 =>
      rw [Nat.pow_succ] at h
      obtain ⟨i1, i2⟩ := ih (x / 2) (by omega) (by omega)
      constructor
      · rw [Nat.add_comm, Nat.testBit_succ]; exact i1
      · intro j hj
        cases j with
        | zero => rw [Nat.testBit_zero]; simp [h1]
        | succ j => rw [Nat.testBit_succ]; exact i2 j (by omega)

end Verif.Vec
