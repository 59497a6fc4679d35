import Verif.Model.Utf8
import Verif.Spec.Utf8
/-! Helper lemmas about the UTF-8 model: arithmetic forms of the bit manipulations. -/

namespace Verif.Utf8
open Verif.Spec

theorem and_3F (x : Nat) : x &&& 0x3F = x % 64 := Nat.and_two_pow_sub_one_eq_mod x 6
theorem and_1F (x : Nat) : x &&& 0x1F = x % 32 := Nat.and_two_pow_sub_one_eq_mod x 5
theorem and_0F (x : Nat) : x &&& 0x0F = x % 16 := Nat.and_two_pow_sub_one_eq_mod x 4
theorem and_07 (x : Nat) : x &&& 0x07 = x % 8 := Nat.and_two_pow_sub_one_eq_mod x 3
theorem and_7F (x : Nat) : x &&& 0x7F = x % 128 := Nat.and_two_pow_sub_one_eq_mod x 7
theorem and_3FF (x : Nat) : x &&& 0x3FF = x % 1024 := Nat.and_two_pow_sub_one_eq_mod x 10

set_option maxRecDepth 4000 in
theorem or_80 : ∀ x : Nat, x < 64 → x ||| 0x80 = x + 0x80 := by decide
theorem or_C0 : ∀ x : Nat, x < 32 → x ||| 0xC0 = x + 0xC0 := by decide
theorem or_E0 : ∀ x : Nat, x < 16 → x ||| 0xE0 = x + 0xE0 := by decide
theorem or_F0 : ∀ x : Nat, x < 8 → x ||| 0xF0 = x + 0xF0 := by decide

/-- arithmetic form of the encoder -/
theorem toUtf8_eq (c : Nat) : toUtf8 c =
    if c ≤ 0x7F then [c]
    else if c ≤ 0x7FF then [c / 64 % 32 + 0xC0, c % 64 + 0x80]
    else if c ≤ 0xFFFF then [c / 4096 % 16 + 0xE0, c / 64 % 64 + 0x80, c % 64 + 0x80]
    else [c / 262144 % 8 + 0xF0, c / 4096 % 64 + 0x80, c / 64 % 64 + 0x80, c % 64 + 0x80] := by
  unfold toUtf8
  simp only [and_3F, and_1F, and_0F, and_07, and_7F, Nat.shiftRight_eq_div_pow]
  rw [or_80 _ (by omega), or_80 _ (by omega), or_80 _ (by omega), or_C0 _ (by omega),
    or_E0 _ (by omega), or_F0 _ (by omega)]
  simp only [Nat.reducePow, Nat.pow_zero, Nat.div_one]
  split
  · congr 1; omega
  · rfl

set_option maxRecDepth 8000 in
theorem isLead2_iff : ∀ b : Nat, b < 256 → (isLead2 b = true ↔ 0xC0 ≤ b ∧ b < 0xE0) := by decide
set_option maxRecDepth 8000 in
theorem isLead3_iff : ∀ b : Nat, b < 256 → (isLead3 b = true ↔ 0xE0 ≤ b ∧ b < 0xF0) := by decide
set_option maxRecDepth 8000 in
theorem isLead4_iff : ∀ b : Nat, b < 256 → (isLead4 b = true ↔ 0xF0 ≤ b ∧ b < 0xF8) := by decide
set_option maxRecDepth 8000 in
theorem isAscii_iff : ∀ b : Nat, b < 256 → (((b &&& 0x80) == 0) = true ↔ b < 0x80) := by decide

theorem shift_or (ch b : Nat) (h : ch < 2^26) :
    ((ch <<< 6) % 2^32) ||| (b &&& 0x3F) = ch * 64 + b % 64 := by
  rw [and_3F, Nat.mod_eq_of_lt (by rw [Nat.shiftLeft_eq]; omega),
    ← Nat.shiftLeft_add_eq_or_of_lt (by omega : b % 64 < 2^6), Nat.shiftLeft_eq]

/-- arithmetic form of `startByte` on bytes -/
theorem startByte_eq (s : DecState) (b : Nat) (hb : b < 256) : startByte s b =
    if b < 0x80 then ({ s with currentLength := 1 }, .success b)
    else if b < 0xC0 then ({ s with currentLength := 1, expectedLength := 0 }, .invalid)
    else if b < 0xE0 then
      ({ character := b - 0xC0, expectedLength := 2, currentLength := 1 }, .incomplete)
    else if b < 0xF0 then
      ({ character := b - 0xE0, expectedLength := 3, currentLength := 1 }, .incomplete)
    else if b < 0xF8 then
      ({ character := b - 0xF0, expectedLength := 4, currentLength := 1 }, .incomplete)
    else ({ s with currentLength := 1, expectedLength := 0 }, .invalid) := by
  unfold startByte finish
  have h0 := isAscii_iff b hb
  have h2 := isLead2_iff b hb
  have h3 := isLead3_iff b hb
  have h4 := isLead4_iff b hb
  simp only [h0, h2, h3, h4, and_1F, and_0F, and_07, Nat.reduceLT, if_true]
  split
  · rfl
  split
  · rw [if_neg (by omega), if_pos (by omega)]; simp; omega
  split
  · rw [if_neg (by omega), if_neg (by omega), if_pos (by omega)]; simp; omega
  split
  · rw [if_neg (by omega), if_neg (by omega), if_neg (by omega), if_pos (by omega)]; simp; omega
  · by_cases h : b < 0xC0
    · rw [if_pos h]
    · rw [if_neg h, if_neg (by omega), if_neg (by omega), if_neg (by omega)]

theorem fromUtf8_idle (s : DecState) (b : Nat) (hs : s.expectedLength = 0) :
    fromUtf8 s b = startByte s b := by simp [fromUtf8, hs]

theorem fromUtf8_lead (s : DecState) (b : Nat) (hb : 0xC0 ≤ b) (hb' : b < 0xF8)
    (hs : s.expectedLength ≠ 0) :
    fromUtf8 s b = ((startByte { s with expectedLength := 0 } b).1, .invalid) := by
  have h2 := isLead2_iff b (by omega)
  have h3 := isLead3_iff b (by omega)
  have h4 := isLead4_iff b (by omega)
  have : (isLead2 b || isLead3 b || isLead4 b) = true := by
    simp only [Bool.or_eq_true, h2, h3, h4]; omega
  simp [fromUtf8, hs, this]

/-- a non-lead byte inside a sequence is accumulated (whatever it is) -/
theorem fromUtf8_cont (s : DecState) (b : Nat) (hb : b < 256) (hs : s.expectedLength ≠ 0)
    (hl : b < 0xC0 ∨ 0xF8 ≤ b) (hc : s.character < 2^26) :
    fromUtf8 s b =
      if s.currentLength + 1 < s.expectedLength then
        ({ s with character := s.character * 64 + b % 64, currentLength := s.currentLength + 1 },
          .incomplete)
      else ({ character := s.character * 64 + b % 64, expectedLength := 0,
              currentLength := s.currentLength + 1 }, .success (s.character * 64 + b % 64)) := by
  have h2 := isLead2_iff b hb
  have h3 := isLead3_iff b hb
  have h4 := isLead4_iff b hb
  have : ¬ (isLead2 b || isLead3 b || isLead4 b) = true := by
    simp only [Bool.or_eq_true, h2, h3, h4]; omega
  simp only [fromUtf8, hs, this, if_false, finish, shift_or _ _ hc]
  simp

theorem feed_append (s : DecState) (xs ys : List Nat) :
    feed s (xs ++ ys) =
      ((feed (feed s xs).1 ys).1, (feed s xs).2 ++ (feed (feed s xs).1 ys).2) := by
  induction xs generalizing s with
  | nil => simp [feed]
  | cons x xs ih => simp [feed, ih]

theorem toUtf8Str_foldl (acc : List Nat) (cs : List Nat) :
    cs.foldl (fun s c => s ++ toUtf8 c) acc = acc ++ cs.flatMap toUtf8 := by
  induction cs generalizing acc with
  | nil => simp
  | cons c cs ih => simp [ih]

theorem toUtf8Str_eq (cs : List Nat) : toUtf8Str cs = cs.flatMap toUtf8 := by
  rw [toUtf8Str, toUtf8Str_foldl]; rfl

theorem toUtf8_ne_nil (c : Nat) : toUtf8 c ≠ [] := by
  rw [toUtf8_eq]; repeat' split
  all_goals simp

theorem toUtf8_lt256 (c : Nat) : ∀ b ∈ toUtf8 c, b < 256 := by
  rw [toUtf8_eq]
  intro b hb
  repeat' split at hb
  all_goals simp at hb
  all_goals omega

/-- One-codepoint decode from an idle state. -/
theorem feed_toUtf8 (s : DecState) (hs : s.expectedLength = 0) (c : Nat) (hc : c ≤ 0x1FFFFF) :
    (feed s (toUtf8 c)).2 = List.replicate ((toUtf8 c).length - 1) .incomplete ++ [.success c] ∧
    (feed s (toUtf8 c)).1.expectedLength = 0 ∧
    (feed s (toUtf8 c)).1.currentLength = (toUtf8 c).length := by
  rw [toUtf8_eq]
  split
  · rename_i h
    simp [feed, fromUtf8_idle _ _ hs, startByte_eq s c (by omega), show c < 128 by omega, hs]
  split
  · rename_i h0 h
    rw [feed, fromUtf8_idle _ _ hs, startByte_eq s _ (by omega), if_neg (by omega), if_neg (by omega),
      if_pos (by omega)]
    simp only [feed]
    rw [fromUtf8_cont _ _ (by omega) (by simp) (by omega) (by simp; omega)]
    simp; omega
  split
  · rename_i h0 h1 h
    rw [feed, fromUtf8_idle _ _ hs, startByte_eq s _ (by omega), if_neg (by omega), if_neg (by omega),
      if_neg (by omega), if_pos (by omega)]
    simp only [feed]
    rw [fromUtf8_cont _ _ (by omega) (by simp) (by omega) (by simp; omega)]
    simp only [Nat.reduceAdd, Nat.reduceLT, if_true]
    rw [fromUtf8_cont _ _ (by omega) (by simp) (by omega) (by simp; omega)]
    simp [List.replicate]; omega
  · rename_i h0 h1 h
    rw [feed, fromUtf8_idle _ _ hs, startByte_eq s _ (by omega), if_neg (by omega), if_neg (by omega),
      if_neg (by omega), if_neg (by omega), if_pos (by omega)]
    simp only [feed]
    rw [fromUtf8_cont _ _ (by omega) (by simp) (by omega) (by simp; omega)]
    simp only [Nat.reduceAdd, Nat.reduceLT, if_true]
    rw [fromUtf8_cont _ _ (by omega) (by simp) (by omega) (by simp; omega)]
    simp only [Nat.reduceAdd, Nat.reduceLT, if_true]
    rw [fromUtf8_cont _ _ (by omega) (by simp) (by omega) (by simp; omega)]
    simp [List.replicate]; omega

end Verif.Utf8
