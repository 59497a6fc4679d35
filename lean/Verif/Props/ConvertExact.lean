import Verif.Props.Convert
import Verif.Spec.IterReading
/-!
# C10, exactly: what the iterator conversions do with every input
-/

namespace Verif.Props
open Verif.Utf8 Verif.Convert Verif.Spec.Iter

/-! ## The loop over any decoder that takes pieces -/

private def Takes (Piece : List Nat → Option Nat → Prop) (Cut : List Nat → Prop)
    (read : List Nat → Mem (List Nat × Option Nat)) : Prop :=
  (∀ bs, bs ≠ [] → (Cut bs ∧ read bs = .oob) ∨
    ∃ p o r, bs = p ++ r ∧ Piece p o ∧ read bs = .ok (r, o)) ∧
  (∀ p o r, Piece p o → p ≠ [] ∧ read (p ++ r) = .ok (r, o)) ∧
  (∀ c, Cut c → c ≠ [] ∧ read c = .oob)

private theorem loop_ok {Piece Cut read} (h : Takes Piece Cut read) (write : Nat → List Nat)
    {bs cs} (hr : Reading Piece bs cs) : ∀ fuel, bs.length ≤ fuel →
      convertLoop read write fuel bs = .ok (cs.flatMap write) := by
  induction hr with
  | nil => intro fuel _; cases fuel <;> rfl
  | @cons p o r cs hp _ ih =>
    intro fuel hf
    obtain ⟨hne, hd⟩ := h.2.1 p o r hp
    cases p with
    | nil => exact absurd rfl hne
    | cons x p =>
      cases fuel with
      | zero => simp at hf
      | succ fuel =>
        have hl : r.length ≤ fuel := by simp at hf; omega
        simp only [List.cons_append] at hd ⊢
        simp only [convertLoop, hd, ih fuel hl]
        cases o <;> simp

private theorem loop_oob {Piece Cut read} (h : Takes Piece Cut read) (write : Nat → List Nat)
    {pre cs last} (hr : Reading Piece pre cs) (hc : Cut last) : ∀ fuel, (pre ++ last).length ≤ fuel →
      convertLoop read write fuel (pre ++ last) = .oob := by
  induction hr with
  | nil =>
    intro fuel hf
    obtain ⟨hne, hd⟩ := h.2.2 last hc
    cases last with
    | nil => exact absurd rfl hne
    | cons x p =>
      cases fuel with
      | zero => simp at hf
      | succ fuel => simp only [List.nil_append, convertLoop, hd]
  | @cons p o r cs hp _ ih =>
    intro fuel hf
    obtain ⟨hne, hd⟩ := h.2.1 p o (r ++ last) hp
    cases p with
    | nil => exact absurd rfl hne
    | cons x p =>
      cases fuel with
      | zero => simp at hf
      | succ fuel =>
        have hl : (r ++ last).length ≤ fuel := by simp at hf ⊢; omega
        rw [List.append_assoc]
        simp only [List.cons_append] at hd ⊢
        simp only [convertLoop, hd, ih fuel hl]

private theorem total {Piece Cut read} (h : Takes Piece Cut read) : ∀ (n : Nat) (bs : List Nat),
    bs.length ≤ n → (∃ cs, Reading Piece bs cs) ∨ EndsCut Piece Cut bs := by
  intro n
  induction n with
  | zero =>
    intro bs hn
    cases bs with
    | nil => exact .inl ⟨[], .nil⟩
    | cons => simp at hn
  | succ n ih =>
    intro bs hn
    by_cases hb : bs = []
    · subst hb; exact .inl ⟨[], .nil⟩
    rcases h.1 bs hb with ⟨hc, _⟩ | ⟨p, o, r, rfl, hp, _⟩
    · exact .inr ⟨[], [], bs, rfl, .nil, hc⟩
    · have hne := (h.2.1 p o r hp).1
      have : 0 < p.length := List.length_pos_iff.2 hne
      rcases ih r (by simp at hn; omega) with ⟨cs, hr⟩ | ⟨pre, cs, last, rfl, hr, hc⟩
      · exact .inl ⟨_, .cons hp hr⟩
      · exact .inr ⟨p ++ pre, _, last, by rw [List.append_assoc], .cons hp hr, hc⟩

private theorem exact_of {Piece Cut read} (h : Takes Piece Cut read) (write : Nat → List Nat)
    (bs : List Nat) :
    (∀ out, convertIt read write bs = .ok out ↔ ∃ cs, Reading Piece bs cs ∧ out = cs.flatMap write) ∧
    (convertIt read write bs = .oob ↔ EndsCut Piece Cut bs) := by
  have hok : ∀ cs, Reading Piece bs cs → convertIt read write bs = .ok (cs.flatMap write) :=
    fun cs hr => loop_ok h write hr _ (Nat.le_refl _)
  have hoob : EndsCut Piece Cut bs → convertIt read write bs = .oob := by
    rintro ⟨pre, cs, last, rfl, hr, hc⟩
    exact loop_oob h write hr hc _ (Nat.le_refl _)
  have ht := total h bs.length bs (Nat.le_refl _)
  refine ⟨fun out => ⟨fun hc => ?_, ?_⟩, fun hc => ?_, hoob⟩
  · rcases ht with ⟨cs, hr⟩ | he
    · have := hok cs hr
      rw [hc] at this
      exact ⟨cs, hr, Mem.ok.inj this⟩
    · rw [hoob he] at hc; exact absurd hc (by simp)
  · rintro ⟨cs, hr, rfl⟩; exact hok cs hr
  · rcases ht with ⟨cs, hr⟩ | he
    · rw [hok cs hr] at hc; exact absurd hc (by simp)
    · exact he

private theorem unique_of {Piece Cut read} (h : Takes Piece Cut read) (bs cs cs' : List Nat)
    (h1 : Reading Piece bs cs) (h2 : Reading Piece bs cs') : cs = cs' := by
  have a := loop_ok h (fun c => [c]) h1 _ (Nat.le_refl _)
  have b := loop_ok h (fun c => [c]) h2 _ (Nat.le_refl _)
  rw [a] at b
  have := Mem.ok.inj b
  simpa using this

/-! ## UTF-8 -/

private theorem cont_iff (b : Nat) : b >>> 6 = 2 ↔ Cont b := by
  rw [Nat.shiftRight_eq_div_pow, Cont]; omega

/-- All announced continuation bytes are there. -/
private theorem conts8_full : ∀ (t r : List Nat), (∀ x ∈ t, Cont x) →
    conts8 t.length (t ++ r) = .ok (r, some t) := by
  intro t
  induction t with
  | nil => intro r _; rfl
  | cons x t ih =>
    intro r h
    have hx : ¬ (x >>> 6 ≠ 2) := fun hn => hn ((cont_iff x).2 (h x (by simp)))
    simp only [List.length_cons, List.cons_append, conts8, cont8, if_neg hx,
      ih r (fun y hy => h y (by simp [hy]))]

/-- Something else comes too early. -/
private theorem conts8_broken : ∀ (t : List Nat) (n : Nat) (x : Nat) (r : List Nat), (∀ y ∈ t, Cont y) →
    ¬ Cont x → t.length < n → conts8 n (t ++ x :: r) = .ok (r, none) := by
  intro t
  induction t with
  | nil =>
    intro n x r _ hx hn
    cases n with
    | zero => simp at hn
    | succ n =>
      have hx : x >>> 6 ≠ 2 := fun hn => hx ((cont_iff x).1 hn)
      simp only [List.nil_append, conts8, cont8, if_pos hx]
  | cons y t ih =>
    intro n x r h hx hn
    cases n with
    | zero => simp at hn
    | succ n =>
      have hy : ¬ (y >>> 6 ≠ 2) := fun hn => hn ((cont_iff y).2 (h y (by simp)))
      simp only [List.cons_append, conts8, cont8, if_neg hy,
        ih n x r (fun z hz => h z (by simp [hz])) hx (by simp at hn; omega)]

/-- The input ends too early. -/
private theorem conts8_cut : ∀ (t : List Nat) (n : Nat), (∀ y ∈ t, Cont y) → t.length < n →
    conts8 n t = .oob := by
  intro t
  induction t with
  | nil =>
    intro n _ hn
    cases n with
    | zero => simp at hn
    | succ n => rfl
  | cons y t ih =>
    intro n h hn
    cases n with
    | zero => simp at hn
    | succ n =>
      have hy : ¬ (y >>> 6 ≠ 2) := fun hn => hn ((cont_iff y).2 (h y (by simp)))
      simp only [conts8, cont8, if_neg hy, ih n (fun z hz => h z (by simp [hz])) (by simp at hn; omega)]

/-- The three ways in which the bytes behind a lead byte can go on. -/
private theorem split_conts (n : Nat) : ∀ bs : List Nat,
    (∃ t r, bs = t ++ r ∧ t.length = n ∧ ∀ x ∈ t, Cont x) ∨
    (∃ t x r, bs = t ++ x :: r ∧ t.length < n ∧ (∀ y ∈ t, Cont y) ∧ ¬ Cont x) ∨
    (bs.length < n ∧ ∀ x ∈ bs, Cont x) := by
  induction n with
  | zero => intro bs; exact .inl ⟨[], bs, rfl, rfl, by simp⟩
  | succ n ih =>
    intro bs
    cases bs with
    | nil => exact .inr (.inr ⟨by simp, by simp⟩)
    | cons b bs =>
      by_cases hb : Cont b
      · rcases ih bs with ⟨t, r, rfl, h1, h2⟩ | ⟨t, x, r, rfl, h1, h2, h3⟩ | ⟨h1, h2⟩
        · exact .inl ⟨b :: t, r, rfl, by simp [h1], by simpa [hb] using h2⟩
        · exact .inr (.inl ⟨b :: t, x, r, rfl, by simp; omega, by simpa [hb] using h2, h3⟩)
        · exact .inr (.inr ⟨by simp; omega, by simpa [hb] using h2⟩)
      · exact .inr (.inl ⟨[], b, bs, rfl, by simp, by simp, hb⟩)

private theorem okc {a b : Nat} {r : List Nat} (h : a = b) :
    (Mem.ok (r, some a) : Mem (List Nat × Option Nat)) = .ok (r, some b) := by rw [h]

private theorem shl (a k : Nat) : a <<< k = a * 2 ^ k := Nat.shiftLeft_eq a k

private theorem sub32_eq {a k v : Nat} (q : Nat) (h : a = v + k + 4294967296 * q) (hv : v < 4294967296)
    (hk : k ≤ 4294967296) : sub32 a k = v := by
  have e : (2 : Nat) ^ 32 = 4294967296 := by decide
  rw [sub32, e]
  omega

private theorem full_two {p x : Nat} (hp : p < 32)
    (hx : Cont x) (r : List Nat)
    (hf : conts8 1 ([x] ++ r) = .ok (r, some [x])) :
    decode8It ((0xC0 + p) :: ([x] ++ r)) = .ok (r, some (value p [x])) := by
  have e : decode8It ((0xC0 + p) :: ([x] ++ r)) =
      .ok (r, some (sub32 (((0xC0 + p) <<< 6) + x) 0x3080)) := by
    rw [decode8It, if_neg (by omega), if_neg (by omega), if_pos (by omega), hf]
  unfold Cont at hx
  rw [e]
  have ev : value p [x] = p * 64 + (x - 0x80) := rfl
  generalize value p [x] = V at ev
  refine okc (sub32_eq 0 ?_ ?_ (by omega))
  · rw [shl]; omega
  · omega

private theorem full_three {p x y : Nat} (hp : p < 16)
    (hx : Cont x)
    (hy : Cont y) (r : List Nat)
    (hf : conts8 2 ([x, y] ++ r) = .ok (r, some [x, y])) :
    decode8It ((0xE0 + p) :: ([x, y] ++ r)) = .ok (r, some (value p [x, y])) := by
  have e : decode8It ((0xE0 + p) :: ([x, y] ++ r)) =
      .ok (r, some (sub32 (((0xE0 + p) <<< 12) + (x <<< 6) + y) 0xE2080)) := by
    rw [decode8It, if_neg (by omega), if_neg (by omega), if_neg (by omega), if_pos (by omega), hf]
  unfold Cont at hx hy
  rw [e]
  have ev : value p [x, y] = (p * 64 + (x - 0x80)) * 64 + (y - 0x80) := rfl
  generalize value p [x, y] = V at ev
  refine okc (sub32_eq 0 ?_ ?_ (by omega))
  · rw [shl, shl]; omega
  · omega

private theorem full_four {p x y z : Nat} (hp : p < 8)
    (hx : Cont x)
    (hy : Cont y)
    (hz : Cont z) (r : List Nat)
    (hf : conts8 3 ([x, y, z] ++ r) = .ok (r, some [x, y, z])) :
    decode8It ((0xF0 + p) :: ([x, y, z] ++ r)) = .ok (r, some (value p [x, y, z])) := by
  have e : decode8It ((0xF0 + p) :: ([x, y, z] ++ r)) =
      .ok (r, some (sub32 (((0xF0 + p) <<< 18) + (x <<< 12) + (y <<< 6) + z) 0x3C82080)) := by
    rw [decode8It, if_neg (by omega), if_neg (by omega), if_neg (by omega), if_neg (by omega), if_pos (by omega), hf]
  unfold Cont at hx hy hz
  rw [e]
  have ev : value p [x, y, z] = ((p * 64 + (x - 0x80)) * 64 + (y - 0x80)) * 64 + (z - 0x80) := rfl
  generalize value p [x, y, z] = V at ev
  refine okc (sub32_eq 0 ?_ ?_ (by omega))
  · rw [shl, shl, shl]; omega
  · omega

private theorem full_five {p x y z w : Nat} (hp : p < 4)
    (hx : Cont x)
    (hy : Cont y)
    (hz : Cont z)
    (hw : Cont w) (r : List Nat)
    (hf : conts8 4 ([x, y, z, w] ++ r) = .ok (r, some [x, y, z, w])) :
    decode8It ((0xF8 + p) :: ([x, y, z, w] ++ r)) = .ok (r, some (value p [x, y, z, w])) := by
  have e : decode8It ((0xF8 + p) :: ([x, y, z, w] ++ r)) =
      .ok (r, some (sub32 (((0xF8 + p) <<< 24) + (x <<< 18) + (y <<< 12) + (z <<< 6) + w) 0xFA082080)) := by
    rw [decode8It, if_neg (by omega), if_neg (by omega), if_neg (by omega), if_neg (by omega), if_neg (by omega), if_pos (by omega), hf]
  unfold Cont at hx hy hz hw
  rw [e]
  have ev : value p [x, y, z, w] = (((p * 64 + (x - 0x80)) * 64 + (y - 0x80)) * 64 + (z - 0x80)) * 64 + (w - 0x80) := rfl
  generalize value p [x, y, z, w] = V at ev
  refine okc (sub32_eq 0 ?_ ?_ (by omega))
  · rw [shl, shl, shl, shl]; omega
  · omega

private theorem full_six {p x y z w v : Nat} (hp : p < 2)
    (hx : Cont x)
    (hy : Cont y)
    (hz : Cont z)
    (hw : Cont w)
    (hv : Cont v) (r : List Nat)
    (hf : conts8 5 ([x, y, z, w, v] ++ r) = .ok (r, some [x, y, z, w, v])) :
    decode8It ((0xFC + p) :: ([x, y, z, w, v] ++ r)) = .ok (r, some (value p [x, y, z, w, v])) := by
  have e : decode8It ((0xFC + p) :: ([x, y, z, w, v] ++ r)) =
      .ok (r, some (sub32 (((0xFC + p) <<< 30) + (x <<< 24) + (y <<< 18) + (z <<< 12) + (w <<< 6) + v) 0x82082080)) := by
    rw [decode8It, if_neg (by omega), if_neg (by omega), if_neg (by omega), if_neg (by omega), if_neg (by omega), if_neg (by omega), if_pos (by omega), hf]
  unfold Cont at hx hy hz hw hv
  rw [e]
  have ev : value p [x, y, z, w, v] = ((((p * 64 + (x - 0x80)) * 64 + (y - 0x80)) * 64 + (z - 0x80)) * 64 + (w - 0x80)) * 64 + (v - 0x80) := rfl
  generalize value p [x, y, z, w, v] = V at ev
  refine okc (sub32_eq 63 ?_ ?_ (by omega))
  · rw [shl, shl, shl, shl, shl]; omega
  · omega

/-- A lead byte with all its continuation bytes yields the number it stands for. -/
private theorem lead_full {b n p : Nat} {t : List Nat} (hl : Lead b n p) (ht : t.length = n)
    (hc : ∀ x ∈ t, Cont x) (r : List Nat) : decode8It (b :: (t ++ r)) = .ok (r, some (value p t)) := by
  have hf := conts8_full t r hc
  rw [ht] at hf
  cases hl with
  | two hp =>
    match t, ht, hc, hf with
    | [x], _, hc, hf =>
      exact full_two hp (hc x (by simp)) r hf
  | three hp =>
    match t, ht, hc, hf with
    | [x, y], _, hc, hf =>
      exact full_three hp (hc x (by simp)) (hc y (by simp)) r hf
  | four hp =>
    match t, ht, hc, hf with
    | [x, y, z], _, hc, hf =>
      exact full_four hp (hc x (by simp)) (hc y (by simp)) (hc z (by simp)) r hf
  | five hp =>
    match t, ht, hc, hf with
    | [x, y, z, w], _, hc, hf =>
      exact full_five hp (hc x (by simp)) (hc y (by simp)) (hc z (by simp)) (hc w (by simp)) r hf
  | six hp =>
    match t, ht, hc, hf with
    | [x, y, z, w, v], _, hc, hf =>
      exact full_six hp (hc x (by simp)) (hc y (by simp)) (hc z (by simp)) (hc w (by simp)) (hc v (by simp)) r hf

/-- A lead byte whose continuation bytes are not (all) there. -/
private theorem lead_bad {b n p : Nat} (hl : Lead b n p) (bs : List Nat) :
    (∀ r, conts8 n bs = .ok (r, none) → decode8It (b :: bs) = .ok (r, none)) ∧
    (conts8 n bs = .oob → decode8It (b :: bs) = .oob) := by
  cases hl with
  | two hp =>
    simp only [decode8It]
    rw [if_neg (by omega), if_neg (by omega), if_pos (by omega)]
    exact ⟨fun r h => by rw [h], fun h => by rw [h]⟩
  | three hp =>
    simp only [decode8It]
    rw [if_neg (by omega), if_neg (by omega), if_neg (by omega), if_pos (by omega)]
    exact ⟨fun r h => by rw [h], fun h => by rw [h]⟩
  | four hp =>
    simp only [decode8It]
    rw [if_neg (by omega), if_neg (by omega), if_neg (by omega), if_neg (by omega), if_pos (by omega)]
    exact ⟨fun r h => by rw [h], fun h => by rw [h]⟩
  | five hp =>
    simp only [decode8It]
    rw [if_neg (by omega), if_neg (by omega), if_neg (by omega), if_neg (by omega), if_neg (by omega),
      if_pos (by omega)]
    exact ⟨fun r h => by rw [h], fun h => by rw [h]⟩
  | six hp =>
    simp only [decode8It]
    rw [if_neg (by omega), if_neg (by omega), if_neg (by omega), if_neg (by omega), if_neg (by omega),
      if_neg (by omega), if_pos (by omega)]
    exact ⟨fun r h => by rw [h], fun h => by rw [h]⟩

private theorem lead_of (b : Nat) (h1 : 0xC0 ≤ b) (h2 : b < 0xFE) : ∃ n p, Lead b n p := by
  by_cases a : b < 0xE0
  · exact ⟨1, b - 0xC0, by have := Lead.two (p := b - 0xC0) (by omega); rwa [Nat.add_sub_cancel' h1] at this⟩
  by_cases c : b < 0xF0
  · exact ⟨2, b - 0xE0, by
      have := Lead.three (p := b - 0xE0) (by omega); rwa [Nat.add_sub_cancel' (by omega)] at this⟩
  by_cases d : b < 0xF8
  · exact ⟨3, b - 0xF0, by
      have := Lead.four (p := b - 0xF0) (by omega); rwa [Nat.add_sub_cancel' (by omega)] at this⟩
  by_cases e : b < 0xFC
  · exact ⟨4, b - 0xF8, by
      have := Lead.five (p := b - 0xF8) (by omega); rwa [Nat.add_sub_cancel' (by omega)] at this⟩
  · exact ⟨5, b - 0xFC, by
      have := Lead.six (p := b - 0xFC) (by omega); rwa [Nat.add_sub_cancel' (by omega)] at this⟩

private theorem piece8_read (p : List Nat) (o : Option Nat) (r : List Nat) (h : Piece8 p o) :
    p ≠ [] ∧ decode8It (p ++ r) = .ok (r, o) := by
  cases h with
  | ascii hb => exact ⟨by simp, by simp [decode8It, hb]⟩
  | @stray b hb =>
    refine ⟨by simp, ?_⟩
    unfold Cont at hb
    simp only [List.cons_append, List.nil_append, decode8It]
    rw [if_neg (by omega), if_pos (by omega)]
  | @never b hb =>
    refine ⟨by simp, ?_⟩
    simp only [List.cons_append, List.nil_append, decode8It]
    rw [if_neg (by omega), if_neg (by omega), if_neg (by omega), if_neg (by omega), if_neg (by omega),
      if_neg (by omega), if_neg (by omega)]
  | full hl ht hc => exact ⟨by simp, lead_full hl ht hc r⟩
  | @broken b n q t x hl ht hc hx =>
    refine ⟨by simp, ?_⟩
    have := conts8_broken t n x r hc hx ht
    have e : (b :: (t ++ [x])) ++ r = b :: (t ++ x :: r) := by simp
    rw [e]
    exact (lead_bad hl _).1 r this

private theorem takes8 : Takes Piece8 Cut8 decode8It := by
  refine ⟨?_, piece8_read, ?_⟩
  · intro bs hne
    have of : ∀ p o r, bs = p ++ r → Piece8 p o → (Cut8 bs ∧ decode8It bs = .oob) ∨
        ∃ p o r, bs = p ++ r ∧ Piece8 p o ∧ decode8It bs = .ok (r, o) := by
      intro p o r hb hp
      exact .inr ⟨p, o, r, hb, hp, by rw [hb]; exact (piece8_read p o r hp).2⟩
    cases bs with
    | nil => exact absurd rfl hne
    | cons b bs =>
      by_cases h1 : b < 0x80
      · exact of [b] _ bs rfl (.ascii h1)
      by_cases h2 : b < 0xC0
      · exact of [b] _ bs rfl (.stray ⟨by omega, h2⟩)
      by_cases h3 : 0xFE ≤ b
      · exact of [b] _ bs rfl (.never h3)
      obtain ⟨n, p, hl⟩ := lead_of b (by omega) (by omega)
      rcases split_conts n bs with ⟨t, r, rfl, h4, h5⟩ | ⟨t, x, r, rfl, h4, h5, h6⟩ | ⟨h4, h5⟩
      · exact of (b :: t) _ r rfl (.full hl h4 h5)
      · exact of (b :: (t ++ [x])) _ r (by simp) (.broken hl h4 h5 h6)
      · exact .inl ⟨.cut hl h4 h5, (lead_bad hl _).2 (conts8_cut bs n h5 h4)⟩
  · intro c hc
    cases hc with
    | cut hl h4 h5 => exact ⟨by simp, (lead_bad hl _).2 (conts8_cut _ _ h5 h4)⟩

/-! ## UTF-16 -/

private theorem shr10 (x : Nat) : x >>> 10 = 0x37 ↔ 0xDC00 ≤ x ∧ x < 0xE000 := by
  rw [Nat.shiftRight_eq_div_pow]; omega

private theorem piece16_read (p : List Nat) (o : Option Nat) (r : List Nat) (h : Piece16 p o) :
    p ≠ [] ∧ decode16It (p ++ r) = .ok (r, o) := by
  cases h with
  | @single u hu =>
    refine ⟨by simp, ?_⟩
    simp only [List.cons_append, List.nil_append, decode16It]
    rcases hu with hu | hu
    · rw [if_pos hu]
    · rw [if_neg (by omega), if_neg (by omega), if_neg (by omega)]
  | @low u h1 h2 =>
    refine ⟨by simp, ?_⟩
    simp only [List.cons_append, List.nil_append, decode16It]
    rw [if_neg (by omega), if_neg (by omega), if_pos (by omega)]
  | @pair h l h1 h2 =>
    refine ⟨by simp, ?_⟩
    simp only [List.cons_append, List.nil_append, decode16It]
    rw [if_neg (by omega), if_pos (by omega), if_neg (by rw [Ne, shr10]; omega)]
    simp only [sub32, shl]
    refine okc ?_; omega
  | @broken h x h1 h2 =>
    refine ⟨by simp, ?_⟩
    simp only [List.cons_append, List.nil_append, decode16It]
    rw [if_neg (by omega), if_pos (by omega), if_pos (by rw [Ne, shr10]; omega)]

private theorem takes16 : Takes Piece16 Cut16 decode16It := by
  refine ⟨?_, piece16_read, ?_⟩
  · intro us hne
    have of : ∀ p o r, us = p ++ r → Piece16 p o → (Cut16 us ∧ decode16It us = .oob) ∨
        ∃ p o r, us = p ++ r ∧ Piece16 p o ∧ decode16It us = .ok (r, o) := by
      intro p o r hb hp
      exact .inr ⟨p, o, r, hb, hp, by rw [hb]; exact (piece16_read p o r hp).2⟩
    cases us with
    | nil => exact absurd rfl hne
    | cons u us =>
      by_cases h1 : u < 0xD800 ∨ 0xE000 ≤ u
      · exact of [u] _ us rfl (.single h1)
      by_cases h2 : 0xDC00 ≤ u
      · exact of [u] _ us rfl (.low h2 (by omega))
      obtain ⟨h, rfl⟩ : ∃ h, u = 0xD800 + h := ⟨u - 0xD800, by omega⟩
      cases us with
      | nil =>
        refine .inl ⟨.cut (by omega), ?_⟩
        simp only [decode16It]
        rw [if_neg (by omega), if_pos (by omega)]
      | cons x us =>
        by_cases h3 : 0xDC00 ≤ x ∧ x < 0xE000
        · obtain ⟨l, rfl⟩ : ∃ l, x = 0xDC00 + l := ⟨x - 0xDC00, by omega⟩
          exact of [_, _] _ us rfl (.pair (by omega) (by omega))
        · exact of [_, _] _ us rfl (.broken (by omega) (by omega))
  · intro c hc
    cases hc with
    | @cut h hh =>
      refine ⟨by simp, ?_⟩
      simp only [decode16It]
      rw [if_neg (by omega), if_pos (by omega)]

/-! ## The theorems -/

/-- **C10 (exact, UTF-8).** For every byte string and every target encoding: the conversion stays inside its
range and writes `out` exactly if the bytes divide into pieces (`Piece8`) whose numbers, encoded one after the
other, are `out`; it dereferences the end iterator exactly if that division ends in a sequence that lacks its
end. -/
theorem C10_exact_utf8 (write : Nat → List Nat) (bs : List Nat) :
    (∀ out, convertIt decode8It write bs = .ok out ↔
      ∃ cs, Reading Piece8 bs cs ∧ out = cs.flatMap write) ∧
    (convertIt decode8It write bs = .oob ↔ EndsCut Piece8 Cut8 bs) :=
  exact_of takes8 write bs

/-- **C10 (exact, UTF-16).** The same for code units: out of bounds exactly if the division into single units
and pairs ends in a high surrogate. -/
theorem C10_exact_utf16 (write : Nat → List Nat) (us : List Nat) :
    (∀ out, convertIt decode16It write us = .ok out ↔
      ∃ cs, Reading Piece16 us cs ∧ out = cs.flatMap write) ∧
    (convertIt decode16It write us = .oob ↔ EndsCut Piece16 Cut16 us) :=
  exact_of takes16 write us

/-- **C10 (exact, UTF-32).** Decoding codepoints never leaves the range and passes every one on. -/
theorem C10_exact_utf32 (write : Nat → List Nat) (cs : List Nat) :
    convertIt decode32It write cs = .ok (cs.flatMap write) := by
  suffices ∀ (cs : List Nat) (fuel : Nat), cs.length ≤ fuel →
      convertLoop decode32It write fuel cs = .ok (cs.flatMap write) from this cs _ (Nat.le_refl _)
  intro cs
  induction cs with
  | nil => intro fuel _; cases fuel <;> rfl
  | cons c cs ih =>
    intro fuel hf
    cases fuel with
    | zero => simp at hf
    | succ fuel => simp only [convertLoop, decode32It, ih fuel (by simpa using hf), List.flatMap_cons]

/-- **C10.** The divisions are functions of the input: every input divides completely or ends cut, never both,
and in only one way; so `C10_exact_*` says what happens for every input. -/
theorem C10_division_unique (bs : List Nat) :
    ((∃ cs, Reading Piece8 bs cs) ∨ EndsCut Piece8 Cut8 bs) ∧
    ¬ ((∃ cs, Reading Piece8 bs cs) ∧ EndsCut Piece8 Cut8 bs) ∧
    (∀ cs cs', Reading Piece8 bs cs → Reading Piece8 bs cs' → cs = cs') ∧
    ((∃ cs, Reading Piece16 bs cs) ∨ EndsCut Piece16 Cut16 bs) ∧
    ¬ ((∃ cs, Reading Piece16 bs cs) ∧ EndsCut Piece16 Cut16 bs) ∧
    (∀ cs cs', Reading Piece16 bs cs → Reading Piece16 bs cs' → cs = cs') := by
  have no : ∀ {Piece : List Nat → Option Nat → Prop} {Cut read}, Takes Piece Cut read →
      ¬ ((∃ cs, Reading Piece bs cs) ∧ EndsCut Piece Cut bs) := by
    rintro Piece Cut read h ⟨⟨cs, hr⟩, he⟩
    have e := exact_of h (fun c => [c]) bs
    have a := (e.1 _).2 ⟨cs, hr, rfl⟩
    rw [e.2.2 he] at a
    exact absurd a (by simp)
  exact ⟨total takes8 _ bs (Nat.le_refl _), no takes8, fun _ _ => unique_of takes8 bs _ _,
    total takes16 _ bs (Nat.le_refl _), no takes16, fun _ _ => unique_of takes16 bs _ _⟩

/-- A stray byte, a two-byte character, a broken sequence that swallows an ASCII letter, then ASCII. -/
example : Reading Piece8 [0xBF, 0xC3, 0xA9, 0xE2, 0x41, 0x42] [0xE9, 0x42] :=
  .cons (p := [0xBF]) (Piece8.stray ⟨by decide, by decide⟩)
    (.cons (p := [0xC3, 0xA9]) (o := some 0xE9)
      (Piece8.full (t := [0xA9]) (.two (p := 3) (by decide)) rfl (by simp [Cont]))
      (.cons (p := [0xE2, 0x41]) (Piece8.broken (t := []) (.three (p := 2) (by decide)) (by decide) (by simp)
        (by simp [Cont])) (.cons (p := [0x42]) (Piece8.ascii (by decide)) .nil)))
example : EndsCut Piece8 Cut8 [0x41, 0xF0, 0x9F] :=
  ⟨[0x41], [0x41], [0xF0, 0x9F], rfl, .cons (p := [0x41]) (Piece8.ascii (by decide)) .nil,
    .cut (t := [0x9F]) (.four (p := 0) (by decide)) (by decide) (by simp [Cont])⟩
example : EndsCut Piece16 Cut16 [0x41, 0xD83D] :=
  ⟨[0x41], [0x41], [0xD83D], rfl, .cons (p := [0x41]) (Piece16.single (by decide)) .nil, .cut (h := 0x3D) (by decide)⟩

end Verif.Props
