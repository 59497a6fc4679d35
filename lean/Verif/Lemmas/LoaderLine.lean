import Verif.Lemmas.Loader
import Verif.Spec.UcdLoader
import Verif.Props.TgParser
/-!
# Lines of the data files, as the run-time loader reads them
-/

namespace Verif.Load
open Verif.Tg Verif.Props.Tg Verif.Spec.Regex Verif.Spec.UcdFile

theorem plain_lword {v : Str} (h : Plainword v) : LWord v := by
  refine ⟨h.1, fun c hc => ?_⟩
  unfold isValueChar
  simp only [Bool.or_eq_true, Bool.and_eq_true, decide_eq_true_eq]
  rcases h.2 c hc with h | h | h | h | h <;> simp [h]

theorem blank_white {w : Str} (h : Blank w) : White w := by
  intro c hc
  unfold isWhite
  rcases h c hc with rfl | rfl <;> decide

theorem upper_of_digit {c : Char} {v : Nat} (h : Digit c v) (hl : c ≠ 'a' ∧ c ≠ 'b' ∧ c ≠ 'c' ∧ c ≠ 'd' ∧ c ≠ 'e' ∧ c ≠ 'f') :
    isUpperHex c = true := by
  have hv : v < 16 := by
    rcases h with h | h <;> exact (List.getElem?_eq_some_iff.1 h).1
  have : v = 0 ∨ v = 1 ∨ v = 2 ∨ v = 3 ∨ v = 4 ∨ v = 5 ∨ v = 6 ∨ v = 7 ∨ v = 8 ∨ v = 9 ∨ v = 10 ∨ v = 11 ∨ v = 12 ∨
      v = 13 ∨ v = 14 ∨ v = 15 := by omega
  obtain ⟨a, b, d, e, f, g⟩ := hl
  rcases this with rfl | rfl | rfl | rfl | rfl | rfl | rfl | rfl | rfl | rfl | rfl | rfl | rfl | rfl | rfl | rfl <;>
    rcases h with h | h <;> (obtain rfl := Option.some.inj h) <;> first | rfl | exact absurd rfl a | exact absurd rfl b | exact absurd rfl d | exact absurd rfl e | exact absurd rfl f | exact absurd rfl g

theorem upper_of_hex {s : Str} {n : Nat} (h : HexOf s n) (hl : ∀ c ∈ s, c ≠ 'a' ∧ c ≠ 'b' ∧ c ≠ 'c' ∧ c ≠ 'd' ∧ c ≠ 'e' ∧ c ≠ 'f') :
    ∀ c ∈ s, isUpperHex c = true := by
  induction h with
  | one h =>
    intro c hc
    obtain rfl := List.mem_singleton.1 hc
    exact upper_of_digit h (hl _ hc)
  | snoc _ h ih =>
    intro c hc
    rcases List.mem_append.1 hc with hc' | hc'
    · exact ih (fun c h => hl c (List.mem_append_left _ h)) c hc'
    · obtain rfl := List.mem_singleton.1 hc'
      exact upper_of_digit h (hl _ hc)

/-- What follows a value: white space, then nothing, a semicolon or a comment. -/
theorem stops_of {w rest : Str} (hw : White w) (hr : rest = [] ∨ (∃ t, rest = ';' :: t) ∨ ∃ t, rest = '#' :: t) : Stops (w ++ rest) := by
  have key : ∀ b c t, w ++ rest = b ++ c :: t → White b → isValueChar c = false := by
    intro b c t e hb
    by_cases hc : isWhite c = true
    · cases h : isValueChar c with
      | false => rfl
      | true => rw [value_not_white c h] at hc; cases hc
    have hr' : rest.takeWhile isWhite = [] := by
      rcases hr with rfl | ⟨t, rfl⟩ | ⟨t, rfl⟩
      · rfl
      · rw [List.takeWhile_cons_of_neg (by decide)]
      · rw [List.takeWhile_cons_of_neg (by decide)]
    have h1 := takeWhile_app (p := isWhite) (a := w) (b := rest) hw (by
      intro x y e
      rw [e] at hr'
      cases hx : isWhite x with
      | false => rfl
      | true => rw [List.takeWhile_cons_of_pos hx] at hr'; cases hr')
    have h2 := takeWhile_app (p := isWhite) (a := b) (b := c :: t) hb (by
      intro x y e
      obtain ⟨rfl, -⟩ := List.cons.inj e
      simpa using hc)
    rw [e, h2.2] at h1
    have h3 := h1.2
    rcases hr with rfl | ⟨t', rfl⟩ | ⟨t', rfl⟩
    · cases h3
    · obtain ⟨rfl, -⟩ := List.cons.inj h3; decide
    · obtain ⟨rfl, -⟩ := List.cons.inj h3; decide
  exact ⟨fun c t e => key [] c t (by rw [e]; rfl) (by intro c hc; cases hc), key⟩

theorem tail_of_value {value v w₄ tail stored line pre : Str} (hf : FirstPart value v) (h4 : Blank w₄) (ht : Tail tail)
    (e : line = pre ++ value ++ w₄ ++ tail) (hs : Stored line stored) : ∃ rest, stored = pre ++ v ++ rest ∧ Stops rest := by
  obtain ⟨hp, hv⟩ := hf
  have key : ∀ t', (t' = [] ∨ t' = ['\r']) → ∃ rest, pre ++ value ++ w₄ ++ tail ++ t' = pre ++ v ++ rest ∧ Stops rest := by
    intro t' h'
    rcases hv with rfl | ⟨w, t, hw, rfl⟩
    · rcases ht with rfl | ⟨t, rfl⟩
      · refine ⟨w₄ ++ t', by simp, ?_⟩
        have hw : White (w₄ ++ t') := by
          intro c hc
          rcases List.mem_append.1 hc with hc | hc
          · exact blank_white h4 c hc
          · rcases h' with rfl | rfl
            · cases hc
            · obtain rfl := List.mem_singleton.1 hc; decide
        have := stops_of hw (rest := []) (Or.inl rfl)
        rwa [List.append_nil] at this
      · exact ⟨w₄ ++ ('#' :: t ++ t'), by simp, stops_of (blank_white h4) (Or.inr (Or.inr ⟨t ++ t', rfl⟩))⟩
    · exact ⟨w ++ (';' :: (t ++ w₄ ++ tail ++ t')), by simp, stops_of (blank_white hw) (Or.inr (Or.inl ⟨_, rfl⟩))⟩
  rcases hs with hs | hs
  · obtain ⟨r, h1, h2⟩ := key [] (Or.inl rfl)
    exact ⟨r, by rw [hs, e, ← h1, List.append_nil], h2⟩
  · obtain ⟨r, h1, h2⟩ := key ['\r'] (Or.inr rfl)
    exact ⟨r, by rw [hs, e, ← h1], h2⟩

/-- A line that begins with a numeral is no comment and no directive. -/
theorem hex_front {h stored : Str} {n : Nat} (hx : HexOf h n) (e : h <+: stored) (t : Str) : stored ≠ '#' :: t ∧ stored ≠ '@' :: t := by
  obtain ⟨r, e⟩ := e
  have f := hexOf_facts _ _ hx
  cases h with
  | nil => exact absurd rfl f.1
  | cons c u =>
    have hc := (f.2.2 c (List.mem_cons_self ..)).2.2.2.2.2
    constructor
    · intro e'
      rw [← e] at e'
      exact hc.1 (List.cons.inj e').1
    · intro e'
      rw [← e] at e'
      exact hc.2.1 (List.cons.inj e').1

/-- A tidy data line in the words of the patterns. -/
theorem line_matches {line stored : Str} {a b : Nat} {value v : Str} (hd : DataLine line a b value) (hs : Stored line stored) (ht : Tidy stored)
    (hf : FirstPart value v) :
    (∃ h, HexOf h a ∧ a = b ∧ Single stored h v) ∨ (∃ h₁ h₂, HexOf h₁ a ∧ HexOf h₂ b ∧ Ranged stored h₁ h₂ v) := by
  have hlead : ∀ {w₁ r : Str}, Blank w₁ → line = w₁ ++ r → w₁ = [] := by
    intro w₁ r hb e
    cases w₁ with
    | nil => rfl
    | cons c t =>
      have h1 : stored.head? = some c := by
        rcases hs with rfl | rfl <;> rw [e] <;> rfl
      have h2 := ht.head c h1
      rcases hb c (List.mem_cons_self ..) with rfl | rfl
      · exact absurd rfl h2.1
      · exact absurd rfl h2.2
  have hsemi : ∀ {w : Str}, Blank w → ';' ∉ w := by
    intro w hw hc
    rcases hw _ hc with h | h <;> exact absurd h (by decide)
  cases hd with
  | @range w₁ h₁ h₂ w₂ w₃ _ w₄ tail _ _ b1 x1 x2 b2 b3 _ b4 htl =>
    right
    obtain rfl := hlead (w₁ := w₁) (r := h₁ ++ ['.', '.'] ++ h₂ ++ w₂ ++ [';'] ++ w₃ ++ value ++ w₄ ++ tail) b1 (by simp [List.append_assoc])
    obtain ⟨rest, e, hr⟩ := tail_of_value (pre := h₁ ++ '.' :: '.' :: h₂ ++ w₂ ++ ';' :: w₃) hf b4 htl (by simp [List.append_assoc]) hs
    have f1 := hexOf_facts _ _ x1
    have f2 := hexOf_facts _ _ x2
    have hpre : h₁ <+: stored := by rw [e]; simp only [List.append_assoc]; exact List.prefix_append _ _
    have hup := ht.upper (fun t => (hex_front x1 hpre t).1) (fun t => (hex_front x1 hpre t).2) (h₁ ++ '.' :: '.' :: h₂ ++ w₂) (w₃ ++ v ++ rest) (by rw [e]; simp [List.append_assoc]) (by
      simp only [List.mem_append, List.mem_cons, not_or]
      exact ⟨⟨fun h => (f1.2.2 _ h).2.2.2.2.1 rfl, by decide, by decide, fun h => (f2.2.2 _ h).2.2.2.2.1 rfl⟩, hsemi b2⟩)
    refine ⟨h₁, h₂, x1, x2, w₂, w₃, rest, e, f1.1, upper_of_hex x1 (fun c hc => hup c (by simp [hc])), f2.1,
      upper_of_hex x2 (fun c hc => hup c (by simp [hc])), blank_white b2, blank_white b3, plain_lword hf.1, hr.value⟩
  | @single w₁ h w₂ w₃ _ w₄ tail _ b1 x1 b2 b3 _ b4 htl =>
    left
    obtain rfl := hlead (w₁ := w₁) (r := h ++ w₂ ++ [';'] ++ w₃ ++ value ++ w₄ ++ tail) b1 (by simp [List.append_assoc])
    obtain ⟨rest, e, hr⟩ := tail_of_value (pre := h ++ w₂ ++ ';' :: w₃) hf b4 htl (by simp [List.append_assoc]) hs
    have f1 := hexOf_facts _ _ x1
    have hpre : h <+: stored := by rw [e]; simp only [List.append_assoc]; exact List.prefix_append _ _
    have hup := ht.upper (fun t => (hex_front x1 hpre t).1) (fun t => (hex_front x1 hpre t).2) (h ++ w₂) (w₃ ++ v ++ rest) (by rw [e]; simp [List.append_assoc]) (by
      simp only [List.mem_append, not_or]
      exact ⟨fun h => (f1.2.2 _ h).2.2.2.2.1 rfl, hsemi b2⟩)
    exact ⟨h, x1, rfl, w₂, w₃, rest, e, f1.1, upper_of_hex x1 (fun c hc => hup c (by simp [hc])), blank_white b2, blank_white b3,
      .one (plain_lword hf.1), hr⟩

theorem stoul_hex {h : Str} {n : Nat} (hx : HexOf h n) (hn : n ≤ 0x10FFFF) : stoul h = some n := by
  unfold stoul
  rw [(hexOf_facts _ _ hx).2.1, if_pos (by omega), Nat.mod_eq_of_lt (by omega)]

theorem single_line {line h v : Str} (cb : Callback) (s : State) (H : Single line h v) :
    processLine cb line s = match stoul h with | none => .throws | some c => cb c v s := by
  obtain ⟨m, h1, rfl, rfl⟩ := single_some H
  unfold processLine
  rw [h1]
  rfl

theorem ranged_line {line h₁ h₂ v : Str} (cb : Callback) (s : State) (H : Ranged line h₁ h₂ v) :
    processLine cb line s = match stoul h₁, stoul h₂ with | some first, some last => range cb v first last s | _, _ => .throws := by
  obtain ⟨m, h1, rfl, rfl, rfl⟩ := range_some H
  have h2 : searchAtBegin singlePattern line = none := by
    cases h2 : searchAtBegin singlePattern line with
    | none => rfl
    | some m' =>
      obtain ⟨h, v, hs⟩ := single_of_some h2
      exact (not_both hs H).elim
  unfold processLine
  rw [h2, h1]
  rfl

theorem other_line {line : Str} (cb : Callback) (s : State) (h1 : ∀ h v, ¬ Single line h v) (h2 : ∀ h₁ h₂ v, ¬ Ranged line h₁ h₂ v) :
    processLine cb line s = .ok s := by
  have e1 : searchAtBegin singlePattern line = none := by
    cases h : searchAtBegin singlePattern line with
    | none => rfl
    | some m => obtain ⟨a, b, hs⟩ := single_of_some h; exact (h1 _ _ hs).elim
  have e2 : searchAtBegin rangePattern line = none := by
    cases h : searchAtBegin rangePattern line with
    | none => rfl
    | some m => obtain ⟨a, b, c, hs⟩ := range_of_some h; exact (h2 _ _ _ hs).elim
  unfold processLine
  rw [e1, e2]

/-- A line that does not begin with a digit is skipped. -/
theorem skip_line {line : Str} (cb : Callback) (s : State) (h : ∀ c t, line = c :: t → isUpperHex c = false) : processLine cb line s = .ok s := by
  apply other_line
  · rintro x v ⟨w₁, w₂, rest, e, hh, hx, -⟩
    cases x with
    | nil => exact hh rfl
    | cons c t =>
      have := h c _ (by rw [e]; rfl)
      rw [hx c (List.mem_cons_self ..)] at this; cases this
  · rintro x y v ⟨w₁, w₂, rest, e, hh, hx, -⟩
    cases x with
    | nil => exact hh rfl
    | cons c t =>
      have := h c _ (by rw [e]; rfl)
      rw [hx c (List.mem_cons_self ..)] at this; cases this

theorem nodata_line {line stored : Str} (cb : Callback) (s : State) (h : NoData line) (hs : Stored line stored) : processLine cb stored s = .ok s := by
  apply skip_line
  have key : ∀ c t, line = c :: t → isUpperHex c = false := by
    intro c t e
    rcases h with ⟨u, rfl⟩ | ⟨u, rfl⟩ | h
    · obtain ⟨rfl, -⟩ := List.cons.inj e; decide
    · obtain ⟨rfl, -⟩ := List.cons.inj e; decide
    · rcases h c (by rw [e]; exact List.mem_cons_self ..) with rfl | rfl <;> decide
  intro c t e
  rcases hs with rfl | rfl
  · exact key c t e
  · cases line with
    | nil => obtain ⟨rfl, -⟩ := List.cons.inj e; decide
    | cons x y => obtain ⟨rfl, -⟩ := List.cons.inj e; exact key x y rfl

/-- A tidy data line is read as what it says. -/
theorem data_line {line stored : Str} {a b : Nat} {value v : Str} (cb : Callback) (s : State) (hd : DataLine line a b value) (hs : Stored line stored)
    (ht : Tidy stored) (hf : FirstPart value v) (hab : a ≤ b) (hb : b ≤ 0x10FFFF) : processLine cb stored s = rangeLoop cb v (b + 1 - a) a s := by
  rcases line_matches hd hs ht hf with ⟨h, hx, rfl, H⟩ | ⟨h₁, h₂, x1, x2, H⟩
  · rw [single_line cb s H, stoul_hex hx hb, show a + 1 - a = 1 by omega]
    show cb a v s = (cb a v s).bind _
    cases cb a v s <;> rfl
  · rw [ranged_line cb s H, stoul_hex x1 (by omega), stoul_hex x2 hb]
    show range cb v a b s = _
    unfold range
    cases rangeLoop cb v (b + 1 - a) a s with
    | ok s' => show (if _ then _ else _) = _; rw [if_neg (by omega)]
    | _ => rfl

end Verif.Load
