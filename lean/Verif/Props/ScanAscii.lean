import Verif.Model.Scan
import Mathlib.Tactic.Common
/-!
# Property C11: the ASCII scan returns the longest printable prefix
-/

namespace Verif.Props.Scan
open Verif.Scan

/-- Independent reading of "printable ASCII byte" (scan.h, C11). -/
def Printable (b : Nat) : Prop := 0x20 ≤ b ∧ b ≤ 0x7F

instance : DecidablePred Printable := fun _ => inferInstanceAs (Decidable (_ ∧ _))

theorem isAscii_iff : ∀ b : Nat, b < 256 → (isAscii b = true ↔ Printable b) := by decide +kernel

theorem isComplex_iff : ∀ b : Nat, b < 256 → (isComplex b = true ↔ 0x80 ≤ b) := by decide +kernel

theorem complex_bit : ∀ b : Nat, b < 256 → ((b &&& 0x80) == 0x80) = isComplex b := by decide +kernel

theorem lessBit_signed : ∀ b : Nat, b < 256 → decide (toSigned b < 0x20) = !isAscii b := by decide +kernel

theorem lessBit_unsigned : ∀ b : Nat, b < 256 → (decide (b < 0x20) || ((b &&& 0x80) == 0x80)) = !isAscii b := by decide +kernel

theorem complex_not_ascii : ∀ b : Nat, b < 256 → ((b &&& 0x80) == 0x80) = true → (!isAscii b) = true := by decide +kernel

theorem zip_false (l : List Nat) (f : Nat → Bool) :
    List.zipWith (· || ·) (l.map f) (List.replicate l.length false) = l.map f := by
  induction l with
  | nil => rfl
  | cons a l ih => simp only [List.map_cons, List.length_cons, List.replicate_succ, List.zipWith_cons_cons, ih,
      Bool.or_false]

/-- A mask with at most bit 0 set, and that only if the first byte is flagged anyway, changes nothing. -/
theorem zip_bit0 (l : List Nat) (hl : l ≠ []) (f : Nat → Bool) (e : Bool) (he : e = true → ∀ b, l.head? = some b → f b = true) :
    List.zipWith (· || ·) (l.map f) (e :: List.replicate (l.length - 1) false) = l.map f := by
  cases l with
  | nil => exact absurd rfl hl
  | cons a l =>
    simp only [List.map_cons, List.zipWith_cons_cons, List.length_cons, Nat.add_sub_cancel, zip_false]
    have := he
    cases e with
    | false => simp
    | true => rw [he rfl a rfl]; simp

theorem map_signed (l : List Nat) (hb : ∀ b ∈ l, b < 256) :
    l.map (fun b => decide (toSigned b < 0x20)) = l.map (fun b => !isAscii b) :=
  List.map_congr_left fun b h => lessBit_signed b (hb b h)

theorem laneMask_head (l : List Nat) (n : Nat) (hn : 0 < n) (hl : 4 ≤ l.length) (h : maskIsOnes n (laneMask l) = true) :
    ∀ b, l.head? = some b → ((b &&& 0x80) == 0x80) = true := by
  match l, hl with
  | a :: b :: c :: d :: rest, _ =>
    intro x hx
    simp only [List.head?_cons, Option.some.injEq] at hx
    subst hx
    obtain ⟨m, rfl⟩ : ∃ m, n = m + 1 := ⟨n - 1, by omega⟩
    simp only [maskIsOnes, laneMask, List.take_succ_cons, List.all_cons, Bool.and_eq_true] at h
    have h1 := h.1.1
    simp only [beq_iff_eq] at h1
    exact (by simpa using h1 : _ ∧ _).1 |> fun h => by simpa using h

theorem zip_or_map (l : List Nat) (f g : Nat → Bool) :
    List.zipWith (· || ·) (l.map f) (l.map g) = l.map (fun b => f b || g b) := by
  induction l with
  | nil => rfl
  | cons a l ih => simp only [List.map_cons, List.zipWith_cons_cons, ih]

/-- Every variant's mask flags exactly the bytes that are not printable ASCII. -/
theorem mask_eq (v : Variant) (w : Nat) (hv : v ≠ .none) (l : List Nat) (hb : ∀ b ∈ l, b < 256)
    (hl : l.length = blockSize v w) : mask v l = l.map (fun b => !isAscii b) := by
  have hin : ∀ e : Bool, l ≠ [] → (e = true → ∀ b, l.head? = some b → ((b &&& 0x80) == 0x80) = true) →
      List.zipWith (· || ·) (l.map (fun b => decide (toSigned b < 0x20))) (e :: List.replicate (l.length - 1) false)
        = l.map (fun b => !isAscii b) := by
    intro e hne he
    rw [map_signed l hb]
    refine zip_bit0 l hne _ e fun h b hh => ?_
    exact complex_not_ascii b (hb b (List.mem_of_mem_head? hh)) (he h b hh)
  cases v with
  | stdSimd s =>
    unfold mask
    cases s with
    | false =>
      show List.zipWith _ (l.map (fun b => decide (b < 0x20))) (l.map _) = _
      rw [zip_or_map]
      exact List.map_congr_left fun b h => lessBit_unsigned b (hb b h)
    | true =>
      show List.zipWith _ (l.map (fun b => decide (toSigned b < 0x20))) (l.map _) = _
      rw [zip_or_map]
      refine List.map_congr_left fun b h => ?_
      rw [lessBit_signed b (hb b h)]
      have := complex_not_ascii b (hb b h)
      cases hc : ((b &&& 0x80) == 0x80) with
      | false => simp
      | true => rw [this hc]; rfl
  | intrin128 =>
    have h16 : l.length = 16 := hl
    exact hin _ (by intro h; simp [h] at h16) (fun h => laneMask_head l 16 (by omega) (by omega) h)
  | intrin256 =>
    have h32 : l.length = 32 := hl
    exact hin _ (by intro h; simp [h] at h32) (fun h => laneMask_head l 16 (by omega) (by omega) h)
  | intrin512 =>
    have h64 : l.length = 64 := hl
    refine hin _ (by intro h; simp [h] at h64) (fun h => ?_)
    cases l with
    | nil => simp at h64
    | cons a l =>
      intro b hb'
      simp only [List.head?_cons, Option.some.injEq] at hb'
      subst hb'
      simp only [maskIsOnes, List.map_cons, List.take_succ_cons, List.all_cons, Bool.and_eq_true] at h
      simpa using h.1.1
  | none => exact absurd rfl hv

theorem take_all_of_lt (l : List Nat) (n : Nat) (h : n ≤ l.findIdx (fun b => !isAscii b)) :
    ∀ b ∈ l.take n, isAscii b = true := by
  induction l generalizing n with
  | nil => simp
  | cons a l ih =>
    cases n with
    | zero => simp
    | succ n =>
      rw [List.findIdx_cons] at h
      intro b hb
      rw [List.take_succ_cons, List.mem_cons] at hb
      cases ha : isAscii a with
      | false => simp [ha] at h
      | true =>
        simp only [ha, Bool.not_true, cond_false] at h
        rcases hb with rfl | hb
        · exact ha
        · exact ih n (by omega) b hb

theorem findIdx_map (l : List Nat) (f : Nat → Bool) : (l.map f).findIdx id = l.findIdx f := by
  induction l with
  | nil => rfl
  | cons a l ih => simp only [List.map_cons, List.findIdx_cons, ih, id]

theorem any_map_id (l : List Nat) (f : Nat → Bool) : (l.map f).any id = l.any f := by
  induction l with
  | nil => rfl
  | cons a l ih => simp only [List.map_cons, List.any_cons, ih, id]

theorem stride_le (v : Variant) (w : Nat) (hv : v ≠ .none) : stride v w ≤ blockSize v w := by
  cases v <;> simp [stride, blockSize] at *

theorem vecLoop_spec (v : Variant) (w : Nat) (hv : v ≠ .none) (fuel : Nat) (s : List Nat) (hb : ∀ b ∈ s, b < 256) :
    vecLoop v w fuel s ≤ s.length ∧ ∀ b ∈ s.take (vecLoop v w fuel s), isAscii b = true := by
  induction fuel generalizing s with
  | zero => simp [vecLoop]
  | succ fuel ih =>
    unfold vecLoop
    split
    · rename_i hlt
      have hlen : (s.take (blockSize v w)).length = blockSize v w := by simp; omega
      have hbt : ∀ b ∈ s.take (blockSize v w), b < 256 := fun b h => hb b (List.mem_of_mem_take h)
      rw [mask_eq v w hv _ hbt hlen, any_map_id, findIdx_map]
      split
      · have hle : (s.take (blockSize v w)).findIdx (fun b => !isAscii b) ≤ blockSize v w := by
          have := List.findIdx_le_length (p := fun b => !isAscii b) (xs := s.take (blockSize v w)); omega
        refine ⟨by omega, ?_⟩
        have := take_all_of_lt (s.take (blockSize v w)) _ (Nat.le_refl _)
        rwa [List.take_take, Nat.min_eq_left hle] at this
      · rename_i hany
        have hsl := stride_le v w hv
        have hall : ∀ b ∈ s.take (blockSize v w), isAscii b = true := by
          intro b h
          simp only [List.any_eq_true, not_exists, not_and, Bool.not_eq_true] at hany
          have := hany b h
          simpa using this
        obtain ⟨h1, h2⟩ := ih (s.drop (stride v w)) (fun b h => hb b (List.mem_of_mem_drop h))
        refine ⟨by rw [List.length_drop] at h1; omega, ?_⟩
        intro b hbm
        rw [List.take_add, List.mem_append] at hbm
        rcases hbm with h | h
        · exact hall b (List.take_subset_take_left s hsl h)
        · exact h2 b h
    · simp

theorem vecPart_spec (v : Variant) (w : Nat) (s : List Nat) (hb : ∀ b ∈ s, b < 256) :
    vecPart v w s ≤ s.length ∧ ∀ b ∈ s.take (vecPart v w s), isAscii b = true := by
  by_cases hv : v = .none
  · subst hv; simp [vecPart]
  · have := vecLoop_spec v w hv s.length s hb
    unfold vecPart
    cases v with
    | none => exact absurd rfl hv
    | _ => exact this

theorem scalarPart_spec (s : List Nat) :
    scalarPart s ≤ s.length ∧ (∀ b ∈ s.take (scalarPart s), isAscii b = true) ∧
      ∀ b, s[scalarPart s]? = some b → isAscii b = false := by
  induction s with
  | nil => simp [scalarPart]
  | cons a s ih =>
    unfold scalarPart
    split
    · rename_i h
      refine ⟨by simp only [List.length_cons]; omega, ?_, ?_⟩
      · rw [Nat.add_comm, List.take_succ_cons]
        intro b hb
        rcases List.mem_cons.1 hb with rfl | hb
        · exact h
        · exact ih.2.1 b hb
      · rw [Nat.add_comm, List.getElem?_cons_succ]
        exact ih.2.2
    · rename_i h
      refine ⟨by omega, by simp, ?_⟩
      intro b hb
      simp only [List.getElem?_cons_zero, Option.some.injEq] at hb
      subst hb
      simpa using h

/-- The three facts that determine the result: it is within both limits, everything before it is printable,
and it cannot be extended. -/
structure LongestPrintable (text : List Nat) (max n : Nat) : Prop where
  le_max : n ≤ max
  le_size : n ≤ text.length
  printable : ∀ b ∈ text.take n, Printable b
  maximal : n = max ∨ n = text.length ∨ ∃ b, text[n]? = some b ∧ ¬ Printable b

/-- **C11.**  For every byte string, every column limit, every vector instruction set and every vector width,
`scan_for_text_ascii` returns the length of the longest prefix of printable ASCII bytes within the limit. -/
theorem C11_longest_prefix (v : Variant) (w : Nat) (text : List Nat) (hb : ∀ b ∈ text, b < 256) (max : Nat) :
    LongestPrintable text max (scanAscii v w text max) := by
  have htake : text.take (min text.length max) = text.take max := by
    rcases Nat.le_total text.length max with h | h
    · rw [Nat.min_eq_left h, List.take_length, List.take_of_length_le h]
    · rw [Nat.min_eq_right h]
  unfold scanAscii
  rw [htake]
  have hbs : ∀ b ∈ text.take max, b < 256 := fun b h => hb b (List.mem_of_mem_take h)
  generalize hs : text.take max = s at hbs
  obtain ⟨h1, h2⟩ := vecPart_spec v w s hbs
  simp only
  generalize vecPart v w s = m at h1 h2 ⊢
  obtain ⟨h3, h4, h5⟩ := scalarPart_spec (s.drop m)
  generalize scalarPart (s.drop m) = k at h3 h4 h5 ⊢
  have hlen : s.length = min max text.length := by rw [← hs]; simp
  rw [List.length_drop] at h3
  have hn : m + k ≤ s.length := by omega
  have htk : text.take (m + k) = s.take (m + k) := by
    rw [← hs, List.take_take, Nat.min_eq_left (by omega)]
  refine ⟨by omega, by omega, ?_, ?_⟩
  · intro b hbm
    rw [htk, List.take_add, List.mem_append] at hbm
    rcases hbm with h | h
    · exact (isAscii_iff b (hbs b (List.mem_of_mem_take h))).1 (h2 b h)
    · exact (isAscii_iff b (hbs b (List.mem_of_mem_drop (List.mem_of_mem_take h)))).1 (h4 b h)
  · by_cases he : m + k = max
    · exact .inl he
    by_cases he' : m + k = text.length
    · exact .inr (.inl he')
    right; right
    have hlt : m + k < s.length := by omega
    have hget : text[m + k]? = s[m + k]? := by
      rw [← hs, List.getElem?_take, if_pos (by omega)]
    refine ⟨s[m + k], by rw [hget, List.getElem?_eq_getElem hlt], ?_⟩
    have := h5 s[m + k] (by rw [List.getElem?_drop, List.getElem?_eq_getElem hlt])
    intro hp
    rw [(isAscii_iff _ (hbs _ (List.getElem_mem hlt))).2 hp] at this
    exact absurd this (by decide)

/-- The three facts determine the number. -/
theorem longest_unique (text : List Nat) (max n m : Nat) (hn : LongestPrintable text max n)
    (hm : LongestPrintable text max m) : n = m := by
  have key : ∀ a b, LongestPrintable text max a → LongestPrintable text max b → ¬ a < b := by
    intro a b ha hb hlt
    rcases ha.maximal with h | h | ⟨x, hx, hnp⟩
    · have := hb.le_max; omega
    · have := hb.le_size; omega
    · refine hnp (hb.printable x ?_)
      rw [List.mem_iff_getElem?]
      exact ⟨a, by rw [List.getElem?_take, if_pos hlt, hx]⟩
  have h1 := key n m hn hm
  have h2 := key m n hm hn
  omega

/-- **C11.**  The result does not depend on the CPU or on how the library was compiled. -/
theorem C11_cpu_independent (v v' : Variant) (w w' : Nat) (text : List Nat) (hb : ∀ b ∈ text, b < 256) (max : Nat) :
    scanAscii v w text max = scanAscii v' w' text max :=
  longest_unique text max _ _ (C11_longest_prefix v w text hb max) (C11_longest_prefix v' w' text hb max)

/-- **C11.**  Closed form. -/
theorem C11_closed_form (v : Variant) (w : Nat) (text : List Nat) (hb : ∀ b ∈ text, b < 256) (max : Nat) :
    scanAscii v w text max = ((text.take max).takeWhile (fun b => decide (Printable b))).length := by
  refine longest_unique text max _ _ (C11_longest_prefix v w text hb max) ?_
  have aux : ∀ (l : List Nat) (p : Nat → Bool), ∀ b, l[(l.takeWhile p).length]? = some b → p b = false := by
    intro l p
    induction l with
    | nil => simp
    | cons a l ih =>
      cases hp : p a with
      | true => simpa [hp] using ih
      | false => simp [hp]
  have hpre : (text.take max).takeWhile (fun b => decide (Printable b))
      = text.take ((text.take max).takeWhile (fun b => decide (Printable b))).length := by
    have h1 : (text.take max).takeWhile (fun b => decide (Printable b)) <+: text :=
      (List.takeWhile_prefix _).trans (List.take_prefix _ _)
    exact List.prefix_iff_eq_take.1 h1
  have hle := (List.takeWhile_prefix (fun b => decide (Printable b)) (l := text.take max)).length_le
  rw [List.length_take] at hle
  refine ⟨by omega, by omega, ?_, ?_⟩
  · rw [← hpre]
    intro b hb
    have := List.all_eq_true.1 (List.all_takeWhile (p := fun b => decide (Printable b)) (l := text.take max)) b hb
    simpa using this
  · by_cases h1 : ((text.take max).takeWhile (fun b => decide (Printable b))).length = max
    · exact .inl h1
    by_cases h2 : ((text.take max).takeWhile (fun b => decide (Printable b))).length = text.length
    · exact .inr (.inl h2)
    right; right
    have hlt : ((text.take max).takeWhile (fun b => decide (Printable b))).length < (text.take max).length := by
      rw [List.length_take]; omega
    have hg := List.getElem?_eq_getElem hlt
    have hh := aux _ _ _ hg
    exact ⟨_, by rw [← hg, List.getElem?_take, if_pos (by omega)], of_decide_eq_false hh⟩

/-- Non-trivial case: 40 letters, a line feed, more letters; a limit beyond the first vector. -/
example : scanAscii .intrin128 16 (List.replicate 40 0x61 ++ [0x0A] ++ List.replicate 30 0x62) 60 = 40
    ∧ scanAscii (.stdSimd false) 32 (List.replicate 40 0x61 ++ [0xC3] ++ List.replicate 30 0x62) 60 = 40
    ∧ scanAscii .intrin512 64 (List.replicate 100 0x61) 70 = 70 := by decide +kernel

end Verif.Props.Scan
