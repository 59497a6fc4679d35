import Mathlib.Logic.Function.Iterate
import Mathlib.Data.List.GetD
import Verif.Model.Iterators
import Verif.Props.Grapheme
import Verif.Props.Word
/-!
# Property C73: the segmenters as iterators
-/

namespace Verif.Props.Iter
open Verif.Ucd Verif.Spec Verif.Toy

/-- Where piece `k` begins. -/
def offset (segs : List (List Nat)) (k : Nat) : Nat := (segs.take k).flatten.length

theorem offset_zero (segs : List (List Nat)) : offset segs 0 = 0 := rfl

theorem offset_succ (s : List Nat) (segs : List (List Nat)) (k : Nat) : offset (s :: segs) (k + 1) = s.length + offset segs k := by
  unfold offset; rw [List.take_succ_cons, List.flatten_cons, List.length_append]

theorem offset_end {segs : List (List Nat)} {k : Nat} (h : segs.length ≤ k) : offset segs k = segs.flatten.length := by
  unfold offset; rw [List.take_of_length_le h]

theorem offset_lt {segs : List (List Nat)} (hne : ∀ s ∈ segs, s ≠ []) : ∀ {i j : Nat}, i < j → i < segs.length → offset segs i < offset segs j := by
  induction segs with
  | nil => intro i j _ h; exact absurd h (Nat.not_lt_zero _)
  | cons s segs ih =>
    intro i j hij hi
    obtain ⟨j, rfl⟩ : ∃ j', j = j' + 1 := ⟨j - 1, by omega⟩
    rw [offset_succ]
    have hs := List.length_pos_iff.2 (hne s (by simp))
    cases i with
    | zero => rw [offset_zero]; omega
    | succ i =>
      rw [offset_succ]
      have := ih (fun x hx => hne x (List.mem_cons_of_mem _ hx)) (i := i) (j := j) (by omega) (by simpa using hi)
      omega

theorem offset_eq_end {segs : List (List Nat)} (hne : ∀ s ∈ segs, s ≠ []) (k : Nat) : offset segs k = segs.flatten.length ↔ segs.length ≤ k := by
  constructor
  · intro h
    by_contra hn
    have := offset_lt hne (i := k) (j := segs.length) (by omega) (by omega)
    rw [offset_end (Nat.le_refl _)] at this
    omega
  · exact offset_end

theorem offset_inj {segs : List (List Nat)} (hne : ∀ s ∈ segs, s ≠ []) {i j : Nat} (h : offset segs i = offset segs j) :
    i = j ∨ (segs.length ≤ i ∧ segs.length ≤ j) := by
  by_contra hn
  rw [not_or] at hn
  rcases Nat.lt_trichotomy i j with h' | h' | h'
  · by_cases hi : i < segs.length
    · have := offset_lt hne h' hi; omega
    · omega
  · exact hn.1 h'
  · by_cases hj : j < segs.length
    · have := offset_lt hne h' hj; omega
    · omega

theorem drop_offset (segs : List (List Nat)) : ∀ k, segs.flatten.drop (offset segs k) = (segs.drop k).flatten := by
  induction segs with
  | nil => intro k; simp
  | cons s segs ih =>
    intro k
    cases k with
    | zero => rfl
    | succ k => rw [offset_succ, List.flatten_cons, List.drop_succ_cons, ← ih k, ← List.drop_drop, List.drop_left]

theorem slice_offset (segs : List (List Nat)) (k : Nat) :
    (segs.flatten.drop (offset segs k)).take (offset segs (k + 1) - offset segs k) = segs.getD k [] := by
  rw [drop_offset]
  have h : ∀ (segs : List (List Nat)) (k : Nat), offset segs (k + 1) - offset segs k = (segs.getD k []).length := by
    intro segs
    induction segs with
    | nil => intro k; simp [offset]
    | cons s segs ih =>
      intro k
      cases k with
      | zero => simp [offset]
      | succ k =>
        rw [offset_succ, offset_succ, Nat.add_sub_add_left, ih k]
        rfl
  rw [h]
  by_cases hk : k < segs.length
  · rw [List.drop_eq_getElem_cons hk, List.flatten_cons, List.getD_eq_getElem _ _ hk, List.take_left]
  · rw [List.drop_of_length_le (by omega), List.getD_eq_default _ _ (by omega)]
    rfl

theorem offset_step (segs : List (List Nat)) (k : Nat) : offset segs (k + 1) = offset segs k + (segs.getD k []).length := by
  by_cases hk : k < segs.length
  · unfold offset
    rw [List.take_add_one, List.flatten_append, List.length_append, List.getD_eq_getElem?_getD, List.getElem?_eq_getElem hk]
    simp
  · rw [offset_end (by omega), offset_end (by omega), List.getD_eq_default _ _ (by omega)]
    rfl

/-! ## Grapheme clusters -/

section graphemes
open Verif.Grapheme

theorem clusters_advance (U : Table) (text : List Nat) : (advance U text).1 = (clusters U text).getD 0 [] ∧
    (text ≠ [] → clusters U (advance U text).2 = (clusters U text).drop 1) := by
  cases text with
  | nil => exact ⟨rfl, fun h => absurd rfl h⟩
  | cons c cs =>
    have e : clusters U (c :: cs) = (advance U (c :: cs)).1 :: clustersLoop U cs.length (advance U (c :: cs)).2 := rfl
    refine ⟨by rw [e]; rfl, fun _ => ?_⟩
    rw [e, List.drop_succ_cons, List.drop_zero]
    refine (C15_terminates U _ _ ?_).symm
    have := congrArg List.length (extendCluster_append U (processInit U c) cs)
    rw [List.length_append] at this
    show (extendCluster U (processInit U c) cs).2.length ≤ _
    omega

theorem clusters_drop (U : Table) (text : List Nat) (k : Nat) : clusters U (((clusters U text).drop k).flatten) = (clusters U text).drop k := by
  induction k with
  | zero => rw [List.drop_zero, (C15_partition U text).concat]
  | succ k ih =>
    by_cases hk : k < (clusters U text).length
    · have h := clusters_advance U (((clusters U text).drop k).flatten)
      have hne : ((clusters U text).drop k).flatten ≠ [] := by
        rw [List.drop_eq_getElem_cons hk, List.flatten_cons]
        intro h0
        rw [List.append_eq_nil_iff] at h0
        exact (C15_partition U text).nonempty _ (List.getElem_mem hk) h0.1
      obtain ⟨h1, h2⟩ := h
      have h2 := h2 hne
      rw [ih, List.drop_drop] at h2
      rw [ih] at h1
      have hsplit : (advance U (((clusters U text).drop k).flatten)).1 ++ (advance U (((clusters U text).drop k).flatten)).2 = ((clusters U text).drop k).flatten := by
        generalize ((clusters U text).drop k).flatten = t
        cases t with
        | nil => rfl
        | cons c cs => exact congrArg (c :: ·) (extendCluster_append U (processInit U c) cs)
      have : (advance U (((clusters U text).drop k).flatten)).2 = ((clusters U text).drop (k + 1)).flatten := by
        rw [h1] at hsplit
        rw [List.drop_eq_getElem_cons hk] at hsplit ⊢
        rw [List.flatten_cons] at hsplit ⊢
        have hg : (((clusters U text)[k] :: (clusters U text).drop (k + 1)).getD 0 []) = (clusters U text)[k] := rfl
        rw [hg] at hsplit
        exact List.append_cancel_left hsplit
      rw [this] at h2
      exact h2
    · rw [List.drop_of_length_le (by omega)]
      rfl

/-- The object after `k` increments. -/
theorem seg_at (U : Table) (base : Nat) (text : List Nat) (k : Nat) : (Seg.next U)^[k] (Seg.make U base text) =
    ⟨base, text, offset (clusters U text) k, offset (clusters U text) (k + 1)⟩ := by
  have hcat := (C15_partition U text).concat
  have hne := (C15_partition U text).nonempty
  have step : ∀ k left, Seg.next U ⟨base, text, left, offset (clusters U text) k⟩ =
      ⟨base, text, offset (clusters U text) k, offset (clusters U text) (k + 1)⟩ := by
    intro k left
    unfold Seg.next
    by_cases h : offset (clusters U text) k = text.length
    · rw [if_pos h]
      have hk := (offset_eq_end hne k).1 (by rw [hcat]; exact h)
      rw [offset_end (show (clusters U text).length ≤ k + 1 by omega), hcat, h]
    · rw [if_neg h]
      have hdrop : text.drop (offset (clusters U text) k) = ((clusters U text).drop k).flatten := by
        rw [← drop_offset, hcat]
      have ha := (clusters_advance U (((clusters U text).drop k).flatten)).1
      rw [clusters_drop] at ha
      have hg : ((clusters U text).drop k).getD 0 [] = (clusters U text).getD k [] := by
        simp [List.getD_eq_getElem?_getD]
      simp only
      rw [hdrop, ha, hg, ← offset_step]
  induction k with
  | zero => exact step 0 0
  | succ k ih => rw [Function.iterate_succ_apply', ih]; exact step (k + 1) _

/-- **C73, grapheme clusters.**  After `k` increments a `grapheme_segmenter` shows cluster `k` of the text (nothing behind the last one), lies within
the text, and says `true` exactly if there is another cluster behind the one it shows. -/
theorem C73_grapheme (U : Table) (base : Nat) (text : List Nat) (k : Nat) :
    ((Seg.next U)^[k] (Seg.make U base text)).current = (clusters U text).getD k [] ∧
    ((Seg.next U)^[k] (Seg.make U base text)).left ≤ ((Seg.next U)^[k] (Seg.make U base text)).right ∧
    ((Seg.next U)^[k] (Seg.make U base text)).right ≤ text.length ∧
    (((Seg.next U)^[k] (Seg.make U base text)).available = true ↔ k + 1 < (clusters U text).length) := by
  have hcat := (C15_partition U text).concat
  have hne := (C15_partition U text).nonempty
  rw [seg_at]
  refine ⟨?_, ?_, ?_, ?_⟩
  · have := slice_offset (clusters U text) k
    rw [hcat] at this
    exact this
  · show offset _ _ ≤ offset _ _
    rw [offset_step]; omega
  · show offset _ _ ≤ _
    by_cases h : k + 1 < (clusters U text).length
    · have := offset_lt hne h (by omega : k + 1 < _)
      rw [offset_end (Nat.le_refl _), hcat] at this
      omega
    · exact Nat.le_of_eq (by rw [offset_end (by omega), hcat])
  · unfold Seg.available
    simp only [decide_eq_true_eq]
    have he := offset_eq_end hne (k + 1)
    rw [hcat] at he
    rw [ne_eq, he]
    omega

/-- What the comparison of two segmenters of the same text is documented to be by its use as an iterator. -/
def C73_Equal : Prop := ∀ (U : Table) (base : Nat) (text : List Nat) (i j : Nat), i < (clusters U text).length → j ≤ (clusters U text).length →
  (Seg.equal ((Seg.next U)^[i] (Seg.make U base text)) ((Seg.next U)^[j] (Seg.make U base text)) = true ↔ i = j)

/-- **C73, comparison, exactly**: the last cluster and the end are the same for `==`. -/
theorem C73_grapheme_equal (U : Table) (base : Nat) (text : List Nat) (i j : Nat) :
    Seg.equal ((Seg.next U)^[i] (Seg.make U base text)) ((Seg.next U)^[j] (Seg.make U base text)) = true ↔
      i = j ∨ ((clusters U text).length ≤ i + 1 ∧ (clusters U text).length ≤ j + 1) := by
  have hne := (C15_partition U text).nonempty
  have hi := (C73_grapheme U base text i).2.2.2
  have hj := (C73_grapheme U base text j).2.2.2
  unfold Seg.equal
  rw [Bool.or_eq_true, Bool.and_eq_true, Bool.not_eq_true', Bool.not_eq_true', ← Bool.not_eq_true, ← Bool.not_eq_true, hi, hj, seg_at, seg_at,
    Bool.and_eq_true, decide_eq_true_eq, decide_eq_true_eq]
  constructor
  · rintro (h | ⟨h1, h2⟩)
    · exact .inr (by omega)
    · rcases offset_inj hne (i := i) (j := j) (by simp only at h1; omega) with h | h
      · exact .inl h
      · exact .inr (by omega)
  · rintro (rfl | h)
    · exact .inr ⟨rfl, rfl⟩
    · exact .inl (by omega)

/-- … and so are the last cluster and a default-constructed segmenter. -/
theorem C73_grapheme_default (U : Table) (base : Nat) (text : List Nat) (i : Nat) :
    Seg.equal ((Seg.next U)^[i] (Seg.make U base text)) (Seg.default U) = true ↔ (clusters U text).length ≤ i + 1 := by
  have hne := (C15_partition U text).nonempty
  have hi := (C73_grapheme U base text i).2.2.2
  have hd : (Seg.default U).available = false := rfl
  have hr : (Seg.default U).base + (Seg.default U).right = 0 := rfl
  unfold Seg.equal
  rw [Bool.or_eq_true, Bool.and_eq_true, Bool.not_eq_true', ← Bool.not_eq_true, hi, hd, hr, seg_at, Bool.and_eq_true, decide_eq_true_eq, decide_eq_true_eq]
  constructor
  · rintro (h | ⟨-, h2⟩)
    · omega
    · by_contra hn
      have := offset_lt hne (i := i) (j := i + 1) (by omega) (by omega)
      simp only at h2
      omega
  · intro h
    exact .inl ⟨by omega, rfl⟩

/-- The comparison is not that of an iterator: "ab" at its last cluster is equal to the end, so a loop that ends there does not see "b". -/
theorem C73_fails_last : ¬ C73_Equal := by
  intro h
  have := (h toy 0 [0x61, 0x62] 1 2 (by decide) (by decide)).1 (by decide)
  exact absurd this (by decide)

/-- `for (;;) { use(*seg); if (!seg.codepointsAvailable()) break; ++seg; }` (the loops of case_mapping.cpp:226-262 and of the tests). -/
def visit (U : Table) : Nat → Seg → List (List Nat)
  | 0, _ => []
  | fuel + 1, s => if s.available then s.current :: visit U fuel (Seg.next U s) else [s.current]

/-- **C73, the loop that works**: it sees exactly the clusters. -/
theorem C73_grapheme_visit (U : Table) (base : Nat) (text : List Nat) (hne : text ≠ []) (fuel : Nat) (hf : text.length ≤ fuel) :
    visit U fuel (Seg.make U base text) = clusters U text := by
  have hN : 0 < (clusters U text).length := by
    rw [List.length_pos_iff]
    intro h0
    have := (C15_partition U text).concat
    rw [h0] at this
    exact hne this.symm
  have hle := C15_count_le U text
  have key : ∀ (fuel k : Nat), k < (clusters U text).length → (clusters U text).length ≤ k + fuel →
      visit U fuel ((Seg.next U)^[k] (Seg.make U base text)) = (clusters U text).drop k := by
    intro fuel
    induction fuel with
    | zero => intro k h1 h2; omega
    | succ fuel ih =>
      intro k h1 h2
      obtain ⟨c1, -, -, c4⟩ := C73_grapheme U base text k
      rw [visit, c1, ← Function.iterate_succ_apply' (Seg.next U), List.drop_eq_getElem_cons h1, List.getD_eq_getElem _ _ h1]
      by_cases h : k + 1 < (clusters U text).length
      · rw [if_pos (c4.2 h), ih (k + 1) h (by omega)]
      · rw [if_neg (fun h' => h (c4.1 h')), List.drop_of_length_le (by omega)]
  exact key fuel 0 hN (by omega)

example : visit toy 9 (Seg.make toy 0x1000 [0x61, 0x301, 0x62]) = [[0x61, 0x301], [0x62]] := by decide

end graphemes

/-! ## Words -/

section words
open Verif.Word

theorem word_at (U : Table) (base : Nat) (text : List Nat) (k : Nat) : ∃ st,
    (Seg.next U)^[k] (Seg.make U base text) = ⟨base, text, offset (segments U text) k, offset (segments U text) (k + 1), st⟩ ∧
    ∀ fuel, text.length ≤ fuel → segmentsLoop U fuel st (text.drop (offset (segments U text) (k + 1))) = (segments U text).drop (k + 1) := by
  have hcat := (Word.C19_partition U text).concat
  have hne := (Word.C19_partition U text).nonempty
  have step : ∀ k left st, (∀ fuel, text.length ≤ fuel → segmentsLoop U fuel st (text.drop (offset (segments U text) k)) = (segments U text).drop k) →
      ∃ st', Seg.next U ⟨base, text, left, offset (segments U text) k, st⟩ =
        ⟨base, text, offset (segments U text) k, offset (segments U text) (k + 1), st'⟩ ∧
        ∀ fuel, text.length ≤ fuel → segmentsLoop U fuel st' (text.drop (offset (segments U text) (k + 1))) = (segments U text).drop (k + 1) := by
    intro k left st hst
    unfold Seg.next
    simp only
    have hdrop : text.drop (offset (segments U text) k) = ((segments U text).drop k).flatten := by rw [← drop_offset, hcat]
    cases hd : text.drop (offset (segments U text) k) with
    | nil =>
      have hk : (segments U text).length ≤ k := by
        by_contra hn
        have hk : k < (segments U text).length := by omega
        rw [hdrop, List.drop_eq_getElem_cons hk, List.flatten_cons, List.append_eq_nil_iff] at hd
        exact hne _ (List.getElem_mem hk) hd.1
      refine ⟨st, ?_, fun fuel hf => ?_⟩
      · rw [offset_end hk, offset_end (show (segments U text).length ≤ k + 1 by omega)]
      · rw [offset_end (show (segments U text).length ≤ k + 1 by omega), hcat, List.drop_length, List.drop_of_length_le (by omega)]
        cases fuel <;> rfl
    | cons c cs =>
      simp only
      have hlen : (c :: cs).length ≤ text.length := by rw [← hd, List.length_drop]; omega
      have h1 := hst (text.length + 1) (by omega)
      rw [hd] at h1
      have h1' : (c :: (extendSegment U (processInit U c st) cs).2.1) :: segmentsLoop U text.length (extendSegment U (processInit U c st) cs).1
          (extendSegment U (processInit U c st) cs).2.2 = (segments U text).drop k := h1
      have hk : k < (segments U text).length := by
        by_contra hn
        rw [List.drop_of_length_le (by omega)] at h1'
        exact absurd h1' (by simp)
      rw [List.drop_eq_getElem_cons hk, List.cons.injEq] at h1'
      obtain ⟨e1, e2⟩ := h1'
      have hoff : offset (segments U text) k + 1 + (extendSegment U (processInit U c st) cs).2.1.length = offset (segments U text) (k + 1) := by
        rw [offset_step, List.getD_eq_getElem _ _ hk, ← e1, List.length_cons]; omega
      have hrest : text.drop (offset (segments U text) (k + 1)) = (extendSegment U (processInit U c st) cs).2.2 := by
        rw [← hoff, Nat.add_assoc, ← List.drop_drop, hd]
        have ha := extendSegment_append U (processInit U c st) cs
        rw [Nat.add_comm 1, List.drop_succ_cons]
        have hd' := List.drop_left (l₁ := (extendSegment U (processInit U c st) cs).2.1) (l₂ := (extendSegment U (processInit U c st) cs).2.2)
        rw [ha] at hd'
        exact hd'
      refine ⟨_, by rw [hoff], fun fuel hf => ?_⟩
      rw [hrest, ← e2]
      have hl := congrArg List.length (extendSegment_append U (processInit U c st) cs)
      rw [List.length_append] at hl
      rw [List.length_cons] at hlen
      rw [Word.segmentsLoop_fuel U _ _ fuel (by omega), Word.segmentsLoop_fuel U _ _ text.length (by omega)]
  induction k with
  | zero => exact step 0 0 {} (fun fuel hf => Word.C19_terminates U text fuel hf)
  | succ k ih =>
    obtain ⟨st, h1, h2⟩ := ih
    rw [Function.iterate_succ_apply', h1]
    exact step (k + 1) _ st h2

/-- **C73, words.** -/
theorem C73_word (U : Table) (base : Nat) (text : List Nat) (k : Nat) :
    ((Seg.next U)^[k] (Seg.make U base text)).current = (segments U text).getD k [] ∧
    ((Seg.next U)^[k] (Seg.make U base text)).size = ((segments U text).getD k []).length ∧
    (((Seg.next U)^[k] (Seg.make U base text)).empty = true ↔ (segments U text).length ≤ k) ∧
    ((Seg.next U)^[k] (Seg.make U base text)).left ≤ ((Seg.next U)^[k] (Seg.make U base text)).right ∧
    ((Seg.next U)^[k] (Seg.make U base text)).right ≤ text.length ∧
    (((Seg.next U)^[k] (Seg.make U base text)).available = true ↔ k + 1 < (segments U text).length) := by
  have hcat := (Word.C19_partition U text).concat
  have hne := (Word.C19_partition U text).nonempty
  obtain ⟨st, h, -⟩ := word_at U base text k
  rw [h]
  have hsz : offset (segments U text) (k + 1) - offset (segments U text) k = ((segments U text).getD k []).length := by
    rw [offset_step]; omega
  refine ⟨?_, hsz, ?_, ?_, ?_, ?_⟩
  · have := slice_offset (segments U text) k
    rw [hcat] at this
    exact this
  · unfold Seg.empty Seg.size
    rw [decide_eq_true_eq]
    simp only
    rw [hsz]
    by_cases hk : k < (segments U text).length
    · have := List.length_pos_iff.2 (hne _ (List.getElem_mem hk))
      rw [List.getD_eq_getElem _ _ hk]
      omega
    · rw [List.getD_eq_default _ _ (by omega)]
      exact ⟨fun _ => by omega, fun _ => rfl⟩
  · show offset _ _ ≤ offset _ _
    rw [offset_step]; omega
  · show offset _ _ ≤ _
    by_cases h : k + 1 < (segments U text).length
    · have := offset_lt hne h (by omega : k + 1 < _)
      rw [offset_end (Nat.le_refl _), hcat] at this
      omega
    · exact Nat.le_of_eq (by rw [offset_end (by omega), hcat])
  · unfold Seg.available
    simp only [decide_eq_true_eq]
    have he := offset_eq_end hne (k + 1)
    rw [hcat] at he
    rw [ne_eq, he]
    omega

/-- **C73, comparison of word segmenters, exactly.** -/
theorem C73_word_equal (U : Table) (base : Nat) (text : List Nat) (i j : Nat) :
    Seg.equal ((Seg.next U)^[i] (Seg.make U base text)) ((Seg.next U)^[j] (Seg.make U base text)) = true ↔
      i = j ∨ ((segments U text).length ≤ i + 1 ∧ (segments U text).length ≤ j + 1) := by
  have hne := (Word.C19_partition U text).nonempty
  have hi := (C73_word U base text i).2.2.2.2.2
  have hj := (C73_word U base text j).2.2.2.2.2
  obtain ⟨s1, e1, -⟩ := word_at U base text i
  obtain ⟨s2, e2, -⟩ := word_at U base text j
  unfold Seg.equal
  rw [Bool.or_eq_true, Bool.and_eq_true, Bool.not_eq_true', Bool.not_eq_true', ← Bool.not_eq_true, ← Bool.not_eq_true, hi, hj, e1, e2,
    Bool.and_eq_true, decide_eq_true_eq, decide_eq_true_eq]
  constructor
  · rintro (h | ⟨h1, h2⟩)
    · exact .inr (by omega)
    · rcases offset_inj hne (i := i) (j := j) (by simp only at h1; omega) with h | h
      · exact .inl h
      · exact .inr (by omega)
  · rintro (rfl | h)
    · exact .inr ⟨rfl, rfl⟩
    · exact .inl (by omega)

/-- **C73.** A default-constructed word segmenter is empty and equal to exactly the last piece and the end. -/
theorem C73_word_default (U : Table) (base : Nat) (text : List Nat) (i : Nat) :
    (Seg.default U).current = [] ∧ (Seg.default U).available = false ∧ (Seg.default U).empty = true ∧
    (Seg.equal ((Seg.next U)^[i] (Seg.make U base text)) (Seg.default U) = true ↔ (segments U text).length ≤ i + 1) := by
  have hne := (Word.C19_partition U text).nonempty
  have hi := (C73_word U base text i).2.2.2.2.2
  have hd : (Seg.default U).available = false := rfl
  have hr : (Seg.default U).base + (Seg.default U).right = 0 := rfl
  refine ⟨rfl, rfl, rfl, ?_⟩
  obtain ⟨s1, e1, -⟩ := word_at U base text i
  unfold Seg.equal
  rw [Bool.or_eq_true, Bool.and_eq_true, Bool.not_eq_true', ← Bool.not_eq_true, hi, hd, hr, e1, Bool.and_eq_true, decide_eq_true_eq, decide_eq_true_eq]
  constructor
  · rintro (h | ⟨-, h2⟩)
    · omega
    · by_contra hn
      have := offset_lt hne (i := i) (j := i + 1) (by omega) (by omega)
      simp only at h2
      omega
  · intro h
    exact .inl ⟨by omega, rfl⟩

example : ((Seg.next toy)^[1] (Seg.make toy 0x1000 [0x61, 0x301, 0x62, 0x20, 0x20, 0x63])).current = [0x20, 0x20] := by decide

end words

/-! ## UTF-8 -/

section utf8
open Verif.Grapheme Verif.Utf8Grapheme Verif.Utf8

theorem first_eq (U : Table) (bytes : List Nat) : first U bytes = consumeGraphemeCluster U
    (consumeCodepoint { clusterStart := bytes, nextCodepointStart := bytes, nextUtf8 := bytes }).1 := by
  cases bytes with
  | nil => rfl
  | cons b bs => unfold first Iter.mk'; rw [if_pos (by simp)]

theorem decodeNext_short (s : DecState) (bs : List Nat) (h : bs ≠ []) : (decodeNext s bs).2.1.length < bs.length := by
  induction bs generalizing s with
  | nil => exact absurd rfl h
  | cons b bs ih =>
    rw [decodeNext]
    cases hf : fromUtf8 s b with
    | mk s' r =>
      cases r with
      | success v => simp
      | invalid => simp
      | incomplete =>
        simp only
        cases bs with
        | nil => simp [decodeNext]
        | cons c cs => have := ih s' (by simp); simp only [List.length_cons] at this ⊢; omega

/-- The decoder is ahead of the codepoint in waiting. -/
def Ahead (it : Iter) : Prop := it.nextCodepointStart = [] ∨ it.nextUtf8.length < it.nextCodepointStart.length

theorem ahead_consume (it : Iter) : Ahead (consumeCodepoint it).1 := by
  unfold Ahead consumeCodepoint
  simp only
  by_cases h : it.nextUtf8 = []
  · exact .inl h
  · exact .inr (decodeNext_short _ _ h)

theorem loop_ahead (U : Table) (fuel : Nat) (g : GState) (it : Iter) (h : Ahead it) :
    Ahead (clusterLoop U fuel g it) ∧ (clusterLoop U fuel g it).nextCodepointStart.length ≤ it.nextCodepointStart.length := by
  induction fuel generalizing g it with
  | zero => exact ⟨h, Nat.le_refl _⟩
  | succ n ih =>
    simp only [clusterLoop]
    by_cases h0 : it.nextCodepointStart.length = 0
    · rw [if_pos h0]; exact ⟨h, Nat.le_refl _⟩
    · rw [if_neg h0]
      cases hv : processBreakable U it.nextCodepoint g with
      | mk g' v =>
        cases v with
        | true => exact ⟨h, Nat.le_refl _⟩
        | false =>
          have h1 := ih g' { (consumeCodepoint it).1 with cluster := (consumeCodepoint it).1.cluster ++ [(consumeCodepoint it).2] } (ahead_consume it)
          refine ⟨h1.1, Nat.le_trans h1.2 ?_⟩
          show it.nextUtf8.length ≤ _
          rcases h with h | h
          · rw [h] at h0; exact absurd rfl h0
          · omega

theorem consume_ahead (U : Table) (it : Iter) (h : Ahead it) : Ahead (consumeGraphemeCluster U it) ∧
    (it.nextCodepointStart ≠ [] → (consumeGraphemeCluster U it).nextCodepointStart.length < it.nextCodepointStart.length) ∧
    (it.nextCodepointStart = [] → (consumeGraphemeCluster U it).nextCodepointStart = []) := by
  unfold consumeGraphemeCluster
  simp only
  by_cases h0 : it.nextCodepointStart.length = 0
  · rw [if_pos h0]
    have := List.length_eq_zero_iff.1 h0
    exact ⟨h, fun h' => absurd this h', fun _ => this⟩
  · rw [if_neg h0]
    have hne : it.nextCodepointStart ≠ [] := fun h' => h0 (by rw [h']; rfl)
    have hl := loop_ahead U (it.nextUtf8.length + 1) (processInit U it.nextCodepoint)
      { (consumeCodepoint { it with clusterStart := it.nextCodepointStart, cluster := [] }).1 with cluster := [it.nextCodepoint] } (ahead_consume it)
    refine ⟨hl.1, fun _ => Nat.lt_of_le_of_lt hl.2 ?_, fun h' => absurd h' hne⟩
    show it.nextUtf8.length < _
    rcases h with h | h
    · exact absurd h hne
    · exact h

theorem consume_start (U : Table) (it : Iter) : (consumeGraphemeCluster U it).clusterStart = it.nextCodepointStart := by
  unfold consumeGraphemeCluster
  simp only
  by_cases h0 : it.nextCodepointStart.length = 0
  · rw [if_pos h0]
  · rw [if_neg h0]
    have key : ∀ fuel g (it : Iter), (clusterLoop U fuel g it).clusterStart = it.clusterStart := by
      intro fuel
      induction fuel with
      | zero => intros; rfl
      | succ n ih =>
        intro g it
        simp only [clusterLoop]
        by_cases h : it.nextCodepointStart.length = 0
        · rw [if_pos h]
        · rw [if_neg h]
          cases processBreakable U it.nextCodepoint g with
          | mk g' v => cases v with
            | true => rfl
            | false => exact ih g' _
    rw [key]
    rfl

/-- What the iterator holds after `k` increments, seen from before the last of them. -/
theorem utf8_at (U : Table) (bytes : List Nat) (k : Nat) : ∃ it : Iter, (consumeGraphemeCluster U)^[k] (first U bytes) = consumeGraphemeCluster U it ∧
    Ahead it ∧ remaining it = ((segment U bytes).drop k).flatten := by
  rw [C17_any_bytes]
  induction k with
  | zero =>
    refine ⟨_, first_eq U bytes, ahead_consume _, ?_⟩
    rw [remaining_consume, List.drop_zero, (C15_partition U _).concat]
  | succ k ih =>
    obtain ⟨it, h1, h2, h3⟩ := ih
    refine ⟨consumeGraphemeCluster U it, by rw [Function.iterate_succ_apply', h1], (consume_ahead U it h2).1, ?_⟩
    rw [(consumeGraphemeCluster_spec U it).2.2, h3]
    generalize seenCodepoints (feed {} bytes).2 = text
    by_cases hk : k < (clusters U text).length
    · have h := clusters_advance U (((clusters U text).drop k).flatten)
      have hsplit : (advance U (((clusters U text).drop k).flatten)).1 ++ (advance U (((clusters U text).drop k).flatten)).2 = ((clusters U text).drop k).flatten := by
        generalize ((clusters U text).drop k).flatten = t
        cases t with
        | nil => rfl
        | cons c cs => exact congrArg (c :: ·) (extendCluster_append U (processInit U c) cs)
      rw [clusters_drop] at h
      have e : ((clusters U text).drop k).flatten = ((clusters U text).drop k).getD 0 [] ++ ((clusters U text).drop (k + 1)).flatten := by
        rw [List.drop_eq_getElem_cons hk, List.flatten_cons]; rfl
      rw [h.1] at hsplit
      exact List.append_cancel_left (hsplit.trans e)
    · rw [List.drop_of_length_le (by omega), List.drop_of_length_le (by omega)]
      rfl

/-- Where the iterator's cluster begins: fewer and fewer bytes before the end, none behind the last cluster. -/
theorem utf8_start (U : Table) (bytes : List Nat) (k : Nat) :
    (((consumeGraphemeCluster U)^[k] (first U bytes)).clusterStart.length = 0 ↔ (segment U bytes).length ≤ k) ∧
    (k < (segment U bytes).length → ((consumeGraphemeCluster U)^[k + 1] (first U bytes)).clusterStart.length < ((consumeGraphemeCluster U)^[k] (first U bytes)).clusterStart.length) := by
  obtain ⟨it, h1, h2, h3⟩ := utf8_at U bytes k
  have hz : ((consumeGraphemeCluster U)^[k] (first U bytes)).clusterStart.length = 0 ↔ (segment U bytes).length ≤ k := by
    rw [h1, (consumeGraphemeCluster_spec U it).1, h3]
    constructor
    · intro h
      by_contra hn
      have hk : k < (segment U bytes).length := by omega
      rw [List.drop_eq_getElem_cons hk, List.flatten_cons, List.append_eq_nil_iff] at h
      have hne : ∀ s ∈ segment U bytes, s ≠ [] := by
        rw [C17_any_bytes]; exact (C15_partition U _).nonempty
      exact hne _ (List.getElem_mem hk) h.1
    · intro h
      rw [List.drop_of_length_le h]; rfl
  refine ⟨hz, fun hk => ?_⟩
  rw [Function.iterate_succ_apply', consume_start U ((consumeGraphemeCluster U)^[k] (first U bytes))]
  have hne : it.nextCodepointStart ≠ [] := by
    intro h0
    have : ((consumeGraphemeCluster U)^[k] (first U bytes)).clusterStart.length = 0 := by rw [h1, consume_start, h0]; rfl
    have := hz.1 this
    omega
  rw [h1, consume_start U it]
  exact (consume_ahead U it h2).2.1 hne

/-- **C73, UTF-8.**  After `k` increments the iterator shows cluster `k` of the text (nothing behind the last one), and it is equal to `end()`
exactly when there is none. -/
theorem C73_utf8 (U : Table) (bytes : List Nat) (k : Nat) :
    ((consumeGraphemeCluster U)^[k] (first U bytes)).cluster = (segment U bytes).getD k [] ∧
    (((consumeGraphemeCluster U)^[k] (first U bytes)).equal (last U) = true ↔ (segment U bytes).length ≤ k) ∧
    (((consumeGraphemeCluster U)^[k] (first U bytes)).differs (last U) = true ↔ k < (segment U bytes).length) := by
  have hl : ((consumeGraphemeCluster U)^[k] (first U bytes)).equal (last U) = true ↔ (segment U bytes).length ≤ k := by
    rw [← (utf8_start U bytes k).1]
    unfold Iter.equal
    rw [decide_eq_true_eq]
    rfl
  refine ⟨?_, hl, ?_⟩
  · obtain ⟨it, h1, -, h3⟩ := utf8_at U bytes k
    rw [h1, (consumeGraphemeCluster_spec U it).2.1, h3, (clusters_advance U _).1, C17_any_bytes, clusters_drop]
    simp [List.getD_eq_getElem?_getD]
  · unfold Iter.differs
    rw [Bool.not_eq_true', ← Bool.not_eq_true, hl]
    omega

/-- **C73, UTF-8, comparison**: that of an iterator. -/
theorem C73_utf8_equal (U : Table) (bytes : List Nat) (i j : Nat) :
    Iter.equal ((consumeGraphemeCluster U)^[i] (first U bytes)) ((consumeGraphemeCluster U)^[j] (first U bytes)) = true ↔
      i = j ∨ ((segment U bytes).length ≤ i ∧ (segment U bytes).length ≤ j) := by
  have lt : ∀ i d, i < (segment U bytes).length → ((consumeGraphemeCluster U)^[i + 1 + d] (first U bytes)).clusterStart.length <
      ((consumeGraphemeCluster U)^[i] (first U bytes)).clusterStart.length := by
    intro i d hi
    induction d with
    | zero => exact (utf8_start U bytes i).2 hi
    | succ d ih =>
      by_cases h : i + 1 + d < (segment U bytes).length
      · exact Nat.lt_trans ((utf8_start U bytes (i + 1 + d)).2 h) ih
      · have h0 := (utf8_start U bytes (i + 1 + (d + 1))).1.2 (by omega)
        rw [h0]
        have := (utf8_start U bytes i).1
        omega
  unfold Iter.equal
  rw [decide_eq_true_eq]
  constructor
  · intro h
    by_contra hn
    rw [not_or] at hn
    rcases Nat.lt_trichotomy i j with hij | hij | hij
    · by_cases hi : i < (segment U bytes).length
      · have := lt i (j - i - 1) hi
        rw [show i + 1 + (j - i - 1) = j by omega] at this
        omega
      · omega
    · exact hn.1 hij
    · by_cases hj : j < (segment U bytes).length
      · have := lt j (i - j - 1) hj
        rw [show j + 1 + (i - j - 1) = i by omega] at this
        omega
      · omega
  · rintro (rfl | h)
    · rfl
    · rw [(utf8_start U bytes i).1.2 h.1, (utf8_start U bytes j).1.2 h.2]

/-- **C73, UTF-8, `it++`**: it yields the cluster of before and moves on. -/
theorem C73_utf8_post (U : Table) (bytes : List Nat) (k : Nat) :
    (Iter.post U ((consumeGraphemeCluster U)^[k] (first U bytes))).1.cluster = (segment U bytes).getD k [] ∧
    (Iter.post U ((consumeGraphemeCluster U)^[k] (first U bytes))).2 = (consumeGraphemeCluster U)^[k + 1] (first U bytes) :=
  ⟨(C73_utf8 U bytes k).1, by rw [Function.iterate_succ_apply']; rfl⟩

/-- **C73, UTF-8, `<<`**: on a well-formed text, cluster `k` of the text in quotes, in its own bytes. -/
theorem C73_utf8_printed (U : Table) (cs : List Nat) (hc : ∀ c ∈ cs, c ≤ 0x10FFFF) (k : Nat) :
    ((consumeGraphemeCluster U)^[k] (first U (toUtf8Str cs))).printed = [0x22] ++ toUtf8Str ((clusters U cs).getD k []) ++ [0x22] := by
  unfold Iter.printed
  rw [(C73_utf8 U _ k).1, C17_utf8_clusters U cs (fun c h => Nat.le_trans (hc c h) (by decide))]
  rfl

example : ((consumeGraphemeCluster toy)^[1] (first toy [0x61, 0xF0, 0x9F, 0x98, 0x80, 0x62])).printed = [0x22, 0xF0, 0x9F, 0x98, 0x80, 0x22] := by decide

end utf8

end Verif.Props.Iter
