import Verif.Props.Utf8
import Verif.Props.Grapheme
import Verif.Model.Width
import Verif.Spec.Toy

/-! Properties C20, C21: display width. -/

namespace Verif.Props
open Verif.Ucd Verif.Grapheme Verif.Spec Verif.Width Verif.Toy

/-- Facts about the character data the width code relies on. -/
structure WidthOk (U : Table) : Prop where
  le_two : ∀ c, (U c).charWidth ≤ 2
  zwj : (U 0x200D).charWidth = 0
  nul : (U 0).isExtPict = false ∧ (U 0).gcb ≠ .Regional_Indicator

theorem WidthOk.joins {U : Table} (W : WidthOk U) : joinsEmoji U 0 = false := by
  simp [joinsEmoji, W.nul.1, W.nul.2]

theorem toy_width_ok : WidthOk toy := by
  refine ⟨?_, by decide, by decide⟩
  intro c
  unfold toy
  repeat' refine ite_elim (fun p : Props => p.charWidth ≤ 2) (fun _ => ?_) (fun _ => ?_)
  all_goals decide

/-! ## C20: upper bound -/

/-- number of codepoints that take room on their own -/
def visible (U : Table) (l : List Nat) : Nat := (l.filter fun c => (U c).charWidth ≠ 0).length

structure BoundInv (U : Table) (s : Acc) (n : Nat) : Prop where
  cur : 0 ≤ s.current ∧ s.current ≤ 2
  tot : s.total ≤ 2 * ((n : Int) - 1) ∨ s.total ≤ 0 ∧ s.current = 0
  opn : s.lastMeasuredIsOpen = true → n ≠ 0 ∧ s.total ≤ 2 * ((n : Int) - 1)
  vir : s.lastMeasuredIsOpen = false → True

theorem push'_bound {U : Table} (hw : ∀ c, (U c).charWidth ≤ 2) (s : Acc) (n : Nat) (c : Nat) (before : Nat)
    (h : BoundInv U s n) :
    BoundInv U (push' U c before s) (n + if (U c).charWidth ≠ 0 then 1 else 0) := by
  obtain ⟨h1, h2, h3, _⟩ := h
  have hwc := hw c
  have mono : ∀ t : Acc, t.current = s.current → t.total = s.total →
      (t.lastMeasuredIsOpen = true → s.lastMeasuredIsOpen = true) →
      BoundInv U t (n + if (U c).charWidth ≠ 0 then 1 else 0) := by
    intro t e1 e2 e3
    refine ⟨by rw [e1]; exact h1, ?_, ?_, fun _ => trivial⟩
    · rw [e1, e2]; split <;> omega
    · intro ho; have := h3 (e3 ho); rw [e2]; split <;> omega
  unfold push'
  split
  · exact mono _ rfl rfl id
  split
  · split
    · exact mono _ rfl rfl id
    · exact mono _ rfl rfl id
  split
  · rename_i _ _ ho
    have := h3 ho.2
    refine ⟨?_, ?_, by simp, fun _ => trivial⟩
    · simp only; split <;> omega
    · simp only; left; split <;> omega
  split
  · rename_i _ _ _ ho
    have := h3 ho.2
    refine ⟨h1, ?_, ?_, fun _ => trivial⟩
    · simp only; left; split <;> split <;> omega
    · intro _; simp only; split <;> split <;> omega
  split
  · exact mono _ rfl rfl id
  split
  · exact mono _ rfl rfl id
  unfold measureCp
  split
  · rename_i hne
    simp only [if_pos hne] at *
    refine ⟨?_, ?_, ?_, fun _ => trivial⟩
    · simp only; split <;> omega
    · simp only; left; repeat' split
      all_goals omega
    · intro _; simp only; repeat' split
      all_goals omega
  rename_i hz
  rw [if_neg hz] at mono
  split
  · exact mono _ rfl rfl id
  split
  · rename_i ho
    have := h3 ho.2
    refine ⟨by simp, ?_, by simp, fun _ => trivial⟩
    simp only; left; omega
  · exact mono _ rfl rfl id

theorem push_bound {U : Table} (hw : ∀ c, (U c).charWidth ≤ 2) (s : Acc) (n : Nat) (c : Nat)
    (h : BoundInv U s n) :
    BoundInv U (push U s c) (n + if (U c).charWidth ≠ 0 then 1 else 0) :=
  push'_bound hw _ n c _ ⟨h.cur, h.tot, h.opn, h.vir⟩

theorem foldl_bound {U : Table} (hw : ∀ c, (U c).charWidth ≤ 2) (l : List Nat) (s : Acc) (n : Nat)
    (h : BoundInv U s n) : BoundInv U (l.foldl (push U) s) (n + visible U l) := by
  induction l generalizing s n with
  | nil => simpa [visible] using h
  | cons c l ih =>
    have := ih _ _ (push_bound hw s n c h)
    rw [List.foldl_cons]
    have e : n + visible U (c :: l) = (n + if (U c).charWidth ≠ 0 then 1 else 0) + visible U l := by
      simp only [visible, List.filter_cons]
      by_cases hc : (U c).charWidth = 0
      · simp [hc]
      · simp [hc]; omega
    rw [e]; exact this

theorem init_bound (U : Table) : BoundInv U {} 0 := ⟨by simp, by simp, by simp, fun _ => trivial⟩

theorem accWidth_bound {U : Table} (hw : ∀ c, (U c).charWidth ≤ 2) (l : List Nat) :
    accWidth U l ≤ 2 * visible U l := by
  have h := foldl_bound hw l {} 0 (init_bound U)
  rw [Nat.zero_add] at h
  unfold accWidth Acc.width
  have h1 := h.cur
  have h2 := h.tot
  split <;> omega

/-- **C20, upper bound.** A cluster is never wider than two columns per codepoint that takes room on its own; in
particular marks, selectors and joiners alone take none. -/
theorem C20_upper_bound {U : Table} (W : WidthOk U) (cl : List Nat) : clusterWidth U cl ≤ 2 * visible U cl := by
  unfold clusterWidth
  split
  · omega
  · rename_i c
    have := W.le_two c
    simp only [width1, visible, List.filter_cons]
    by_cases hc : (U c).charWidth = 0
    · simp [hc]
    · simp [hc]; omega
  · exact accWidth_bound W.le_two _

/-- The bound is attained: two Hangul leading consonants are four columns wide (width.h:81-83). -/
example : clusterWidth toy [0x1100, 0x1100] = 4 ∧ visible toy [0x1100, 0x1100] = 2 := by decide

/-! ## C20: the one-codepoint shortcut -/

/-- **C20, shortcut.** For a single codepoint the shortcut and the accumulator agree. -/
theorem C20_shortcut {U : Table} (W : WidthOk U) (c : Nat) : accWidth U [c] = clusterWidth U [c] := by
  simp only [accWidth, List.foldl_cons, List.foldl_nil, clusterWidth, width1, push, push']
  by_cases hz : c = 0x200D
  · subst hz; simp [Acc.width, W.zwj]
  · simp only [hz, Bool.false_eq_true, and_false, if_false, W.joins]
    rw [if_neg (by simp)]
    unfold measureCp
    by_cases hw : (U c).charWidth = 0
    · simp only [hw, ne_eq, not_true, if_false]
      split
      · rfl
      · split
        · rename_i h; simp at h
        · rfl
    · rw [if_pos hw]
      simp only [Acc.width, Bool.false_eq_true, if_false]
      have : (0 : Int) + ((U c).charWidth : Int) > 0 := by omega
      simp only [ne_eq, not_true, if_false, this, if_true]
      omega

/-- Hence the width of a non-empty cluster always is what the accumulator computes. -/
theorem clusterWidth_eq_acc {U : Table} (W : WidthOk U) (cl : List Nat) : clusterWidth U cl = accWidth U cl := by
  match cl with
  | [] => rfl
  | [c] => exact (C20_shortcut W c).symm
  | _ :: _ :: _ => rfl

/-! ## C20: growth -/

/-- One more codepoint never narrows the cluster (unless it is U+FE0E) … -/
theorem push'_mono {U : Table} (hw : ∀ c, (U c).charWidth ≤ 2) (s : Acc) (c before : Nat) (hc : c ≠ 0xFE0E)
    (h : 0 ≤ s.current ∧ s.current ≤ 2) :
    s.total + s.current ≤ (push' U c before s).total + (push' U c before s).current ∧
    (push' U c before s).total + (push' U c before s).current ≤ s.total + s.current + 2 := by
  have hwc := hw c
  unfold push'
  repeat' split
  all_goals try unfold measureCp
  all_goals repeat' split
  all_goals try simp only
  all_goals repeat' split
  all_goals omega

theorem push_mono {U : Table} (hw : ∀ c, (U c).charWidth ≤ 2) (s : Acc) (c : Nat) (hc : c ≠ 0xFE0E)
    (h : 0 ≤ s.current ∧ s.current ≤ 2) :
    s.total + s.current ≤ (push U s c).total + (push U s c).current ∧
    (push U s c).total + (push U s c).current ≤ s.total + s.current + 2 :=
  push'_mono hw { s with regionalIndicators := _ } c _ hc h

/-- **C20, monotone.** Appending a codepoint other than VS15 to a cluster never makes it narrower, and makes it at
most two columns wider. -/
theorem C20_monotone {U : Table} (W : WidthOk U) (cl : List Nat) (c : Nat) (hc : c ≠ 0xFE0E) :
    clusterWidth U cl ≤ clusterWidth U (cl ++ [c]) ∧ clusterWidth U (cl ++ [c]) ≤ clusterWidth U cl + 2 := by
  rw [clusterWidth_eq_acc W, clusterWidth_eq_acc W]
  have hb := (foldl_bound W.le_two cl {} 0 (init_bound U)).cur
  have := push_mono W.le_two (cl.foldl (push U) {}) c hc hb
  simp only [accWidth, List.foldl_append, List.foldl_cons, List.foldl_nil, Acc.width]
  split <;> split <;> omega

/-- The exception is real: VS15 narrows (repeatedly, as documented at width.cpp:95-98). -/
example : clusterWidth toy [0x231A] = 2 ∧ clusterWidth toy [0x231A, 0xFE0E] = 1 ∧
    clusterWidth toy [0x231A, 0xFE0E, 0xFE0E] = 0 ∧ clusterWidth toy [0x231A, 0xFE0E, 0xFE0E, 0xFE0E] = 0 := by
  decide

/-- **C20, combining marks take no room.** Appending a zero-width codepoint that is not a spacing mark, a joiner, a
regional indicator or a variation selector leaves the width unchanged. -/
theorem C20_mark_transparent {U : Table} (W : WidthOk U) (cl : List Nat) (c : Nat) (h0 : (U c).charWidth = 0)
    (hm : (U c).generalCategory ≠ .Spacing_Mark) (h1 : c ≠ 0xFE0E) (h2 : c ≠ 0xFE0F) :
    clusterWidth U (cl ++ [c]) = clusterWidth U cl := by
  rw [clusterWidth_eq_acc W, clusterWidth_eq_acc W]
  simp only [accWidth, List.foldl_append, List.foldl_cons, List.foldl_nil]
  generalize cl.foldl (push U) {} = s
  have : (push U s c).total = s.total ∧ (push U s c).current = s.current := by
    unfold push push' measureCp
    simp only [h1, h2, h0, hm]
    repeat' split
    all_goals simp_all
  simp [Acc.width, this]

example : clusterWidth toy [0x61, 0x301, 0x301] = 1 := by decide

/-! ## C20: documented shapes -/

theorem push_first {U : Table} (W : WidthOk U) (c : Nat) (hz : c ≠ 0x200D) (hw : (U c).charWidth ≠ 0) :
    push U {} c = { lastMeasured := c, lastMeasuredWidth := (U c).charWidth, lastMeasuredIsOpen := true,
                    total := 0, current := ((U c).charWidth : Int),
                    regionalIndicators := if (U c).gcb = .Regional_Indicator then 1 else 0 } := by
  simp [push, push', hz, W.joins, measureCp, hw]

theorem acc_width_nat (s : Acc) (n : Nat) (h : s.total + s.current = n) : s.width = n := by
  unfold Acc.width; split <;> omega

/-- VS16 widens a one-column variation base to two columns and leaves every other base alone. -/
theorem C20_vs16 {U : Table} (W : WidthOk U) (c : Nat) (hw : (U c).charWidth ≠ 0) :
    clusterWidth U [c, 0xFE0F] =
      if (U c).isEmojiVariationBase ∧ (U c).charWidth = 1 then 2 else (U c).charWidth := by
  have hz : c ≠ 0x200D := by rintro rfl; exact hw W.zwj
  rw [clusterWidth_eq_acc W]
  simp only [accWidth, List.foldl_cons, List.foldl_nil]
  rw [push_first W c hz hw]
  apply acc_width_nat
  simp only [push, push', Bool.false_eq_true, if_false, Nat.reduceEqDiff, true_and, if_true]
  split <;> simp

/-- VS15 narrows a two-column variation base to one column and leaves every other base alone. -/
theorem C20_vs15 {U : Table} (W : WidthOk U) (c : Nat) (hw : (U c).charWidth ≠ 0) :
    clusterWidth U [c, 0xFE0E] =
      if (U c).isEmojiVariationBase ∧ (U c).charWidth = 2 then 1 else (U c).charWidth := by
  have hz : c ≠ 0x200D := by rintro rfl; exact hw W.zwj
  rw [clusterWidth_eq_acc W]
  simp only [accWidth, List.foldl_cons, List.foldl_nil]
  rw [push_first W c hz hw]
  apply acc_width_nat
  simp only [push, push', Bool.false_eq_true, if_false, Nat.reduceEqDiff, false_and, true_and, if_true]
  split
  · rename_i h; simp only [h.2]; rfl
  · simp

example : clusterWidth toy [0x2764, 0xFE0F] = 2 ∧ clusterWidth toy [0x61, 0xFE0F] = 1 := by decide

/-- A skin tone modifier is absorbed by the emoji before it. -/
theorem C20_modifier {U : Table} (W : WidthOk U) (e m : Nat) (hw : (U e).charWidth ≠ 0)
    (he : (U e).isExtPict = true ∨ (U e).gcb = .Regional_Indicator) (hm : 0x1F3FB ≤ m ∧ m ≤ 0x1F3FF) (hr : (U m).gcb ≠ .Regional_Indicator) :
    clusterWidth U [e, m] = (U e).charWidth := by
  have he : joinsEmoji U e = true := by simpa [joinsEmoji] using he
  have hz : e ≠ 0x200D := by rintro rfl; exact hw W.zwj
  rw [clusterWidth_eq_acc W]
  simp only [accWidth, List.foldl_cons, List.foldl_nil]
  rw [push_first W e hz hw]
  apply acc_width_nat
  simp only [push, push', Bool.false_eq_true, if_false, he, hm, hr, and_self, if_true, false_and]
  rw [if_neg (by omega), if_neg (by omega), if_neg (by omega)]
  simp

example : clusterWidth toy [0x2764, 0x1F3FB] = 1 := by decide

/-- Behind anything else the modifier is drawn on its own. -/
theorem C20_modifier_alone {U : Table} (W : WidthOk U) (e m : Nat) (hw : (U e).charWidth ≠ 0)
    (he : (U e).isExtPict = false ∧ (U e).gcb ≠ .Regional_Indicator)
    (hm : 0x1F3FB ≤ m ∧ m ≤ 0x1F3FF) (hr : (U m).gcb ≠ .Regional_Indicator) (hmw : (U m).charWidth ≠ 0) :
    clusterWidth U [e, m] = (U e).charWidth + (U m).charWidth := by
  have he' : joinsEmoji U e = false := by simp [joinsEmoji, he.1, he.2]
  have hz : e ≠ 0x200D := by rintro rfl; exact hw W.zwj
  rw [clusterWidth_eq_acc W]
  simp only [accWidth, List.foldl_cons, List.foldl_nil]
  rw [push_first W e hz hw]
  apply acc_width_nat
  simp only [push, push', Bool.false_eq_true, if_false, he', hr, and_false, if_true, false_and]
  rw [if_neg (by omega), if_neg (by omega), if_neg (by omega)]
  simp [measureCp, hmw, hw]

example : clusterWidth toy [0x61, 0x1F3FB] = (toy 0x61).charWidth + (toy 0x1F3FB).charWidth ∧
    (toy 0x1F3FB).charWidth ≠ 0 := by decide

/-- Two regional indicators form one flag, as wide as its first half. -/
theorem C20_flag {U : Table} (W : WidthOk U) (a b : Nat) (ha : (U a).gcb = .Regional_Indicator)
    (hb : (U b).gcb = .Regional_Indicator) (hw : (U a).charWidth ≠ 0)
    (hbs : b ≠ 0x200D ∧ b ≠ 0xFE0E ∧ b ≠ 0xFE0F) :
    clusterWidth U [a, b] = (U a).charWidth := by
  have hz : a ≠ 0x200D := by rintro rfl; exact hw W.zwj
  rw [clusterWidth_eq_acc W]
  simp only [accWidth, List.foldl_cons, List.foldl_nil]
  rw [push_first W a hz hw]
  apply acc_width_nat
  simp [push, push', ha, hb, hbs]

/-- An emoji ZWJ sequence of any length is as wide as its first segment: every ZWJ swallows the codepoint behind
it. -/
theorem C20_zwj_sequence {U : Table} (W : WidthOk U) (e : Nat) (hw : (U e).charWidth ≠ 0) (es : List Nat) :
    clusterWidth U (e :: es.flatMap fun x => [0x200D, x]) = (U e).charWidth := by
  have hz : e ≠ 0x200D := by rintro rfl; exact hw W.zwj
  rw [clusterWidth_eq_acc W]
  simp only [accWidth, List.foldl_cons]
  rw [push_first W e hz hw]
  have key : ∀ (es : List Nat) (s : Acc), s.skipNext = false → s.previousWasVirama = false →
      ((es.flatMap fun x => [0x200D, x]).foldl (push U) s).total = s.total ∧
      ((es.flatMap fun x => [0x200D, x]).foldl (push U) s).current = s.current := by
    intro es
    induction es with
    | nil => intros; exact ⟨rfl, rfl⟩
    | cons x es ih =>
      intro s h1 h2
      simp only [List.flatMap_cons, List.cons_append, List.nil_append, List.foldl_cons]
      have := ih (push U (push U s 0x200D) x) (by simp [push, push', h1, h2]) (by simp [push, push', h1, h2])
      rw [this.1, this.2]
      simp [push, push', h1, h2]
  apply acc_width_nat
  obtain ⟨h1, h2⟩ := key es (Acc.mk e (U e).charWidth true 0 ((U e).charWidth : Int) false false
    (if (U e).gcb = .Regional_Indicator then 1 else 0)) rfl rfl
  rw [h1, h2]; simp

example : clusterWidth toy [0x1F600, 0x200D, 0x2764, 0x200D, 0x1F600] = 2 := by decide

/-- A conjunct: consonants stacked with viramas, `b v₁ c₁ v₂ c₂ …`, each virama optionally followed by a ZWJ that
requests the joined form; every element of the list is one virama, whether the joiner follows, and the consonant. -/
def conjunct (b : Nat) (l : List (Nat × Bool × Nat)) : List Nat :=
  b :: l.flatMap fun x => x.1 :: ((if x.2.1 then [0x200D] else []) ++ [x.2.2])

/-- A virama as the width code sees it. -/
structure Virama (U : Table) (v : Nat) : Prop where
  vir : (U v).isVirama = true
  zero : (U v).charWidth = 0
  zwj : v ≠ 0x200D
  vs15 : v ≠ 0xFE0E
  vs16 : v ≠ 0xFE0F
  ri : (U v).gcb ≠ .Regional_Indicator
  skin : ¬ (0x1F3FB ≤ v ∧ v ≤ 0x1F3FF)

/-- A codepoint with a width of its own that is no emoji component. -/
structure Letter (U : Table) (c : Nat) : Prop where
  wide : (U c).charWidth ≠ 0
  vs15 : c ≠ 0xFE0E
  vs16 : c ≠ 0xFE0F
  ri : (U c).gcb ≠ .Regional_Indicator
  skin : ¬ (0x1F3FB ≤ c ∧ c ≤ 0x1F3FF)

theorem push_virama {U : Table} {v : Nat} (V : Virama U v) (s : Acc) (hs : s.skipNext = false) :
    push U s v = { s with regionalIndicators := 0, previousWasVirama := true } := by
  obtain ⟨h1, h2, h3, h4, h5, h6, h7⟩ := V
  have h7' : ∀ q : Prop, ¬ (0x1F3FB ≤ v ∧ v ≤ 0x1F3FF ∧ q) := fun q h => h7 ⟨h.1, h.2.1⟩
  simp [push, push', hs, h3, h4, h5, h6, h7', measureCp, h2, h1]

theorem push_letter {U : Table} (W : WidthOk U) {c : Nat} (L : Letter U c) (s : Acc) (hs : s.skipNext = false) :
    push U s c = { s with
      regionalIndicators := 0
      total := if s.previousWasVirama then s.total else if s.current ≠ 0 then s.total + s.current else s.total
      current := if s.previousWasVirama then 2 else ((U c).charWidth : Int)
      lastMeasured := c, lastMeasuredWidth := (U c).charWidth, lastMeasuredIsOpen := true
      previousWasVirama := false } := by
  obtain ⟨h1, h4, h5, h6, h7⟩ := L
  have hz : c ≠ 0x200D := by rintro rfl; exact h1 W.zwj
  have h7' : ∀ q : Prop, ¬ (0x1F3FB ≤ c ∧ c ≤ 0x1F3FF ∧ q) := fun q h => h7 ⟨h.1, h.2.1⟩
  simp [push, push', hs, hz, h4, h5, h6, h7', measureCp, h1]

/-- **C20, conjuncts.** A consonant stacked with any positive number of further consonants through viramas — with or
without a ZWJ behind the viramas — takes exactly two columns, however long the stack. -/
theorem C20_conjunct {U : Table} (W : WidthOk U) (b : Nat) (hb : Letter U b) (l : List (Nat × Bool × Nat))
    (hne : l ≠ []) (hl : ∀ x ∈ l, Virama U x.1 ∧ Letter U x.2.2) : clusterWidth U (conjunct b l) = 2 := by
  rw [clusterWidth_eq_acc W]
  have key : ∀ (l : List (Nat × Bool × Nat)) (s : Acc), s.skipNext = false → s.total = 0 →
      (∀ x ∈ l, Virama U x.1 ∧ Letter U x.2.2) →
      ((l.flatMap fun x => x.1 :: ((if x.2.1 then [0x200D] else []) ++ [x.2.2])).foldl (push U) s).total = 0 ∧
      ((l.flatMap fun x => x.1 :: ((if x.2.1 then [0x200D] else []) ++ [x.2.2])).foldl (push U) s).current =
        if l = [] then s.current else 2 := by
    intro l
    induction l with
    | nil => intro s _ h _; exact ⟨h, rfl⟩
    | cons x l ih =>
      intro s h1 h2 h3
      obtain ⟨v, j, d⟩ := x
      obtain ⟨hv, hd⟩ := h3 (v, j, d) (by simp)
      simp only [List.flatMap_cons, List.cons_append, List.foldl_cons, List.foldl_append, List.foldl_nil]
      rw [push_virama hv s h1]
      have hj : (if j = true then [0x200D] else []).foldl (push U)
          { s with regionalIndicators := 0, previousWasVirama := true } =
          { s with previousWasVirama := true, regionalIndicators := if j ∧ (U 0x200D).gcb = .Regional_Indicator then 1 else 0 } := by
        cases j
        · simp
        · simp [push, push', h1]
      rw [hj, push_letter W (c := d) hd _ (show Acc.skipNext { s with previousWasVirama := true, regionalIndicators := if j ∧ (U 0x200D).gcb = .Regional_Indicator then 1 else 0 } = false from h1)]
      have h3' := fun x hx => h3 x (List.mem_cons_of_mem _ hx)
      refine ⟨(ih _ ?_ ?_ h3').1, (ih _ ?_ ?_ h3').2.trans ?_⟩
      all_goals simp [h1, h2]
  apply acc_width_nat
  have hz : b ≠ 0x200D := by rintro rfl; exact hb.wide W.zwj
  simp only [conjunct, List.foldl_cons]
  rw [push_first W b hz hb.wide]
  obtain ⟨g1, g2⟩ := key l (Acc.mk b (U b).charWidth true 0 ((U b).charWidth : Int) false false
    (if (U b).gcb = .Regional_Indicator then 1 else 0)) rfl rfl hl
  rw [g1, g2, if_neg hne]; rfl

/-- **C20, spacing marks.** A zero-width spacing mark behind its base makes the cluster two columns wide, once: any
number of further zero-width marks adds nothing. -/
theorem C20_spacing_mark {U : Table} (W : WidthOk U) (b m : Nat) (hb : Letter U b) (h0 : (U m).charWidth = 0)
    (hm : (U m).generalCategory = .Spacing_Mark) (hv : (U m).isVirama = false) (hz : m ≠ 0x200D)
    (h15 : m ≠ 0xFE0E) (h16 : m ≠ 0xFE0F) (hr : (U m).gcb ≠ .Regional_Indicator) (hs : ¬ (0x1F3FB ≤ m ∧ m ≤ 0x1F3FF))
    (ms : List Nat) (hms : ∀ x ∈ ms, (U x).charWidth = 0) :
    clusterWidth U (b :: m :: ms) = 2 := by
  rw [clusterWidth_eq_acc W]
  have hbz : b ≠ 0x200D := by rintro rfl; exact hb.wide W.zwj
  simp only [accWidth, List.foldl_cons]
  rw [push_first W b hbz hb.wide]
  have h7' : ∀ q : Prop, ¬ (0x1F3FB ≤ m ∧ m ≤ 0x1F3FF ∧ q) := fun q h => hs ⟨h.1, h.2.1⟩
  have key : ∀ (ms : List Nat) (s : Acc), s.lastMeasuredIsOpen = false → s.total + s.current = 2 →
      (∀ x ∈ ms, (U x).charWidth = 0) →
      (ms.foldl (push U) s).total + (ms.foldl (push U) s).current = 2 := by
    intro ms
    induction ms with
    | nil => intro s _ h _; exact h
    | cons x ms ih =>
      intro s h1 h2 h3
      simp only [List.foldl_cons]
      have hx := h3 x (by simp)
      have : (push U s x).lastMeasuredIsOpen = false ∧ (push U s x).total + (push U s x).current = 2 := by
        unfold push push' measureCp
        simp only [hx, h1, ne_eq, not_true_eq_false, if_false, Bool.false_eq_true, and_false]
        repeat' split
        all_goals first | exact ⟨h1, h2⟩ | exact ⟨rfl, h2⟩
      exact ih _ this.1 this.2 (fun y hy => h3 y (by simp [hy]))
  apply acc_width_nat
  refine key ms _ ?_ ?_ hms
  · simp [push, push', hz, h15, h16, hr, h7', measureCp, h0, hm, hv]
  · simp [push, push', hz, h15, h16, hr, h7', measureCp, h0, hm, hv]

/-- Letters side by side, joined by nothing, take their own widths: a word is as wide as the sum. -/
theorem C20_letters_add {U : Table} (W : WidthOk U) (l : List Nat) (hl : ∀ c ∈ l, Letter U c) :
    clusterWidth U l = (l.map fun c => (U c).charWidth).sum := by
  rw [clusterWidth_eq_acc W]
  have key : ∀ (l : List Nat) (s : Acc), s.skipNext = false → s.previousWasVirama = false →
      (∀ c ∈ l, Letter U c) →
      (l.foldl (push U) s).total + (l.foldl (push U) s).current =
        s.total + s.current + ((l.map fun c => (U c).charWidth).sum : Nat) := by
    intro l
    induction l with
    | nil => intro s _ _ _; simp
    | cons c l ih =>
      intro s h1 h2 h3
      simp only [List.foldl_cons]
      rw [push_letter W (h3 c (by simp)) s h1]
      rw [ih _ (by simp [h1]) (by simp) (fun y hy => h3 y (by simp [hy]))]
      simp [h2]
      split <;> omega
  apply acc_width_nat
  rw [key l {} rfl rfl hl]; simp

/-- Devanagari क्ष, with and without the joiner, का, and a plain word. -/
example : (∃ v c d, Virama toy v ∧ Letter toy c ∧ Letter toy d ∧ clusterWidth toy [c, v, d] = 2 ∧
    clusterWidth toy [c, v, 0x200D, d] = 2) ∧ clusterWidth toy [0x61, 0x62] = 2 := by
  refine ⟨⟨0x94D, 0x915, 0x937, ⟨?_, ?_, ?_, ?_, ?_, ?_, ?_⟩, ⟨?_, ?_, ?_, ?_, ?_⟩, ⟨?_, ?_, ?_, ?_, ?_⟩, ?_, ?_⟩, ?_⟩ <;> decide

/-! ## C21 -/

theorem widthLoop_eq (U : Table) (fuel : Nat) (text : List Nat) (acc : Nat) :
    widthLoop U fuel text acc = acc + ((clustersLoop U fuel text).map (clusterWidth U)).sum := by
  induction fuel generalizing text acc with
  | zero => rfl
  | succ n ih =>
    cases text with
    | nil => rfl
    | cons c cs =>
      simp only [widthLoop, clustersLoop, List.map_cons, List.sum_cons]
      rw [ih]; omega

/-- **C21, arbitrary bytes.** The width of a UTF-8 text is the sum of the widths of the clusters of the decoded
text. -/
theorem C21_sum_any (U : Table) (k : Nat) (bytes : List Nat) :
    textWidth U k bytes = ((clusters U (Convert.fromUtf8Str k bytes)).map (clusterWidth U)).sum := by
  unfold textWidth
  simp only
  cases h : Convert.fromUtf8Str k bytes with
  | nil => rfl
  | cons c cs =>
    rw [if_neg (by simp), widthLoop_eq]
    simp only [clusters, List.length_cons, clustersLoop, List.map_cons, List.sum_cons]
    have hl := congrArg List.length (advance_append U (c :: cs))
    simp only [advance, List.cons_append, List.length_cons, List.length_append] at hl
    have h1 := C15_terminates U (advance U (c :: cs)).2 cs.length (by simp only [advance]; omega)
    rw [h1]
    simp only [clusters]; omega

/-- **C21.** … in particular for the UTF-8 form of any text, on every CPU. -/
theorem C21_sum (U : Table) (k : Nat) (cs : List Nat) (hc : ∀ c ∈ cs, c ≤ 0x1FFFFF) :
    textWidth U k (Utf8.toUtf8Str cs) = ((clusters U cs).map (clusterWidth U)).sum := by
  rw [C21_sum_any, C02_utf8_string_roundtrip k cs hc]

theorem extendCluster_prefix (U : Table) (s : GState) (x l' b : List Nat)
    (h : (extendCluster U s (x ++ l' ++ b)).1 = x) :
    extendCluster U s (x ++ l') = (x, l') := by
  induction x generalizing s with
  | nil =>
    cases l' with
    | nil => rfl
    | cons y l' =>
      simp only [List.nil_append, List.cons_append, extendCluster] at h ⊢
      cases hv : processBreakable U y s with
      | mk s' v =>
        rw [hv] at h
        cases v with
        | true => rfl
        | false => simp at h
  | cons c x ih =>
    simp only [List.cons_append, extendCluster] at h ⊢
    cases hv : processBreakable U c s with
    | mk s' v =>
      rw [hv] at h
      cases v with
      | true => simp at h
      | false =>
        simp only [List.cons.injEq, true_and] at h
        simp only [ih s' h]

/-- **C15, restart.** Cutting a text at a cluster border and segmenting both parts separately gives the same
clusters. -/
theorem C15_restart (U : Table) (a b : List Nat) (h : SegBoundary (clusters U (a ++ b)) a) :
    clusters U (a ++ b) = clusters U a ++ clusters U b := by
  suffices ∀ n (a : List Nat), a.length ≤ n → SegBoundary (clusters U (a ++ b)) a →
      clusters U (a ++ b) = clusters U a ++ clusters U b from this _ a (Nat.le_refl _) h
  intro n
  induction n with
  | zero =>
    intro a ha _
    have : a = [] := List.length_eq_zero_iff.1 (by omega)
    subst this; rfl
  | succ n ih =>
    intro a ha h
    cases a with
    | nil => rfl
    | cons c a =>
      have step : ∀ cs : List Nat, clusters U (c :: cs) = (c :: (extendCluster U (processInit U c) cs).1) ::
          clusters U (extendCluster U (processInit U c) cs).2 := by
        intro cs
        have hl := congrArg List.length (extendCluster_append U (processInit U c) cs)
        simp only [List.length_append] at hl
        rw [clusters, List.length_cons, clustersLoop]
        simp only [advance]
        rw [C15_terminates U _ cs.length (by omega)]
      rw [List.cons_append, step] at h ⊢
      rw [segBoundary_cons _ _ _ (by simp)] at h
      obtain ⟨l', h1, h2⟩ := h
      simp only [List.cons_append, List.cons.injEq, true_and] at h1
      have happ := extendCluster_append U (processInit U c) (a ++ b)
      generalize hx : (extendCluster U (processInit U c) (a ++ b)).1 = x at *
      have hr : (extendCluster U (processInit U c) (a ++ b)).2 = l' ++ b := by
        have : x ++ (extendCluster U (processInit U c) (a ++ b)).2 = x ++ (l' ++ b) := by
          rw [happ, h1, List.append_assoc]
        exact List.append_cancel_left this
      rw [hr] at h2 ⊢
      subst h1
      have := extendCluster_prefix U (processInit U c) x l' b hx
      rw [step, this]
      simp only [List.cons_append]
      rw [ih l' (by simp at ha; omega) h2]

/-- **C21, additivity.** The width of a text is the sum of the widths of its two halves at every cluster border. -/
theorem C21_additive (U : Table) (k : Nat) (a b : List Nat) (ha : ∀ c ∈ a, c ≤ 0x1FFFFF)
    (hb : ∀ c ∈ b, c ≤ 0x1FFFFF) (h : SegBoundary (clusters U (a ++ b)) a) :
    textWidth U k (Utf8.toUtf8Str (a ++ b)) =
      textWidth U k (Utf8.toUtf8Str a) + textWidth U k (Utf8.toUtf8Str b) := by
  rw [C21_sum U k _ (by intro c hc; rcases List.mem_append.1 hc with h | h; exacts [ha c h, hb c h]),
    C21_sum U k _ ha, C21_sum U k _ hb, C15_restart U a b h]
  simp

example : textWidth toy 256 (Utf8.toUtf8Str [0x1F600, 0x200D, 0x1F600, 0x61, 0x301, 0x1100]) = 5 := by decide

end Verif.Props
