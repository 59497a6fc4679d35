import Verif.Model.Word
import Verif.Spec.Word
import Verif.Spec.Segments
import Mathlib.Data.List.Induction

/-! Helper lemmas for the word segmenter. -/

namespace Verif.Word
open Verif.Ucd Verif.Spec Verif.Spec.WBR

variable {U : Table}

theorem isAHLetter_iff (w : WB) : isAHLetter w = true ↔ AHLetter w := by
  cases w <;> simp [isAHLetter, AHLetter]
theorem isMidLetterLike_iff (w : WB) : isMidLetterLike w = true ↔ (w = .MidLetter ∨ MidNumLetQ w) := by
  cases w <;> simp [isMidLetterLike, isMidNumLetQ, MidNumLetQ]
theorem isMidNumLike_iff (w : WB) : isMidNumLike w = true ↔ (w = .MidNum ∨ MidNumLetQ w) := by
  cases w <;> simp [isMidNumLike, isMidNumLetQ, MidNumLetQ]
theorem isTransparent_iff (w : WB) : isTransparent w = true ↔ Transparent w := by
  cases w <;> simp [isTransparent, Transparent]
theorem isNewlineClass_iff (w : WB) : isNewlineClass w = true ↔ Newline w := by
  cases w <;> simp [isNewlineClass, Newline]

theorem peekNext_any (post : List Nat) (f : WB → Bool) (P : WB → Prop) (hf : ∀ w, f w = true ↔ P w) :
    (peekNext U post).any f = true ↔ Next (post.map fun c => (U c).wb) P := by
  induction post with
  | nil => simp [peekNext, Next]
  | cons c cs ih =>
    simp only [peekNext]
    by_cases ht : Transparent (U c).wb
    · have ht' := (isTransparent_iff _).2 ht
      simp only [ht', Bool.not_true, Bool.false_eq_true, if_false]
      rw [ih]
      constructor
      · rintro ⟨ts, x, r, h1, h2, h3, h4⟩
        refine ⟨(U c).wb :: ts, x, r, by simp [h1], ?_, h3, h4⟩
        intro t h
        rcases List.mem_cons.1 h with rfl | h
        · exact ht
        · exact h2 t h
      · rintro ⟨ts, x, r, h1, h2, h3, h4⟩
        cases ts with
        | nil =>
          simp at h1
          exact absurd (h1.1 ▸ ht) h3
        | cons t ts =>
          simp at h1
          exact ⟨ts, x, r, h1.2, fun t h => h2 t (by simp [h]), h3, h4⟩
    · have ht' : isTransparent (U c).wb = false := by
        rw [← Bool.not_eq_true, isTransparent_iff]; exact ht
      simp only [ht', Bool.not_false, if_true, Option.any_some]
      rw [hf]
      constructor
      · intro h; exact ⟨[], _, _, rfl, by simp, ht, h⟩
      · rintro ⟨ts, x, r, h1, h2, h3, h4⟩
        cases ts with
        | nil => simp at h1; rw [h1.1]; exact h4
        | cons t ts =>
          simp at h1
          exact absurd (h1.1 ▸ h2 t (by simp)) ht

theorem next_cons_transparent (c : Nat) (cs : List Nat) (P : WB → Prop) (ht : Transparent (U c).wb)
    (h : Next (cs.map fun c => (U c).wb) P) : Next ((c :: cs).map fun c => (U c).wb) P := by
  obtain ⟨ts, x, r, h1, h2, h3, h4⟩ := h
  refine ⟨(U c).wb :: ts, x, r, by simp [h1], ?_, h3, h4⟩
  intro t h
  rcases List.mem_cons.1 h with rfl | h
  · exact ht
  · exact h2 t h

theorem next_cons_opaque (c : Nat) (cs : List Nat) (P : WB → Prop) (ht : ¬ Transparent (U c).wb)
    (h : P (U c).wb) : Next ((c :: cs).map fun c => (U c).wb) P :=
  ⟨[], _, _, rfl, by simp, ht, h⟩

/-! ### End-of-list patterns -/

theorem ends1_snoc (q : List WB) (x : WB) (P : WB → Prop) : Ends1 (q ++ [x]) P ↔ P x := by
  constructor
  · rintro ⟨p, y, h, hy⟩
    have := List.append_inj' h rfl
    simp at this
    rw [this.2]; exact hy
  · intro h; exact ⟨q, x, rfl, h⟩

theorem ends2_snoc (q : List WB) (x : WB) (P Q : WB → Prop) :
    Ends2 (q ++ [x]) P Q ↔ (∃ q' y, q = q' ++ [y] ∧ P y) ∧ Q x := by
  constructor
  · rintro ⟨p, y, z, h, hy, hz⟩
    have h' : q ++ [x] = (p ++ [y]) ++ [z] := by rw [h]; simp
    have := List.append_inj' h' rfl
    simp at this
    exact ⟨⟨p, y, this.1, hy⟩, this.2 ▸ hz⟩
  · rintro ⟨⟨q', y, h1, h2⟩, h3⟩
    exact ⟨q', y, x, by rw [h1]; simp, h2, h3⟩

/-- length of the trailing run of regional indicators -/
def trailW (R : List WB) : Nat := (R.reverse.takeWhile (· == .Regional_Indicator)).length

theorem trailW_snoc (R : List WB) (b : WB) :
    trailW (R ++ [b]) = if b = .Regional_Indicator then trailW R + 1 else 0 := by
  simp only [trailW, List.reverse_append, List.reverse_cons, List.reverse_nil, List.nil_append,
    List.cons_append, List.takeWhile_cons]
  by_cases h : b = .Regional_Indicator <;> simp [h]

theorem trailW_run (p ris : List WB) (h2 : ∀ x ∈ ris, x = .Regional_Indicator)
    (h4 : ∀ q y, p = q ++ [y] → y ≠ .Regional_Indicator) : trailW (p ++ ris) = ris.length := by
  induction ris using List.reverseRecOn with
  | nil =>
    cases p using List.reverseRecOn with
    | nil => rfl
    | append_singleton q y => simp [trailW_snoc, h4 q y rfl]
  | append_singleton ris x ih =>
    rw [← List.append_assoc, trailW_snoc, if_pos (h2 x (by simp)), ih (fun x hx => h2 x (by simp [hx]))]
    simp

theorem trailW_odd (R : List WB) : trailW R % 2 = 1 ↔ ∃ p ris, R = p ++ ris ∧
    (∀ x ∈ ris, x = .Regional_Indicator) ∧ ris.length % 2 = 1 ∧
    ∀ q y, p = q ++ [y] → y ≠ .Regional_Indicator := by
  constructor
  · intro h
    refine ⟨(R.reverse.dropWhile (· == .Regional_Indicator)).reverse,
      (R.reverse.takeWhile (· == .Regional_Indicator)).reverse, ?_, ?_, ?_, ?_⟩
    · rw [← List.reverse_append, List.takeWhile_append_dropWhile, List.reverse_reverse]
    · intro x hx
      have := List.all_eq_true.1 (List.all_takeWhile (p := (· == WB.Regional_Indicator)) (l := R.reverse)) x
        (List.mem_reverse.1 hx)
      simpa using this
    · simpa [trailW] using h
    · intro q y hq
      have hq' : R.reverse.dropWhile (· == .Regional_Indicator) = y :: q.reverse := by
        have := congrArg List.reverse hq
        simpa using this
      have := List.head?_dropWhile_not (· == WB.Regional_Indicator) R.reverse
      rw [hq'] at this
      simpa using this
  · rintro ⟨p, ris, rfl, h2, h3, h4⟩
    rw [trailW_run p ris h2 h4]; exact h3

/-! ### The invariant -/

/-- A class as the state stores it: transparent classes are stored as `Other`. -/
def norm (w : WB) : WB := if isTransparent w then .Other else w

/-- What `prev_prev_wb` says about the class before the last one: it is either right, or `Other` and then the
last two classes cannot be the start of a three-part rule. -/
def PPok (pp : WB) (q : List WB) (x : WB) (rest : List WB) : Prop :=
  (∃ q' y, q = q' ++ [y] ∧ pp = norm y) ∨
  (pp = .Other ∧ ∀ q' y, q = q' ++ [y] →
    ¬ (AHLetter y ∧ (x = .MidLetter ∨ MidNumLetQ x) ∧ Next rest AHLetter) ∧
    ¬ (y = .Hebrew_Letter ∧ x = .Double_Quote ∧ Next rest (· = .Hebrew_Letter)) ∧
    ¬ (y = .Numeric ∧ (x = .MidNum ∨ MidNumLetQ x) ∧ Next rest (· = .Numeric)))

/-- What the state says after reading `p ++ [a]`, of which WB4 leaves `q ++ [x]`, when `rest` is still to come. -/
structure Inv (U : Table) (s : WState) (p : List Nat) (a : Nat) (q : List WB) (x : WB) (rest : List Nat) : Prop where
  red : reduce ((p ++ [a]).map fun c => (U c).wb) = q ++ [x]
  raw : s.rawPrev = (U a).wb
  last : x = (U a).wb ∨ (Transparent (U a).wb ∧ ¬ Newline x)
  prev : s.prev = norm x
  pp : PPok s.prevPrev q x (rest.map fun c => (U c).wb)
  ri : s.riCounter % 2 = trailW (q ++ [x]) % 2
  sawT : s.sawTransparent = true → Transparent (U a).wb
  sawF : s.sawTransparent = false → x = (U a).wb

theorem norm_eq (x k : WB) (hk : k ≠ .Other) (ht : isTransparent k = false) : norm x = k ↔ x = k := by
  cases x <;> cases k <;> simp_all [norm, isTransparent]

theorem norm_AH (x : WB) : isAHLetter (norm x) = true ↔ AHLetter x := by
  cases x <;> simp [norm, isTransparent, isAHLetter, AHLetter]
theorem norm_ML (x : WB) : isMidLetterLike (norm x) = true ↔ (x = .MidLetter ∨ MidNumLetQ x) := by
  cases x <;> simp [norm, isTransparent, isMidLetterLike, isMidNumLetQ, MidNumLetQ]
theorem norm_MN (x : WB) : isMidNumLike (norm x) = true ↔ (x = .MidNum ∨ MidNumLetQ x) := by
  cases x <;> simp [norm, isTransparent, isMidNumLike, isMidNumLetQ, MidNumLetQ]

theorem norm_AH' (x : WB) : AHLetter (norm x) ↔ AHLetter x := by
  cases x <;> simp [norm, isTransparent, AHLetter]
theorem norm_MQ (x : WB) : MidNumLetQ (norm x) ↔ MidNumLetQ x := by
  cases x <;> simp [norm, isTransparent, MidNumLetQ]

/-- the three-part rules -/
theorem pp_rule {pp : WB} {q : List WB} {x : WB} {c : Nat} {rest : List Nat}
    (h : PPok pp q x ((c :: rest).map fun c => (U c).wb)) (hc : ¬ Transparent (U c).wb) :
    ((x = .MidLetter ∨ MidNumLetQ x) ∧ AHLetter (U c).wb →
      (isAHLetter pp = true ↔ ∃ q' y, q = q' ++ [y] ∧ AHLetter y)) ∧
    (x = .Double_Quote ∧ (U c).wb = .Hebrew_Letter →
      (pp = .Hebrew_Letter ↔ ∃ q' y, q = q' ++ [y] ∧ y = .Hebrew_Letter)) ∧
    ((x = .MidNum ∨ MidNumLetQ x) ∧ (U c).wb = .Numeric →
      (pp = .Numeric ↔ ∃ q' y, q = q' ++ [y] ∧ y = .Numeric)) := by
  rcases h with ⟨q', y, h1, h2⟩ | ⟨h1, h2⟩
  · subst h2
    have uniq : ∀ P : WB → Prop, (∃ q' y, q = q' ++ [y] ∧ P y) ↔ P y := by
      intro P
      rw [h1]
      exact ends1_snoc q' y P
    rw [uniq, uniq, uniq]
    exact ⟨fun _ => norm_AH y, fun _ => norm_eq y _ (by decide) (by decide),
      fun _ => norm_eq y _ (by decide) (by decide)⟩
  · subst h1
    refine ⟨?_, ?_, ?_⟩
    · rintro ⟨h3, h4⟩
      simp only [isAHLetter, reduceCtorEq, decide_false, Bool.or_self, Bool.false_eq_true, false_iff]
      rintro ⟨q', y, h5, h6⟩
      exact (h2 q' y h5).1 ⟨h6, h3, next_cons_opaque c rest _ hc h4⟩
    · rintro ⟨h3, h4⟩
      simp only [reduceCtorEq, false_iff]
      rintro ⟨q', y, h5, h6⟩
      exact (h2 q' y h5).2.1 ⟨h6, h3, next_cons_opaque c rest _ hc h4⟩
    · rintro ⟨h3, h4⟩
      simp only [reduceCtorEq, false_iff]
      rintro ⟨q', y, h5, h6⟩
      exact (h2 q' y h5).2.2 ⟨h6, h3, next_cons_opaque c rest _ hc h4⟩

theorem joins_iff (s : WState) (p : List Nat) (a b : Nat) (q : List WB) (x : WB) (rest : List Nat)
    (h : Inv U s p a q x (b :: rest)) (hb : ¬ Transparent (U b).wb) :
    joins s (U b).wb (peekNext U rest) = true ↔
      (((U a).wb = .WSegSpace ∧ (U b).wb = .WSegSpace) ∨
        Join (q ++ [x]) (U b).wb (rest.map fun c => (U c).wb)) := by
  obtain ⟨p1, p2, p3⟩ := pp_rule h.pp hb
  have n1 := peekNext_any (U := U) rest isAHLetter AHLetter isAHLetter_iff
  have n2 := peekNext_any (U := U) rest (fun w => decide (w = .Hebrew_Letter)) (· = .Hebrew_Letter) (by simp)
  have n3 := peekNext_any (U := U) rest (fun w => decide (w = .Numeric)) (· = .Numeric) (by simp)
  have w3d : (norm x = .WSegSpace ∧ (U b).wb = .WSegSpace ∧ s.sawTransparent = false) ↔
      ((U a).wb = .WSegSpace ∧ (U b).wb = .WSegSpace) := by
    rw [norm_eq x .WSegSpace (by decide) (by decide)]
    constructor
    · rintro ⟨h1, h2, h3⟩
      exact ⟨h.sawF h3 ▸ h1, h2⟩
    · rintro ⟨h1, h2⟩
      have hs : s.sawTransparent = false := by
        cases hs : s.sawTransparent with
        | false => rfl
        | true => have := h.sawT hs; rw [h1] at this; exact absurd this (by decide)
      exact ⟨(h.sawF hs).trans h1, h2, hs⟩
  have hri := h.ri
  unfold joins Join
  simp only [Bool.or_eq_true, Bool.and_eq_true, decide_eq_true_eq, Bool.not_eq_true', beq_iff_eq, h.prev,
    n1, n2, n3, isAHLetter_iff, isMidLetterLike_iff, isMidNumLike_iff, norm_AH', norm_MQ, norm_eq x .MidLetter (by decide) (by decide),
    norm_eq x .MidNum (by decide) (by decide),
    ends1_snoc, ends2_snoc,
    norm_eq x .Hebrew_Letter (by decide) (by decide), norm_eq x .Double_Quote (by decide) (by decide),
    norm_eq x .Numeric (by decide) (by decide), norm_eq x .Katakana (by decide) (by decide),
    norm_eq x .ExtendNumLet (by decide) (by decide), norm_eq x .Regional_Indicator (by decide) (by decide),
    ← trailW_odd, ← hri]
  have w3d' : (norm x = .WSegSpace ∧ (U b).wb = .WSegSpace) ∧ s.sawTransparent = false ↔
      ((U a).wb = .WSegSpace ∧ (U b).wb = .WSegSpace) := by rw [and_assoc]; exact w3d
  have w7 : (((x = .MidLetter ∨ MidNumLetQ x) ∧ AHLetter (U b).wb) ∧ AHLetter s.prevPrev) ↔
      (((∃ q' y, q = q' ++ [y] ∧ AHLetter y) ∧ (x = .MidLetter ∨ MidNumLetQ x)) ∧ AHLetter (U b).wb) := by
    constructor
    · rintro ⟨h1, h2⟩; exact ⟨⟨(p1 h1).1 ((isAHLetter_iff _).2 h2), h1.1⟩, h1.2⟩
    · rintro ⟨⟨h1, h2⟩, h3⟩; exact ⟨⟨h2, h3⟩, (isAHLetter_iff _).1 ((p1 ⟨h2, h3⟩).2 h1)⟩
  have w7c : ((x = .Double_Quote ∧ (U b).wb = .Hebrew_Letter) ∧ s.prevPrev = .Hebrew_Letter) ↔
      (((∃ q' y, q = q' ++ [y] ∧ y = WB.Hebrew_Letter) ∧ x = .Double_Quote) ∧ (U b).wb = .Hebrew_Letter) := by
    constructor
    · rintro ⟨h1, h2⟩; exact ⟨⟨(p2 h1).1 h2, h1.1⟩, h1.2⟩
    · rintro ⟨⟨h1, h2⟩, h3⟩; exact ⟨⟨h2, h3⟩, (p2 ⟨h2, h3⟩).2 h1⟩
  have w11 : (((x = .MidNum ∨ MidNumLetQ x) ∧ (U b).wb = .Numeric) ∧ s.prevPrev = .Numeric) ↔
      (((∃ q' y, q = q' ++ [y] ∧ y = WB.Numeric) ∧ (x = .MidNum ∨ MidNumLetQ x)) ∧ (U b).wb = .Numeric) := by
    constructor
    · rintro ⟨h1, h2⟩; exact ⟨⟨(p3 h1).1 h2, h1.1⟩, h1.2⟩
    · rintro ⟨⟨h1, h2⟩, h3⟩; exact ⟨⟨h2, h3⟩, (p3 ⟨h2, h3⟩).2 h1⟩
  have w15 : ((x = .Regional_Indicator ∧ (U b).wb = .Regional_Indicator) ∧ s.riCounter % 2 = 1) ↔
      ((U b).wb = .Regional_Indicator ∧ s.riCounter % 2 = 1) := by
    constructor
    · rintro ⟨⟨h1, h2⟩, h3⟩; exact ⟨h2, h3⟩
    · rintro ⟨h1, h2⟩
      refine ⟨⟨?_, h1⟩, h2⟩
      rw [hri, trailW_snoc] at h2
      by_cases hx : x = .Regional_Indicator
      · exact hx
      · simp [hx] at h2
  have w13a : ((U b).wb = .ExtendNumLet ∧ (((AHLetter x ∨ x = .Numeric) ∨ x = .Katakana) ∨ x = .ExtendNumLet)) ↔
      ((AHLetter x ∨ x = .Numeric ∨ x = .Katakana ∨ x = .ExtendNumLet) ∧ (U b).wb = .ExtendNumLet) := by
    rw [and_comm, or_assoc, or_assoc]
  have w13b : (x = .ExtendNumLet ∧ ((AHLetter (U b).wb ∨ (U b).wb = .Numeric) ∨ (U b).wb = .Katakana)) ↔
      (x = .ExtendNumLet ∧ (AHLetter (U b).wb ∨ (U b).wb = .Numeric ∨ (U b).wb = .Katakana)) := by
    rw [or_assoc]
  rw [w3d', w7, w7c, w11, w15, w13a, w13b]
  simp only [or_assoc, and_assoc]

/-- The verdict of one call. -/
theorem verdict (s : WState) (p : List Nat) (a b : Nat) (q : List WB) (x : WB) (rest : List Nat)
    (h : Inv U s p a q x (b :: rest)) :
    (processBreakable U b rest s).2 = true ↔ Boundary U p a b rest := by
  unfold processBreakable Boundary
  simp only [h.raw, h.red, isNewlineClass_iff, isTransparent_iff]
  by_cases h3 : (U a).wb = .CR ∧ (U b).wb = .LF
  · simp [h3]
  rw [if_neg h3]
  simp only [h3, not_false_eq_true, true_and]
  by_cases h3a : Newline (U a).wb
  · simp only [h3a, if_true, true_or, iff_true]
    split <;> rfl
  simp only [h3a, if_false, false_or]
  by_cases h3b : Newline (U b).wb
  · simp [h3b]
  simp only [h3b, if_false, false_or]
  by_cases h3c : (U a).wb = .ZWJ ∧ (U b).isExtPict = true
  · simp [h3c]
  simp only [h3c, if_false, false_or]
  by_cases h4 : Transparent (U b).wb
  · simp [h4]
  simp only [h4, if_false, false_or, Bool.not_eq_true', ← Bool.not_eq_true]
  rw [joins_iff s p a b q x rest h h4]

/-! ### Preservation -/

theorem reduce_snoc (ws : List WB) (w : WB) : reduce (ws ++ [w]) = keep (reduce ws) w := by
  simp [reduce, List.foldl_append]

theorem keep_opaque (R : List WB) (w : WB) (h : ¬ Transparent w) : keep R w = R ++ [w] := by
  simp [keep, h]

theorem keep_drop (q : List WB) (x w : WB) (h : Transparent w) (hx : ¬ Newline x) :
    keep (q ++ [x]) w = q ++ [x] := by
  simp [keep, h, hx]

theorem keep_newline (q : List WB) (x w : WB) (hx : Newline x) : keep (q ++ [x]) w = q ++ [x] ++ [w] := by
  simp [keep, hx]

theorem norm_opaque (w : WB) (h : ¬ Transparent w) : norm w = w := by
  rw [norm, if_neg]; rw [isTransparent_iff]; exact h

theorem norm_transparent (w : WB) (h : Transparent w) : norm w = .Other := by
  rw [norm, if_pos]; rw [isTransparent_iff]; exact h

theorem not_newline_of_transparent (w : WB) (h : Transparent w) : ¬ Newline w := by
  unfold Transparent at h; unfold Newline
  rcases h with h | h | h <;> simp [h]

/-- State after `update_effective` with a non-transparent class. -/
theorem update_inv (s : WState) (p : List Nat) (a b : Nat) (q : List WB) (x : WB) (rest : List Nat)
    (h : Inv U s p a q x (b :: rest)) (hb : ¬ Transparent (U b).wb) :
    Inv U (updateEffective (U b).wb s) (p ++ [a]) b (q ++ [x]) (U b).wb rest := by
  refine ⟨?_, rfl, .inl rfl, (norm_opaque _ hb).symm, .inl ⟨q, x, rfl, h.prev⟩, ?_, by simp [updateEffective],
    fun _ => rfl⟩
  · rw [List.map_append, List.map_singleton, reduce_snoc, h.red, keep_opaque _ _ hb]
  · rw [trailW_snoc]
    have := h.ri
    simp only [updateEffective]
    split <;> omega

/-- One call preserves the invariant, whatever the verdict. -/
theorem step_inv (D : ∀ c, Transparent (U c).wb → (U c).isExtPict = false) (s : WState) (p : List Nat) (a b : Nat) (q : List WB) (x : WB) (rest : List Nat)
    (h : Inv U s p a q x (b :: rest)) :
    ∃ q' x', Inv U (processBreakable U b rest s).1 (p ++ [a]) b q' x' rest := by
  unfold processBreakable
  simp only
  have upd : ¬ Transparent (U b).wb → ∃ q' x', Inv U (updateEffective (U b).wb s) (p ++ [a]) b q' x' rest :=
    fun hb => ⟨_, _, update_inv s p a b q x rest h hb⟩
  split
  · rename_i h3; exact upd (by rw [h3.2]; decide)
  split
  · rename_i hn
    rw [h.raw, isNewlineClass_iff] at hn
    have hx : x = (U a).wb := by
      rcases h.last with hl | ⟨hl, _⟩
      · exact hl
      · exact absurd hn (not_newline_of_transparent _ hl)
    split
    · rename_i ht
      rw [isTransparent_iff] at ht
      refine ⟨q ++ [x], (U b).wb, ?_, rfl, .inl rfl, ?_, .inr ⟨rfl, ?_⟩, ?_, ?_, fun _ => rfl⟩
      · rw [List.map_append, List.map_singleton, reduce_snoc, h.red, keep_newline _ _ _ (hx ▸ hn)]
      · simp only [norm_transparent _ ht]
      · intro q' y hq
        have := List.append_inj' hq rfl
        simp only [List.cons.injEq, and_true] at this
        rw [← this.2, hx]
        unfold Newline at hn
        unfold AHLetter
        rcases hn with hn | hn | hn <;> simp [hn]
      · simp only [trailW_snoc]
        rw [if_neg (by intro hc; rw [hc] at ht; exact absurd ht (by decide))]
      · intro hs
        have := h.sawT hs
        exact absurd hn (not_newline_of_transparent _ this)
    · rename_i ht
      rw [isTransparent_iff] at ht; exact upd ht
  split
  · rename_i hn
    rw [isNewlineClass_iff] at hn
    exact upd (fun ht => not_newline_of_transparent _ ht hn)
  rename_i hna _
  rw [h.raw, isNewlineClass_iff] at hna
  have hxn : ¬ Newline x := by
    rcases h.last with hl | ⟨_, hl⟩
    · rw [hl]; exact hna
    · exact hl
  by_cases ht : Transparent (U b).wb
  · -- a transparent codepoint: WB3c would need a non-transparent pictograph
    split
    · -- `update_effective` is applied to a transparent pictograph
      rename_i hz
      exact absurd hz.2 (by simp [D _ ht])
    · rw [if_pos ((isTransparent_iff _).2 ht)]
      refine ⟨q, x, ?_, rfl, .inr ⟨ht, hxn⟩, h.prev, ?_, h.ri, fun _ => ht, by simp⟩
      · rw [List.map_append, List.map_singleton, reduce_snoc, h.red, keep_drop _ _ _ ht hxn]
      · rcases h.pp with hp | ⟨h1, h2⟩
        · exact .inl hp
        · refine .inr ⟨h1, ?_⟩
          intro q' y hq
          obtain ⟨e1, e2, e3⟩ := h2 q' y hq
          exact ⟨fun ⟨a1, a2, a3⟩ => e1 ⟨a1, a2, next_cons_transparent b rest _ ht a3⟩,
            fun ⟨a1, a2, a3⟩ => e2 ⟨a1, a2, next_cons_transparent b rest _ ht a3⟩,
            fun ⟨a1, a2, a3⟩ => e3 ⟨a1, a2, next_cons_transparent b rest _ ht a3⟩⟩
  · split
    · exact upd ht
    · rw [if_neg (by rw [isTransparent_iff]; exact ht)]
      exact upd ht

/-- Re-initialising at a boundary. -/
theorem reinit (D : ∀ c, Transparent (U c).wb → (U c).isExtPict = false) (s : WState) (p : List Nat) (a b : Nat)
    (q : List WB) (x : WB) (rest : List Nat) (h : Inv U s p a q x (b :: rest))
    (hv : (processBreakable U b rest s).2 = true) :
    ∃ q' x', Inv U (processInit U b (processBreakable U b rest s).1) (p ++ [a]) b q' x' rest := by
  have hB := (verdict s p a b q x rest h).1 hv
  unfold Boundary at hB
  simp only [h.red] at hB
  obtain ⟨q1, x1, h1⟩ := step_inv D s p a b q x rest h
  -- after a break the last kept class is that of `b`
  have hkeep : Transparent (U b).wb → Newline (U a).wb := by
    intro ht
    rcases hB.2 with hn | hn | hn
    · exact hn
    · exact absurd hn (not_newline_of_transparent _ ht)
    · exact absurd (.inr (.inr (.inl ht))) hn
  have hxa : Newline (U a).wb → x = (U a).wb := by
    intro hn
    rcases h.last with hl | ⟨hl, _⟩
    · exact hl
    · exact absurd hn (not_newline_of_transparent _ hl)
  have hred : reduce ((p ++ [a] ++ [b]).map fun c => (U c).wb) = (q ++ [x]) ++ [(U b).wb] := by
    rw [List.map_append, List.map_singleton, reduce_snoc, h.red]
    by_cases ht : Transparent (U b).wb
    · have hn := hkeep ht
      exact keep_newline _ _ _ (hxa hn ▸ hn)
    · exact keep_opaque _ _ ht
  have hsaw : (processBreakable U b rest s).1.sawTransparent = false := by
    unfold processBreakable at hv ⊢
    simp only at hv ⊢
    split
    · rfl
    split
    · rename_i hn
      rw [h.raw, isNewlineClass_iff] at hn
      split
      · cases hs : s.sawTransparent with
        | false => rfl
        | true => exact absurd hn (not_newline_of_transparent _ (h.sawT hs))
      · rfl
    split
    · rfl
    split
    · rfl
    split
    · simp_all
    · rfl
  generalize (processBreakable U b rest s).1 = t at *
  have hpp : PPok .Other (q ++ [x]) (U b).wb (rest.map fun c => (U c).wb) := by
    refine .inr ⟨rfl, ?_⟩
    intro q' y hq
    have := List.append_inj' hq rfl
    simp only [List.cons.injEq, and_true] at this
    obtain ⟨-, rfl⟩ := this
    rcases hB.2 with hn | hn | hn
    · rw [hxa hn]
      unfold Newline at hn
      unfold AHLetter
      rcases hn with hn | hn | hn <;> simp [hn]
    · unfold Newline at hn
      unfold MidNumLetQ
      rcases hn with hn | hn | hn <;> simp [hn]
    · have hj : ¬ Join (q ++ [x]) (U b).wb (rest.map fun c => (U c).wb) := fun hj => hn (.inr (.inr (.inr hj)))
      unfold Join at hj
      simp only [ends1_snoc] at hj
      simp only [not_or] at hj
      exact ⟨hj.2.1, hj.2.2.2.2.1, hj.2.2.2.2.2.2.2.2.2.2.1⟩
  have hri : (U b).wb = .Regional_Indicator → trailW (q ++ [x]) % 2 = 0 := by
    intro hb
    rcases hB.2 with hn | hn | hn
    · rw [trailW_snoc, hxa hn, if_neg]
      intro hc; rw [hc] at hn; exact absurd hn (by decide)
    · rw [hb] at hn; exact absurd hn (by decide)
    · have hj : ¬ Join (q ++ [x]) (U b).wb (rest.map fun c => (U c).wb) := fun hj => hn (.inr (.inr (.inr hj)))
      unfold Join at hj
      rw [← trailW_odd] at hj
      simp only [not_or] at hj
      have := hj.2.2.2.2.2.2.2.2.2.2.2.2.2.2
      simp only [hb, true_and] at this
      omega
  refine ⟨q ++ [x], (U b).wb, ?_⟩
  unfold processInit
  by_cases ht : Transparent (U b).wb
  · rw [if_pos ((isTransparent_iff _).2 ht)]
    refine ⟨hred, rfl, .inl rfl, (norm_transparent _ ht).symm, hpp, ?_, by simp [hsaw], fun _ => rfl⟩
    rw [trailW_snoc, if_neg (by intro hc; rw [hc] at ht; exact absurd ht (by decide))]
  · rw [if_neg (by rw [isTransparent_iff]; exact ht)]
    refine ⟨hred, rfl, .inl rfl, (norm_opaque _ ht).symm, hpp, ?_, by simp [hsaw], fun _ => rfl⟩
    rw [trailW_snoc]
    simp only
    split
    · rename_i hb; have := hri hb; omega
    · rfl

/-- The first codepoint of a text. -/
theorem init_first (c : Nat) (rest : List Nat) : ∃ q x, Inv U (processInit U c {}) [] c q x rest := by
  refine ⟨[], (U c).wb, ?_⟩
  have hred : reduce (([] ++ [c]).map fun c => (U c).wb) = [] ++ [(U c).wb] := by
    simp [reduce, keep]
  have hpp : PPok .Other [] (U c).wb (rest.map fun c => (U c).wb) := .inr ⟨rfl, by simp⟩
  unfold processInit
  by_cases ht : Transparent (U c).wb
  · rw [if_pos ((isTransparent_iff _).2 ht)]
    refine ⟨hred, rfl, .inl rfl, (norm_transparent _ ht).symm, hpp, ?_, by simp, fun _ => rfl⟩
    rw [trailW_snoc, if_neg (by intro hc; rw [hc] at ht; exact absurd ht (by decide))]
  · rw [if_neg (by rw [isTransparent_iff]; exact ht)]
    refine ⟨hred, rfl, .inl rfl, (norm_opaque _ ht).symm, hpp, ?_, by simp, fun _ => rfl⟩
    rw [trailW_snoc]
    simp only [trailW]
    split <;> simp

/-! ### Segments -/

theorem extendSegment_append (U : Table) (s : WState) (cs : List Nat) :
    (extendSegment U s cs).2.1 ++ (extendSegment U s cs).2.2 = cs := by
  induction cs generalizing s with
  | nil => rfl
  | cons c cs ih =>
    simp only [extendSegment]
    cases hv : processBreakable U c cs s with
    | mk s' v =>
      cases v with
      | true => rfl
      | false => simp [ih]

theorem at_snoc (R : List Nat → Nat → Prop) (p : List Nat) (a : Nat) :
    (∃ p' a', p ++ [a] = p' ++ [a'] ∧ R p' a') ↔ R p a := by
  constructor
  · rintro ⟨p', a', h, hb⟩
    have := List.append_inj' h rfl
    simp at this
    rw [this.1, this.2]; exact hb
  · intro h; exact ⟨p, a, rfl, h⟩

theorem extendSegment_spec (D : ∀ c, Transparent (U c).wb → (U c).isExtPict = false) (cs : List Nat) (s : WState)
    (p : List Nat) (a : Nat) (q : List WB) (x : WB) (h : Inv U s p a q x cs) :
    (∀ u b v, (extendSegment U s cs).2.1 = u ++ b :: v →
      ¬ BoundaryAt U (p ++ [a] ++ u) b (v ++ (extendSegment U s cs).2.2)) ∧
    (∀ b r, (extendSegment U s cs).2.2 = b :: r →
      BoundaryAt U (p ++ [a] ++ (extendSegment U s cs).2.1) b r ∧
      ∃ q x, Inv U (processInit U b (extendSegment U s cs).1) (p ++ [a] ++ (extendSegment U s cs).2.1) b q x r) := by
  induction cs generalizing s p a q x with
  | nil => simp [extendSegment]
  | cons c cs ih =>
    have hver := verdict s p a c q x cs h
    have happ := extendSegment_append U (processBreakable U c cs s).1 cs
    simp only [extendSegment]
    cases hv : processBreakable U c cs s with
    | mk s' v =>
      rw [hv] at hver happ
      cases v with
      | true =>
        simp only
        have hB : Boundary U p a c cs := hver.1 rfl
        refine ⟨by simp, ?_⟩
        intro b r hbr
        injection hbr with h1 h2
        subst h1; subst h2
        have := reinit D s p a c q x cs h (by rw [hv])
        rw [hv] at this
        simp only [List.append_nil]
        exact ⟨⟨p, a, rfl, hB⟩, this⟩
      | false =>
        simp only at happ ⊢
        have hB : ¬ Boundary U p a c cs := fun h => by have := hver.2 h; cases this
        obtain ⟨q', x', hstep⟩ := step_inv D s p a c q x cs h
        rw [hv] at hstep
        have ih := ih s' (p ++ [a]) c q' x' hstep
        refine ⟨?_, ?_⟩
        · intro u b v hu
          cases u with
          | nil =>
            simp at hu
            rw [← hu.1, ← hu.2, happ, List.append_nil, BoundaryAt,
              at_snoc (fun p' a' => Boundary U p' a' c cs)]
            exact hB
          | cons y u =>
            simp at hu
            have := ih.1 u b v hu.2
            rw [← hu.1]
            simpa using this
        · intro b r hbr
          have := ih.2 b r hbr
          simpa using this

end Verif.Word
