import Verif.Lemmas.Word
import Verif.Spec.Toy

/-! Properties C18, C19: word segmentation. -/

namespace Verif.Props
open Verif.Ucd Verif.Spec Verif.Toy

namespace Word
open Verif.Word Verif.Spec.WBR

/-- The one fact about the character data the word rules rely on (true of the UCD): characters ignored by WB4 are
not pictographs. -/
def WordDataOk (U : Table) : Prop := ∀ c, Transparent (U c).wb → (U c).isExtPict = false

theorem toy_word_ok : WordDataOk toy := by
  intro c
  unfold toy
  repeat' refine ite_elim (fun p : Props => Transparent p.wb → p.isExtPict = false) (fun _ => ?_) (fun _ => ?_)
  all_goals decide

/-! ## C19 -/

theorem segmentsLoop_partition (U : Table) (fuel : Nat) (s : WState) (text : List Nat) (h : text.length ≤ fuel) :
    Partition (segmentsLoop U fuel s text) text := by
  induction fuel generalizing s text with
  | zero =>
    have : text = [] := List.length_eq_zero_iff.1 (by omega)
    subst this; exact ⟨rfl, by simp [segmentsLoop]⟩
  | succ n ih =>
    cases text with
    | nil => exact ⟨rfl, by simp [segmentsLoop]⟩
    | cons c cs =>
      have ha := extendSegment_append U (processInit U c s) cs
      have hl := congrArg List.length ha
      simp at hl h
      have ih := ih (extendSegment U (processInit U c s) cs).1 (extendSegment U (processInit U c s) cs).2.2 (by omega)
      simp only [segmentsLoop]
      refine ⟨?_, ?_⟩
      · simp [ih.concat, ha]
      · intro t ht
        rcases List.mem_cons.1 ht with rfl | ht
        · simp
        · exact ih.nonempty t ht

/-- **C19.** The word segments of any text are non-empty consecutive slices that concatenate to the text. -/
theorem C19_partition (U : Table) (text : List Nat) : Partition (segments U text) text :=
  segmentsLoop_partition U _ _ text (Nat.le_refl _)

theorem segmentsLoop_fuel2 (U : Table) (n : Nat) : ∀ s (text : List Nat) fuel, text.length ≤ n → text.length ≤ fuel →
    segmentsLoop U fuel s text = segmentsLoop U n s text := by
  induction n with
  | zero =>
    intro s text fuel hn _
    have : text = [] := List.length_eq_zero_iff.1 (by omega)
    subst this; cases fuel <;> simp [segmentsLoop]
  | succ n ih =>
    intro s text fuel hn hf
    cases text with
    | nil => cases fuel <;> simp [segmentsLoop]
    | cons c cs =>
      cases fuel with
      | zero => simp at hf
      | succ fuel =>
        have hl := congrArg List.length (extendSegment_append U (processInit U c s) cs)
        simp at hl hn hf
        simp only [segmentsLoop]
        rw [ih _ _ fuel (by omega) (by omega)]

theorem segmentsLoop_fuel (U : Table) (s : WState) (text : List Nat) (fuel : Nat) (h : text.length ≤ fuel) :
    segmentsLoop U fuel s text = segmentsLoop U text.length s text :=
  segmentsLoop_fuel2 U _ s text fuel (Nat.le_refl _) h

/-- **C19, termination.** At most `length(text)` advances are needed: more fuel changes nothing. -/
theorem C19_terminates (U : Table) (text : List Nat) (fuel : Nat) (h : text.length ≤ fuel) :
    segmentsLoop U fuel {} text = segments U text := segmentsLoop_fuel U {} text fuel h

example : segments toy [0x61, 0x301, 0x62, 0x20, 0x20, 0x1F1E6, 0x1F1E7, 0x1F1E6] =
    [[0x61, 0x301, 0x62], [0x20, 0x20], [0x1F1E6, 0x1F1E7], [0x1F1E6]] := by decide

/-! ## C18 -/

theorem segmentsLoop_boundary {U : Table} (D : WordDataOk U) (fuel : Nat) (s : WState) (c : Nat) (cs pre : List Nat)
    (hf : cs.length < fuel) (hi : ∃ q x, Inv U (processInit U c s) pre c q x cs)
    (l : List Nat) (b : Nat) (post : List Nat) (hl : c :: cs = l ++ b :: post) (hne : l ≠ []) :
    SegBoundary (segmentsLoop U fuel s (c :: cs)) l ↔ BoundaryAt U (pre ++ l) b post := by
  induction fuel generalizing s c cs pre l b post with
  | zero => omega
  | succ n ih =>
    obtain ⟨q, x, hi⟩ := hi
    have hap := extendSegment_append U (processInit U c s) cs
    have hsp := extendSegment_spec D cs (processInit U c s) pre c q x hi
    simp only [segmentsLoop]
    generalize (extendSegment U (processInit U c s) cs).1 = s' at *
    generalize (extendSegment U (processInit U c s) cs).2.1 = t at *
    generalize (extendSegment U (processInit U c s) cs).2.2 = r at *
    subst hap
    rw [segBoundary_cons _ _ _ hne]
    cases l with
    | nil => exact absurd rfl hne
    | cons y l =>
      simp only [List.cons_append, List.cons.injEq] at hl
      obtain ⟨rfl, hl⟩ := hl
      have atEnd : l = t → r = b :: post → ((∃ l', c :: l = c :: t ++ l' ∧ SegBoundary (segmentsLoop U n s' r) l') ↔
          BoundaryAt U (pre ++ c :: l) b post) := by
        rintro rfl h2
        have := (hsp.2 b post h2).1
        simp only [List.append_assoc, List.singleton_append] at this
        simp only [this, iff_true]
        exact ⟨[], by simp, segBoundary_nil _⟩
      rcases List.append_eq_append_iff.1 hl with ⟨u, h1, h2⟩ | ⟨u, h1, h2⟩
      · cases u with
        | nil => exact atEnd (by simpa using h1) (by simpa using h2)
        | cons y u =>
          simp at h2
          have h3 := hsp.2 y _ h2
          simp only [List.append_assoc, List.singleton_append] at h3
          subst h2
          have := ih s' y (u ++ b :: post) (pre ++ c :: t) (by simp at hf ⊢; omega) h3.2 (y :: u) b post rfl (by simp)
          subst h1
          simp only [List.cons_append, List.append_assoc] at this ⊢
          rw [← this]
          constructor
          · rintro ⟨l', h, hs⟩
            simp at h
            subst h; exact hs
          · intro hs; exact ⟨y :: u, by simp, hs⟩
      · cases u with
        | nil => exact atEnd (by simpa using h1.symm) (by simpa using h2.symm)
        | cons y u =>
          simp at h2
          obtain ⟨rfl, rfl⟩ := h2
          have h3 := hsp.1 l b u h1
          simp only [List.append_assoc, List.singleton_append] at h3
          simp only [h3, iff_false]
          rintro ⟨l', h, _⟩
          have := congrArg List.length h
          rw [h1] at this
          simp at this

/-- **C18.** For every text and every position in it, `word_segmenter` puts a segment border there exactly if the
UAX #29 word boundary rules do. -/
theorem C18_segmenter {U : Table} (D : WordDataOk U) (l : List Nat) (b : Nat) (post : List Nat) (hne : l ≠ []) :
    SegBoundary (segments U (l ++ b :: post)) l ↔ BoundaryAt U l b post := by
  cases l with
  | nil => exact absurd rfl hne
  | cons c cs =>
    have := segmentsLoop_boundary D (c :: (cs ++ b :: post)).length {} c (cs ++ b :: post) [] (by simp)
      (init_first c _) (c :: cs) b post (by simp) (by simp)
    simpa [segments] using this

theorem incrementalFrom_exact {U : Table} (D : WordDataOk U) (cs : List Nat) (s : WState) (p : List Nat) (a : Nat)
    (hi : ∃ q x, Inv U s p a q x cs) (u : List Nat) (b : Nat) (post : List Nat) (hcs : cs = u ++ b :: post) :
    (incrementalFrom U s cs)[u.length]? = some true ↔ BoundaryAt U (p ++ a :: u) b post := by
  induction cs generalizing s p a u with
  | nil => simp at hcs
  | cons c cs ih =>
    obtain ⟨q, x, hi⟩ := hi
    have hver := verdict s p a c q x cs hi
    cases u with
    | nil =>
      simp at hcs
      obtain ⟨rfl, rfl⟩ := hcs
      simp only [incrementalFrom, List.length_nil, List.getElem?_cons_zero, Option.some.injEq]
      rw [hver, BoundaryAt, at_snoc (fun p' a' => Boundary U p' a' c cs)]
    | cons y u =>
      simp at hcs
      have := ih (processBreakable U c cs s).1 (p ++ [a]) c (step_inv D s p a c q x cs hi) u hcs.2
      simp only [incrementalFrom, List.length_cons, List.getElem?_cons_succ]
      rw [this, hcs.1]; simp

theorem incrementalFrom_length (U : Table) (s : WState) (cs : List Nat) :
    (incrementalFrom U s cs).length = cs.length := by
  induction cs generalizing s with
  | nil => rfl
  | cons c cs ih => simp [incrementalFrom, ih]

/-- **C18, incremental API.** `word_process_init` followed by `word_process_breakable` for every further codepoint
reports a break exactly at the UAX #29 word boundaries. -/
theorem C18_incremental {U : Table} (D : WordDataOk U) (l : List Nat) (b : Nat) (post : List Nat) (hne : l ≠ []) :
    (incremental U (l ++ b :: post)).length = (l ++ post).length ∧
    ((incremental U (l ++ b :: post))[l.length - 1]? = some true ↔ BoundaryAt U l b post) := by
  cases l with
  | nil => exact absurd rfl hne
  | cons c cs =>
    refine ⟨by simp [incremental, incrementalFrom_length]; omega, ?_⟩
    have := incrementalFrom_exact D (cs ++ b :: post) (processInit U c {}) [] c (init_first c _) cs b post rfl
    simpa [incremental] using this

/-- The two interfaces agree. -/
theorem C18_interfaces_agree {U : Table} (D : WordDataOk U) (l : List Nat) (b : Nat) (post : List Nat) (hne : l ≠ []) :
    (incremental U (l ++ b :: post))[l.length - 1]? = some true ↔ SegBoundary (segments U (l ++ b :: post)) l := by
  rw [(C18_incremental D l b post hne).2, C18_segmenter D l b post hne]

/-- Non-vacuity: ignored marks, newline handling and look-ahead. -/
example : incremental toy [0x61, 0x301, 0x62, 0x0D, 0x0A, 0x301, 0x62] =
    [false, false, true, false, true, true] := by decide

end Word
end Verif.Props
