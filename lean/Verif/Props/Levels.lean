import Verif.Props.Word
import Verif.Props.Grapheme
import Verif.Spec.Toy
/-!
# C81 Word segments consist of whole grapheme clusters
-/

namespace Verif.Props.Levels
open Verif.Ucd Verif.Spec Verif.Toy

/-! ## Specification -/

/-- What the two break properties of a codepoint must have to do with each other. -/
structure LevelsOk (U : Table) : Prop where
  cr : ∀ c, (U c).gcb = .CR → (U c).wb = .CR
  lf : ∀ c, (U c).gcb = .LF → (U c).wb = .LF
  /-- what ends a line is a control character -/
  newline : ∀ c, WBR.Newline (U c).wb → (U c).gcb = .Control ∨ (U c).gcb = .CR ∨ (U c).gcb = .LF
  /-- Hangul is letters -/
  hangul : ∀ c, (U c).gcb = .L ∨ (U c).gcb = .V ∨ (U c).gcb = .T ∨ (U c).gcb = .LV ∨ (U c).gcb = .LVT → WBR.AHLetter (U c).wb
  /-- marks are marks -/
  marks : ∀ c, (U c).gcb = .Extend ∨ (U c).gcb = .ZWJ ∨ (U c).incb = .Extend ∨ (U c).incb = .Linker → WBR.Transparent (U c).wb
  zwj : ∀ c, (U c).gcb = .ZWJ → (U c).wb = .ZWJ
  /-- the consonants of conjuncts are letters -/
  consonants : ∀ c, (U c).incb = .Consonant → WBR.AHLetter (U c).wb
  flags : ∀ c, (U c).gcb = .Regional_Indicator ↔ (U c).wb = .Regional_Indicator

/-- The three exceptions, at the position behind `l`, in front of `b`: the position is behind a Prepend; or in front of a spacing mark that the word
rules do not ignore; or in front of a flag half, in a row of them that stands directly behind a character the word rules ignore or behind a Prepend. -/
def Exception (U : Table) (l : List Nat) (b : Nat) : Prop :=
  (∃ p a, l = p ++ [a] ∧ (U a).gcb = .Prepend) ∨
  ((U b).gcb = .SpacingMark ∧ ¬ WBR.Transparent (U b).wb) ∨
  ((U b).gcb = .Regional_Indicator ∧ ∃ p m ris, l = p ++ m :: ris ∧ ris ≠ [] ∧ (∀ x ∈ ris, (U x).gcb = .Regional_Indicator) ∧
    (WBR.Transparent (U m).wb ∨ (U m).gcb = .Prepend))

/-! ## Proof -/

theorem reduce_snoc (xs : List WB) (w : WB) : WBR.reduce (xs ++ [w]) = WBR.keep (WBR.reduce xs) w := by
  simp [WBR.reduce]

theorem reduce_solid (xs : List WB) (w : WB) (h : ¬ WBR.Transparent w) : WBR.reduce (xs ++ [w]) = WBR.reduce xs ++ [w] := by
  rw [reduce_snoc, WBR.keep, if_neg (fun hc => h hc.1)]

theorem reduce_marks (xs : List WB) (x : WB) (hx : ¬ WBR.Newline x) (R : List WB) (hR : WBR.reduce xs = R ++ [x]) (ms : List WB)
    (hm : ∀ m ∈ ms, WBR.Transparent m) : WBR.reduce (xs ++ ms) = R ++ [x] := by
  induction ms generalizing xs with
  | nil => simpa using hR
  | cons m ms ih =>
    rw [show xs ++ m :: ms = (xs ++ [m]) ++ ms by simp]
    refine ih (xs ++ [m]) ?_ (fun y hy => hm y (by simp [hy]))
    rw [reduce_snoc, WBR.keep, hR, if_pos ⟨hm m (by simp), x, by simp, hx⟩]

theorem reduce_run (xs ris : List WB) (h : ∀ w ∈ ris, w = .Regional_Indicator) : WBR.reduce (xs ++ ris) = WBR.reduce xs ++ ris := by
  induction ris generalizing xs with
  | nil => simp
  | cons r ris ih =>
    rw [show xs ++ r :: ris = (xs ++ [r]) ++ ris by simp, ih (xs ++ [r]) (fun w hw => h w (by simp [hw])), reduce_solid]
    · simp
    · rw [h r (by simp)]; decide

theorem letter_solid {w : WB} (h : WBR.AHLetter w) : ¬ WBR.Transparent w ∧ ¬ WBR.Newline w := by
  rcases h with rfl | rfl <;> decide

/-- **C81.** Every word border is a grapheme cluster border, with the three exceptions: `l` is any beginning of a text, `b` the next character. -/
theorem C81_word_borders {U : Table} (D : GB.DataOk U) (DW : Word.WordDataOk U) (L : LevelsOk U) (l : List Nat) (b : Nat) (post : List Nat)
    (hne : l ≠ []) (hx : ¬ Exception U l b) (h : SegBoundary (Verif.Word.segments U (l ++ b :: post)) l) :
    SegBoundary (Verif.Grapheme.clusters U (l ++ b :: post)) l := by
  rw [Word.C18_segmenter DW l b post hne] at h
  rw [Verif.Props.C14_segmenter_exact D l b post hne]
  obtain ⟨p, a, rfl, h3, h⟩ := h
  refine ⟨p, a, rfl, fun h => h3 ⟨L.cr a h.1, L.lf b h.2⟩, ?_⟩
  by_cases h4 : GB.gb4 U a
  · exact Or.inl h4
  by_cases h5 : GB.gb5 U b
  · exact Or.inr (Or.inl h5)
  right; right
  have na : ¬ WBR.Newline (U a).wb := fun h => h4 (L.newline a h)
  have nb : ¬ WBR.Newline (U b).wb := fun h => h5 (L.newline b h)
  have h := (h.resolve_left na).resolve_left nb
  -- two letters, the first one possibly followed by marks
  have letters : (∃ R x, WBR.reduce ((p ++ [a]).map fun c => (U c).wb) = R ++ [x] ∧ WBR.AHLetter x) → WBR.AHLetter (U b).wb → False := by
    rintro ⟨R, x, hR, hxl⟩ hb
    exact h (Or.inr (Or.inr (Or.inr (Or.inl ⟨⟨R, x, hR, hxl⟩, hb⟩))))
  have one : WBR.AHLetter (U a).wb → ∃ R x, WBR.reduce ((p ++ [a]).map fun c => (U c).wb) = R ++ [x] ∧ WBR.AHLetter x := by
    intro ha
    refine ⟨WBR.reduce (p.map fun c => (U c).wb), (U a).wb, ?_, ha⟩
    rw [List.map_append, List.map_cons, List.map_nil, reduce_solid _ _ (letter_solid ha).1]
  rintro (h6 | h7 | h8 | h9 | h9a | h9b | h9c | h11 | h12)
  · exact letters (one (L.hangul a (Or.inl h6.1))) (L.hangul b (by rcases h6.2 with h | h | h | h <;> simp [h]))
  · exact letters (one (L.hangul a (by rcases h7.1 with h | h <;> simp [h]))) (L.hangul b (by rcases h7.2 with h | h <;> simp [h]))
  · exact letters (one (L.hangul a (by rcases h8.1 with h | h <;> simp [h]))) (L.hangul b (by simp [h8.2]))
  · exact h (Or.inr (Or.inr (Or.inl (L.marks b (by rcases h9 with h | h <;> simp [h])))))
  · by_cases ht : WBR.Transparent (U b).wb
    · exact h (Or.inr (Or.inr (Or.inl ht)))
    · exact hx (Or.inr (Or.inl ⟨h9a, ht⟩))
  · exact hx (Or.inl ⟨p, a, rfl, h9b⟩)
  · obtain ⟨hb, q, c, m, hq, hc, hm, _⟩ := h9c
    refine letters ?_ (L.consonants b hb)
    have hcl := L.consonants c hc
    rw [hq, show q ++ c :: m = (q ++ [c]) ++ m by simp, List.map_append]
    refine ⟨WBR.reduce (q.map fun c => (U c).wb), (U c).wb, reduce_marks _ _ (letter_solid hcl).2 _ ?_ _ ?_, hcl⟩
    · rw [List.map_append, List.map_cons, List.map_nil, reduce_solid _ _ (letter_solid hcl).1]
    · intro w hw
      obtain ⟨y, hy, rfl⟩ := List.mem_map.1 hw
      exact L.marks y (by rcases hm y hy with h | h <;> simp [h])
  · obtain ⟨hb, q, e, m, z, hq, _, _, hz⟩ := h11
    have haz : a = z := by
      have : p ++ [a] = (q ++ e :: m) ++ [z] := by rw [hq]; simp
      exact List.singleton_inj.1 (List.append_inj' this rfl).2
    subst haz
    exact h (Or.inl ⟨L.zwj a hz, hb⟩)
  · obtain ⟨hb, q, ris, hq, hris, hrne, hlast, hpar⟩ := h12
    have hodd : ris.length % 2 = 1 := by
      rcases hpar with ⟨⟨q', y, rfl, hy⟩, _⟩ | ⟨_, h⟩
      · exact absurd (Or.inr (Or.inr ⟨hb, q', y, ris, by rw [hq]; simp, hrne, hris, Or.inr hy⟩)) hx
      · exact h
    refine h (Or.inr (Or.inr (Or.inr ?_)))
    iterate 14 right
    refine ⟨(L.flags b).1 hb, WBR.reduce (q.map fun c => (U c).wb), ris.map fun c => (U c).wb, ?_, ?_, by simpa using hodd, ?_⟩
    · rw [hq, List.map_append]
      refine reduce_run _ _ fun w hw => ?_
      obtain ⟨y, hy, rfl⟩ := List.mem_map.1 hw
      exact (L.flags y).1 (hris y hy)
    · intro w hw
      obtain ⟨y, hy, rfl⟩ := List.mem_map.1 hw
      exact (L.flags y).1 (hris y hy)
    · intro q1 y hy
      rcases List.eq_nil_or_concat q with rfl | ⟨q', y0, rfl⟩
      · simp [WBR.reduce] at hy
      · have ht : ¬ WBR.Transparent (U y0).wb := fun ht =>
          hx (Or.inr (Or.inr ⟨hb, q', y0, ris, by rw [hq]; simp, hrne, hris, Or.inl ht⟩))
        rw [List.concat_eq_append, List.map_append, List.map_cons, List.map_nil, reduce_solid _ _ ht] at hy
        have := List.singleton_inj.1 (List.append_inj' hy rfl).2
        rw [← this]
        exact fun h => hlast q' y0 (by simp) ((L.flags y0).2 h)

/-- When all borders of a partition are borders of another, its parts consist of parts of the other. -/
theorem groups_of_borders {α : Type} : ∀ (A B : List (List α)), A.flatten = B.flatten → (∀ s ∈ A, s ≠ []) → (∀ s ∈ B, s ≠ []) →
    (∀ l, l ≠ [] → SegBoundary A l → SegBoundary B l) →
    ∃ groups : List (List (List α)), A = groups.map List.flatten ∧ B = groups.flatten := by
  intro A
  induction A with
  | nil =>
    intro B h _ hB _
    refine ⟨[], rfl, ?_⟩
    cases B with
    | nil => rfl
    | cons x B =>
      have := hB x (by simp)
      simp at h
      exact absurd h.1 this
  | cons s A ih =>
    intro B h hA hB hb
    have hs := hA s (by simp)
    obtain ⟨B1, B2, rfl, h1⟩ := hb s hs ⟨[s], A, rfl, by simp⟩
    have h2 : A.flatten = B2.flatten := by
      rw [List.flatten_cons, List.flatten_append, h1] at h
      exact List.append_cancel_left h
    obtain ⟨groups, g1, g2⟩ := ih B2 h2 (fun x hx => hA x (by simp [hx])) (fun x hx => hB x (by simp [hx])) (by
      intro l hl hl2
      obtain ⟨s1, s2, rfl, hf⟩ := hl2
      obtain ⟨C1, C2, hC, hCf⟩ := hb (s ++ l) (by simp [hs]) ⟨s :: s1, s2, rfl, by simp [hf]⟩
      rcases List.append_eq_append_iff.1 hC with ⟨t, rfl, ht⟩ | ⟨t, rfl, ht⟩
      · refine ⟨t, C2, ht, ?_⟩
        rw [List.flatten_append, h1] at hCf
        exact List.append_cancel_left hCf
      · exfalso
        rw [List.flatten_append, hCf] at h1
        have := congrArg List.length h1
        simp only [List.length_append] at this
        exact hl (List.length_eq_zero_iff.1 (by omega)))
    exact ⟨B1 :: groups, by simp [h1, g1], by simp [g2]⟩

/-- **C81.** In a text without an exception, every word segment is a row of whole grapheme clusters. -/
theorem C81_words {U : Table} (D : GB.DataOk U) (DW : Word.WordDataOk U) (L : LevelsOk U) (text : List Nat)
    (hx : ∀ l b post, text = l ++ b :: post → ¬ Exception U l b) :
    ∃ groups : List (List (List Nat)), Verif.Word.segments U text = groups.map List.flatten ∧
      Verif.Grapheme.clusters U text = groups.flatten := by
  have hw := Word.C19_partition U text
  have hg := C15_partition U text
  refine groups_of_borders _ _ (by rw [hw.concat, hg.concat]) hw.nonempty hg.nonempty fun l hl h => ?_
  obtain ⟨s1, s2, h1, h2⟩ := h
  have ht : text = l ++ s2.flatten := by rw [← hw.concat, h1, List.flatten_append, h2]
  cases hs : s2.flatten with
  | nil =>
    rw [hs, List.append_nil] at ht
    exact ⟨Verif.Grapheme.clusters U text, [], by simp, by rw [hg.concat, ht]⟩
  | cons b post =>
    rw [hs] at ht
    rw [ht]
    refine C81_word_borders D DW L l b post hl (hx l b post ht) ?_
    rw [← ht]
    exact ⟨s1, s2, h1, h2⟩

/-! ## The exceptions are real -/

/-- The full claim. -/
def C81_Full : Prop := ∀ U : Table, GB.DataOk U → Word.WordDataOk U → LevelsOk U → ∀ l b post, l ≠ [] →
  SegBoundary (Verif.Word.segments U (l ++ b :: post)) l → SegBoundary (Verif.Grapheme.clusters U (l ++ b :: post)) l

theorem toy_levels : LevelsOk toy := by
  let Q : Nat → Props → Prop := fun _ p =>
    (p.gcb = .CR → p.wb = .CR) ∧ (p.gcb = .LF → p.wb = .LF) ∧
    (WBR.Newline p.wb → p.gcb = .Control ∨ p.gcb = .CR ∨ p.gcb = .LF) ∧
    (p.gcb = .L ∨ p.gcb = .V ∨ p.gcb = .T ∨ p.gcb = .LV ∨ p.gcb = .LVT → p.wb = .ALetter) ∧
    (p.gcb = .Extend ∨ p.gcb = .ZWJ ∨ p.incb = .Extend ∨ p.incb = .Linker → WBR.Transparent p.wb) ∧
    (p.gcb = .ZWJ → p.wb = .ZWJ) ∧ (p.incb = .Consonant → p.wb = .ALetter) ∧
    (p.gcb = .Regional_Indicator ↔ p.wb = .Regional_Indicator)
  have key : ∀ c, Q c (toy c) := by
    intro c
    unfold toy
    repeat' refine ite_elim (Q c) (fun _ => ?_) (fun _ => ?_)
    all_goals (simp only [Q]; decide)
  exact ⟨fun c => (key c).1, fun c => (key c).2.1, fun c => (key c).2.2.1, fun c h => Or.inl ((key c).2.2.2.1 h), fun c => (key c).2.2.2.2.1,
    fun c => (key c).2.2.2.2.2.1, fun c h => Or.inl ((key c).2.2.2.2.2.2.1 h), fun c => (key c).2.2.2.2.2.2.2⟩

/-- A Prepend and a space: one cluster, two words (by the rules of UAX #29 themselves). -/
theorem C81_fails_prepend : Verif.Word.segments toy [0x600, 0x20] = [[0x600], [0x20]] ∧
    Verif.Grapheme.clusters toy [0x600, 0x20] = [[0x600, 0x20]] := by decide

/-- A flag behind a mark behind a flag half: the clusters are the half with its mark and the flag, the words are the two halves in front and the
last half. -/
theorem C81_fails_flags : Verif.Word.segments toy [0x1F1E6, 0x301, 0x1F1E6, 0x1F1E7] = [[0x1F1E6, 0x301, 0x1F1E6], [0x1F1E7]] ∧
    Verif.Grapheme.clusters toy [0x1F1E6, 0x301, 0x1F1E6, 0x1F1E7] = [[0x1F1E6, 0x301], [0x1F1E6, 0x1F1E7]] := by decide

/-- U+0E33 THAI CHARACTER SARA AM is a SpacingMark for clusters, and no letter or mark for words. -/
def thai : Table := fun c => if c = 0xE33 then { gcb := .SpacingMark } else if c = 0xE01 then {} else toy c

theorem C81_fails_spacing : Verif.Word.segments thai [0xE01, 0xE33] = [[0xE01], [0xE33]] ∧
    Verif.Grapheme.clusters thai [0xE01, 0xE33] = [[0xE01, 0xE33]] := by decide

theorem C81_fails : ¬ C81_Full := by
  intro h
  have := h toy toy_ok Word.toy_word_ok toy_levels [0x600] 0x20 [] (by simp) ⟨[[0x600]], [[0x20]], C81_fails_prepend.1, rfl⟩
  obtain ⟨s1, s2, h1, h2⟩ := this
  rw [show [0x600] ++ 0x20 :: [] = [0x600, 0x20] from rfl, C81_fails_prepend.2] at h1
  cases s1 with
  | nil => simp at h2
  | cons x s1 =>
    simp only [List.cons_append, List.cons.injEq] at h1
    rw [← h1.1] at h2
    simp at h2

/-- Non-vacuity: letters with marks, an emoji sequence, a flag and a line end. -/
example : Verif.Word.segments toy [0x61, 0x301, 0x62, 0x1F600, 0x200D, 0x1F600, 0x1F1E6, 0x1F1E7, 0x0D, 0x0A] =
    [[[0x61, 0x301], [0x62]], [[0x1F600, 0x200D, 0x1F600]], [[0x1F1E6, 0x1F1E7]], [[0x0D, 0x0A]]].map List.flatten ∧
    Verif.Grapheme.clusters toy [0x61, 0x301, 0x62, 0x1F600, 0x200D, 0x1F600, 0x1F1E6, 0x1F1E7, 0x0D, 0x0A] =
    [[[0x61, 0x301], [0x62]], [[0x1F600, 0x200D, 0x1F600]], [[0x1F1E6, 0x1F1E7]], [[0x0D, 0x0A]]].flatten := by decide

end Verif.Props.Levels
