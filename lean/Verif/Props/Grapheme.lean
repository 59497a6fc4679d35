import Verif.Lemmas.Grapheme
import Verif.Spec.Segments
import Verif.Spec.Toy
import Verif.Lemmas.Utf8
import Verif.Model.Utf8Grapheme

/-! Properties C14–C17: grapheme cluster segmentation. -/

namespace Verif.Props
open Verif.Ucd Verif.Grapheme Verif.Spec Verif.Spec.GB Verif.Toy

/-! ## C15 -/

theorem clustersLoop_partition (U : Table) (fuel : Nat) (text : List Nat) (h : text.length ≤ fuel) :
    Partition (clustersLoop U fuel text) text := by
  induction fuel generalizing text with
  | zero => 
    have : text = [] := List.length_eq_zero_iff.1 (by omega)
    subst this; exact ⟨rfl, by simp [clustersLoop]⟩
  | succ n ih =>
    cases text with
    | nil => exact ⟨rfl, by simp [clustersLoop]⟩
    | cons c cs =>
      have ha := extendCluster_append U (processInit U c) cs
      have hl := congrArg List.length ha
      simp at hl h
      have ih := ih (extendCluster U (processInit U c) cs).2 (by omega)
      simp only [clustersLoop, advance]
      refine ⟨?_, ?_⟩
      · simp [ih.concat, ha]
      · intro s hs
        rcases List.mem_cons.1 hs with rfl | hs
        · simp
        · exact ih.nonempty s hs

/-- **C15.** The clusters of any text are non-empty consecutive slices that concatenate to the text, for every
character data table. -/
theorem C15_partition (U : Table) (text : List Nat) : Partition (clusters U text) text :=
  clustersLoop_partition U _ text (Nat.le_refl _)

/-- **C15, termination.** `length(text)` advances suffice: granting more changes nothing, so the iteration is
over after at most that many steps; and there are at most as many clusters as codepoints. -/
theorem C15_terminates (U : Table) (text : List Nat) (fuel : Nat) (h : text.length ≤ fuel) :
    clustersLoop U fuel text = clusters U text := by
  unfold clusters
  suffices ∀ n (text : List Nat) fuel, text.length ≤ n → text.length ≤ fuel →
      clustersLoop U fuel text = clustersLoop U n text from this _ text fuel (Nat.le_refl _) h
  intro n
  induction n with
  | zero =>
    intro text fuel hn _
    have : text = [] := List.length_eq_zero_iff.1 (by omega)
    subst this; cases fuel <;> simp [clustersLoop]
  | succ n ih =>
    intro text fuel hn hf
    cases text with
    | nil => cases fuel <;> simp [clustersLoop]
    | cons c cs =>
      cases fuel with
      | zero => simp at hf
      | succ fuel =>
        have hl := congrArg List.length (extendCluster_append U (processInit U c) cs)
        simp at hl hn hf
        simp only [clustersLoop, advance]
        rw [ih _ fuel (by omega) (by omega)]

theorem C15_count_le (U : Table) (text : List Nat) : (clusters U text).length ≤ text.length := by
  have h := C15_partition U text
  have key : ∀ segs : List (List Nat), (∀ s ∈ segs, s ≠ []) → segs.length ≤ segs.flatten.length := by
    intro segs
    induction segs with
    | nil => simp
    | cons s segs ih =>
      intro hs
      have h1 := ih fun x hx => hs x (by simp [hx])
      have h2 : s.length ≠ 0 := by simpa using hs s (by simp)
      simp only [List.flatten_cons, List.length_append, List.length_cons]; omega
  simpa [h.concat] using key _ h.nonempty

example : clusters toy [0x61, 0x301, 0x0D, 0x0A, 0x1F1E6, 0x1F1E6, 0x1F1E6] =
    [[0x61, 0x301], [0x0D, 0x0A], [0x1F1E6, 0x1F1E6], [0x1F1E6]] := by decide

/-! ## C14 -/

theorem clustersLoop_boundary {U : Table} (D : DataOk U) (fuel : Nat) (c : Nat) (cs pre : List Nat)
    (hf : cs.length < fuel)
    (hc : InvC U (processInit U c) pre c) (hr : InvR U (processInit U c) pre c)
    (l : List Nat) (b : Nat) (post : List Nat) (hl : c :: cs = l ++ b :: post) (hne : l ≠ []) :
    SegBoundary (clustersLoop U fuel (c :: cs)) l ↔ BoundaryX U (pre ++ l) b := by
  induction fuel generalizing c cs pre l b post with
  | zero => omega
  | succ n ih =>
    have hap := extendCluster_append U (processInit U c) cs
    have hsp := extendCluster_spec D cs (processInit U c) pre c hc hr
    simp only [clustersLoop, advance]
    generalize (extendCluster U (processInit U c) cs).1 = t at *
    generalize (extendCluster U (processInit U c) cs).2 = r at *
    subst hap
    rw [segBoundary_cons _ _ _ hne]
    cases l with
    | nil => exact absurd rfl hne
    | cons x l =>
      simp only [List.cons_append, List.cons.injEq] at hl
      obtain ⟨rfl, hl⟩ := hl
      rcases List.append_eq_append_iff.1 hl with ⟨u, h1, h2⟩ | ⟨u, h1, h2⟩
      · -- l = t ++ u
        cases u with
        | nil =>
          simp at h1 h2
          subst h1
          have := (hsp.2 b post (by simpa using h2)).1
          simp only [List.append_assoc, List.singleton_append] at this
          simp only [this, iff_true]
          exact ⟨[], by simp, segBoundary_nil _⟩
        | cons y u =>
          simp at h2
          have h3 := hsp.2 y _ h2
          simp only [List.append_assoc, List.singleton_append] at h3
          subst h2
          have := ih y (u ++ b :: post) (pre ++ c :: t) (by simp at hf ⊢; omega) h3.2.1 h3.2.2 (y :: u) b post rfl (by simp)
          subst h1
          simp only [List.cons_append, List.append_assoc] at this ⊢
          rw [← this]
          constructor
          · rintro ⟨l', h, hs⟩
            simp at h
            subst h; exact hs
          · intro hs; exact ⟨y :: u, by simp, hs⟩
      · -- t = l ++ u
        cases u with
        | nil =>
          simp at h1 h2
          subst h1
          have := (hsp.2 b post (by simpa using h2.symm)).1
          simp only [List.append_assoc, List.singleton_append] at this
          simp only [this, iff_true]
          exact ⟨[], by simp, segBoundary_nil _⟩
        | cons y u =>
          simp at h2
          obtain ⟨rfl, h2⟩ := h2
          have h3 := hsp.1 l b u h1
          simp only [List.append_assoc, List.singleton_append] at h3
          simp only [h3, iff_false]
          rintro ⟨l', h, _⟩
          have := congrArg List.length h
          rw [h1] at this
          simp at this

/-- **C14, exactly what the code does.** For all character data satisfying `DataOk` and every text, the segmenter
puts a cluster border between `l` and `b :: post` exactly where UAX #29 does, with rules GB11 and GB12 replaced
by `gb11x` and `gb12x`. -/
theorem C14_segmenter_exact {U : Table} (D : DataOk U) (l : List Nat) (b : Nat) (post : List Nat) (hne : l ≠ []) :
    SegBoundary (clusters U (l ++ b :: post)) l ↔ BoundaryX U l b := by
  cases l with
  | nil => exact absurd rfl hne
  | cons c cs =>
    have h0 := init_first (U := U) c
    have := clustersLoop_boundary D (c :: (cs ++ b :: post)).length c (cs ++ b :: post) [] (by simp) h0.1 h0.2
      (c :: cs) b post (by simp) (by simp)
    simpa [clusters] using this

/-- **C14 (full claim).** For all well-behaved character data and every text, the segmenter puts a cluster
border between `l` and `b :: post` exactly where UAX #29 does.  Refuted by `C14_fails_prepend_flag` and
`C14_fails_double_zwj`. -/
def C14_Uax29 : Prop :=
  ∀ U, DataOk U → ∀ (l : List Nat) (b : Nat) (post : List Nat), l ≠ [] →
    (SegBoundary (clusters U (l ++ b :: post)) l ↔ BoundaryAt U l b)

theorem gb11x_eq {U : Table} (D : DataOk U) (l : List Nat) (b : Nat) (hz : NoZwjExtendZwj U l) :
    gb11x U l b ↔ gb11 U l b := by
  constructor
  · rintro ⟨h1, p, e, m, z, h2, h3, h4, h5⟩
    refine ⟨h1, ?_⟩
    have h2' : l = (p ++ e :: m) ++ [z] := by rw [h2]; simp
    rw [h2'] at hz ⊢
    refine (zwj_chain_extend D (p ++ e :: m) z hz h5).1 ⟨p, e, m ++ [z], by simp, h3, ?_⟩
    intro x hx
    rcases List.mem_append.1 hx with hx | hx
    · exact h4 x hx
    · simp at hx; rw [hx]; exact .inr h5
  · rintro ⟨h1, p, e, m, z, h2, h3, h4, h5⟩
    exact ⟨h1, p, e, m, z, h2, h3, fun x hx => .inl (h4 x hx), h5⟩

theorem gb12x_eq {U : Table} (l : List Nat) (b : Nat) (hp : NoPrependFlag U (l ++ [b])) :
    gb12x U l b ↔ gb12 U l b := by
  unfold gb12x gb12
  constructor
  · rintro ⟨h1, p, ris, h2, h3, h4, h5, ⟨⟨q, y, h6, h7⟩, h8⟩ | ⟨_, h8⟩⟩
    · exfalso
      rw [h2, h6] at hp
      match ris, h4, h8 with
      | [_], _, h8 => simp at h8
      | r :: r' :: rs, _, _ =>
        exact hp q y r r' (rs ++ [b]) (by simp) h7 (h3 r (by simp)) (h3 r' (by simp))
    · exact ⟨h1, p, ris, h2, h3, h8, h5⟩
  · rintro ⟨h1, p, ris, h2, h3, h4, h5⟩
    have hne : ris ≠ [] := by intro h; subst h; simp at h4
    refine ⟨h1, p, ris, h2, h3, hne, h5, .inr ⟨?_, h4⟩⟩
    rintro ⟨q, y, h6, h7⟩
    rw [h2, h6] at hp
    match ris, hne with
    | r :: rs, _ =>
      cases rs with
      | nil => exact hp q y r b [] (by simp) h7 (h3 r (by simp)) h1
      | cons r' rs => exact hp q y r r' (rs ++ [b]) (by simp) h7 (h3 r (by simp)) (h3 r' (by simp))

/-- **C14 (partial).** Full UAX #29 holds at every position before which no Prepend character is directly followed by
two regional indicators (counting the codepoint after the position) and no ZWJ follows a ZWJ with only Extend
characters in between (both texts are degenerate).  Nothing is required of the text after the position. -/
theorem C14_uax29_partial {U : Table} (D : DataOk U) (l : List Nat) (b : Nat) (post : List Nat) (hne : l ≠ [])
    (hz : NoZwjExtendZwj U l) (hp : NoPrependFlag U (l ++ [b])) :
    SegBoundary (clusters U (l ++ b :: post)) l ↔ BoundaryAt U l b := by
  rw [C14_segmenter_exact D l b post hne]
  have h12 := gb12x_eq l b (U := U) hp
  have h11 := gb11x_eq D l b hz
  constructor
  · rintro ⟨p, a, rfl, h⟩
    refine ⟨p, a, rfl, ?_⟩
    simpa only [Boundary, BoundaryWith, h11, h12] using h
  · rintro ⟨p, a, rfl, h⟩
    refine ⟨p, a, rfl, ?_⟩
    simpa only [Boundary, BoundaryWith, ← h11, ← h12] using h

/-- Non-vacuity: a family emoji, a flag and Hangul satisfy the hypotheses, and there is a boundary. -/
example : SegBoundary (clusters toy [0x1F600, 0x200D, 0x1F600, 0x1F1E6, 0x1F1E7, 0x1100, 0x1161])
    [0x1F600, 0x200D, 0x1F600] ∧
    ¬ SegBoundary (clusters toy [0x1F600, 0x200D, 0x1F600, 0x1F1E6, 0x1F1E7, 0x1100, 0x1161])
    [0x1F600, 0x200D] := by
  have hc : clusters toy [0x1F600, 0x200D, 0x1F600, 0x1F1E6, 0x1F1E7, 0x1100, 0x1161] =
    [[0x1F600, 0x200D, 0x1F600], [0x1F1E6, 0x1F1E7], [0x1100, 0x1161]] := by decide
  rw [hc]
  refine ⟨⟨[[0x1F600, 0x200D, 0x1F600]], _, rfl, rfl⟩, ?_⟩
  rw [segBoundary_cons _ _ _ (by simp)]
  simp

example : NoZwjExtendZwj toy [0x1F600, 0x200D, 0x1F600] := by
  intro p z m z' q h hz hm hz'
  match p, h with
  | [], h =>
    simp at h
    rw [← h.1] at hz; exact absurd hz (by decide)
  | [x], h =>
    simp at h
    match m, h.2.2 with
    | [], h => simp at h; rw [← h.1] at hz'; exact absurd hz' (by decide)
    | y :: m, h => simp at h
  | [x, y], h => simp at h
  | x :: y :: w :: p, h => simp at h

/-- The full claim is false: after a Prepend character a flag is torn apart. -/
theorem C14_fails_prepend_flag : ¬ C14_Uax29 := by
  intro h
  have h1 := (h toy toy_ok [0x600, 0x1F1E6] 0x1F1E6 [] (by simp)).1 (by
    have : clusters toy ([0x600, 0x1F1E6] ++ 0x1F1E6 :: []) = [[0x600, 0x1F1E6], [0x1F1E6]] := by decide
    rw [this]; exact ⟨[[0x600, 0x1F1E6]], _, rfl, rfl⟩)
  rw [BoundaryAt, show [0x600, 0x1F1E6] = [0x600] ++ [0x1F1E6] from rfl, at_snoc (Boundary toy)] at h1
  rcases h1.2 with h | h | h
  · revert h; unfold gb4; decide
  · revert h; unfold gb5; decide
  · apply h
    have : gb12 toy ([0x600] ++ [0x1F1E6]) 0x1F1E6 :=
      ⟨by decide, [0x600], [0x1F1E6], rfl, by decide, by decide, by
        intro q y h
        match q, h with
        | [], h => simp at h; rw [← h]; decide
        | _ :: _ :: _, h => simp at h⟩
    simp only [this, or_true]

/-- The full claim is false in a second way: two ZWJ between pictographs still join them. -/
theorem C14_fails_double_zwj : ¬ C14_Uax29 := by
  intro h
  have h1 := (h toy toy_ok [0x1F600, 0x200D, 0x200D] 0x1F600 [] (by simp)).2 (by
    rw [BoundaryAt, show [0x1F600, 0x200D, 0x200D] = [0x1F600, 0x200D] ++ [0x200D] from rfl,
      at_snoc (Boundary toy)]
    refine ⟨by unfold gb3; decide, .inr (.inr ?_)⟩
    simp only [not_or]
    refine ⟨by unfold gb6; decide, by unfold gb7; decide, by unfold gb8; decide, by unfold gb9; decide,
      by unfold gb9a; decide, by unfold gb9b; decide, ?_, ?_, ?_⟩
    · rintro ⟨h, _⟩; exact absurd h (by decide)
    · rintro ⟨_, p, e, m, z, h2, h3, h4, h5⟩
      match p, h2 with
      | [], h2 =>
        simp at h2
        match m, h2.2 with
        | [], h => simp at h
        | [x], h =>
          simp at h
          have := h4 x (by simp)
          rw [← h.1] at this; exact absurd this (by decide)
        | _ :: _ :: _, h => simp at h
      | [x], h2 =>
        simp at h2
        rw [← h2.2.1] at h3; exact absurd h3 (by decide)
      | [_, _], h2 => simp at h2
      | _ :: _ :: _ :: _, h2 => simp at h2
    · rintro ⟨h, _⟩; exact absurd h (by decide))
  have : clusters toy ([0x1F600, 0x200D, 0x200D] ++ 0x1F600 :: []) = [[0x1F600, 0x200D, 0x200D, 0x1F600]] := by
    decide
  rw [this, segBoundary_cons _ _ _ (by simp)] at h1
  simp at h1

/-! ## C16 -/

/-- the flag counter of the incremental API: only armed by a regional indicator that starts the text -/
def InvI (U : Table) (s : GState) (pre : List Nat) (a : Nat) : Prop :=
  s.riCounter = if pre = [] ∧ (U a).gcb = .Regional_Indicator then 1 else 0

theorem step_ri_zero (U : Table) (s : GState) (b : Nat) (h0 : s.riCounter = 0) :
    (processBreakable U b s).1.riCounter = 0 := by
  simp only [processBreakable, h0, ite_self]
  split
  · rfl
  split
  · rfl
  split
  · rfl
  · rfl
  · rename_i h
    exact absurd (cascade_joinFlag _ _ _ _ _ h).2.2 (by omega)

theorem invI_step {U : Table} (D : DataOk U) (s : GState) (pre : List Nat) (a b : Nat) (hc : InvC U s pre a)
    (hi : InvI U s pre a) : InvI U (processBreakable U b s).1 (pre ++ [a]) b := by
  simp only [InvI, List.append_eq_nil_iff, List.cons_ne_nil, and_false, false_and, if_false]
  by_cases hb : (U b).gcb = .Regional_Indicator
  · by_cases ha : pre = [] ∧ (U a).gcb = .Regional_Indicator
    · have h1 : s.riCounter = 1 := by rw [hi, if_pos ha]
      have hinc : (U b).incb ≠ .Consonant := fun h => (D.incb_consonant b h).2.2.2 hb
      have hnot : ¬ (a < 128 ∧ b < 128) := by
        rintro ⟨h, _⟩
        have := D.ascii_gcb a h
        simp [ha.2] at this
      simp only [processBreakable, hc.cp, hc.props]
      rw [if_neg (by simp [hb]), if_neg hnot, ha.2, hb, h1]
      have := cascade_ri_pair (U b) s.incbState s.extpicState hb hinc
      simp only [if_true, this]
    · exact step_ri_zero U s b (by rw [hi, if_neg ha])
  · exact step_ri_not s b hb

theorem incrementalFrom_exact {U : Table} (D : DataOk U) (cs : List Nat) (s : GState) (pre : List Nat) (a : Nat)
    (hc : InvC U s pre a) (hi : InvI U s pre a) (u : List Nat) (b : Nat) (post : List Nat)
    (hcs : cs = u ++ b :: post) :
    (incrementalFrom U s cs)[u.length]? = some true ↔ BoundaryInc U (pre ++ a :: u) b := by
  induction cs generalizing s pre a u with
  | nil => simp at hcs
  | cons c cs ih =>
    have hver := verdict D s pre a c hc (gb12inc U) (by
      unfold gb12inc
      constructor
      · rintro ⟨h1, h2, h3⟩
        refine ⟨h2 ▸ h1, a, ?_, h1⟩
        rw [hi] at h3
        split at h3
        · rename_i h; simp [h.1]
        · omega
      · rintro ⟨h1, a', h2, h3⟩
        have : pre = [] := by
          cases pre with
          | nil => rfl
          | cons x p => simp at h2
        subst this
        simp at h2
        subst h2
        exact ⟨h3, by rw [h3, h1], by rw [hi]; simp [h3]⟩)
    cases u with
    | nil =>
      simp at hcs
      simp only [incrementalFrom, hcs.1] at hver ⊢
      simp only [List.length_nil, List.getElem?_cons_zero, Option.some.injEq]
      rw [hver, BoundaryInc, at_snoc (BoundaryWith U (gb11x U) (gb12inc U))]
    | cons x u =>
      simp at hcs
      have := ih (processBreakable U c s).1 (pre ++ [a]) c (step_core D s pre a c hc) (invI_step D s pre a c hc hi)
        u hcs.2
      simp only [incrementalFrom, List.length_cons, List.getElem?_cons_succ]
      rw [this, hcs.1]; simp

theorem incrementalFrom_length (U : Table) (s : GState) (cs : List Nat) :
    (incrementalFrom U s cs).length = cs.length := by
  induction cs generalizing s with
  | nil => rfl
  | cons c cs ih => simp [incrementalFrom, ih]

/-- **C16, exactly what the incremental API reports.** It gives one verdict per codepoint after the first, and the
verdict for `b` after the text `l` is a break exactly at the boundaries `BoundaryInc`: the segmenter's rules
except that only the first two codepoints of the text can form a flag. -/
theorem C16_incremental_exact {U : Table} (D : DataOk U) (l : List Nat) (b : Nat) (post : List Nat) (hne : l ≠ []) :
    (incremental U (l ++ b :: post)).length = (l ++ post).length ∧
    ((incremental U (l ++ b :: post))[l.length - 1]? = some true ↔ BoundaryInc U l b) := by
  cases l with
  | nil => exact absurd rfl hne
  | cons c cs =>
    have h0 := init_first (U := U) c
    refine ⟨by simp [incremental, incrementalFrom_length]; omega, ?_⟩
    have := incrementalFrom_exact D (cs ++ b :: post) (processInit U c) [] c h0.1
      (by simp [InvI, processInit]) cs b post rfl
    simpa [incremental] using this

/-- **C16, a default-constructed state.** Without `grapheme_process_init`, a new state reports what it would report if the text had `U+0000` in front:
one verdict per codepoint, the ones of `C16_incremental_exact` for that text. -/
theorem C16_default {U : Table} (D : DataOk U) (text : List Nat) : incrementalFrom U (GState.default U) text = incremental U (0 :: text) := by
  have : GState.default U = processInit U 0 := by
    have h1 : ¬ (U 0).gcb = .Regional_Indicator := by
      intro h; rcases D.ascii_gcb 0 (by decide) with e | e | e | e <;> rw [h] at e <;> cases e
    have h2 : ¬ (U 0).incb = .Consonant := by rw [D.ascii_incb 0 (by decide)]; nofun
    have h3 := D.ascii_extpict 0 (by decide)
    simp [GState.default, processInit, h1, h2, h3]
  rw [this]
  rfl

/-- With a default-constructed state even the first flag is torn apart. -/
example : incrementalFrom toy (GState.default toy) [0x1F1E6, 0x1F1E7] = [true, true] ∧ incremental toy [0x1F1E6, 0x1F1E7] = [false] := by decide

/-- **C16 (full claim).** The incremental API reports a break exactly at the segmenter's cluster borders. -/
def C16_Agrees : Prop :=
  ∀ U, DataOk U → ∀ (l : List Nat) (b : Nat) (post : List Nat), l ≠ [] →
    ((incremental U (l ++ b :: post))[l.length - 1]? = some true ↔ SegBoundary (clusters U (l ++ b :: post)) l)

/-- **C16 (partial).** It does at every position that is not between two regional indicators — whatever the rest of
the text is. -/
theorem C16_agrees_partial {U : Table} (D : DataOk U) (l : List Nat) (b : Nat) (post : List Nat) (hne : l ≠ [])
    (hf : ∀ p a, l = p ++ [a] → (U a).gcb = .Regional_Indicator → (U b).gcb ≠ .Regional_Indicator) :
    (incremental U (l ++ b :: post))[l.length - 1]? = some true ↔ SegBoundary (clusters U (l ++ b :: post)) l := by
  rw [(C16_incremental_exact D l b post hne).2, C14_segmenter_exact D l b post hne]
  have key : ∀ p a, l = p ++ [a] → ¬ gb12x U (p ++ [a]) b ∧ ¬ gb12inc U (p ++ [a]) b := by
    intro p a h
    have hab := hf p a h
    constructor
    · rintro ⟨h1, p', ris, h2, h3, h4, _⟩
      refine hab (h3 a ?_) h1
      cases ris using List.reverseRecOn with
      | nil => exact absurd rfl h4
      | append_singleton r x =>
        rw [← List.append_assoc] at h2
        have := List.append_inj' h2 rfl
        simp at this
        simp [this.2]
    · rintro ⟨h1, a', h2, h3⟩
      cases p with
      | nil => simp at h2; exact hab (h2 ▸ h3) h1
      | cons x p => simp at h2
  constructor
  · rintro ⟨p, a, hl, h⟩
    have := key p a hl
    exact ⟨p, a, hl, by simpa only [BoundaryWith, this.1, this.2] using h⟩
  · rintro ⟨p, a, hl, h⟩
    have := key p a hl
    exact ⟨p, a, hl, by simpa only [BoundaryWith, this.1, this.2] using h⟩

example : incremental toy [0x61, 0x301, 0x1F600, 0x200D, 0x1F600, 0x1F1E6] = [false, true, false, false, true] := by
  decide

/-- The full claim is false: the second of two consecutive flags is torn apart … -/
theorem C16_fails : ¬ C16_Agrees := by
  intro h
  have h1 := (h toy toy_ok [0x61, 0x1F1E6] 0x1F1E7 [] (by simp)).1 (by decide)
  have : clusters toy ([0x61, 0x1F1E6] ++ 0x1F1E7 :: []) = [[0x61], [0x1F1E6, 0x1F1E7]] := by decide
  rw [this, segBoundary_cons _ _ _ (by simp)] at h1
  obtain ⟨l', h1, h2⟩ := h1
  simp at h1
  subst h1
  rw [segBoundary_cons _ _ _ (by simp)] at h2
  simp at h2

/-- … as is every flag but the first of a flag sequence. -/
example : incremental toy [0x1F1E6, 0x1F1E7, 0x1F1E6, 0x1F1E7] = [false, true, true] := by decide

/-! ## C17 -/

section C17
open Verif.Utf8 Verif.Utf8Grapheme

/-- Independent description of the codepoints `utf8_grapheme_segmenter` sees, in terms of the results of the
incremental decoder: U+FFFD for every `Invalid`, and one U+0000 if the text ends inside a sequence. -/
def seenCodepoints : List Result → List Nat
  | [] => []
  | .success v :: rs => v :: seenCodepoints rs
  | .invalid :: rs => 0xFFFD :: seenCodepoints rs
  | [.incomplete] => [0]
  | .incomplete :: r :: rs => seenCodepoints (r :: rs)

theorem seen_decodeNext (s : DecState) (b : Nat) (bs : List Nat) :
    seenCodepoints (feed s (b :: bs)).2 =
      (decodeNext s (b :: bs)).2.2 ::
        seenCodepoints (feed (decodeNext s (b :: bs)).1 (decodeNext s (b :: bs)).2.1).2 := by
  induction bs generalizing s b with
  | nil =>
    simp only [feed, decodeNext]
    cases h : fromUtf8 s b with
    | mk s' r => cases r <;> simp [seenCodepoints, feed, decodeNext]
  | cons b' bs ih =>
    rw [feed, decodeNext]
    cases h : fromUtf8 s b with
    | mk s' r =>
      cases r with
      | success v => simp [seenCodepoints]
      | invalid => simp [seenCodepoints]
      | incomplete =>
        simp only
        rw [← ih s' b']
        simp [feed, seenCodepoints]

theorem seen_length (rs : List Result) : (seenCodepoints rs).length ≤ rs.length := by
  induction rs using seenCodepoints.induct <;> simp_all [seenCodepoints]
  omega

theorem feed_length (s : DecState) (bs : List Nat) : (feed s bs).2.length = bs.length := by
  induction bs generalizing s with
  | nil => rfl
  | cons b bs ih => simp [feed, ih]

/-- codepoints not yet put into a cluster -/
def remaining (it : Iter) : List Nat :=
  if it.nextCodepointStart.length = 0 then []
  else it.nextCodepoint :: seenCodepoints (feed it.dec it.nextUtf8).2

theorem remaining_consume (it : Iter) :
    remaining (consumeCodepoint it).1 = seenCodepoints (feed it.dec it.nextUtf8).2 := by
  unfold remaining consumeCodepoint
  simp only
  cases h : it.nextUtf8 with
  | nil => simp [feed, seenCodepoints]
  | cons b bs =>
    rw [if_neg (by simp)]
    exact (seen_decodeNext _ _ _).symm

theorem clusterLoop_spec (U : Table) (fuel : Nat) (g : GState) (it : Iter) (hf : (remaining it).length ≤ fuel) :
    (clusterLoop U fuel g it).cluster = it.cluster ++ (extendCluster U g (remaining it)).1 ∧
    remaining (clusterLoop U fuel g it) = (extendCluster U g (remaining it)).2 ∧
    (clusterLoop U fuel g it).clusterStart = it.clusterStart := by
  induction fuel generalizing g it with
  | zero =>
    have : remaining it = [] := List.length_eq_zero_iff.1 (by omega)
    simp [clusterLoop, this, extendCluster]
  | succ n ih =>
    simp only [clusterLoop]
    by_cases h0 : it.nextCodepointStart.length = 0
    · have : remaining it = [] := by simp [remaining, h0]
      simp [h0, this, extendCluster]
    · rw [if_neg h0]
      have hrem : remaining it = it.nextCodepoint :: seenCodepoints (feed it.dec it.nextUtf8).2 := by
        rw [remaining, if_neg h0]
      rw [hrem] at hf ⊢
      simp only [extendCluster]
      cases hv : processBreakable U it.nextCodepoint g with
      | mk g' v =>
        cases v with
        | true => simp [hrem]
        | false =>
          simp only
          have hr := remaining_consume it
          have := ih g' { (consumeCodepoint it).1 with
            cluster := (consumeCodepoint it).1.cluster ++ [(consumeCodepoint it).2] } (by
              rw [show remaining { (consumeCodepoint it).1 with
                cluster := (consumeCodepoint it).1.cluster ++ [(consumeCodepoint it).2] } =
                  remaining (consumeCodepoint it).1 from rfl, hr]
              simp at hf; exact hf)
          rw [show remaining { (consumeCodepoint it).1 with
                cluster := (consumeCodepoint it).1.cluster ++ [(consumeCodepoint it).2] } =
                  remaining (consumeCodepoint it).1 from rfl, hr] at this
          refine ⟨?_, this.2.1, this.2.2⟩
          rw [this.1]
          simp [consumeCodepoint]

theorem consumeGraphemeCluster_spec (U : Table) (it : Iter) :
    ((consumeGraphemeCluster U it).clusterStart.length = 0 ↔ remaining it = []) ∧
    (consumeGraphemeCluster U it).cluster = (advance U (remaining it)).1 ∧
    remaining (consumeGraphemeCluster U it) = (advance U (remaining it)).2 := by
  unfold consumeGraphemeCluster
  simp only
  by_cases h0 : it.nextCodepointStart.length = 0
  · have : remaining it = [] := by simp [remaining, h0]
    simp only [h0, if_true, this, advance]
    refine ⟨by simp, trivial, ?_⟩
    rw [remaining, if_pos h0]
  · rw [if_neg h0]
    have hrem : remaining it = it.nextCodepoint :: seenCodepoints (feed it.dec it.nextUtf8).2 := by
      rw [remaining, if_neg h0]
    have hr : ∀ (cl : List Nat), remaining { (consumeCodepoint
        { it with clusterStart := it.nextCodepointStart, cluster := [] }).1 with cluster := cl } =
        seenCodepoints (feed it.dec it.nextUtf8).2 := fun cl => remaining_consume it
    have := clusterLoop_spec U (it.nextUtf8.length + 1) (processInit U it.nextCodepoint)
      { (consumeCodepoint { it with clusterStart := it.nextCodepointStart, cluster := [] }).1 with
        cluster := [it.nextCodepoint] } (by
          rw [hr]
          have h1 := seen_length (feed it.dec it.nextUtf8).2
          rw [feed_length] at h1
          omega)
    rw [hr] at this
    rw [hrem]
    simp only [advance]
    refine ⟨?_, this.1, this.2.1⟩
    have h3 := this.2.2
    simp only [consumeCodepoint, List.nil_append] at h3 ⊢
    rw [h3]
    simp only [h0, false_iff]
    simp

theorem iterate_spec (U : Table) (fuel : Nat) (it : Iter) :
    iterate U fuel (consumeGraphemeCluster U it) = clustersLoop U fuel (remaining it) := by
  induction fuel generalizing it with
  | zero => rfl
  | succ n ih =>
    obtain ⟨h1, h2, h3⟩ := consumeGraphemeCluster_spec U it
    rw [iterate]
    by_cases h0 : (consumeGraphemeCluster U it).clusterStart.length = 0
    · rw [if_pos h0, h1.1 h0, clustersLoop]
    · rw [if_neg h0, ih, h2, h3]
      cases hr : remaining it with
      | nil => exact absurd (h1.2 hr) h0
      | cons c cs => rfl

/-- **C17, arbitrary bytes.** For every byte string, valid or not, iterating `utf8_grapheme_segmenter` yields
exactly the clusters of the codepoints the incremental decoder reports. -/
theorem C17_any_bytes (U : Table) (bytes : List Nat) :
    segment U bytes = clusters U (seenCodepoints (feed {} bytes).2) := by
  unfold segment Iter.mk'
  cases bytes with
  | nil => rfl
  | cons b bs =>
    rw [if_pos (by simp), iterate_spec]
    have hr : remaining (consumeCodepoint
        { clusterStart := b :: bs, nextCodepointStart := b :: bs, nextUtf8 := b :: bs }).1 =
        seenCodepoints (feed {} (b :: bs)).2 := remaining_consume _
    rw [hr, C15_terminates]
    have h1 := seen_length (feed {} (b :: bs)).2
    rw [feed_length] at h1
    omega

theorem seen_replicate (n : Nat) (r : Result) (rs : List Result) :
    seenCodepoints (List.replicate n .incomplete ++ r :: rs) = seenCodepoints (r :: rs) := by
  induction n with
  | zero => rfl
  | succ n ih =>
    cases n with
    | zero => rfl
    | succ n =>
      rw [← ih]; simp only [List.replicate_succ, List.cons_append, seenCodepoints]

theorem seen_encoded (cs : List Nat) (hc : ∀ c ∈ cs, c ≤ 0x1FFFFF) (s : DecState) (hs : s.expectedLength = 0) :
    seenCodepoints (feed s (cs.flatMap toUtf8)).2 = cs := by
  induction cs generalizing s with
  | nil => rfl
  | cons c cs ih =>
    obtain ⟨h1, h2, h3⟩ := feed_toUtf8 s hs c (hc c (by simp))
    rw [List.flatMap_cons, feed_append]
    simp only [h1, List.append_assoc, List.singleton_append]
    rw [seen_replicate, seenCodepoints, ih (fun c h => hc c (by simp [h])) _ h2]

/-- **C17.** On the UTF-8 form of a text, `utf8_grapheme_segmenter` yields exactly the grapheme clusters of the
text. -/
theorem C17_utf8_clusters (U : Table) (cs : List Nat) (hc : ∀ c ∈ cs, c ≤ 0x1FFFFF) :
    segment U (toUtf8Str cs) = clusters U cs := by
  rw [C17_any_bytes, toUtf8Str_eq, seen_encoded cs hc {} rfl]

/-- … hence they concatenate to the text. -/
theorem C17_utf8_concat (U : Table) (cs : List Nat) (hc : ∀ c ∈ cs, c ≤ 0x1FFFFF) :
    (segment U (toUtf8Str cs)).flatten = cs := by
  rw [C17_utf8_clusters U cs hc]; exact (C15_partition U cs).concat

example : segment toy (toUtf8Str [0x1F600, 0x200D, 0x1F600, 0x61]) = [[0x1F600, 0x200D, 0x1F600], [0x61]] := by
  decide

/-- Observation: a text cut inside a sequence yields a spurious U+0000. -/
example : segment toy [0x61, 0xE2, 0x82] = [[0x61], [0]] := by decide

end C17

end Verif.Props
