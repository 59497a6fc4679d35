import Verif.Model.Run
import Verif.Props.Script
import Verif.Props.Emoji

/-! Property C25: run segmentation. -/

namespace Verif.Props.Run
open Verif.Run Verif.Spec

variable {α β : Type}

/-! ## Specification -/

/-- `rs` is the common refinement of the segmentations `ra` and `rb` of a text of length `n`. -/
structure CommonRefinement (n : Nat) (ra : List (α × Nat)) (rb : List (β × Nat)) (rs : List (Range α β)) : Prop where
  /-- consecutive, non-empty, covering -/
  covers : Covers (rs.map (·.stop)) n
  /-- every range starts where the one before it stopped, the first one at 0 -/
  starts : rs.map (·.start) = (0 :: rs.map (·.stop)).dropLast
  /-- borders are exactly the borders of one or the other segmentation -/
  borders : ∀ p, p ∈ rs.map (·.stop) ↔ p ∈ ra.map Prod.snd ∨ p ∈ rb.map Prod.snd
  /-- each position has the properties of the two segments it lies in -/
  props : ∀ r ∈ rs, ∀ i, r.start ≤ i → i < r.stop →
    labelAt ra i = some r.props.1 ∧ labelAt rb i = some r.props.2

/-! ## Proof -/

/-- What a component still has to contribute behind `last`. -/
def pending (last : Nat) (c : Comp α) : List (α × Nat) := if c.pos > last then (c.prop, c.pos) :: c.rest else c.rest

/-- End offsets increase, start behind `last` and end at `n`. -/
def Ok (last n : Nat) (l : List (α × Nat)) : Prop := CoversFrom last (l.map Prod.snd) n

theorem Ok.head {last n : Nat} {l : List (α × Nat)} (h : Ok last n l) (hn : last < n) :
    ∃ x e t, l = (x, e) :: t ∧ last < e ∧ Ok e n t := by
  cases l with
  | nil => unfold Ok at h; cases h; omega
  | cons x t =>
    obtain ⟨x, e⟩ := x
    unfold Ok at h
    cases h with
    | cons h1 h2 => exact ⟨x, e, t, rfl, h1, h2⟩

theorem Ok.le {last n : Nat} {l : List (α × Nat)} (h : Ok last n l) : last ≤ n := by
  unfold Ok at h
  generalize l.map Prod.snd = m at h
  induction h with
  | nil => omega
  | cons h1 _ ih => omega

theorem consumeUntil_pending {last n : Nat} {c : Comp α} (h : Ok last n (pending last c)) (hn : last < n)
    (hp : c.pos ≤ last ∨ c.pos > last) (hs : c.pos > last ∨ c.pos < n) :
    ∃ x e t, pending last c = (x, e) :: t ∧ consumeUntil last n c = ⟨e, x, t⟩ ∧ last < e ∧ Ok e n t := by
  obtain ⟨x, e, t, h1, h2, h3⟩ := h.head hn
  refine ⟨x, e, t, h1, ?_, h2, h3⟩
  unfold consumeUntil
  unfold pending at h1
  by_cases hgt : c.pos > last
  · rw [if_pos hgt] at h1 ⊢
    simp at h1
    obtain ⟨⟨rfl, rfl⟩, rfl⟩ := h1
    rfl
  · rw [if_neg hgt] at h1 ⊢
    rw [if_neg (by omega), h1]
    simp [advance, h2]

/-- The ranges as a merge of the two pending lists. -/
def merge : Nat → Nat → List (α × Nat) → List (β × Nat) → List (Range α β)
  | 0, _, _, _ => []
  | k + 1, last, (x, e) :: t, (y, f) :: u =>
    ⟨last, min e f, (x, y)⟩ ::
      merge k (min e f) (if e > min e f then (x, e) :: t else t) (if f > min e f then (y, f) :: u else u)
  | _ + 1, _, _, _ => []

theorem runsLoop_merge (k : Nat) (s : St α β) (hc : s.candEnd = s.last)
    (ha : Ok s.last s.size (pending s.last s.a)) (hb : Ok s.last s.size (pending s.last s.b))
    (hsa : s.a.pos > s.last ∨ s.a.pos < s.size ∨ s.last ≥ s.size)
    (hsb : s.b.pos > s.last ∨ s.b.pos < s.size ∨ s.last ≥ s.size) :
    runsLoop k s = merge k s.last (pending s.last s.a) (pending s.last s.b) := by
  induction k generalizing s with
  | zero => rfl
  | succ k ih =>
    by_cases hn : s.last < s.size
    · obtain ⟨x, e, t, h1, h2, h3, h4⟩ := consumeUntil_pending ha hn (by omega) (by omega)
      obtain ⟨y, f, u, g1, g2, g3, g4⟩ := consumeUntil_pending hb hn (by omega) (by omega)
      have hle1 := h4.le
      have hle2 := g4.le
      rw [h1, g1]
      have hnn : ¬ s.last ≥ s.size := by omega
      simp only [runsLoop, consume, if_neg hnn, report, moved, merge, h2, g2, hc]
      congr 1
      have pa : pending (min e f) (⟨e, x, t⟩ : Comp α) = if e > min e f then (x, e) :: t else t := rfl
      have pb : pending (min e f) (⟨f, y, u⟩ : Comp β) = if f > min e f then (y, f) :: u else u := rfl
      rw [← pa, ← pb]
      refine ih ⟨min e f, min e f, ⟨e, x, t⟩, ⟨f, y, u⟩, s.size⟩ rfl ?_ ?_ ?_ ?_
      · simp only [pa]
        split
        · exact .cons (by omega) h4
        · rwa [show min e f = e by omega]
      · simp only [pb]
        split
        · exact .cons (by omega) g4
        · rwa [show min e f = f by omega]
      · simp only; omega
      · simp only; omega
    · have hla := ha.le
      have e1 : pending s.last s.a = [] := by
        cases hp : pending s.last s.a with
        | nil => rfl
        | cons x t =>
          rw [hp] at ha
          unfold Ok at ha
          cases ha with
          | cons h1 h2 => have := Ok.le (l := t) h2; omega
      rw [e1]
      simp only [runsLoop, consume]
      rw [if_pos (by omega)]
      rfl

theorem labelAt_cons_lt {x : α} {e i : Nat} {t : List (α × Nat)} (h : i < e) : labelAt ((x, e) :: t) i = some x := by
  simp [labelAt, h]

theorem labelAt_cons_ge {x : α} {e i : Nat} {t : List (α × Nat)} (h : e ≤ i) : labelAt ((x, e) :: t) i = labelAt t i := by
  simp [labelAt, show ¬ i < e by omega]

theorem Ok.mem_gt {last n : Nat} {l : List (α × Nat)} (h : Ok last n l) {p : Nat} (hp : p ∈ l.map Prod.snd) : last < p := by
  unfold Ok at h
  exact (List.pairwise_cons.1 h.pairwise).1 p hp

theorem merge_spec (k last n : Nat) (ra : List (α × Nat)) (rb : List (β × Nat)) (ha : Ok last n ra) (hb : Ok last n rb)
    (hk : n - last ≤ k) :
    CoversFrom last ((merge k last ra rb).map (·.stop)) n ∧
    (merge k last ra rb).map (·.start) = (last :: (merge k last ra rb).map (·.stop)).dropLast ∧
    (∀ p, p ∈ (merge k last ra rb).map (·.stop) ↔ p ∈ ra.map Prod.snd ∨ p ∈ rb.map Prod.snd) ∧
    (∀ r ∈ merge k last ra rb, last ≤ r.start ∧ ∀ i, r.start ≤ i → i < r.stop →
      labelAt ra i = some r.props.1 ∧ labelAt rb i = some r.props.2) := by
  induction k generalizing last ra rb with
  | zero =>
    have := ha.le
    have hl : last = n := by omega
    subst hl
    have e1 : ra = [] := by
      cases ra with
      | nil => rfl
      | cons x t => unfold Ok at ha; cases ha with | cons h1 h2 => have := Ok.le (l := t) h2; omega
    have e2 : rb = [] := by
      cases rb with
      | nil => rfl
      | cons x t => unfold Ok at hb; cases hb with | cons h1 h2 => have := Ok.le (l := t) h2; omega
    subst e1; subst e2
    exact ⟨.nil _, by simp [merge], by simp [merge], by simp [merge]⟩
  | succ k ih =>
    by_cases hn : last < n
    · obtain ⟨x, e, t, rfl, h2, h3⟩ := ha.head hn
      obtain ⟨y, f, u, rfl, g2, g3⟩ := hb.head hn
      have hle1 := h3.le
      have hle2 := g3.le
      have hA : Ok (min e f) n (if e > min e f then (x, e) :: t else t) := by
        split
        · exact .cons (by omega) h3
        · rwa [show min e f = e by omega]
      have hB : Ok (min e f) n (if f > min e f then (y, f) :: u else u) := by
        split
        · exact .cons (by omega) g3
        · rwa [show min e f = f by omega]
      obtain ⟨i1, i2, i3, i4⟩ := ih (min e f) _ _ hA hB (by omega)
      simp only [merge, List.map_cons]
      refine ⟨.cons (by omega) i1, ?_, ?_, ?_⟩
      · rw [i2]; rfl
      · intro p
        rw [List.mem_cons, i3]
        have ma : p ∈ (if e > min e f then (x, e) :: t else t).map Prod.snd → p ∈ e :: t.map Prod.snd := by
          split <;> simp <;> tauto
        have mb : p ∈ (if f > min e f then (y, f) :: u else u).map Prod.snd → p ∈ f :: u.map Prod.snd := by
          split <;> simp <;> tauto
        constructor
        · rintro (rfl | h | h)
          · rcases Nat.le_total e f with h | h
            · left; simp [Nat.min_eq_left h]
            · right; simp [Nat.min_eq_right h]
          · exact Or.inl (ma h)
          · exact Or.inr (mb h)
        · rintro (h | h)
          · by_cases hp : p = min e f
            · exact Or.inl hp
            · right; left
              split
              · exact h
              · rcases List.mem_cons.1 h with rfl | h
                · omega
                · exact h
          · by_cases hp : p = min e f
            · exact Or.inl hp
            · right; right
              split
              · exact h
              · rcases List.mem_cons.1 h with rfl | h
                · omega
                · exact h
      · intro r hr
        rcases List.mem_cons.1 hr with rfl | hr
        · refine ⟨Nat.le_refl _, fun i h5 h6 => ?_⟩
          simp only at h5 h6
          exact ⟨labelAt_cons_lt (by omega), labelAt_cons_lt (by omega)⟩
        · obtain ⟨i5, i6⟩ := i4 r hr
          refine ⟨by omega, fun i h5 h6 => ?_⟩
          obtain ⟨i7, i8⟩ := i6 i h5 h6
          refine ⟨?_, ?_⟩
          · rw [← i7]
            split
            · rfl
            · rw [labelAt_cons_ge (by omega)]
          · rw [← i8]
            split
            · rfl
            · rw [labelAt_cons_ge (by omega)]
    · have := ha.le
      have hl : last = n := by omega
      subst hl
      have e1 : ra = [] := by
        cases ra with
        | nil => rfl
        | cons x t => unfold Ok at ha; cases ha with | cons h1 h2 => have := Ok.le (l := t) h2; omega
      have e2 : rb = [] := by
        cases rb with
        | nil => rfl
        | cons x t => unfold Ok at hb; cases hb with | cons h1 h2 => have := Ok.le (l := t) h2; omega
      subst e1; subst e2
      exact ⟨.nil _, by simp [merge], by simp [merge], by simp [merge]⟩

theorem coversFrom_of_covers {ends : List Nat} {n b : Nat} (h1 : (b :: ends).Pairwise (· < ·))
    (h2 : (b :: ends).getLast (by simp) = n) : CoversFrom b ends n := by
  induction ends generalizing b with
  | nil => simp at h2; subst h2; exact .nil _
  | cons e es ih =>
    refine .cons ((List.pairwise_cons.1 h1).1 e (by simp)) (ih (List.pairwise_cons.1 h1).2 ?_)
    rw [List.getLast_cons (by simp)] at h2; exact h2

/-- **C25, any two segmenters.** If the two component segmenters each cut the text into consecutive non-empty covering
segments, the run segmenter reports exactly their common refinement. -/
theorem C25_common_refinement (n : Nat) (da : α) (db : β) (ra : List (α × Nat)) (rb : List (β × Nat))
    (ha : Covers (ra.map Prod.snd) n) (hb : Covers (rb.map Prod.snd) n) :
    CommonRefinement n ra rb (runs n da db ra rb) := by
  have ha' : Ok 0 n ra := coversFrom_of_covers ha.increasing ha.complete
  have hb' : Ok 0 n rb := coversFrom_of_covers hb.increasing hb.complete
  have hm : runs n da db ra rb = merge n 0 ra rb := by
    unfold runs
    rw [runsLoop_merge n (init n da db ra rb) rfl]
    · simp [init, pending]
    · simpa [init, pending] using ha'
    · simpa [init, pending] using hb'
    · simp [init]; omega
    · simp [init]; omega
  rw [hm]
  obtain ⟨h1, h2, h3, h4⟩ := merge_spec n 0 n ra rb ha' hb' (by omega)
  exact ⟨h1.covers, h2, h3, fun r hr => (h4 r hr).2⟩

/-- **C25.** `run_segmenter` reports, for every text, the common refinement of its script segments and its emoji
presentation segments, each range with the script and the presentation of the segments it lies in. -/
theorem C25_run_segmenter {D : Verif.Script.Data} (hD : Script.StrongOk D) (cat : Nat → Int) (text : List Nat) :
    CommonRefinement text.length (Verif.Script.runs D text) (Verif.Emoji.runs (text.map cat)) (textRuns D cat text) :=
  C25_common_refinement _ _ _ _ _ (Script.C22_covers hD text) (by simpa using Emoji.C23_covers (text.map cat))

/-- **C25, termination.** After at most `length(text)` calls `consume` returns `false`: more calls report nothing. -/
theorem C25_terminates (n : Nat) (da : α) (db : β) (ra : List (α × Nat)) (rb : List (β × Nat))
    (ha : Covers (ra.map Prod.snd) n) (hb : Covers (rb.map Prod.snd) n) (fuel : Nat) (hf : n ≤ fuel) :
    runsLoop fuel (init n da db ra rb) = runs n da db ra rb := by
  have ha' : Ok 0 n ra := coversFrom_of_covers ha.increasing ha.complete
  have hb' : Ok 0 n rb := coversFrom_of_covers hb.increasing hb.complete
  have hm : ∀ k, runsLoop k (init n da db ra rb) = merge k 0 ra rb := by
    intro k
    rw [runsLoop_merge k (init n da db ra rb) rfl]
    · simp [init, pending]
    · simpa [init, pending] using ha'
    · simpa [init, pending] using hb'
    · simp [init]; omega
    · simp [init]; omega
  unfold runs
  rw [hm, hm]
  suffices ∀ k last (ra : List (α × Nat)) (rb : List (β × Nat)) k', Ok last n ra → Ok last n rb → n - last ≤ k → k ≤ k' →
      merge k' last ra rb = merge k last ra rb from this n 0 ra rb fuel ha' hb' (by omega) hf
  clear ha hb ha' hb' hm
  intro k
  induction k with
  | zero =>
    intro last ra rb k' ha hb hk _
    have := ha.le
    have e1 : ra = [] := by
      cases ra with
      | nil => rfl
      | cons x t => unfold Ok at ha; cases ha with | cons h1 h2 => have := Ok.le (l := t) h2; omega
    subst e1
    cases k' <;> simp [merge]
  | succ k ih =>
    intro last ra rb k' ha hb hk hk'
    obtain ⟨k', rfl⟩ : ∃ j, k' = j + 1 := ⟨k' - 1, by omega⟩
    by_cases hn : last < n
    · obtain ⟨x, e, t, rfl, h2, h3⟩ := ha.head hn
      obtain ⟨y, f, u, rfl, g2, g3⟩ := hb.head hn
      simp only [merge]
      have hle1 := h3.le
      have hle2 := g3.le
      rw [ih (min e f) _ _ k' ?_ ?_ (by omega) (by omega)]
      · split
        · exact .cons (by omega) h3
        · rwa [show min e f = e by omega]
      · split
        · exact .cons (by omega) g3
        · rwa [show min e f = f by omega]
    · have := ha.le
      have e1 : ra = [] := by
        cases ra with
        | nil => rfl
        | cons x t => unfold Ok at ha; cases ha with | cons h1 h2 => have := Ok.le (l := t) h2; omega
      subst e1
      simp [merge]

/-- Non-vacuity: Latin letter, two Greek letters, an emoji (Common script). -/
example : textRuns Script.toyScripts (fun c => if c = 0x1F600 then 2 else -1) [0x61, 0x3B1, 0x3B2, 0x1F600] =
    [⟨0, 1, (.sc 1, false)⟩, ⟨1, 3, (.sc 2, false)⟩, ⟨3, 4, (.sc 2, true)⟩] := by decide

end Verif.Props.Run
