import Verif.Props.TextPrefix
import Verif.Props.Width
/-!
# C84 Pieces cut out at borders are segmented the same on their own
-/

namespace Verif.Props.Pieces
open Verif.Ucd Verif.Spec Verif.Toy Verif.Props.TextLines Verif.Props.TextPrefix

section Graphemes
open Verif.Grapheme

theorem cut_cluster (U : Table) (b : List Nat) : ∀ (t : List Nat) (s : GState),
    extendCluster U s (t ++ b) = (t, b) → extendCluster U s t = (t, []) := by
  intro t
  induction t with
  | nil => intro s _; rfl
  | cons c t ih =>
    intro s h
    simp only [List.cons_append, extendCluster] at h ⊢
    cases hv : processBreakable U c s with
    | mk s' v =>
      rw [hv] at h
      cases v with
      | true => simp at h
      | false =>
        simp only [Prod.mk.injEq, List.cons.injEq, true_and] at h
        have := ih s' (Prod.ext h.1 h.2)
        simp only [this]

/-- Cutting at a border between clusters. -/
theorem split_clusters (U : Table) : ∀ (cs : List (List Nat)) (text : List Nat) (ds : List (List Nat)), clusters U text = cs ++ ds →
    clusters U cs.flatten = cs ∧ clusters U ds.flatten = ds := by
  intro cs
  induction cs with
  | nil =>
    intro text ds h
    refine ⟨rfl, ?_⟩
    rw [List.nil_append] at h
    rw [← h, (C15_partition U text).concat]
  | cons y ys ih =>
    intro text ds h
    cases text with
    | nil => exact absurd (congrArg List.length h) (by simp [clusters, clustersLoop])
    | cons x t =>
      rw [clusters_cons, List.cons_append, List.cons.injEq] at h
      obtain ⟨h1, h2⟩ := ih _ ds h.2
      refine ⟨?_, h2⟩
      have happ := extendCluster_append U (processInit U x) t
      have hp := (C15_partition U (extendCluster U (processInit U x) t).2).concat
      rw [h.2, List.flatten_append] at hp
      have hcut : extendCluster U (processInit U x) (((extendCluster U (processInit U x) t).1 ++ ys.flatten) ++ ds.flatten) =
          ((extendCluster U (processInit U x) t).1, ys.flatten ++ ds.flatten) := by
        rw [List.append_assoc, hp, happ]
      rw [← h.1, List.flatten_cons, List.cons_append, clusters_cons]
      have h3 : extendCluster U (processInit U x) ((extendCluster U (processInit U x) t).1 ++ ys.flatten) =
          ((extendCluster U (processInit U x) t).1, ys.flatten) := by
        cases ys with
        | nil =>
          simp only [List.flatten_nil, List.append_nil, List.nil_append] at hcut ⊢
          exact cut_cluster U _ _ _ hcut
        | cons z zs =>
          obtain ⟨m1, m2⟩ := extend_more U ds.flatten ((extendCluster U (processInit U x) t).1 ++ (z :: zs).flatten) (processInit U x)
          by_cases hr : (extendCluster U (processInit U x) ((extendCluster U (processInit U x) t).1 ++ (z :: zs).flatten)).2 = []
          · obtain ⟨e, q, he⟩ := m2 hr
            rw [hcut, Prod.mk.injEq] at he
            have hh := extendCluster_append U (processInit U x) ((extendCluster U (processInit U x) t).1 ++ (z :: zs).flatten)
            rw [hr, List.append_nil] at hh
            have hl := congrArg List.length he.1
            rw [List.length_append, hh, List.length_append] at hl
            have hz : (z :: zs).flatten = [] := List.length_eq_zero_iff.1 (by omega)
            rw [hz] at h1
            exact absurd (congrArg List.length h1) (by simp [clusters, clustersLoop])
          · have := m1 hr
            rw [hcut, Prod.mk.injEq] at this
            exact Prod.ext this.1.symm (List.append_cancel_right this.2.symm)
      rw [h3]
      simp only [h1]

/-- **C84, grapheme clusters.** The clusters of a piece of a text that begins and ends between two clusters, or at an end of the text, are the
clusters the text has there. -/
theorem C84_graphemes (U : Table) (text : List Nat) (pre mid post : List (List Nat)) (h : clusters U text = pre ++ mid ++ post) :
    clusters U mid.flatten = mid := by
  rw [List.append_assoc] at h
  exact (split_clusters U mid _ post (split_clusters U pre text _ h).2).1

end Graphemes

section Words
open Verif.Word Verif.Props.Word

/-- `b` is where a scan through characters that are ignored ends. -/
theorem skip_ignored {U : Table} (D : WordDataOk U) (b : List Nat) : ∀ (t : List Nat) (s : WState), peekNext U t = none → isNewlineClass s.rawPrev = false →
    (extendSegment U s (t ++ b)).2 = (t, b) → ∃ s', s'.prev = s.prev ∧ s'.prevPrev = s.prevPrev ∧ isNewlineClass s'.rawPrev = false ∧
      (extendSegment U s' b).2 = ([], b) := by
  intro t
  induction t with
  | nil => intro s _ hn h; exact ⟨s, rfl, rfl, hn, h⟩
  | cons c t ih =>
    intro s h hs hcut
    simp only [peekNext] at h
    have ht : isTransparent (U c).wb = true := by
      by_contra hh
      rw [if_pos (by simpa using hh)] at h
      exact absurd h (by simp)
    rw [if_neg (by simp [ht])] at h
    have hn : isNewlineClass (U c).wb = false := by
      cases hn : isNewlineClass (U c).wb
      · rfl
      · rw [newline_not_transparent hn] at ht; simp at ht
    have he : (U c).isExtPict = false := D c (by revert ht; cases (U c).wb <;> simp [isTransparent, WBR.Transparent])
    have hlf : (U c).wb ≠ .LF := by intro hh; rw [hh] at ht; exact absurd ht (by decide)
    have hv : Word.processBreakable U c (t ++ b) s = ({ s with rawPrev := (U c).wb, sawTransparent := true }, false) := by
      unfold Word.processBreakable
      simp [hs, hn, ht, he, hlf]
    simp only [List.cons_append, extendSegment, hv, Prod.mk.injEq, List.cons.injEq, true_and] at hcut
    obtain ⟨s', h1, h2, h3, h4⟩ := ih _ h (by exact hn) (Prod.ext hcut.1 hcut.2)
    exact ⟨s', h1, h2, h3, h4⟩

theorem peek_append (U : Table) (b : List Nat) : ∀ (t : List Nat), peekNext U t = none → peekNext U (t ++ b) = peekNext U b := by
  intro t
  induction t with
  | nil => intro _; rfl
  | cons c t ih =>
    intro h
    simp only [List.cons_append, peekNext] at h ⊢
    split at h
    · simp at h
    · rw [if_neg (by assumption)]; exact ih h

/-- A join that needs the letter behind is followed by a join with that letter. -/
theorem join_again {s s' : WState} {B n : WB} (h : joins s B none = false) (h2 : joins s B (some n) = true) (h3 : s'.prev = B) (h4 : s'.prevPrev = s.prev)
    (m : Option WB) : joins s' n m = true := by
  have key : (isAHLetter s.prev && isMidLetterLike B && isAHLetter n) = true ∨ (s.prev = .Hebrew_Letter && B = .Double_Quote && n = .Hebrew_Letter) = true ∨
      (s.prev = .Numeric && isMidNumLike B && n = .Numeric) = true := by
    by_contra hc
    rw [not_or, not_or] at hc
    obtain ⟨c1, c2, c3⟩ := hc
    simp only [Bool.not_eq_true] at c1 c2 c3
    have : joins s B (some n) = joins s B none := by
      unfold joins
      simp only [Option.any_some, Option.any_none, c1, c2, c3, Bool.and_false]
    rw [this, h] at h2
    exact absurd h2 (by simp)
  unfold joins
  rw [h3, h4]
  rcases key with k | k | k <;> simp only [Bool.and_eq_true, decide_eq_true_eq] at k <;> obtain ⟨⟨k1, k2⟩, k3⟩ := k
  · simp [k1, k2, k3]
  · simp [k1, k2, k3]
  · simp [k1, k2, k3]

theorem cut_segment {U : Table} (D : WordDataOk U) (b : List Nat) : ∀ (t : List Nat) (s : WState),
    (extendSegment U s (t ++ b)).2 = (t, b) → (extendSegment U s t).2 = (t, []) := by
  intro t
  induction t with
  | nil => intro s _; rfl
  | cons c t ih =>
    intro s h
    have hst := step_state U c (t ++ b) t s
    have hve := verdict_more U c t b s
    have hraw := step_raw U c t s
    simp only [List.cons_append, extendSegment] at h ⊢
    cases hv : Word.processBreakable U c t s with
    | mk s' v =>
      cases hv2 : Word.processBreakable U c (t ++ b) s with
      | mk s'' v' =>
        rw [hv, hv2] at hst hve
        rw [hv] at hraw
        simp only at hst hve hraw
        subst hst
        rw [hv2] at h
        cases v' with
        | true => simp at h
        | false =>
          simp only [Prod.mk.injEq, List.cons.injEq, true_and] at h
          cases v with
          | false =>
            have := ih s'' (Prod.ext h.1 h.2)
            simp only [this]
          | true =>
            exfalso
            rcases hve with hh | ⟨-, hp, hn⟩
            · exact absurd hh (by simp)
            · obtain ⟨s2, e1, e2, e3, e4⟩ := skip_ignored D b t s'' hp (by rw [hraw]; exact hn) (Prod.ext h.1 h.2)
              have hpb := peek_append U b t hp
              -- the step itself
              have hstep : s''.prev = (U c).wb ∧ s''.prevPrev = s.prev ∧ joins s (U c).wb none = false ∧ joins s (U c).wb (peekNext U b) = true := by
                unfold Word.processBreakable at hv hv2
                simp only [hp, hpb] at hv hv2
                split_ifs at hv hv2 <;> simp_all [updateEffective] <;> (rw [← hv.1]; exact ⟨rfl, rfl⟩)
              obtain ⟨g1, g2, g3, g4⟩ := hstep
              cases b with
              | nil => rw [peekNext, g3] at g4; simp at g4
              | cons y b =>
                simp only [extendSegment] at e4
                have hy : (Word.processBreakable U y b s2).2 = true := by
                  cases hq : Word.processBreakable U y b s2 with
                  | mk a1 a2 => cases a2 <;> simp_all
                by_cases hty : isTransparent (U y).wb = true
                · have hny : isNewlineClass (U y).wb = false := by
                    cases hny : isNewlineClass (U y).wb
                    · rfl
                    · rw [newline_not_transparent hny] at hty; simp at hty
                  revert hy
                  unfold Word.processBreakable
                  simp only [e3, hny, hty]
                  split_ifs <;> simp_all
                · rw [peekNext, if_pos (by simpa using hty)] at g4
                  have hj := join_again (s' := s2) g3 g4 (by rw [e1, g1]) (by rw [e2, g2]) (peekNext U b)
                  have hny : isNewlineClass (U y).wb = false := by
                    cases hny : isNewlineClass (U y).wb
                    · rfl
                    · exfalso
                      have hsame := joins_same (newline_next hny) s (U c).wb
                      rw [g3, g4] at hsame
                      simp at hsame
                  revert hy
                  unfold Word.processBreakable
                  simp only [e3, hny, hj]
                  split_ifs <;> simp_all

theorem step_break_state (U : Table) (c : Nat) (r : List Nat) {s : WState} (hf : Fresh s) (hv : (Word.processBreakable U c r s).2 = true) :
    (Word.processBreakable U c r s).1.sawTransparent = false := by
  revert hv
  unfold Word.processBreakable
  simp only
  split_ifs with h1 h2 h3
  all_goals first | (intro _; rfl) | (intro _; exact hf h2) | (intro hv; simp at hv)

/-- Where a segment ends before the end of the text, nothing is remembered. -/
theorem border_state (U : Table) : ∀ (t : List Nat) (s : WState), Fresh s → (extendSegment U s t).2.2 ≠ [] → (extendSegment U s t).1.sawTransparent = false := by
  intro t
  induction t with
  | nil => intro s _ h; exact absurd rfl h
  | cons c t ih =>
    intro s hf h
    have h1 := step_break_state U c t hf
    have h2 := step_fresh U c t s
    simp only [extendSegment] at h ⊢
    cases hv : Word.processBreakable U c t s with
    | mk s' v =>
      rw [hv] at h1 h2 h
      cases v with
      | true => exact h1 rfl
      | false => exact ih s' h2 h

theorem init_fresh (U : Table) (c : Nat) {s : WState} (h : s.sawTransparent = false) : Fresh (Word.processInit U c s) := by
  intro _
  unfold Word.processInit
  split <;> exact h

theorem segments_cons (U : Table) (c : Nat) (cs : List Nat) :
    segments U (c :: cs) = (c :: (extendSegment U (Word.processInit U c {}) cs).2.1) :: segments U (extendSegment U (Word.processInit U c {}) cs).2.2 := by
  unfold segments
  rw [loop_cons]
  congr 1
  by_cases h : (extendSegment U (Word.processInit U c {}) cs).2.2 = []
  · rw [h]; rfl
  · rw [loop_same U (s' := {}) (border_state U cs _ (init_fresh U c rfl) h)]

theorem segment_part {U : Table} (D : WordDataOk U) (s : WState) (t w b : List Nat) (h : (extendSegment U s (t ++ (w ++ b))).2 = (t, w ++ b)) :
    (extendSegment U s (t ++ w)).2 = (t, w) := by
  have h0 := cut_segment D (w ++ b) t s h
  obtain ⟨⟨e, he⟩, -⟩ := segment_more U w t s
  obtain ⟨⟨e', he'⟩, -⟩ := segment_more U b (t ++ w) s
  rw [List.append_assoc, h, he, h0] at he'
  have hl := congrArg List.length he'
  simp only [List.length_append] at hl
  have hz : e = [] := List.length_eq_zero_iff.1 (by omega)
  rw [hz, h0, List.append_nil] at he
  have happ := extendSegment_append U s (t ++ w)
  rw [he] at happ
  exact Prod.ext he (List.append_cancel_left happ)

theorem split_segments {U : Table} (D : WordDataOk U) : ∀ (cs : List (List Nat)) (text : List Nat) (ds : List (List Nat)), segments U text = cs ++ ds →
    segments U cs.flatten = cs ∧ segments U ds.flatten = ds := by
  intro cs
  induction cs with
  | nil =>
    intro text ds h
    refine ⟨rfl, ?_⟩
    rw [List.nil_append] at h
    rw [← h, (C19_partition U text).concat]
  | cons y ys ih =>
    intro text ds h
    cases text with
    | nil => exact absurd (congrArg List.length h) (by simp [segments, segmentsLoop])
    | cons x t =>
      rw [segments_cons, List.cons_append, List.cons.injEq] at h
      obtain ⟨h1, h2⟩ := ih _ ds h.2
      refine ⟨?_, h2⟩
      have happ := extendSegment_append U (Word.processInit U x {}) t
      have hp := (C19_partition U (extendSegment U (Word.processInit U x {}) t).2.2).concat
      rw [h.2, List.flatten_append] at hp
      have h3 := segment_part D (Word.processInit U x {}) (extendSegment U (Word.processInit U x {}) t).2.1 ys.flatten ds.flatten (by
        rw [hp, happ])
      rw [← h.1, List.flatten_cons, List.cons_append, segments_cons, h3, h1]

/-- **C84, words.** The same for word segments. -/
theorem C84_words {U : Table} (D : WordDataOk U) (text : List Nat) (pre mid post : List (List Nat)) (h : segments U text = pre ++ mid ++ post) :
    segments U mid.flatten = mid := by
  rw [List.append_assoc] at h
  exact (split_segments D mid _ post (split_segments D pre text _ h).2).1

end Words

/-- Between two borders the piece has the same columns on its own as in the text. -/
theorem C84_width (U : Table) (k : Nat) (text : List Nat) (ht : ∀ c ∈ text, c ≤ 0x1FFFFF) (cs ds : List (List Nat))
    (h : Verif.Grapheme.clusters U text = cs ++ ds) :
    Verif.Width.textWidth U k (Utf8.toUtf8Str text) = Verif.Width.textWidth U k (Utf8.toUtf8Str cs.flatten) + Verif.Width.textWidth U k (Utf8.toUtf8Str ds.flatten) := by
  have hp := (C15_partition U text).concat
  rw [h, List.flatten_append] at hp
  obtain ⟨h1, h2⟩ := split_clusters U cs text ds h
  rw [C21_sum U k text ht, C21_sum U k _ (fun c hc => ht c (by rw [← hp]; exact List.mem_append_left _ hc)),
    C21_sum U k _ (fun c hc => ht c (by rw [← hp]; exact List.mem_append_right _ hc)), h, h1, h2, List.map_append, List.sum_append]

/-- Inside a cluster or a word the claims are false: flags pair up anew, and a word falls apart. -/
theorem C84_borders_needed : Verif.Grapheme.clusters toy [0x1F1E6, 0x1F1E7, 0x1F1E6, 0x1F1E7] = [[0x1F1E6, 0x1F1E7], [0x1F1E6, 0x1F1E7]] ∧
    Verif.Grapheme.clusters toy [0x1F1E7, 0x1F1E6, 0x1F1E7] = [[0x1F1E7, 0x1F1E6], [0x1F1E7]] ∧
    Verif.Word.segments dots [0x61, 0x2E, 0x62] = [[0x61, 0x2E, 0x62]] ∧ Verif.Word.segments dots [0x61, 0x2E] = [[0x61], [0x2E]] := by
  refine ⟨?_, ?_, ?_, ?_⟩ <;> decide

/-- Non-vacuity: the second of three clusters, and the middle one of three words. -/
example : Verif.Grapheme.clusters toy [0x61, 0x1F1E6, 0x1F1E7, 0x1F1E6] = [[0x61]] ++ [[0x1F1E6, 0x1F1E7]] ++ [[0x1F1E6]] ∧
    Verif.Word.segments toy [0x61, 0x20, 0x61] = [[0x61]] ++ [[0x20]] ++ [[0x61]] := by
  refine ⟨?_, ?_⟩ <;> decide

end Verif.Props.Pieces
