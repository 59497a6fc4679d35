import Verif.Props.TextLines
import Verif.Props.Script
/-!
# C80 Text that arrives later changes only the end
-/

namespace Verif.Props.TextPrefix
open Verif.Ucd Verif.Spec Verif.Props.TextLines

/-! ## Grapheme clusters -/

section Graphemes
open Verif.Grapheme

theorem extend_more (U : Table) (b : List Nat) : ∀ (t : List Nat) (s : GState),
    ((extendCluster U s t).2 ≠ [] → extendCluster U s (t ++ b) = ((extendCluster U s t).1, (extendCluster U s t).2 ++ b)) ∧
    ((extendCluster U s t).2 = [] → ∃ e q, extendCluster U s (t ++ b) = ((extendCluster U s t).1 ++ e, q)) := by
  intro t
  induction t with
  | nil => intro s; exact ⟨fun h => absurd rfl h, fun _ => ⟨_, _, rfl⟩⟩
  | cons c t ih =>
    intro s
    simp only [List.cons_append, extendCluster]
    cases hv : processBreakable U c s with
    | mk s' v =>
      cases v with
      | true => exact ⟨fun _ => rfl, fun h => by simp at h⟩
      | false =>
        obtain ⟨i1, i2⟩ := ih s'
        refine ⟨fun h => ?_, fun h => ?_⟩
        · simp only [i1 h]
        · obtain ⟨e, q, he⟩ := i2 h
          exact ⟨e, q, by simp only [he, List.cons_append]⟩

/-- **C80, grapheme clusters.** When text `b` is appended to a text whose clusters are `cs` and a last one `c`, the clusters `cs` stay, and `c` stays or
is continued. -/
theorem C80_graphemes (U : Table) (a b : List Nat) (cs : List (List Nat)) (c : List Nat) (h : clusters U a = cs ++ [c]) :
    ∃ e rest, clusters U (a ++ b) = cs ++ (c ++ e) :: rest := by
  suffices ∀ n (a : List Nat) cs, a.length ≤ n → clusters U a = cs ++ [c] → ∃ e rest, clusters U (a ++ b) = cs ++ (c ++ e) :: rest from
    this _ a cs (Nat.le_refl _) h
  intro n
  induction n with
  | zero =>
    intro a cs ha h
    have : a = [] := List.length_eq_zero_iff.1 (by omega)
    subst this
    exact absurd (congrArg List.length h) (by simp [clusters, clustersLoop])
  | succ n ih =>
    intro a cs ha h
    cases a with
    | nil => exact absurd (congrArg List.length h) (by simp [clusters, clustersLoop])
    | cons x t =>
      rw [List.cons_append, clusters_cons]
      rw [clusters_cons] at h
      have happ := extendCluster_append U (processInit U x) t
      obtain ⟨h1, h2⟩ := extend_more U b t (processInit U x)
      generalize (extendCluster U (processInit U x) t).1 = u at *
      generalize (extendCluster U (processInit U x) t).2 = r at *
      by_cases hr : r = []
      · subst hr
        obtain ⟨e, q, he⟩ := h2 rfl
        have h0 : clusters U [] = [] := rfl
        rw [h0] at h
        obtain ⟨rfl, hc⟩ : cs = [] ∧ x :: u = c := by
          cases cs with
          | nil => simpa using h
          | cons y ys => exact absurd (congrArg List.length h) (by simp)
        rw [he, ← hc]
        exact ⟨e, _, rfl⟩
      · rw [h1 hr]
        have hlen := congrArg List.length happ
        simp only [List.length_append] at hlen
        cases cs with
        | nil =>
          exfalso
          simp only [List.nil_append, List.cons.injEq] at h
          have hp := (C15_partition U r).concat
          rw [h.2] at hp
          exact hr hp.symm
        | cons y ys =>
          simp only [List.cons_append, List.cons.injEq] at h
          obtain ⟨e, rest, he⟩ := ih r ys (by simp at ha; omega) h.2
          exact ⟨e, rest, by rw [he, h.1]; rfl⟩

end Graphemes

/-! ## Words -/

section Words
open Verif.Word Verif.Props.Word

theorem joins_more {s : WState} {B : WB} (h : joins s B none = true) (n : Option WB) : joins s B n = true := by
  unfold joins at h ⊢
  simp only [Option.any_none, Bool.and_false, Bool.or_false] at h
  simp only [Bool.or_eq_true] at h ⊢
  tauto

theorem peek_more (U : Table) (b t : List Nat) : peekNext U t = none ∨ peekNext U (t ++ b) = peekNext U t := by
  induction t with
  | nil => exact .inl rfl
  | cons c t ih =>
    simp only [List.cons_append, peekNext]
    split
    · exact .inr rfl
    · exact ih

/-- More text can only turn a border into no border, and only in front of a character with nothing but ignored characters behind it. -/
theorem verdict_more (U : Table) (c : Nat) (t b : List Nat) (s : WState) :
    (Word.processBreakable U c (t ++ b) s).2 = (Word.processBreakable U c t s).2 ∨
      ((Word.processBreakable U c t s).2 = true ∧ peekNext U t = none ∧ isNewlineClass (U c).wb = false) := by
  rcases peek_more U b t with h | h
  · by_cases hn : isNewlineClass (U c).wb = true
    · left
      unfold Word.processBreakable
      simp only
      rw [if_pos hn]
      split_ifs <;> rfl
    · cases hv : (Word.processBreakable U c t s).2 with
      | true => exact .inr ⟨rfl, h, by simpa using hn⟩
      | false =>
        left
        revert hv
        unfold Word.processBreakable
        simp only
        rw [h]
        split_ifs <;> first | exact id | skip
        intro hv
        simp only [Bool.not_eq_false'] at hv ⊢
        exact joins_more hv _
  · left
    unfold Word.processBreakable
    rw [h]

theorem segment_more (U : Table) (b : List Nat) : ∀ (t : List Nat) (s : WState),
    (∃ e, (extendSegment U s (t ++ b)).2.1 = (extendSegment U s t).2.1 ++ e) ∧
    ((extendSegment U s (t ++ b) = ((extendSegment U s t).1, (extendSegment U s t).2.1, (extendSegment U s t).2.2 ++ b)) ∨
      (extendSegment U s t).2.2 = [] ∨
      ∃ y r, (extendSegment U s t).2.2 = y :: r ∧ peekNext U r = none ∧ isNewlineClass (U y).wb = false) := by
  intro t
  induction t with
  | nil => intro s; exact ⟨⟨_, rfl⟩, .inr (.inl rfl)⟩
  | cons c t ih =>
    intro s
    have hst := step_state U c (t ++ b) t s
    have hve := verdict_more U c t b s
    simp only [List.cons_append, extendSegment]
    cases hv : Word.processBreakable U c t s with
    | mk s' v =>
      cases hv2 : Word.processBreakable U c (t ++ b) s with
      | mk s'' v' =>
        rw [hv, hv2] at hst hve
        simp only at hst hve
        subst hst
        cases v with
        | true =>
          rcases hve with rfl | ⟨-, h1, h2⟩
          · exact ⟨⟨[], rfl⟩, .inl rfl⟩
          · exact ⟨⟨_, rfl⟩, .inr (.inr ⟨c, t, rfl, h1, h2⟩)⟩
        | false =>
          rcases hve with rfl | ⟨h0, -⟩
          · obtain ⟨⟨e, he⟩, h⟩ := ih s''
            refine ⟨⟨e, by simp only [he, List.cons_append]⟩, ?_⟩
            rcases h with h | h | h
            · left; simp only [h]
            · exact .inr (.inl h)
            · exact .inr (.inr h)
          · exact absurd h0 (by simp)

theorem extend_ignored (U : Table) : ∀ (t : List Nat) (s : WState), peekNext U t = none → isNewlineClass s.rawPrev = false →
    (extendSegment U s t).2.1 = t ∧ (extendSegment U s t).2.2 = [] := by
  intro t
  induction t with
  | nil => intro s _ _; exact ⟨rfl, rfl⟩
  | cons c t ih =>
    intro s h hs
    simp only [peekNext] at h
    have ht : isTransparent (U c).wb = true := by
      by_contra hh
      rw [if_pos (by simpa using hh)] at h
      exact absurd h (by simp)
    rw [if_neg (by simp [ht])] at h
    have hn : isNewlineClass (U c).wb = false := by
      cases hn : isNewlineClass (U c).wb
      · rfl
      · rw [newline_not_transparent hn] at ht; simp at ht
    have hv : (Word.processBreakable U c t s).2 = false := by
      unfold Word.processBreakable
      simp only [hs, hn, ht]
      split_ifs <;> first | rfl | contradiction
    have hr := step_raw U c t s
    simp only [extendSegment]
    cases hx : Word.processBreakable U c t s with
    | mk s' v =>
      rw [hx] at hv hr
      simp only at hv
      subst hv
      obtain ⟨h1, h2⟩ := ih s' h (by rw [hr]; exact hn)
      exact ⟨by simp only [h1], h2⟩

theorem loop_cons (U : Table) (s : WState) (c : Nat) (cs : List Nat) :
    segmentsLoop U (c :: cs).length s (c :: cs) = (c :: (extendSegment U (Word.processInit U c s) cs).2.1) ::
      segmentsLoop U (extendSegment U (Word.processInit U c s) cs).2.2.length (extendSegment U (Word.processInit U c s) cs).1
        (extendSegment U (Word.processInit U c s) cs).2.2 := by
  have hl := congrArg List.length (extendSegment_append U (Word.processInit U c s) cs)
  simp only [List.length_append] at hl
  rw [List.length_cons, segmentsLoop]
  rw [segmentsLoop_fuel2 U _ _ _ _ (Nat.le_refl _) (by omega)]

theorem loop_ignored (U : Table) (s : WState) (y : Nat) (r : List Nat) (h : peekNext U r = none) (hn : isNewlineClass (U y).wb = false) :
    segmentsLoop U (y :: r).length s (y :: r) = [y :: r] := by
  have hr : (Word.processInit U y s).rawPrev = (U y).wb := by
    unfold Word.processInit; split <;> rfl
  obtain ⟨h1, h2⟩ := extend_ignored U r (Word.processInit U y s) h (by rw [hr]; exact hn)
  rw [loop_cons, h1, h2]
  rfl

theorem words_more (U : Table) (b : List Nat) (c d : List Nat) : ∀ (n : Nat) (a : List Nat) (s : WState) (cs : List (List Nat)), a.length ≤ n →
    segmentsLoop U a.length s a = cs ++ [c, d] →
      ∃ e rest, segmentsLoop U (a ++ b).length s (a ++ b) = cs ++ (c ++ e) :: rest := by
  intro n
  induction n with
  | zero =>
    intro a s cs ha h
    have : a = [] := List.length_eq_zero_iff.1 (by omega)
    subst this
    exact absurd (congrArg List.length h) (by simp [segmentsLoop])
  | succ n ih =>
    intro a s cs ha h
    cases a with
    | nil => exact absurd (congrArg List.length h) (by simp [segmentsLoop])
    | cons x t =>
      rw [List.cons_append, loop_cons]
      rw [loop_cons] at h
      have happ := extendSegment_append U (Word.processInit U x s) t
      obtain ⟨⟨e, he⟩, hcase⟩ := segment_more U b t (Word.processInit U x s)
      have hlen := congrArg List.length happ
      simp only [List.length_append] at hlen
      cases cs with
      | nil =>
        simp only [List.nil_append, List.cons.injEq] at h
        rw [he, ← h.1]
        exact ⟨e, _, rfl⟩
      | cons y ys =>
        simp only [List.cons_append, List.cons.injEq] at h
        rcases hcase with hc | hc | ⟨z, r, hz, h1, h2⟩
        · rw [hc]
          obtain ⟨e, rest, hh⟩ := ih _ _ ys (by simp at ha; omega) h.2
          exact ⟨e, rest, by rw [hh, ← h.1]; rfl⟩
        · rw [hc] at h
          exact absurd (congrArg List.length h.2) (by simp [segmentsLoop])
        · rw [hz, loop_ignored U _ z r h1 h2] at h
          exact absurd (congrArg List.length h.2) (by simp)

/-- **C80, words.** Appending text leaves all segments but the last two as they are; the last but one stays or is continued. -/
theorem C80_words (U : Table) (a b : List Nat) (cs : List (List Nat)) (c d : List Nat) (h : segments U a = cs ++ [c, d]) :
    ∃ e rest, segments U (a ++ b) = cs ++ (c ++ e) :: rest :=
  words_more U b c d _ a {} cs (Nat.le_refl _) h

/-- A full stop and letters. -/
def dots : Table := fun c => if c = 0x2E then { wb := .MidNumLet } else if c = 0x301 then { wb := .Extend } else { wb := .ALetter }

/-- The last but one segment can really change, also when marks follow: `a.` are two segments, `a.b` is one. -/
theorem C80_words_two : segments dots [0x61, 0x2E, 0x301] = [[0x61], [0x2E, 0x301]] ∧
    segments dots ([0x61, 0x2E, 0x301] ++ [0x62]) = [[0x61, 0x2E, 0x301, 0x62]] := by decide

end Words

/-! ## Script runs -/

section Scripts
open Verif.Script

theorem script_more (D : Data) (b : List Nat) : ∀ (t : List Nat) (s : St),
    ((consumeLoop D s t).2.2 ≠ [] →
      consumeLoop D s (t ++ b) = ((consumeLoop D s t).1, (consumeLoop D s t).2.1, (consumeLoop D s t).2.2 ++ b)) ∧
    ((consumeLoop D s t).2.2 = [] → (consumeLoop D s t).1.2 ≤ (consumeLoop D s (t ++ b)).1.2) := by
  have mono : ∀ (t : List Nat) (s : St), s.offset ≤ (consumeLoop D s t).1.2 := by
    intro t
    induction t with
    | nil => intro s; exact Nat.le_refl _
    | cons c t ih =>
      intro s
      rw [consumeLoop]
      split
      · have := ih ⟨s.offset + 1, (mergeSets (getScriptsFor D c) s.cur s.pref).cur, (mergeSets (getScriptsFor D c) s.cur s.pref).pref⟩
        simp only at this ⊢
        omega
      · exact Nat.le_refl _
  intro t
  induction t with
  | nil => intro s; exact ⟨fun h => absurd rfl h, fun _ => mono b s⟩
  | cons c t ih =>
    intro s
    rw [List.cons_append, consumeLoop, consumeLoop]
    split
    · exact ih _
    · exact ⟨fun _ => rfl, fun h => by simp at h⟩

theorem scripts_more (D : Data) (b : List Nat) (r : Script × Nat) (k : Nat) : ∀ (n : Nat) (s : St) (a : List Nat) (rs : List (Script × Nat)),
    runsLoop D n s a = rs ++ [r] → ∃ r' rest, runsLoop D (n + k) s (a ++ b) = rs ++ r' :: rest ∧ r.2 ≤ r'.2 := by
  intro n
  induction n with
  | zero => intro s a rs h; exact absurd (congrArg List.length h) (by simp [runsLoop])
  | succ n ih =>
    intro s a rs h
    cases a with
    | nil => exact absurd (congrArg List.length h) (by simp [runsLoop, consume])
    | cons c t =>
      obtain ⟨h1, h2⟩ := script_more D b (c :: t) s
      rw [List.cons_append] at h1 h2
      rw [List.cons_append, show n + 1 + k = (n + k) + 1 by omega]
      simp only [runsLoop, consume] at h ⊢
      cases rs with
      | nil =>
        simp only [List.nil_append, List.cons.injEq] at h
        refine ⟨_, _, rfl, ?_⟩
        rw [← h.1]
        by_cases hq : (consumeLoop D s (c :: t)).2.2 = []
        · exact h2 hq
        · rw [h1 hq]
      | cons y ys =>
        simp only [List.cons_append, List.cons.injEq] at h
        by_cases hq : (consumeLoop D s (c :: t)).2.2 = []
        · rw [hq] at h
          exfalso
          have := congrArg List.length h.2
          cases n <;> simp [runsLoop, consume] at this
        · rw [h1 hq]
          obtain ⟨r', rest, hh, hle⟩ := ih _ _ ys h.2
          exact ⟨r', rest, by rw [hh, ← h.1]; rfl, hle⟩

/-- **C80, script runs.** Appending text leaves all runs but the last as they are (script and end); the last may get another script (when it was Common
so far) and may be continued, but does not get shorter. -/
theorem C80_scripts (D : Data) (a b : List Nat) (rs : List (Script × Nat)) (r : Script × Nat) (h : runs D a = rs ++ [r]) :
    ∃ r' rest, runs D (a ++ b) = rs ++ r' :: rest ∧ r.2 ≤ r'.2 := by
  have := scripts_more D b r b.length a.length {} a rs h
  unfold runs
  rwa [List.length_append]

/-- A space takes the script of the letter that arrives later. -/
example : runs Props.Script.toyScripts [0x3B1, 0x61, 0x20] = [(.sc 2, 1), (.sc 1, 3)] ∧
    runs Props.Script.toyScripts [0x20] = [(.Common, 1)] ∧ runs Props.Script.toyScripts [0x20, 0x3B1] = [(.sc 2, 2)] := by decide

end Scripts

/-! ## Normalization -/

/-- **C80, normalization.** What stands in front of a safe start (for NFD and NFKD: a starter; see `SafeStart`) is normalized the same, whatever follows. -/
theorem C80_normalize {T : Verif.Norm.Tables} (f : Verif.Norm.Form) (a : List Nat) (c : Nat) (h : Verif.Spec.Norm.SafeStart T f c) (t : List Nat) :
    Verif.Norm.normalize T f a <+: Verif.Norm.normalize T f (a ++ c :: t) :=
  ⟨_, (Verif.Norm.normalize_split h a t).symm⟩

end Verif.Props.TextPrefix
