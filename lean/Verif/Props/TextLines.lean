import Verif.Props.Width
import Verif.Props.Word
import Verif.Props.Case
import Verif.Props.Norm
import Verif.Spec.TextLines
/-!
# C79 A text can be processed line by line
-/

namespace Verif.Props.TextLines
open Verif.Ucd Verif.Spec Verif.Spec.TextLines

/-! ## Grapheme clusters -/

section Graphemes
open Verif.Grapheme

theorem step_props (U : Table) (c : Nat) (s : GState) : (processBreakable U c s).1.previousProperties = U c := by
  unfold processBreakable
  simp only
  split
  · rfl
  · split
    · rfl
    · split <;> rfl

theorem isCtl_iff (g : GCB) : isCtl g = true ↔ g ∈ [GCB.Control, .CR, .LF] := by
  simp [isCtl, or_assoc]

theorem step_hard {U : Table} {x y : Nat} (h : HardG U x y) {s : GState} (hs : s.previousProperties = U x) :
    (processBreakable U y s).2 = true := by
  obtain ⟨h1, h2⟩ := h
  unfold processBreakable
  simp only [hs]
  rw [if_neg h2]
  split
  · rfl
  · have : ∀ a b c, cascade (U x).gcb (U y) a b c = .brk := by
      intro a b c
      unfold cascade
      rcases h1 with h | h
      · simp [(isCtl_iff _).2 h]
      · simp only [(isCtl_iff _).2 h, if_true]
        split <;> rfl
    rw [this]

theorem extend_hard {U : Table} {x y : Nat} (h : HardG U x y) (b : List Nat) :
    ∀ (t : List Nat) (p : Nat) (s : GState), s.previousProperties = U p → (p :: t).getLast? = some x →
      extendCluster U s (t ++ y :: b) = ((extendCluster U s t).1, (extendCluster U s t).2 ++ y :: b) := by
  intro t
  induction t with
  | nil =>
    intro p s hs hp
    simp only [List.getLast?_singleton, Option.some.injEq] at hp
    subst hp
    have := step_hard h hs
    simp only [List.nil_append, extendCluster]
    cases hv : processBreakable U y s with
    | mk s' v =>
      rw [hv] at this
      simp only at this
      subst this
      rfl
  | cons c t ih =>
    intro p s hs hp
    rw [List.getLast?_cons_cons] at hp
    have hc := step_props U c s
    simp only [List.cons_append, extendCluster]
    cases hv : processBreakable U c s with
    | mk s' v =>
      rw [hv] at hc
      cases v with
      | true => rfl
      | false => simp only [ih c s' hc hp]

theorem clusters_cons (U : Table) (c : Nat) (cs : List Nat) :
    clusters U (c :: cs) = (c :: (extendCluster U (processInit U c) cs).1) :: clusters U (extendCluster U (processInit U c) cs).2 := by
  have hl := congrArg List.length (extendCluster_append U (processInit U c) cs)
  simp only [List.length_append] at hl
  rw [clusters, List.length_cons, clustersLoop]
  simp only [advance]
  rw [C15_terminates U _ cs.length (by omega)]

/-- **C79, grapheme clusters.** The clusters of a text that is cut in front of or behind a control character or a line end (but not between CR and
LF) are the clusters of the two parts: for every character database, whatever the parts are. -/
theorem C79_graphemes (U : Table) (a b : List Nat) (x y : Nat) (h : HardG U x y) :
    clusters U ((a ++ [x]) ++ y :: b) = clusters U (a ++ [x]) ++ clusters U (y :: b) := by
  suffices ∀ n (a : List Nat), a.length ≤ n → a.getLast? = some x → clusters U (a ++ y :: b) = clusters U a ++ clusters U (y :: b) from
    this _ (a ++ [x]) (Nat.le_refl _) (by simp)
  intro n
  induction n with
  | zero =>
    intro a ha hx
    have : a = [] := List.length_eq_zero_iff.1 (by omega)
    subst this; simp at hx
  | succ n ih =>
    intro a ha hx
    cases a with
    | nil => simp at hx
    | cons c t =>
      have hp : (processInit U c).previousProperties = U c := rfl
      rw [List.cons_append, clusters_cons, clusters_cons, extend_hard h b t c _ hp hx]
      simp only [List.cons_append]
      congr 1
      have happ := extendCluster_append U (processInit U c) t
      generalize (extendCluster U (processInit U c) t).1 = u at *
      generalize (extendCluster U (processInit U c) t).2 = r at *
      by_cases hr : r = []
      · subst hr; simp [clusters, clustersLoop]
      · refine ih r ?_ ?_
        · have := congrArg List.length happ; simp only [List.length_append] at this; simp at ha; omega
        · rw [← happ] at hx
          rw [← hx]
          rw [← List.cons_append, List.getLast?_append_of_ne_nil _ hr]

end Graphemes

/-! ## Words -/

section Words
open Verif.Word Verif.Props.Word

theorem isNewline_iff (w : WB) : isNewlineClass w = true ↔ w ∈ [WB.Newline, .CR, .LF] := by
  simp [isNewlineClass, or_assoc]

theorem step_raw (U : Table) (c : Nat) (rest : List Nat) (s : WState) : (Word.processBreakable U c rest s).1.rawPrev = (U c).wb := by
  unfold Word.processBreakable
  simp only
  split_ifs <;> rfl

/-- The state after a step does not depend on what follows. -/
theorem step_state (U : Table) (c : Nat) (r r' : List Nat) (s : WState) :
    (Word.processBreakable U c r s).1 = (Word.processBreakable U c r' s).1 := by
  unfold Word.processBreakable
  simp only
  split_ifs <;> rfl

/-- After a newline character nothing is remembered of marks in front of it. -/
def Fresh (s : WState) : Prop := isNewlineClass s.rawPrev = true → s.sawTransparent = false

theorem newline_not_transparent {w : WB} (h : isNewlineClass w = true) : isTransparent w = false := by
  cases w <;> first | rfl | simp [isNewlineClass] at h

theorem step_fresh (U : Table) (c : Nat) (r : List Nat) (s : WState) : Fresh (Word.processBreakable U c r s).1 := by
  intro hn
  rw [step_raw] at hn
  have ht := newline_not_transparent hn
  unfold Word.processBreakable
  simp only [ht, hn]
  split_ifs <;> first | rfl | simp_all

/-- At a border that rests on a newline character the state is as good as new. -/
theorem step_break {U : Table} {x y : Nat} (h : HardW U x y) (r : List Nat) {s : WState} (hs : Fresh s) (hx : s.rawPrev = (U x).wb) :
    (Word.processBreakable U y r s).2 = true ∧ (Word.processBreakable U y r s).1.sawTransparent = false := by
  obtain ⟨h1, h2⟩ := h
  unfold Word.processBreakable
  simp only [hx]
  rw [if_neg h2]
  by_cases hn : isNewlineClass (U x).wb = true
  · rw [if_pos hn]
    split
    · exact ⟨rfl, hs (by rw [hx]; exact hn)⟩
    · exact ⟨rfl, rfl⟩
  · rw [if_neg hn]
    have hy : isNewlineClass (U y).wb = true := by
      rcases h1 with h | h
      · exact absurd ((isNewline_iff _).2 h) hn
      · exact (isNewline_iff _).2 h
    rw [if_pos hy]
    exact ⟨rfl, rfl⟩

/-- What the rules ask of the next character that is not ignored. -/
def SameNext (n n' : Option WB) : Prop :=
  n.any isAHLetter = n'.any isAHLetter ∧ n.any (· = .Hebrew_Letter) = n'.any (· = .Hebrew_Letter) ∧ n.any (· = .Numeric) = n'.any (· = .Numeric)

theorem joins_same {n n' : Option WB} (h : SameNext n n') (s : WState) (B : WB) : joins s B n = joins s B n' := by
  unfold joins
  rw [h.1, h.2.1, h.2.2]

theorem newline_next {w : WB} (h : isNewlineClass w = true) : SameNext (some w) none := by
  cases w <;> first | exact ⟨rfl, rfl, rfl⟩ | simp [isNewlineClass] at h

theorem peek_hard {U : Table} {x y : Nat} (h : HardW U x y) (b : List Nat) :
    ∀ (t : List Nat) (p : Nat), (p :: t).getLast? = some x → isNewlineClass (U p).wb = false →
      SameNext (peekNext U (t ++ y :: b)) (peekNext U t) := by
  intro t
  induction t with
  | nil =>
    intro p hp hnp
    simp only [List.getLast?_singleton, Option.some.injEq] at hp
    subst hp
    have hy : isNewlineClass (U y).wb = true := by
      rcases h.1 with h | h
      · rw [(isNewline_iff _).2 h] at hnp; simp at hnp
      · exact (isNewline_iff _).2 h
    simp only [List.nil_append, peekNext, newline_not_transparent hy, Bool.not_false, if_true]
    exact newline_next hy
  | cons c t ih =>
    intro p hp _
    rw [List.getLast?_cons_cons] at hp
    simp only [List.cons_append, peekNext]
    by_cases ht : isTransparent (U c).wb = true
    · have hc : isNewlineClass (U c).wb = false := by
        cases hn : isNewlineClass (U c).wb
        · rfl
        · rw [newline_not_transparent hn] at ht; simp at ht
      simpa [ht] using ih c hp hc
    · simp only [ht]
      exact ⟨rfl, rfl, rfl⟩

theorem step_verdict {U : Table} {x y : Nat} (h : HardW U x y) (b : List Nat) (c : Nat) (t : List Nat)
    (hx : (c :: t).getLast? = some x) (s : WState) :
    (Word.processBreakable U c (t ++ y :: b) s).2 = (Word.processBreakable U c t s).2 := by
  unfold Word.processBreakable
  simp only
  by_cases hn : isNewlineClass (U c).wb = true
  · rw [if_pos hn]; split_ifs <;> rfl
  · have := joins_same (peek_hard h b t c hx (by simpa using hn)) s (U c).wb
    rw [this]

theorem extendSegment_hard {U : Table} {x y : Nat} (h : HardW U x y) (b : List Nat) :
    ∀ (t : List Nat) (p : Nat) (s : WState), Fresh s → s.rawPrev = (U p).wb → (p :: t).getLast? = some x →
      (extendSegment U s (t ++ y :: b)).2.1 = (extendSegment U s t).2.1 ∧
      (extendSegment U s (t ++ y :: b)).2.2 = (extendSegment U s t).2.2 ++ y :: b ∧
      ((extendSegment U s t).2.2 = [] → (extendSegment U s (t ++ y :: b)).1.sawTransparent = false) ∧
      ((extendSegment U s t).2.2 ≠ [] → (extendSegment U s (t ++ y :: b)).1 = (extendSegment U s t).1) := by
  intro t
  induction t with
  | nil =>
    intro p s hf hs hp
    simp only [List.getLast?_singleton, Option.some.injEq] at hp
    subst hp
    obtain ⟨h1, h2⟩ := step_break h b hf hs
    simp only [List.nil_append, extendSegment]
    cases hv : Word.processBreakable U y b s with
    | mk s' v =>
      rw [hv] at h1 h2
      simp only at h1
      subst h1
      exact ⟨rfl, rfl, fun _ => h2, fun h => absurd rfl h⟩
  | cons c t ih =>
    intro p s hf hs hp
    rw [List.getLast?_cons_cons] at hp
    have hc := step_raw U c t s
    have hfr := step_fresh U c t s
    have hst := step_state U c (t ++ y :: b) t s
    have hve := step_verdict h b c t hp s
    simp only [List.cons_append, extendSegment]
    cases hv : Word.processBreakable U c t s with
    | mk s' v =>
      cases hv2 : Word.processBreakable U c (t ++ y :: b) s with
      | mk s'' v' =>
        rw [hv, hv2] at hst hve
        simp only at hst hve
        subst hst hve
        rw [hv] at hc hfr
        cases v' with
        | true => exact ⟨rfl, rfl, fun h => by simp at h, fun _ => rfl⟩
        | false =>
          obtain ⟨i1, i2, i3, i4⟩ := ih c s'' hfr hc hp
          exact ⟨by simp only [i1], i2, i3, i4⟩

/-- A border behind which the state may remember a mark is not in front of a newline character. -/
theorem extendSegment_border (U : Table) : ∀ (t : List Nat) (s : WState) (c : Nat) (cs : List Nat),
    (extendSegment U s t).2.2 = c :: cs → isNewlineClass (U c).wb = true → (extendSegment U s t).1.sawTransparent = false := by
  intro t
  induction t with
  | nil => intro s c cs h; simp [extendSegment] at h
  | cons d t ih =>
    intro s c cs h hn
    simp only [extendSegment] at h ⊢
    cases hv : Word.processBreakable U d t s with
    | mk s' v =>
      rw [hv] at h
      cases v with
      | false => exact ih s' c cs h hn
      | true =>
        simp only [List.cons.injEq] at h
        obtain ⟨rfl, -⟩ := h
        have ht := newline_not_transparent hn
        have : s' = (Word.processBreakable U d t s).1 := by rw [hv]
        have hv2 : (Word.processBreakable U d t s).2 = true := by rw [hv]
        simp only [this]
        revert hv2
        unfold Word.processBreakable
        simp only [ht, hn, if_true]
        split_ifs <;> intro h <;> first | rfl | contradiction

theorem init_same (U : Table) (c : Nat) {s s' : WState} (h : s.sawTransparent = s'.sawTransparent) :
    Word.processInit U c s = Word.processInit U c s' := by
  unfold Word.processInit
  cases s; cases s'
  simp only at h
  subst h
  rfl

theorem loop_same (U : Table) {s s' : WState} (h : s.sawTransparent = s'.sawTransparent) (n : Nat) (text : List Nat) :
    segmentsLoop U n s text = segmentsLoop U n s' text := by
  cases n with
  | zero => rfl
  | succ n =>
    cases text with
    | nil => rfl
    | cons c cs => simp only [segmentsLoop, init_same U c h]

theorem words_gen {U : Table} {x y : Nat} (h : HardW U x y) (b : List Nat) : ∀ (n : Nat) (a : List Nat) (s : WState), a.length ≤ n →
    a.getLast? = some x → (∀ c cs, a = c :: cs → isNewlineClass (U c).wb = true → s.sawTransparent = false) →
      segmentsLoop U (a ++ y :: b).length s (a ++ y :: b) = segmentsLoop U a.length s a ++ segments U (y :: b) := by
  intro n
  induction n with
  | zero =>
    intro a s ha hx
    have : a = [] := List.length_eq_zero_iff.1 (by omega)
    subst this; simp at hx
  | succ n ih =>
    intro a s ha hx hs
    cases a with
    | nil => simp at hx
    | cons c t =>
      have hr : (Word.processInit U c s).rawPrev = (U c).wb := by
        unfold Word.processInit; split <;> rfl
      have hf : Fresh (Word.processInit U c s) := by
        intro hn
        rw [hr] at hn
        have := hs c t rfl hn
        unfold Word.processInit
        split <;> exact this
      obtain ⟨e1, e2, e3, e4⟩ := extendSegment_hard h b t c _ hf hr hx
      have happ := extendSegment_append U (Word.processInit U c s) t
      have hb := extendSegment_border U t (Word.processInit U c s)
      simp only [List.cons_append, List.length_cons, segmentsLoop, e1, e2]
      congr 1
      generalize (extendSegment U (Word.processInit U c s) t).2.1 = u at *
      generalize hr : (extendSegment U (Word.processInit U c s) t).2.2 = r at *
      have hlen := congrArg List.length happ
      simp only [List.length_append] at hlen
      rw [segmentsLoop_fuel2 U (r ++ y :: b).length _ _ _ (Nat.le_refl _) (by rw [List.length_append, List.length_append]; omega)]
      rw [segmentsLoop_fuel2 U r.length _ r t.length (Nat.le_refl _) (by omega)]
      by_cases hre : r = []
      · subst hre
        rw [List.nil_append, loop_same U (s' := {}) (e3 rfl)]
        rfl
      · rw [e4 hre]
        refine ih r _ (by simp at ha; omega) ?_ ?_
        · rw [← happ] at hx
          rw [← hx, ← List.cons_append, List.getLast?_append_of_ne_nil _ hre]
        · intro c' cs' hc hn
          exact hb c' cs' hc hn

/-- **C79, words.** The same for the word segmenter, though its state is kept from word to word and the rules look ahead: a text may be cut in front of
or behind every newline character, but not between CR and LF. -/
theorem C79_words (U : Table) (a b : List Nat) (x y : Nat) (h : HardW U x y) :
    segments U ((a ++ [x]) ++ y :: b) = segments U (a ++ [x]) ++ segments U (y :: b) :=
  words_gen h b _ (a ++ [x]) {} (Nat.le_refl _) (by simp) (fun _ _ _ _ => rfl)

end Words

/-! ## Whole lines -/

section Lines

/-- The general step from a cut to all lines. -/
theorem lines_of_cut {β : Type} {LE : Nat → Prop} (f : List Nat → List β) (hnil : f [] = [])
    (hf : ∀ q c y b, LE c → f ((q ++ [c]) ++ y :: b) = f (q ++ [c]) ++ f (y :: b)) {lines : List (List Nat)} {last text : List Nat}
    (h : Lines LE lines last text) : f text = lines.flatMap f ++ f last := by
  obtain ⟨rfl, h2⟩ := h
  induction lines with
  | nil => rfl
  | cons l ls ih =>
    have ih := ih (fun l hl => h2 l (List.mem_cons_of_mem _ hl))
    obtain ⟨q, c, rfl, hc⟩ := h2 l List.mem_cons_self
    rw [List.flatten_cons, List.append_assoc (q ++ [c]), List.flatMap_cons, List.append_assoc (f (q ++ [c])), ← ih]
    cases hr : ls.flatten ++ last with
    | nil => rw [hnil, List.append_nil, List.append_nil]
    | cons y b => exact hf q c y b hc

/-- **C79, grapheme clusters of lines.** The lines may end with any control character but a lone CR (CR LF included, as LF is the last character). -/
theorem C79_lines_graphemes (U : Table) {lines : List (List Nat)} {last text : List Nat}
    (h : Lines (fun c => (U c).gcb = .LF ∨ (U c).gcb = .Control) lines last text) :
    Grapheme.clusters U text = lines.flatMap (Grapheme.clusters U) ++ Grapheme.clusters U last := by
  refine lines_of_cut _ rfl (fun q c y b hc => C79_graphemes U q b c y ⟨Or.inl ?_, ?_⟩) h
  · rcases hc with h | h <;> simp [h]
  · rcases hc with h | h <;> simp [h]

/-- **C79, words of lines.** -/
theorem C79_lines_words (U : Table) {lines : List (List Nat)} {last text : List Nat}
    (h : Lines (fun c => (U c).wb = .LF ∨ (U c).wb = .Newline) lines last text) :
    Word.segments U text = lines.flatMap (Word.segments U) ++ Word.segments U last := by
  refine lines_of_cut _ rfl (fun q c y b hc => C79_words U q b c y ⟨Or.inl ?_, ?_⟩) h
  · rcases hc with h | h <;> simp [h]
  · rcases hc with h | h <;> simp [h]

open Verif.Case Verif.Word in
theorem title_words (U : Table) (T : CaseTables) (text : List Nat) :
    toTitlecase U T text = (segments U text).flatMap (Case.titleWordSpec (isCased U) (Case.titleOf T) (Case.lowerOf T)) := by
  cases text with
  | nil => simp [toTitlecase, titleLoop, segments, segmentsLoop]
  | cons c cs =>
    unfold toTitlecase
    have hl := congrArg List.length (extendSegment_append U (Word.processInit U c {}) cs)
    rw [List.length_append] at hl
    dsimp only
    rw [Case.titleLoop_eq U T _ _ _ _ _ (by simp) (by rw [List.length_cons]; omega)]
    unfold segments
    rw [List.length_cons, segmentsLoop]
    rw [List.flatMap_cons, List.nil_append]
    congr 2
    exact (Verif.Props.Word.segmentsLoop_fuel U _ _ _ (by omega)).symm

/-- **C79, title case of lines.** -/
theorem C79_lines_title (U : Table) (T : Verif.Case.CaseTables) {lines : List (List Nat)} {last text : List Nat}
    (h : Lines (fun c => (U c).wb = .LF ∨ (U c).wb = .Newline) lines last text) :
    Verif.Case.toTitlecase U T text = lines.flatMap (Verif.Case.toTitlecase U T) ++ Verif.Case.toTitlecase U T last := by
  rw [title_words, C79_lines_words U h, List.flatMap_append, ← title_words, List.flatMap_assoc]
  congr 1
  exact congrArg (fun f => List.flatMap f lines) (funext fun l => (title_words U T l).symm)

/-- **C79, width of lines**: the columns of a text in UTF-8 are the sum of the columns of its lines. -/
theorem C79_lines_width (U : Table) (k : Nat) {lines : List (List Nat)} {last text : List Nat} (hc : ∀ c ∈ text, c ≤ 0x1FFFFF)
    (h : Lines (fun c => (U c).gcb = .LF ∨ (U c).gcb = .Control) lines last text) :
    Width.textWidth U k (Utf8.toUtf8Str text) =
      (lines.map fun l => Width.textWidth U k (Utf8.toUtf8Str l)).sum + Width.textWidth U k (Utf8.toUtf8Str last) := by
  obtain ⟨rfl, h2⟩ := h
  have hl : ∀ l ∈ lines, ∀ c ∈ l, c ≤ 0x1FFFFF := fun l hl c hm =>
    hc c (List.mem_append_left _ (List.mem_flatten.2 ⟨l, hl, hm⟩))
  have e := C79_lines_graphemes U (lines := lines) (last := last) ⟨rfl, h2⟩
  rw [C21_sum U k _ hc, C21_sum U k _ (fun c hm => hc c (List.mem_append_right _ hm)), e, List.map_append, List.sum_append]
  congr 1
  clear e h2 hc
  induction lines with
  | nil => rfl
  | cons l ls ih =>
    rw [List.flatMap_cons, List.map_append, List.sum_append, List.map_cons, List.sum_cons,
      ih (fun m hm => hl m (List.mem_cons_of_mem _ hm)), C21_sum U k l (hl l List.mem_cons_self)]

/-- **C79, the UTF-8 segmenter.** -/
theorem C79_lines_utf8 (U : Table) {lines : List (List Nat)} {last text : List Nat} (hc : ∀ c ∈ text, c ≤ 0x1FFFFF)
    (h : Lines (fun c => (U c).gcb = .LF ∨ (U c).gcb = .Control) lines last text) :
    Utf8Grapheme.segment U (Utf8.toUtf8Str text) =
      lines.flatMap (fun l => Utf8Grapheme.segment U (Utf8.toUtf8Str l)) ++ Utf8Grapheme.segment U (Utf8.toUtf8Str last) := by
  obtain ⟨rfl, h2⟩ := h
  have e := C79_lines_graphemes U (lines := lines) (last := last) ⟨rfl, h2⟩
  rw [C17_utf8_clusters U _ hc, C17_utf8_clusters U _ (fun c hm => hc c (List.mem_append_right _ hm)), e]
  congr 1
  exact List.flatMap_congr fun l hl => (C17_utf8_clusters U l fun c hm => hc c (List.mem_append_left _ (List.mem_flatten.2 ⟨l, hl, hm⟩))).symm

/-- Three lines with CR LF and LF; the second has a letter with an accent, the last begins with an accent. -/
example : Lines (fun c => (Toy.toy c).gcb = .LF ∨ (Toy.toy c).gcb = .Control) [[0x61, 0x0D, 0x0A], [0x62, 0x301, 0x0A]] [0x301, 0x63]
    [0x61, 0x0D, 0x0A, 0x62, 0x301, 0x0A, 0x301, 0x63] :=
  ⟨rfl, fun l hl => by
    simp only [List.mem_cons, List.not_mem_nil, or_false] at hl
    rcases hl with rfl | rfl
    · exact ⟨[0x61, 0x0D], 0x0A, rfl, by decide⟩
    · exact ⟨[0x62, 0x301], 0x0A, rfl, by decide⟩⟩

example : Grapheme.clusters Toy.toy [0x61, 0x0D, 0x0A, 0x62, 0x301, 0x0A, 0x301, 0x63] =
    [[0x61], [0x0D, 0x0A], [0x62, 0x301], [0x0A], [0x301], [0x63]] := by decide

/-- Behind U+0085 and in front of LF; the pairs CR LF are not borders. -/
example : HardG Toy.toy 0x85 0x301 ∧ HardG Toy.toy 0x61 0x0A ∧ HardG Toy.toy 0x0A 0x0D ∧ ¬ HardG Toy.toy 0x0D 0x0A ∧
    HardW Toy.toy 0x61 0x0D ∧ HardW Toy.toy 0x0A 0x301 ∧ ¬ HardW Toy.toy 0x0D 0x0A ∧ ¬ HardW Toy.toy 0x61 0x62 := by
  unfold HardG HardW
  decide

end Lines

/-! ## Normalization -/

section Normalization
open Verif.Norm Verif.Spec.Norm

variable {T : Tables}

/-- A line end takes no part in normalization: it has no decomposition, is a starter, and is in no primary composite. -/
def Inert (T : Tables) (n : Nat) : Prop :=
  (∀ k, decompose T k n = [n]) ∧ T.ccc n = 0 ∧ ∀ x, primary T x n = none ∧ primary T n x = none

/-- **C79, NFD and NFKD of lines.** -/
theorem C79_lines_nfd (f : Form) (hf : f = .NFD ∨ f = .NFKD) {lines : List (List Nat)} {last text : List Nat}
    (h : Lines (fun c => Inert T c) lines last text) :
    normalize T f text = lines.flatMap (normalize T f) ++ normalize T f last := by
  refine lines_of_cut _ ?_ (fun q c y b hc => ?_) h
  · rcases hf with rfl | rfl <;> rfl
  · have hk : ∀ t, normalize T f t = canonicalOrder T (t.flatMap (decompose T f.k)) := by
      rcases hf with rfl | rfl <;> exact fun _ => rfl
    obtain ⟨h1, h2, -⟩ := hc
    rw [hk, hk, hk, List.flatMap_append, List.flatMap_append]
    have : ([c] : List Nat).flatMap (decompose T f.k) = [c] := by simp [h1]
    rw [this, List.append_assoc, List.singleton_append, canonicalOrder_starter h2, canonicalOrder_starter h2]
    simp [canonicalOrder]

/-- What C79 claims of NFC and NFKC. -/
def C79_LinesComposed (T : Tables) : Prop :=
  ∀ (f : Form) (lines : List (List Nat)) (last text : List Nat), Lines (fun c => Inert T c) lines last text →
    normalize T f text = lines.flatMap (normalize T f) ++ normalize T f last

theorem toy_inert : Inert toy 0x0A := by
  refine ⟨fun k => by cases k <;> decide, by decide, fun x => ?_⟩
  have e1 : ∀ u v : Nat, ¬ (10 : Nat) = v → (((x, 10) : Nat × Nat) == (u, v)) = false := by
    intro u v hv
    simp [hv]
  have e2 : ∀ u v : Nat, ¬ (10 : Nat) = u → (((10, x) : Nat × Nat) == (u, v)) = false := by
    intro u v hv
    simp [hv]
  have h1 : tryCompose toy x 0x0A = 0 := by
    simp [tryCompose, Norm.toy, compTab, VBase, VCount, TBase, List.lookup, e1]
  have h2 : tryCompose toy 0x0A x = 0 := by
    simp [tryCompose, Norm.toy, compTab, LBase, SBase, List.lookup, e2]
  simp [primary, h1, h2]

/-- **C79** is violated by NFC: an accent at the beginning of a line leaves its line and is put on the last letter of the line before. -/
theorem C79_fails_nfc : ¬ C79_LinesComposed toy ∧
    normalize toy .NFC [0x65, 0x0A, 0x301] = [0x65, 0x301, 0x0A] ∧
    normalize toy .NFC [0x65, 0x0A] ++ normalize toy .NFC [0x301] = [0x65, 0x0A, 0x301] := by
  refine ⟨fun h => ?_, by decide, by decide⟩
  have := h .NFC [[0x65, 0x0A]] [0x301] [0x65, 0x0A, 0x301] ⟨rfl, fun l hl => by
    simp only [List.mem_singleton] at hl
    subst hl
    exact ⟨[0x65], 0x0A, rfl, toy_inert⟩⟩
  exact absurd this (by decide)

theorem compose_inert {n s : Nat} (h0 : T.ccc n = 0) (h1 : ∀ x, primary T x n = none ∧ primary T n x = none) (hs : T.ccc s = 0) (d e : List Nat) :
    compose T (d ++ n :: s :: e) = compose T (d ++ [n]) ++ compose T (s :: e) := by
  rw [compose_split h0 (fun a => (h1 a).1), compose_split h0 (fun a => (h1 a).1), List.append_assoc]
  congr 1
  have hn : composeStep T ⟨[], n, 0⟩ s = ⟨[n], s, 0⟩ := by
    have hp := (h1 s).2
    have hc : candidate T ⟨[], n, 0⟩ s = tryCompose T n s := by simp [candidate]
    unfold composeStep
    rw [hc, if_neg, if_pos hs]
    · rfl
    · intro hh
      unfold primary at hp
      rw [if_pos hh] at hp
      exact absurd hp (by simp)
  have hpre := compose_foldl_pre (T := T) [n] e ⟨[], s, 0⟩
  simp only [List.append_nil] at hpre
  simp only [compose, h0, hs, List.dropWhile_cons, List.takeWhile_cons, bne_self_eq_false, Bool.false_eq_true, if_false, List.foldl_cons, hn, hpre]
  rfl

/-- A text that begins with a starter when it has been decomposed. -/
def StartsWithStarter (T : Tables) (f : Form) (text : List Nat) : Prop :=
  ∀ h, (text.flatMap (decompose T f.k)).head? = some h → T.ccc h = 0

/-- **C79, all forms**, for lines that do not begin with a combining character.  Missing: lines that do; for them it is false (`C79_fails_nfc`). -/
theorem C79_lines_normalize_partial (f : Form) {lines : List (List Nat)} {last text : List Nat}
    (h : Lines (fun c => Inert T c) lines last text) (hs : ∀ l ∈ last :: lines, StartsWithStarter T f l) :
    normalize T f text = lines.flatMap (normalize T f) ++ normalize T f last := by
  by_cases hf : f.composes = true
  · obtain ⟨rfl, h2⟩ := h
    have hnil : normalize T f [] = [] := by unfold normalize; rw [if_pos hf]; rfl
    have hk : ∀ t, normalize T f t = compose T (canonicalOrder T (t.flatMap (decompose T f.k))) := by
      intro t; unfold normalize; rw [if_pos hf]
    induction lines with
    | nil => rfl
    | cons l ls ih =>
      have hls : ∀ l ∈ ls, ∃ q c, l = q ++ [c] ∧ Inert T c := fun l hl => h2 l (List.mem_cons_of_mem _ hl)
      have ih := ih (fun m hm => hs m (by rcases List.mem_cons.1 hm with h | h <;> simp [h])) hls
      obtain ⟨q, c, rfl, hc, h0, h1⟩ := h2 l List.mem_cons_self
      rw [List.flatten_cons, List.append_assoc (q ++ [c]), List.flatMap_cons, List.append_assoc (normalize T f (q ++ [c])), ← ih]
      have hst : StartsWithStarter T f (ls.flatten ++ last) := by
        cases ls with
        | nil => exact hs last List.mem_cons_self
        | cons m ms =>
          have hm := hs m (by simp)
          obtain ⟨q', c', rfl, hc', -, -⟩ := hls m List.mem_cons_self
          intro x hx
          refine hm x ?_
          rw [← hx, List.flatten_cons, List.append_assoc, List.flatMap_append (xs := q' ++ [c'])]
          cases hd : (q' ++ [c']).flatMap (decompose T f.k) with
          | nil => rw [List.flatMap_append] at hd; simp [hc'] at hd
          | cons a as => rfl
      rw [hk, hk (q ++ [c]), hk (ls.flatten ++ last), List.flatMap_append, List.flatMap_append]
      have hone : ([c] : List Nat).flatMap (decompose T f.k) = [c] := by simp [hc]
      rw [hone, List.append_assoc, List.singleton_append, canonicalOrder_starter h0, canonicalOrder_starter h0]
      cases hd : (ls.flatten ++ last).flatMap (decompose T f.k) with
      | nil => simp [canonicalOrder, compose]
      | cons s e =>
        have hs0 : T.ccc s = 0 := hst s (by rw [hd]; rfl)
        rw [canonicalOrder_cons_starter hs0, compose_inert h0 h1 hs0]
        simp [canonicalOrder]
  · refine C79_lines_nfd f ?_ h
    cases f <;> simp_all [Form.composes]

/-- Two lines, composed in each form. -/
example : Lines (fun c => Inert toy c) [[0x65, 0x301, 0x0A]] [0x73, 0x323] [0x65, 0x301, 0x0A, 0x73, 0x323] ∧
    (∀ l ∈ [[0x73, 0x323], [0x65, 0x301, 0x0A]], StartsWithStarter toy .NFC l) := by
  refine ⟨⟨rfl, fun l hl => ?_⟩, fun l hl h hh => ?_⟩
  · simp only [List.mem_singleton] at hl
    subst hl
    exact ⟨[0x65, 0x301], 0x0A, rfl, toy_inert⟩
  · simp only [List.mem_cons, List.not_mem_nil, or_false] at hl
    rcases hl with rfl | rfl
    · have : h = 0x73 := by revert hh; decide +revert
      subst this; decide
    · have : h = 0x65 := by revert hh; decide +revert
      subst this; decide

end Normalization

end Verif.Props.TextLines
