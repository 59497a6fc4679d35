import Verif.Lemmas.EmojiGrammar
import Verif.Lemmas.Ranges
import Mathlib.Data.List.Chain

/-! Properties C23, C24: emoji presentation scanner and segmenter. -/

namespace Verif.Props.Emoji
open Verif.Emoji Verif.Spec Verif.Spec.Emoji

/-! ## C24 -/

/-- **C24.** On every non-empty category sequence, and wherever it starts, the table-driven scanner returns the end of
the longest token of the grammar and the presentation of the first rule that matches it; it never runs past the end of
its input. -/
theorem C24_longest_token (p : Nat) (rest : List Int) (h : rest ≠ []) :
    ∃ n e, scan p rest = some (p + n, e) ∧ LongestToken rest n e := by
  obtain ⟨c, cs, rfl⟩ := List.exists_cons_of_ne_nil h
  have hs := scanFrom_lm (c :: cs) 2 p 0 0 (0, false) (by omega) (by simp)
    ⟨fun _ h => absurd rfl h, by simp, by simp, by simp⟩
  have htake : ∀ k, 0 < k → k ≤ (c :: cs).length → ∀ e, acc 2 ((c :: cs).take k) = some e ↔
      IsToken ((c :: cs).take k) e := by
    intro k h1 h2 e
    rw [← acc_iff_token, accL, if_neg]
    obtain ⟨k, rfl⟩ : ∃ j, k = j + 1 := ⟨k - 1, by omega⟩
    simp
  rcases lm_spec (c :: cs) 2 p (0, false) with ⟨_, h2⟩ | ⟨k, e, h1, h2, h3, h4, h5⟩
  · -- impossible: one symbol is always a token
    exfalso
    have h3 := h2 1 (by omega) (by simp)
    simp only [List.take_succ_cons, List.take_zero, acc, delta] at h3
    split_ifs at h3 <;> simp at h3
  · refine ⟨k, e, by rw [scan, hs, h3], h1, h2, (htake k h1 h2 e).1 h4, ?_⟩
    intro m h6 h7 e' h8
    have := (htake m (by omega) h7 e').2 h8
    rw [h5 m h6 h7] at this
    simp at this

/-- The longest token, and its presentation, are unique; so `C24_longest_token` determines the scanner's answer. -/
theorem C24_unique (input : List Int) (n m : Nat) (e f : Bool) (h1 : LongestToken input n e)
    (h2 : LongestToken input m f) : n = m ∧ e = f := by
  have hn : n = m := by
    rcases Nat.lt_trichotomy n m with h | h | h
    · exact absurd h2.2.2.1 (h1.2.2.2 m h h2.2.1 f)
    · exact h
    · exact absurd h1.2.2.1 (h2.2.2.2 n h h1.2.1 e)
  subst hn
  refine ⟨rfl, ?_⟩
  have a := (acc_iff_token _ _).2 h1.2.2.1
  have b := (acc_iff_token _ _).2 h2.2.2.1
  rw [a] at b; simpa using b

/-- Non-vacuity: man, ZWJ, woman + modifier, then text. -/
example : scan 5 [3, 10, 3, 4, -1] = some (9, true) := by decide
/-- A digit with VS15 is text, with VS16 and keycap an emoji; a lone flag half is text; a broken ZWJ sequence falls back
to the part before the joiner. -/
example : scan 0 [7, 11, 8] = some (2, false) ∧ scan 0 [7, 12, 8] = some (3, true) ∧ scan 0 [6, 2] = some (1, false) ∧
    scan 0 [0, 10, 6] = some (1, false) ∧ scan 0 [2, 10, 6] = some (1, true) ∧
    scan 0 [13, 14, 14, 15, 0] = some (4, true) ∧ scan 0 [13, 14, 14, 0] = some (1, true) := by decide

/-! ## C23 -/

/-- `toks` is the left-to-right tokenisation of `input`: each token is the longest at its position. -/
inductive Tokenized : List Int → List (Bool × List Int) → Prop
  | nil : Tokenized [] []
  | cons {input : List Int} {n : Nat} {e : Bool} {toks : List (Bool × List Int)} :
      LongestToken input n e → Tokenized (input.drop n) toks → Tokenized input ((e, input.take n) :: toks)

theorem once_spec (cats : List Int) (x : Nat) (h : x < cats.length) :
    ∃ n e, consumeOnce scan cats x = (x + n, e) ∧ LongestToken (cats.drop x) n e := by
  obtain ⟨n, e, h1, h2⟩ := C24_longest_token x (cats.drop x) (by
    intro hn; have := congrArg List.length hn; simp at this; omega)
  exact ⟨n, e, by simp [consumeOnce, h1], h2⟩

theorem loop_spec (cats : List Int) (b : Bool) (fuel x : Nat) (nx0 : Bool) (hx : x < cats.length)
    (hf : cats.length - x ≤ fuel) :
    ∃ (ts : List (List Int)) (y : Nat) (nx : Bool), consumeLoop scan cats b fuel x nx0 = (y, nx) ∧
      y ≤ cats.length ∧ cats.drop x = ts.flatten ++ cats.drop y ∧ y = x + ts.flatten.length ∧
      (∀ t ∈ ts, t ≠ []) ∧
      (∀ rest, Tokenized (cats.drop y) rest → Tokenized (cats.drop x) (ts.map (fun t => (b, t)) ++ rest)) ∧
      (y < cats.length → nx = (consumeOnce scan cats y).2 ∧ nx ≠ b) ∧
      (ts = [] → (consumeOnce scan cats x).2 ≠ b) := by
  induction fuel generalizing x nx0 with
  | zero => omega
  | succ fuel ih =>
    obtain ⟨n, e, h1, h2⟩ := once_spec cats x hx
    simp only [consumeLoop, h1]
    by_cases hb : b ≠ e
    · rw [if_pos hb]
      exact ⟨[], x, e, rfl, by omega, by simp, by simp, by simp, fun rest h => h, fun _ => ⟨by rw [h1], hb.symm⟩,
        fun _ => hb.symm⟩
    · rw [if_neg hb]
      have hb : b = e := Classical.not_not.1 hb
      subst hb
      have hn := h2.2.1
      have hn0 := h2.1
      simp at hn
      have hsplit : cats.drop x = (cats.drop x).take n ++ cats.drop (x + n) := by
        rw [← List.drop_drop]; exact (List.take_append_drop n _).symm
      have hlen : ((cats.drop x).take n).length = n := by simp; omega
      have hne : (cats.drop x).take n ≠ [] := by intro h; rw [h] at hlen; simp at hlen; omega
      by_cases hlt : x + n < cats.length
      · rw [if_pos hlt]
        obtain ⟨ts, y, nx, g1, g2, g3, g4, g5, g6, g7, _⟩ := ih (x + n) b hlt (by omega)
        refine ⟨(cats.drop x).take n :: ts, y, nx, g1, g2, ?_, ?_, ?_, ?_, g7, by simp⟩
        · rw [List.flatten_cons, List.append_assoc, ← g3, ← hsplit]
        · rw [List.flatten_cons, List.length_append, hlen, g4]; omega
        · intro t ht
          rcases List.mem_cons.1 ht with rfl | ht
          · exact hne
          · exact g5 t ht
        · intro rest hr
          refine .cons h2 ?_
          rw [List.drop_drop]
          exact g6 rest hr
      · rw [if_neg hlt]
        have : x + n = cats.length := by omega
        refine ⟨[(cats.drop x).take n], x + n, b, rfl, by omega, ?_, ?_, ?_, ?_, by omega, by simp⟩
        · simpa using hsplit
        · simp only [List.flatten_cons, List.flatten_nil, List.append_nil, hlen]
        · simpa using hne
        · intro rest hr
          refine .cons h2 ?_
          rw [List.drop_drop]; exact hr

/-- What the segmenter reports, segment by segment, each as the list of its tokens. -/
structure Grouping (cats : List Int) (segs : List (Bool × List (List Int))) : Prop where
  /-- all tokens in order are the tokenisation -/
  tokens : Tokenized cats (segs.flatMap (fun s => s.2.map (fun t => (s.1, t))))
  /-- no segment is empty -/
  nonempty : ∀ s ∈ segs, s.2 ≠ [] ∧ ∀ t ∈ s.2, t ≠ []
  /-- neighbouring segments differ in presentation -/
  alternate : segs.IsChain (fun s t => s.1 ≠ t.1)

theorem runsLoop_spec (cats : List Int) (fuel : Nat) (s : St) (hf : cats.length - s.nextBegin ≤ fuel)
    (hle : s.nextBegin ≤ cats.length)
    (hn : s.nextBegin < cats.length → s.isNext = (consumeOnce scan cats s.nextBegin).2) :
    ∃ segs : List (Bool × List (List Int)),
      runsLoop scan cats fuel s = endsOf s.nextBegin (segs.map (fun s => (s.1, s.2.flatten))) ∧
      Grouping (cats.drop s.nextBegin) segs ∧
      (segs.map (fun s => s.2.flatten)).flatten = cats.drop s.nextBegin ∧
      (∀ x ∈ segs.head?, x.1 = s.isNext) := by
  induction fuel generalizing s with
  | zero =>
    have : s.nextBegin = cats.length := by omega
    refine ⟨[], rfl, ⟨?_, by simp, .nil⟩, ?_, by simp⟩
    · rw [this]; simp; exact .nil
    · simp [this]
  | succ fuel ih =>
    by_cases hx : s.nextBegin < cats.length
    · obtain ⟨ts, y, nx, g1, g2, g3, g4, g5, g6, g7, g8⟩ :=
        loop_spec cats s.isNext (cats.length - s.nextBegin) s.nextBegin s.isNext hx (Nat.le_refl _)
      have hne : ts ≠ [] := fun h => g8 h (hn hx).symm
      have hpos : 0 < ts.flatten.length := by
        obtain ⟨t, ts, rfl⟩ := List.exists_cons_of_ne_nil hne
        have := List.length_pos_iff.2 (g5 t (by simp))
        simp; omega
      have hcons : consume scan cats s = ((⟨s.curEnd, y, y, s.isNext, nx⟩ : St), some (s.isNext, y)) := by
        unfold consume
        rw [if_neg (by omega), g1]
      obtain ⟨segs, k1, k2, k3, k4⟩ := ih (⟨s.curEnd, y, y, s.isNext, nx⟩ : St) (by simp only; omega) g2 (fun h => (g7 h).1)
      refine ⟨(s.isNext, ts) :: segs, ?_, ⟨?_, ?_, ?_⟩, ?_, by simp⟩
      · simp only [runsLoop, hcons, k1, List.map_cons, endsOf, ← g4]
      · simp only [List.flatMap_cons]
        exact g6 _ k2.tokens
      · intro x hx
        rcases List.mem_cons.1 hx with rfl | hx
        · exact ⟨hne, g5⟩
        · exact k2.nonempty x hx
      · cases hsg : segs with
        | nil => exact .singleton _
        | cons x xs =>
          refine List.IsChain.cons_cons ?_ (hsg ▸ k2.alternate)
          have h1 : x.1 = nx := k4 x (by rw [hsg]; simp)
          have hy : y < cats.length := by
            refine Nat.lt_of_le_of_ne g2 fun h => ?_
            have := k2.tokens
            simp only [h, List.drop_length, hsg, List.flatMap_cons] at this
            obtain ⟨t, ts', ht⟩ := List.exists_cons_of_ne_nil (k2.nonempty x (by rw [hsg]; simp)).1
            rw [ht] at this
            simp only [List.map_cons, List.cons_append] at this
            generalize hnil : ([] : List Int) = w at this
            cases this with
            | cons hl _ => subst hnil; have := hl.1; have := hl.2.1; simp at this; omega
          rw [h1]
          exact (g7 hy).2.symm
      · simp only [List.map_cons, List.flatten_cons, k3]
        exact g3.symm
    · have : s.nextBegin = cats.length := by omega
      refine ⟨[], ?_, ⟨?_, by simp, .nil⟩, ?_, by simp⟩
      · simp only [runsLoop, consume]; rw [if_pos (by omega)]; rfl
      · rw [this]; simp; exact .nil
      · simp [this]

theorem init_next (cats : List Int) : (init scan cats).nextBegin = 0 := by unfold init; split <;> rfl

/-- **C23, exact.** The segments of a text are its tokens (in the sense of the emoji grammar), grouped into maximal
runs of equal presentation; each is reported with that presentation and its end offset. -/
theorem C23_groups (cats : List Int) :
    ∃ segs : List (Bool × List (List Int)), runs cats = endsOf 0 (segs.map (fun s => (s.1, s.2.flatten))) ∧
      Grouping cats segs := by
  obtain ⟨segs, h1, h2, _⟩ := runsLoop_spec cats cats.length (init scan cats) (by omega)
    (by rw [init_next]; omega) (by
      intro h
      rw [init_next] at h ⊢
      unfold init
      rw [if_neg (by omega)])
  rw [init_next] at h1 h2
  exact ⟨segs, h1, by simpa using h2⟩

/-- **C23.** For every text, `emoji_segmenter` reports consecutive non-empty segments that together are the text (end
offsets increase strictly from 0 to its length), and neighbouring segments have different presentation. -/
theorem C23_partition_alternates (cats : List Int) :
    ∃ segs : List (Bool × List Int), runs cats = endsOf 0 segs ∧ Partition (segs.map Prod.snd) cats ∧
      segs.IsChain (fun s t => s.1 ≠ t.1) := by
  obtain ⟨segs, h1, h2, h3, _⟩ := runsLoop_spec cats cats.length (init scan cats) (by omega)
    (by rw [init_next]; omega) (by
      intro h
      rw [init_next] at h ⊢
      unfold init
      rw [if_neg (by omega)])
  rw [init_next] at h1 h2 h3
  refine ⟨segs.map (fun (s : Bool × List (List Int)) => ((s.1, s.2.flatten) : Bool × List Int)), h1, ⟨?_, ?_⟩, ?_⟩
  · rw [List.map_map]; rw [List.drop_zero] at h3; exact h3
  · intro x hx
    simp only [List.map_map, List.mem_map, Function.comp] at hx
    obtain ⟨s, hs, rfl⟩ := hx
    have hh := h2.nonempty s hs
    obtain ⟨t, ts, ht⟩ := List.exists_cons_of_ne_nil hh.1
    simp only [ht, List.flatten_cons]
    have := hh.2 t (by rw [ht]; simp)
    simp [this]
  · rw [List.isChain_map]; exact h2.alternate

/-- **C23, offsets.** -/
theorem C23_covers (cats : List Int) : Covers ((runs cats).map Prod.snd) cats.length := by
  obtain ⟨segs, h1, h2, _⟩ := C23_partition_alternates cats
  rw [h1]; exact covers_endsOf h2

/-- A text on which the segmenter has something to do (emoji ZWJ sequence, keycap, text presentation, flag). -/
example : runs [-1, -1, 3, 4, 10, 2, 12, 0, 11, 7, 12, 8, 6, 6, -1] =
    [(false, 2), (true, 7), (false, 9), (true, 14), (false, 15)] := by decide

example : Verif.Emoji.runs [0, -1, 2, 12, 10, 3, 4, 0, 11, 6, 6, 6, 7, 12, 8] =
    [(false, 2), (true, 7), (false, 9), (true, 11), (false, 12), (true, 15)] := by decide

end Verif.Props.Emoji
