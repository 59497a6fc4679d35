import Verif.Lemmas.ScanWrap
import Verif.Props.ScanWidth
/-!
# Property C62: a cluster that does not fit on the line is scanned like new by the next call
-/

namespace Verif.Props.Scan
open Verif.Scan Verif.Ucd Verif.Utf8 Verif.Grapheme Verif.Width Verif.Toy Verif.Spec.GB

/-- The property as a user expects it.  `scan_text` stops in front of a character `c` that begins a grapheme cluster (UAX
#29), before the line is full: the cluster does not fit.  The caller starts a new line and calls it again with the same
state and the rest of the text; it is told the same as if it scanned the rest with a fresh state. -/
def C62_Wrap : Prop :=
  ∀ (U : Table) (v : Variant) (w : Nat) (cs : List Nat) (c : Nat) (ds : List Nat) (max max' : Nat) (R R' Q : Out),
    DataOk U → WidthOk U → Scannable (cs ++ c :: ds) → BoundaryAt U cs c →
    scanText U v w (State.init U) none [] (toUtf8Str (cs ++ c :: ds)) max = .ok R →
    R.next = (toUtf8Str cs).length → R.count < max →
    scanText U v w R.st (some 0) (toUtf8Str cs) (toUtf8Str (c :: ds)) max' = .ok R' →
    scanText U v w (State.init U) none [] (toUtf8Str (c :: ds)) max' = .ok Q →
    R'.count = Q.count ∧ R'.start = Q.start ∧ R'.fin = Q.fin ∧ R'.next = Q.next ∧ R'.events = Q.events

/-- The code violates it: "a", then the Hangul syllable 가 as two jamo (2 columns), then "b", on a line of two columns.
The state keeps the leading jamo that did not fit, and the next call joins that jamo to itself. -/
theorem C62_fails_hangul : ¬ C62_Wrap := by
  intro h
  have hb : BoundaryAt toy [0x61] 0x1100 := by
    refine ⟨[], 0x61, rfl, ?_, .inr (.inr ?_)⟩
    · rintro ⟨h, _⟩; revert h; decide +kernel
    · rintro (h | h | h | h | h | h | h | h | h)
      · obtain ⟨h, _⟩ := h; revert h; decide +kernel
      · obtain ⟨h, _⟩ := h; revert h; decide +kernel
      · obtain ⟨h, _⟩ := h; revert h; decide +kernel
      · revert h; unfold gb9; decide +kernel
      · revert h; unfold gb9a; decide +kernel
      · revert h; unfold gb9b; decide +kernel
      · obtain ⟨h, _⟩ := h; revert h; decide +kernel
      · obtain ⟨h, _⟩ := h; revert h; decide +kernel
      · obtain ⟨h, _⟩ := h; revert h; decide +kernel
  have := (h toy .none 16 [0x61] 0x1100 [0x1161, 0x62] 2 10 _ _ _ toy_ok toy_width_ok
    (by intro c hc; simp at hc; omega) hb rfl (by decide +kernel) (by decide +kernel) rfl rfl).2.2.2.2
  revert this
  decide +kernel

/-- An ordinary character in front of which a state that last saw no `Prepend` sees a border. -/
theorem isBreakable_plain (U : Table) (D : Nat → Prop) (st : State) (c : Nat) (ht : Tracks U D st) (hc : 0x80 ≤ c)
    (hg : (U c).gcb = .Other) (hi : (U c).incb = .None) (hp : ∀ x, D x → (U x).gcb ≠ .Prepend)
    (hz : (U c).isExtPict = true → ∀ x, D x → (U x).gcb ≠ .ZWJ) :
    isBreakable U st c = (processInit U c, true) := by
  unfold isBreakable
  split
  · rfl
  · rename_i hh
    obtain ⟨x, hx, hU⟩ := ht.resolve_left hh
    have h1 := hp x hx
    have hcas : cascade (U x).gcb (U c) st.g.incbState st.g.extpicState 0 = .brk := by
      unfold cascade isCtl
      simp only [hg, hi]
      repeat' split
      all_goals first
        | rfl
        | (exfalso; simp_all)
    unfold processBreakable processInit
    simp only [hU, hg, reduceCtorEq, and_false, if_false]
    rw [if_neg (by omega), hcas]
    simp only [Prod.mk.injEq, and_true, GState.mk.injEq, true_and]
    unfold incbNext extpicNext
    rw [hi, hg]
    refine ⟨by simp, ?_⟩
    cases (U c).isExtPict
    · simp only [Bool.false_eq_true, or_false, if_false, reduceCtorEq, false_and]
      split
      · rfl
      · omega
    · simp

/-- **C62 (partial).**  It holds for every text without `Prepend` characters, every character class of `c` that is not
involved in a rule that joins it to itself (grapheme break `Other`, no conjunct break: ASCII, CJK, emoji, …), and, if `c`
is a pictograph, without U+200D; however the first call came to stop in front of `c`. -/
theorem C62_wrap_partial (U : Table) (v v' : Variant) (w w' : Nat) (cs : List Nat) (c : Nat) (ds : List Nat) (max max' : Nat)
    (R R' Q : Out) (hsc : ∀ x ∈ cs ++ c :: ds, x ≤ 0x1FFFFF) (hg : (U c).gcb = .Other) (hi : (U c).incb = .None)
    (hp : ∀ x ∈ cs ++ c :: ds, (U x).gcb ≠ .Prepend)
    (hz : (U c).isExtPict = true → ∀ x ∈ cs ++ c :: ds, (U x).gcb ≠ .ZWJ)
    (hR : scanText U v w (State.init U) none [] (toUtf8Str (cs ++ c :: ds)) max = .ok R)
    (hn : R.next = (toUtf8Str cs).length)
    (hR' : scanText U v' w' R.st (some 0) (toUtf8Str cs) (toUtf8Str (c :: ds)) max' = .ok R')
    (hQ : scanText U v' w' (State.init U) none [] (toUtf8Str (c :: ds)) max' = .ok Q) :
    R'.count = Q.count ∧ R'.start = Q.start ∧ R'.fin = Q.fin ∧ R'.next = Q.next ∧ R'.events = Q.events := by
  have hbytes : ∀ l : List Nat, (∀ x ∈ l, x ≤ 0x1FFFFF) → ∀ b ∈ toUtf8Str l, b < 256 := by
    intro l hl
    rw [toUtf8Str_eq]
    intro b hb
    obtain ⟨x, hx, hbx⟩ := List.mem_flatMap.1 hb
    by_cases hlt : x < 0x80
    · rw [toUtf8_low x hlt] at hbx; simp at hbx; omega
    · exact ((toUtf8_high x (by omega) (hl x hx)).1 b hbx).2
  have hbT := hbytes _ hsc
  have hsc' : ∀ x ∈ c :: ds, x ≤ 0x1FFFFF := fun x hx => hsc x (List.mem_append_right _ hx)
  have hbt := hbytes _ hsc'
  have happ : toUtf8Str (cs ++ c :: ds) = toUtf8Str cs ++ toUtf8Str (c :: ds) := by
    simp only [toUtf8Str_eq, List.flatMap_append]
  have hhead : toUtf8Str (c :: ds) = toUtf8 c ++ toUtf8Str ds := by simp only [toUtf8Str_eq, List.flatMap_cons]
  have hidle : R.st.utf8.expectedLength = 0 := by
    obtain ⟨R₁, h1, h2⟩ := scanText_idle_post U v w (State.init U) none rfl rfl [] _ hbT max
    rw [hR] at h1
    cases h1
    refine h2.hidle ?_
    rw [hn, happ, List.length_append, hhead, List.length_append]
    have := List.length_pos_iff.2 (toUtf8_ne_nil c)
    omega
  suffices h : Same R' Q from ⟨h.count, h.start, h.fin, h.next, h.events⟩
  by_cases hlt : c < 0x80
  · rw [hhead, toUtf8_low c hlt] at hR' hQ hbt
    exact scanText_same_ascii U v' w' R.st (State.init U) hidle rfl (some 0) none rfl rfl _ _ c _ hlt hbt max' R' Q hR' hQ
  · have htr : Tracks U (fun x => x ∈ cs ++ c :: ds) R.st := by
      have hdel := delivered_encoded U (cs ++ c :: ds) hsc {} rfl
      unfold scanText at hR
      simp only [State.init, ne_eq, not_true_eq_false, if_false] at hR
      generalize toUtf8Str (cs ++ c :: ds) = T at hR hdel hbT
      cases T with
      | nil => cases hR; exact .inl rfl
      | cons b bs =>
        simp only [Mem.ok.injEq] at hR
        subst hR
        refine mainLoop_tracks U _ v w max _ _ _ _ hbT 0 (by simp) _ (.inl rfl) (.inl rfl) (.inr ?_)
        rw [hdel]
        exact fun _ h => h
    have hbr := isBreakable_plain U _ R.st c htr (by omega) hg hi hp hz
    rw [hhead] at hR' hQ hbt
    have hhi := toUtf8_high c (by omega) (hsc' c (List.mem_cons_self ..))
    refine scanText_same_border U v' w' R.st (State.init U) hidle rfl (some 0) none rfl rfl _ _ (toUtf8 c) _ c
      ⟨toUtf8_ne_nil c, (feed_toUtf8 {} rfl c (hsc' c (List.mem_cons_self ..))).1⟩ (fun x hx => (hhi.1 x hx).1) hbt hbr rfl max' R' Q hR' hQ

/-- Its hypotheses are met when a wide character does not fit: "a", then ⌚ (two columns) and "b" on a line of two columns. -/
example : ∃ R R' Q, scanText toy .none 16 (State.init toy) none [] (toUtf8Str ([0x61] ++ 0x231A :: [0x62])) 2 = .ok R ∧
    R.next = (toUtf8Str [0x61]).length ∧ R.count = 1 ∧
    (toy 0x231A).gcb = .Other ∧ (toy 0x231A).incb = .None ∧ (∀ x ∈ [0x61] ++ 0x231A :: [0x62], (toy x).gcb ≠ .Prepend ∧ (toy x).gcb ≠ .ZWJ) ∧
    scanText toy .none 16 R.st (some 0) (toUtf8Str [0x61]) (toUtf8Str (0x231A :: [0x62])) 10 = .ok R' ∧
    scanText toy .none 16 (State.init toy) none [] (toUtf8Str (0x231A :: [0x62])) 10 = .ok Q ∧
    R'.count = 3 ∧ R'.events = Q.events :=
  ⟨_, _, _, rfl, by decide +kernel, by decide +kernel, by decide +kernel, by decide +kernel, by decide +kernel, rfl, rfl,
    by decide +kernel, by decide +kernel⟩

end Verif.Props.Scan
