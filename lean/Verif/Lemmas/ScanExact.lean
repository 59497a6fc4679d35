import Verif.Lemmas.ScanFill
import Verif.Spec.ScanBorder
/-!
# What the scanner counts, for every text without control characters
-/

namespace Verif.Scan
open Verif.Ucd Verif.Utf8 Verif.Grapheme Verif.Width Verif.Props Verif.Props.Scan Verif.Spec.GB Verif.Spec

/-- The characters as the scanner sees them; `cl` is the open one. -/
def scanSplit (U : Table) : GState → List Nat → List Nat → List (List Nat)
  | _, cl, [] => [cl]
  | g, cl, c :: cs =>
    if c < 0x80 then cl :: scanSplit U (processInit U c) [c] cs
    else if (processBreakable U c g).2 then cl :: scanSplit U (processBreakable U c g).1 [c] cs
    else scanSplit U (processBreakable U c g).1 (cl ++ [c]) cs

def splitText (U : Table) : List Nat → List (List Nat)
  | [] => []
  | c :: cs => scanSplit U (processInit U c) [c] cs

/-- Columns -/
def cols (U : Table) (cls : List (List Nat)) : Nat := (cls.map (accWidth U)).sum

theorem cols_cons (U : Table) (a : List Nat) (l : List (List Nat)) : cols U (a :: l) = accWidth U a + cols U l := by
  unfold cols; rw [List.map_cons, List.sum_cons]

theorem cols_append (U : Table) (a b : List (List Nat)) : cols U (a ++ b) = cols U a + cols U b := by
  unfold cols; rw [List.map_append, List.sum_append]

/-! ## A character that begins with an ASCII character does not become narrower than it -/

/-- The accumulator of a character with an ASCII character in front. -/
structure AH (U : Table) (s : Acc) : Prop where
  tot : 0 ≤ s.total
  cur : 1 ≤ s.current
  base : (U s.lastMeasured).isEmojiVariationBase = true → s.lastMeasuredWidth ≠ 2

/-- The segmenter, too. -/
structure AG (g : GState) : Prop where
  prev : g.previousProperties.gcb = .Other ∨ g.previousProperties.gcb = .Extend ∨ g.previousProperties.gcb = .ZWJ ∨ g.previousProperties.gcb = .SpacingMark
  incb : g.incbState = 0
  pict : g.extpicState = 0

theorem AH.width {U : Table} {s : Acc} (h : AH U s) : 1 ≤ s.width := by
  have h1 := h.tot
  have h2 := h.cur
  unfold Acc.width
  rw [if_pos (by omega)]
  omega

theorem AH.push {U : Table} (V : VariationOk U) {s : Acc} (h : AH U s) (c : Nat)
    (hc : (U c).gcb = .Extend ∨ (U c).gcb = .ZWJ ∨ (U c).gcb = .SpacingMark) : AH U (push U s c) := by
  have hri : (U c).gcb ≠ .Regional_Indicator := by rcases hc with h | h | h <;> rw [h] <;> decide
  have hb : (U c).isEmojiVariationBase = true → False := by
    intro hb
    have := V.base c hb
    rcases hc with h | h | h <;> rw [h] at this <;> cases this
  obtain ⟨h1, h2, h3⟩ := h
  unfold Width.push
  rw [if_neg hri]
  have key : ∀ (before : Nat) (s : Acc), 0 ≤ s.total → 1 ≤ s.current → ((U s.lastMeasured).isEmojiVariationBase = true → s.lastMeasuredWidth ≠ 2) →
      AH U (push' U c before s) := by
    intro before s h1 h2 h3
    unfold push'
    split
    · exact ⟨h1, h2, h3⟩
    split
    · split
      · exact ⟨h1, h2, fun _ => by show (0 : Nat) ≠ 2; decide⟩
      · exact ⟨h1, h2, h3⟩
    split
    · refine ⟨h1, ?_, h3⟩
      simp only
      split
      · decide
      · exact h2
    split
    · refine ⟨?_, h2, h3⟩
      simp only
      split
      · rename_i hx
        exact absurd hx.2 (h3 hx.1)
      · exact h1
    split
    · rename_i hx
      exact absurd hx.1 hri
    split
    · exact ⟨h1, h2, h3⟩
    unfold measureCp
    split
    · rename_i hw
      refine ⟨?_, ?_, ?_⟩
      · simp only
        split
        · exact h1
        · split <;> omega
      · simp only
        split
        · decide
        · omega
      · exact fun h => absurd (hb h) (by simp)
    split
    · exact ⟨h1, h2, h3⟩
    split
    · exact ⟨h1, by show (1 : Int) ≤ 2; decide, h3⟩
    · exact ⟨h1, h2, h3⟩
  exact key _ _ h1 h2 h3

theorem AG.join {U : Table} (D : DataOk U) (V : VariationOk U) {g : GState} (h : AG g) (c : Nat) (hc : 0x80 ≤ c)
    (hj : (processBreakable U c g).2 = false) :
    ((U c).gcb = .Extend ∨ (U c).gcb = .ZWJ ∨ (U c).gcb = .SpacingMark) ∧ AG (processBreakable U c g).1 := by
  obtain ⟨h1, h2, h3⟩ := h
  have hcr : g.previousProperties.gcb ≠ .CR := by rcases h1 with h | h | h | h <;> rw [h] <;> decide
  have hA : ¬ (g.previousProperties.gcb = .CR ∧ (U c).gcb = .LF) := fun h => hcr h.1
  have hB : ¬ (g.previousCodepoint < 128 ∧ c < 128) := by omega
  have main : ((U c).gcb = .Extend ∨ (U c).gcb = .ZWJ ∨ (U c).gcb = .SpacingMark) := by
    unfold processBreakable at hj
    simp only [if_neg hA, if_neg hB, h2, h3] at hj
    by_contra hn
    have hcas : ∀ ri, cascade g.previousProperties.gcb (U c) 0 0 ri = .brk := by
      intro ri
      unfold cascade
      rcases h1 with h | h | h | h <;> simp_all [isCtl]
    rw [hcas] at hj
    simp at hj
  have hcons : (U c).incb ≠ .Consonant := by
    intro h
    have := V.consonant c h
    rcases main with h | h | h <;> rw [h] at this <;> cases this
  have hep : (U c).isExtPict = false := by
    cases h : (U c).isExtPict with
    | false => rfl
    | true =>
      have := D.extpict_gcb c h
      rcases main with h | h | h <;> rw [h] at this <;> cases this
  refine ⟨main, ?_⟩
  have hi : incbNext (U c) 0 = 0 := by unfold incbNext; simp [hcons]
  have he : extpicNext (U c) 0 = 0 := by unfold extpicNext; simp [hep]
  have : (processBreakable U c g).1.previousProperties = U c ∧ (processBreakable U c g).1.incbState = 0 ∧ (processBreakable U c g).1.extpicState = 0 := by
    unfold processBreakable
    simp only [if_neg hA, if_neg hB, h2, h3, hi, he]
    split <;> exact ⟨rfl, rfl, rfl⟩
  refine ⟨?_, this.2.1, this.2.2⟩
  rw [this.1]
  exact .inr main

theorem AG.init {U : Table} (D : DataOk U) (A : AsciiOk U) (x : Nat) (h1 : 0x20 ≤ x) (h2 : x < 0x7F) : AG (processInit U x) := by
  have ga : (U x).gcb = .Other := (A x h1 h2).1
  have gi := D.ascii_incb x (by omega)
  have ge := D.ascii_extpict x (by omega)
  unfold processInit
  exact ⟨.inl ga, by simp [gi], by simp [ge]⟩

theorem AH.init {U : Table} (A : AsciiOk U) (x : Nat) (h1 : 0x20 ≤ x) (h2 : x < 0x7F) : AH U (Width.push U {} x) := by
  have gw := (A x h1 h2).2
  have ga : (U x).gcb = .Other := (A x h1 h2).1
  have hri : (U x).gcb ≠ .Regional_Indicator := by rw [ga]; decide
  have e : Width.push U {} x = measureCp U x {} := by
    unfold Width.push push'
    simp only [hri, if_false, Bool.false_eq_true, false_and, and_false]
    rw [if_neg (by omega)]
    have : ¬ (0x1F3FB ≤ x ∧ x ≤ 0x1F3FF ∧ joinsEmoji U 0 = true) := by omega
    rw [if_neg this]
  rw [e]
  unfold measureCp
  rw [if_pos (by rw [gw]; decide)]
  exact ⟨by simp, by simp [gw], by simp [gw]⟩

/-- A codepoint adds at most two columns. -/
theorem push_le {U : Table} (W : WidthOk U) (cl : List Nat) (c : Nat) :
    (push U (cl.foldl (push U) {}) c).width ≤ (cl.foldl (push U) {}).width + 2 := by
  have hcur := (foldl_bound W.le_two cl {} 0 (init_bound U)).cur
  by_cases hc : c = 0xFE0E
  · subst hc
    generalize cl.foldl (push U) {} = s at hcur
    have key : ∀ (before : Nat) (s : Acc), 0 ≤ s.current ∧ s.current ≤ 2 → (push' U 0xFE0E before s).total + (push' U 0xFE0E before s).current ≤ s.total + s.current + 2 := by
      intro before s h
      unfold push'
      split
      · simp only; omega
      rw [if_neg (by decide)]
      split
      · rename_i hx; exact absurd hx.1 (by decide)
      split
      · simp only; split <;> omega
      split
      · simp only; omega
      split
      · omega
      unfold measureCp
      have := W.le_two 0xFE0E
      split
      · simp only
        split
        · omega
        · split <;> omega
      split
      · simp only; omega
      split
      · simp only; omega
      · simp only; omega
    have := key s.regionalIndicators { s with regionalIndicators := if (U 0xFE0E).gcb = .Regional_Indicator then s.regionalIndicators + 1 else 0 } hcur
    have e : Width.push U s 0xFE0E = push' U 0xFE0E s.regionalIndicators { s with regionalIndicators := if (U 0xFE0E).gcb = .Regional_Indicator then s.regionalIndicators + 1 else 0 } := rfl
    rw [← e] at this
    generalize Width.push U s 0xFE0E = r at this
    simp only at this
    unfold Acc.width
    split <;> split <;> omega
  · exact (push_width_mono W.le_two _ c hc hcur).2


/-! ## A pass over text that is not ASCII -/

/-- What a pass has done. -/
structure Passed (U : Table) (L M : Loop) (base : Nat) (cl cs ds rs : List Nat) (Y : List (List Nat)) : Prop where
  text : cs = ds ++ rs
  rest : rs = [] ∨ ∃ y q, rs = y :: q ∧ y < 0x80
  split : scanSplit U L.st.g cl cs = Y ++ splitText U rs
  count : M.count + base + L.countedHere = L.count + cols U Y
  bound : M.count + 3 * rs.length ≤ L.count + 3 * cs.length
  input : M.input = L.input + (toUtf8Str ds).length
  resultEnd : M.resultEnd = M.input
  idle : M.st.utf8.expectedLength = 0

theorem exact_loop {U : Table} (D : DataOk U) (W : WidthOk U) (V : VariationOk U) (T : List Nat) (max : Nat) (cs : List Nat) :
    ∀ (L : Loop) (cl : List Nat) (base : Nat), L.st.utf8.expectedLength = 0 → L.st.hint ≠ 0 → L.st.acc = cl.foldl (push U) {} →
      L.st.reported = L.st.acc.width → L.st.reported = base + L.countedHere → L.countedHere ≤ L.count →
      (base = 0 ∨ base = 1 ∧ AH U L.st.acc ∧ AG L.st.g) → L.count + 3 * cs.length ≤ max → L.byteCount = 0 → L.resultEnd = L.input → Scannable cs →
      ∃ ds rs Y, Passed U L (loop U T max (toUtf8Str cs) L) base cl cs ds rs Y := by
  induction cs with
  | nil =>
    intro L cl base hid hh hacc hrep hb hch hbase hmax hbc hre _
    refine ⟨[], [], [cl], ?_⟩
    rw [str_nil]
    have hlp : loop U T max [] L = L := rfl
    rw [hlp]
    refine ⟨rfl, .inl rfl, rfl, ?_, by simp, by rw [str_nil]; rfl, hre, hid⟩
    rw [cols_cons]
    have : accWidth U cl = L.st.reported := by rw [hrep, hacc]; rfl
    rw [this, hb]
    show _ = _ + (_ + 0)
    omega
  | cons c cs ih =>
    intro L cl base hid hh hacc hrep hb hch hbase hmax hbc hre hsc
    obtain ⟨hlo, hdel, hhi⟩ := hsc c (by simp)
    have hsc' : Scannable cs := fun x hx => hsc x (by simp [hx])
    have hw : accWidth U cl = L.st.reported := by rw [hrep, hacc]; rfl
    rw [List.length_cons] at hmax
    by_cases hlt : c < 0x80
    · have hcx : isComplex c = false := by
        cases h : isComplex c with
        | false => rfl
        | true => have := (isComplex_iff c (by omega)).1 h; omega
      have hlp : loop U T max (toUtf8Str (c :: cs)) L = atControl U T L := by
        rw [str_cons, toUtf8_low c hlt]
        show (match step U T max c L with | .stop L' => L' | .go L' => loop U T max _ L') = _
        have : step U T max c L = .stop (atControl U T L) := by
          unfold step
          rw [if_neg (by omega), if_pos (by rw [hcx]; simp)]
        rw [this]
      rw [hlp]
      have hat : (atControl U T L).count = L.count ∧ (atControl U T L).input = L.input ∧ (atControl U T L).resultEnd = L.input ∧
          (atControl U T L).st.utf8.expectedLength = 0 := by
        unfold atControl
        simp only [hid, ne_eq, not_true_eq_false, if_false]
        exact ⟨trivial, rfl, trivial, trivial⟩
      obtain ⟨e2, e3, e5, e6⟩ := hat
      refine ⟨[], c :: cs, [cl], rfl, .inr ⟨c, cs, rfl, hlt⟩, ?_, ?_, by rw [e2]; exact Nat.le_refl _, ?_, by rw [e5, e3], e6⟩
      · rw [scanSplit, if_pos hlt]; rfl
      · rw [e2, cols_cons, hw, hb]
        show _ = _ + (_ + 0)
        omega
      · rw [e3, str_nil]; rfl
    · obtain ⟨u, hu, hlp⟩ := loop_char U T max c (by omega) hhi (toUtf8Str cs) L (by omega) hid hbc
      rw [str_cons, hlp]
      have hbk : isBreakable U (within L u (toUtf8 c).length).st c = processBreakable U c L.st.g := by
        show (if L.st.hint = 0 then (processInit U c, true) else processBreakable U c L.st.g) = _
        rw [if_neg hh]
      have hsub : (within L u (toUtf8 c).length).input - (within L u (toUtf8 c).length).byteCount = L.input := Nat.add_sub_cancel ..
      have hon : onSuccess U T max c (within L u (toUtf8 c).length) =
          if (processBreakable U c L.st.g).2 then
            openCluster U T max L.input c
              { L with st := { L.st with utf8 := u, hint := c, g := (processBreakable U c L.st.g).1 }, input := L.input + (toUtf8 c).length, byteCount := 0 }
          else joinCluster U max c
              { L with st := { L.st with utf8 := u, hint := c, g := (processBreakable U c L.st.g).1 }, input := L.input + (toUtf8 c).length, byteCount := 0 } := by
        unfold onSuccess
        simp only [hbk, hsub]
        rfl
      rw [hon]
      cases hv : (processBreakable U c L.st.g).2 with
      | true =>
        rw [if_pos rfl]
        have hp2 := push_fresh_width W.le_two c
        unfold openCluster
        simp only
        rw [if_neg (by show ¬ L.count + (push U {} c).width > max; omega)]
        simp only
        obtain ⟨ds, rs, Y, h⟩ := ih
          { flush T L.input { L with st := { L.st with utf8 := u, hint := c, g := (processBreakable U c L.st.g).1 }, input := L.input + (toUtf8 c).length, byteCount := 0 } with
            count := L.count + (push U {} c).width, countedHere := (push U {} c).width,
            st := { utf8 := u, hint := c, g := (processBreakable U c L.st.g).1, acc := push U {} c, reported := (push U {} c).width }, resultEnd := ((L.input + (toUtf8 c).length : Nat) : Int) }
          [c] 0 hu (by show c ≠ 0; omega) rfl rfl (Nat.zero_add _).symm (by show (push U {} c).width ≤ L.count + (push U {} c).width; omega) (.inl rfl)
          (by show L.count + (push U {} c).width + _ ≤ _; omega) rfl rfl hsc'
        refine ⟨c :: ds, rs, cl :: Y, ?_, h.rest, ?_, ?_, ?_, ?_, h.resultEnd, h.idle⟩
        · rw [h.text]; rfl
        · rw [scanSplit, if_neg hlt, if_pos hv, List.cons_append]
          exact congrArg _ h.split
        · have h1 := h.count
          rw [cols_cons]
          have hw' : accWidth U cl = base + L.countedHere := hw.trans hb
          rw [hw']
          have h2 : ∀ x y w r : Nat, x + 0 + w = y + w + r → x = y + r := by intros; omega
          have h3 := h2 _ L.count _ _ h1
          have h4 : ∀ x y b k r : Nat, x = y + r → x + b + k = y + (b + k + r) := by intros; omega
          exact h4 _ _ _ _ _ h3
        · have h1 := h.bound
          have h2 : ∀ x y w l r : Nat, x + r ≤ y + w + 3 * l → w ≤ 2 → x + r ≤ y + 3 * (l + 1) := by intros; omega
          exact h2 _ _ _ _ _ h1 hp2
        · have h2 : ∀ x i a b : Nat, x = i + a + b → x = i + (a + b) := by intros; omega
          rw [str_cons, List.length_append]
          exact h2 _ _ _ _ h.input
      | false =>
        rw [if_neg (by simp)]
        have hle := push_le W cl c
        rw [← hacc, ← hrep] at hle
        have hbase' : base = 0 ∨ base = 1 ∧ AH U (push U L.st.acc c) ∧ AG (processBreakable U c L.st.g).1 := by
          rcases hbase with h | ⟨h, h1, h2⟩
          · exact .inl h
          · obtain ⟨j1, j2⟩ := h2.join D V c (by omega) hv
            exact .inr ⟨h, h1.push V c j1, j2⟩
        have hge : base ≤ (push U L.st.acc c).width := by
          rcases hbase' with h | ⟨h, h1, -⟩
          · omega
          · rw [h]; exact h1.width
        -- the new counts
        obtain ⟨n, k, hn, hnk, hj⟩ : ∃ n k : Nat, (push U L.st.acc c).width = base + k ∧ n + L.countedHere = L.count + k ∧
            joinCluster U max c
              { L with st := { L.st with utf8 := u, hint := c, g := (processBreakable U c L.st.g).1 }, input := L.input + (toUtf8 c).length, byteCount := 0 } =
            .go { L with count := n, countedHere := k, input := L.input + (toUtf8 c).length, byteCount := 0,
                         st := { utf8 := u, hint := c, g := (processBreakable U c L.st.g).1, acc := push U L.st.acc c, reported := (push U L.st.acc c).width },
                         resultEnd := ((L.input + (toUtf8 c).length : Nat) : Int) } := by
          unfold joinCluster
          simp only
          by_cases hup : (push U L.st.acc c).width ≥ L.st.reported
          · rw [if_pos hup, if_neg (by omega)]
            exact ⟨_, _, by omega, by omega, rfl⟩
          · rw [if_neg hup]
            exact ⟨_, _, by omega, by omega, rfl⟩
        rw [hj]
        simp only
        obtain ⟨ds, rs, Y, h⟩ := ih
          { L with count := n, countedHere := k, input := L.input + (toUtf8 c).length, byteCount := 0,
                   st := { utf8 := u, hint := c, g := (processBreakable U c L.st.g).1, acc := push U L.st.acc c, reported := (push U L.st.acc c).width },
                   resultEnd := ((L.input + (toUtf8 c).length : Nat) : Int) }
          (cl ++ [c]) base hu (by show c ≠ 0; omega) (by show push U L.st.acc c = _; rw [hacc, List.foldl_append]; rfl) rfl hn (by show k ≤ n; omega) hbase'
          (by show n + _ ≤ _; omega) rfl rfl hsc'
        refine ⟨c :: ds, rs, Y, ?_, h.rest, ?_, ?_, ?_, ?_, h.resultEnd, h.idle⟩
        · rw [h.text]; rfl
        · rw [scanSplit, if_neg hlt, if_neg (by rw [hv]; simp)]
          exact h.split
        · have h1 := h.count
          have h2 : ∀ x b k n l ch y : Nat, x + b + k = n + y → n + ch = l + k → x + b + ch = l + y := by intros; omega
          exact h2 _ _ _ _ _ _ _ h1 hnk
        · have h1 := h.bound
          have h2 : ∀ x n r l L : Nat, x + r ≤ n + 3 * l → n ≤ L + 2 → x + r ≤ L + 3 * (l + 1) := by intros; omega
          have h3 : n ≤ L.count + 2 := by omega
          exact h2 _ n _ _ L.count h1 h3
        · have h2 : ∀ x i a b : Nat, x = i + a + b → x = i + (a + b) := by intros; omega
          rw [str_cons, List.length_append]
          exact h2 _ _ _ _ h.input

/-- A pass from the beginning of a text that is not ASCII. -/
theorem exact_pass {U : Table} (D : DataOk U) (W : WidthOk U) (A : AsciiOk U) (V : VariationOk U) (c : Nat) (cs : List Nat) (hc : 0x80 ≤ c)
    (hsc : Scannable (c :: cs)) (st : State) (hid : st.utf8.expectedLength = 0) (max : Nat) (hmax : 3 * (cs.length + 1) ≤ max) (X : List (List Nat)) (e : Nat)
    (hst : (st.hint = 0 ∧ X = splitText U (c :: cs) ∧ e = 0) ∨
      ∃ x st0, 0x20 ≤ x ∧ x < 0x7F ∧ st = seed U st0 x ∧ X = scanSplit U (processInit U x) [x] (c :: cs) ∧ e = 1) :
    ∃ M ds rs Y, scanNonAscii U st (toUtf8Str (c :: cs)) max = flush (toUtf8Str (c :: cs)) M.input M ∧
      c :: cs = ds ++ rs ∧ ds ≠ [] ∧ (rs = [] ∨ ∃ y q, rs = y :: q ∧ y < 0x80) ∧ X = Y ++ splitText U rs ∧ M.count + e = cols U Y ∧
      M.count + 3 * rs.length ≤ 3 * (cs.length + 1) ∧ M.input = (toUtf8Str ds).length ∧ M.resultEnd = M.input ∧ M.st.utf8.expectedLength = 0 := by
  have hhi := (hsc c (by simp)).2.2
  have hr : resultStart st = 0 := by unfold resultStart; rw [if_neg (by simpa using hid)]
  refine ⟨loop U (toUtf8Str (c :: cs)) max (toUtf8Str (c :: cs)) { st := st, resultEnd := 0 }, ?_⟩
  have hsn : scanNonAscii U st (toUtf8Str (c :: cs)) max =
      flush (toUtf8Str (c :: cs)) (loop U (toUtf8Str (c :: cs)) max (toUtf8Str (c :: cs)) { st := st, resultEnd := 0 }).input
        (loop U (toUtf8Str (c :: cs)) max (toUtf8Str (c :: cs)) { st := st, resultEnd := 0 }) := by
    unfold scanNonAscii
    rw [hr]
  rw [hsn]
  rcases hst with ⟨h0, rfl, rfl⟩ | ⟨x, st0, x1, x2, hseed, rfl, rfl⟩
  · have hbr : isBreakable U st c = (processInit U c, true) := by unfold isBreakable; rw [if_pos h0]
    obtain ⟨u, hu, hlp⟩ := loop_char U (toUtf8Str (c :: cs)) max c hc hhi (toUtf8Str cs) { st := st, resultEnd := 0 } (Nat.zero_le _) hid rfl
    have hsplit : toUtf8Str (c :: cs) = toUtf8 c ++ toUtf8Str cs := str_cons c cs
    rw [← hsplit] at hlp
    rw [hlp]
    have hop : within { st := st, resultEnd := 0 } u (toUtf8 c).length = opening st u (toUtf8 c).length 0 := by
      unfold within opening
      simp only [Nat.zero_add]
    have hp2 := push_fresh_width W.le_two c
    rw [hop, onSuccess_opening U _ max c st u _ (by rw [hbr]), if_neg (by omega), hbr]
    simp only
    obtain ⟨ds, rs, Y, h⟩ := exact_loop D W V (toUtf8Str (c :: cs)) max cs
      { st := ⟨u, c, processInit U c, push U {} c, (push U {} c).width⟩, count := (push U {} c).width, input := (toUtf8 c).length,
        countedHere := (push U {} c).width, resultEnd := (toUtf8 c).length } [c] 0 hu (show c ≠ 0 by omega) rfl rfl (Nat.zero_add _).symm
      (Nat.le_refl _) (.inl rfl) (by simp only; omega) rfl rfl (fun y hy => hsc y (List.mem_cons_of_mem _ hy))
    refine ⟨c :: ds, rs, Y, trivial, by rw [h.text]; rfl, by simp, h.rest, h.split, ?_, ?_, ?_, h.resultEnd, h.idle⟩
    · have h1 := h.count
      have h2 : ∀ a w b : Nat, a + 0 + w = w + b → a + 0 = b := by intros; omega
      exact h2 _ _ _ h1
    · have h1 := h.bound
      have h2 : ∀ a w l r : Nat, a + r ≤ w + 3 * l → w ≤ 2 → a + r ≤ 3 * (l + 1) := by intros; omega
      exact h2 _ _ _ _ h1 hp2
    · have e : (toUtf8Str (c :: ds)).length = (toUtf8 c).length + (toUtf8Str ds).length := by rw [str_cons, List.length_append]
      exact h.input.trans e.symm
  · subst hseed
    have hw : (push U {} x).width = 1 := push_ascii_width W A x x1 x2
    obtain ⟨ds, rs, Y, h⟩ := exact_loop D W V (toUtf8Str (c :: cs)) max (c :: cs)
      { st := seed U st0 x, resultEnd := 0 } [x] 1 hid (show x ≠ 0 by omega) rfl hw.symm rfl
      (Nat.le_refl _) (.inr ⟨rfl, AH.init A x x1 x2, AG.init D A x x1 x2⟩) (by show 0 + 3 * (cs.length + 1) ≤ max; omega) rfl rfl hsc
    refine ⟨ds, rs, Y, rfl, h.text, ?_, h.rest, h.split, ?_, ?_, ?_, h.resultEnd, h.idle⟩
    · rintro rfl
      have ht := h.text
      rcases h.rest with h | ⟨y, q, h, hy⟩
      · rw [h] at ht; simp at ht
      · rw [h] at ht
        simp only [List.nil_append, List.cons.injEq] at ht
        omega
    · have h1 := h.count
      have h2 : ∀ a b : Nat, a + 1 + 0 = 0 + b → a + 1 = b := by intros; omega
      exact h2 _ _ h1
    · have h1 := h.bound
      have h2 : ∀ a r l : Nat, a + r ≤ 0 + 3 * (l + 1) → a + r ≤ 3 * (l + 1) := by intros; omega
      exact h2 _ _ _ h1
    · have h1 := h.input
      have h2 : ∀ a b : Nat, a = 0 + b → a = b := by intros; omega
      exact h2 _ _ h1

/-- Each ASCII character is a character of its own, and the last one is open. -/
theorem split_ascii (U : Table) (z : Nat) (hz : z < 0x80) (ys : List Nat) (zs : List Nat) : (∀ x ∈ zs, x < 0x80) →
    splitText U (zs ++ [z] ++ ys) = zs.map (fun x => [x]) ++ scanSplit U (processInit U z) [z] ys := by
  induction zs with
  | nil => intro _; rfl
  | cons x zs ih =>
    intro h
    have h' := ih (fun y hy => h y (List.mem_cons_of_mem _ hy))
    show _ = [x] :: (zs.map (fun x => [x]) ++ scanSplit U (processInit U z) [z] ys)
    rw [← h']
    cases zs with
    | nil =>
      show scanSplit U (processInit U x) [x] (z :: ys) = _
      rw [scanSplit, if_pos hz]; rfl
    | cons y zs =>
      show scanSplit U (processInit U x) [x] (y :: (zs ++ [z] ++ ys)) = _
      rw [scanSplit, if_pos (h y (by simp))]; rfl

theorem cols_ascii {U : Table} (W : WidthOk U) (A : AsciiOk U) (zs : List Nat) : (∀ x ∈ zs, 0x20 ≤ x ∧ x < 0x7F) →
    cols U (zs.map (fun x => [x])) = zs.length := by
  induction zs with
  | nil => intro _; rfl
  | cons x zs ih =>
    intro h
    rw [List.map_cons, cols_cons, ih (fun y hy => h y (List.mem_cons_of_mem _ hy)), List.length_cons]
    have : accWidth U [x] = 1 := push_ascii_width W A x (h x (by simp)).1 (h x (by simp)).2
    omega

/-- The character that begins with an ASCII character is at least one column wide. -/
theorem split_ge_aux {U : Table} (D : DataOk U) (V : VariationOk U) (ys : List Nat) : ∀ (g : GState) (cl : List Nat),
    AH U (cl.foldl (push U) {}) → AG g → 1 ≤ cols U (scanSplit U g cl ys) := by
  have w : ∀ cl : List Nat, AH U (cl.foldl (push U) {}) → 1 ≤ accWidth U cl := fun cl h => h.width
  induction ys with
  | nil =>
    intro g cl h _
    have := w cl h
    rw [scanSplit, cols_cons]
    omega
  | cons c ys ih =>
    intro g cl h hg
    have := w cl h
    rw [scanSplit]
    split
    · rw [cols_cons]; omega
    · split
      · rw [cols_cons]; omega
      · rename_i h1 h2
        obtain ⟨j1, j2⟩ := hg.join D V c (by omega) (by simpa using h2)
        refine ih _ _ ?_ j2
        rw [List.foldl_append]
        exact h.push V c j1

theorem split_ge {U : Table} (D : DataOk U) (A : AsciiOk U) (V : VariationOk U) (z : Nat) (h1 : 0x20 ≤ z) (h2 : z < 0x7F) (ys : List Nat) :
    1 ≤ cols U (scanSplit U (processInit U z) [z] ys) :=
  split_ge_aux D V ys _ _ (AH.init A z h1 h2) (AG.init D A z h1 h2)

/-- What the loop over the passes is given: `tot` columns are still to be counted. -/
def Due (U : Table) (complex : Bool) (rem : List Nat) (st : State) (tot : Nat) : Prop :=
  match complex with
  | false => (rem = [] ∨ ∃ y q, rem = y :: q ∧ y < 0x80) ∧ tot = cols U (splitText U rem)
  | true => (rem = [] ∨ ∃ y q, rem = y :: q ∧ 0x80 ≤ y) ∧
      ((st.hint = 0 ∧ tot = cols U (splitText U rem)) ∨
        ∃ x st0, 0x20 ≤ x ∧ x < 0x7F ∧ st = seed U st0 x ∧ tot + 1 = cols U (scanSplit U (processInit U x) [x] rem))

theorem exact_main {U : Table} (D : DataOk U) (W : WidthOk U) (A : AsciiOk U) (V : VariationOk U) (v : Variant) (w max : Nat) (fin : Int)
    (fuel : Nat) : ∀ (complex : Bool) (rem : List Nat) (R : Out) (tot : Nat), (toUtf8Str rem).length < fuel → Scannable rem →
      R.st.utf8.expectedLength = 0 → fin = R.next + (toUtf8Str rem).length → R.count + 3 * rem.length + 1 ≤ max → Due U complex rem R.st tot →
      (mainLoop U v w max fin fuel complex (toUtf8Str rem) R.next R).count = R.count + tot ∧
      (mainLoop U v w max fin fuel complex (toUtf8Str rem) R.next R).next = fin := by
  induction fuel with
  | zero => intro complex rem R tot hf; omega
  | succ fuel ih =>
    intro complex rem R tot hf hsc hid hlen hmax hdue
    have hnil : rem = [] → tot = 0 := by
      rintro rfl
      cases complex with
      | false => exact hdue.2
      | true =>
        rcases hdue.2 with ⟨-, h⟩ | ⟨x, st0, h1, h2, -, h⟩
        · exact h
        · have : accWidth U [x] = 1 := push_ascii_width W A x h1 h2
          have e : cols U (scanSplit U (processInit U x) [x] []) = accWidth U [x] + 0 := rfl
          rw [e, this] at h
          omega
    unfold mainLoop
    by_cases hgo : R.count < max ∧ R.next ≠ fin
    · rw [if_pos hgo]
      have hne : rem ≠ [] := by
        intro h
        rw [h, str_nil] at hlen
        exact hgo.2 (by rw [hlen]; simp)
      cases complex with
      | true =>
        simp only [if_true]
        obtain ⟨hh, hst⟩ := hdue
        obtain ⟨y, q, rfl, hy⟩ : ∃ y q, rem = y :: q ∧ 0x80 ≤ y := by
          rcases hh with h | h
          · exact absurd h hne
          · exact h
        obtain ⟨X, e, hX, hXt⟩ : ∃ (X : List (List Nat)) (e : Nat), ((R.st.hint = 0 ∧ X = splitText U (y :: q) ∧ e = 0) ∨
            ∃ x st0, 0x20 ≤ x ∧ x < 0x7F ∧ R.st = seed U st0 x ∧ X = scanSplit U (processInit U x) [x] (y :: q) ∧ e = 1) ∧ tot + e = cols U X := by
          rcases hst with ⟨h, h'⟩ | ⟨x, st0, h1, h2, h3, h4⟩
          · exact ⟨_, _, .inl ⟨h, rfl, rfl⟩, h'⟩
          · exact ⟨_, _, .inr ⟨x, st0, h1, h2, h3, rfl, rfl⟩, h4⟩
        rw [List.length_cons] at hmax
        obtain ⟨M, ds, rs, Y, hM, p1, p2, p3, p4, p5, p6, p7, p8, p9⟩ := exact_pass D W A V y q hy hsc R.st hid (max - R.count) (by omega) X e hX
        have hr : resultStart R.st = 0 := by unfold resultStart; rw [if_neg (by simpa using hid)]
        rw [hM, hr]
        have hS : (flush (toUtf8Str (y :: q)) M.input M).count = M.count ∧ (flush (toUtf8Str (y :: q)) M.input M).resultEnd = M.resultEnd ∧
            (flush (toUtf8Str (y :: q)) M.input M).input = M.input ∧ (flush (toUtf8Str (y :: q)) M.input M).st = M.st := ⟨rfl, rfl, rfl, rfl⟩
        obtain ⟨s1, s2, s3, s4⟩ := hS
        generalize flush (toUtf8Str (y :: q)) M.input M = S at s1 s2 s3 s4
        rw [s1, s2, s3, s4, p8]
        have hz : ((M.input : Int) - 0).toNat = M.input := by omega
        rw [hz]
        have hpos := str_pos ds p2
        rw [if_neg (by omega)]
        have hdrop : (toUtf8Str (y :: q)).drop M.input = toUtf8Str rs := by
          rw [p1, str_append, p7, List.drop_left]
        have hlen2 : (toUtf8Str (y :: q)).length = M.input + (toUtf8Str rs).length := by
          rw [p1, str_append, List.length_append, p7]
        rw [hdrop]
        have hcols : cols U X = cols U Y + cols U (splitText U rs) := by rw [p4, cols_append]
        have key := ih false rs { R with count := R.count + M.count, fin := R.next + M.input, st := M.st, next := R.next + M.input, events := R.events ++ S.events }
          (cols U (splitText U rs)) (by omega) (fun z hz => hsc z (by rw [p1]; exact List.mem_append_right _ hz)) p9
          (by show fin = R.next + (M.input : Int) + _; rw [hlen, hlen2]; push_cast; omega)
          (by show R.count + M.count + _ + 1 ≤ max; omega) ⟨p3, rfl⟩
        refine ⟨?_, key.2⟩
        refine Eq.trans key.1 ?_
        show R.count + M.count + _ = _
        omega
      | false =>
        simp only [Bool.false_eq_true, if_false]
        obtain ⟨hh, ht⟩ := hdue
        obtain ⟨xs, ys, h1, h2, h3, h4⟩ := ascii_prefix rem (max - R.count)
        have hscan := scanAscii_text v w (max - R.count) xs ys (by rw [← h1]; exact hsc) h3 h2 h4
        rw [← h1] at hscan
        rw [hscan]
        have hxs : xs ≠ [] := by
          rintro rfl
          rw [List.nil_append] at h1
          obtain ⟨y, q, hr, hy⟩ : ∃ y q, rem = y :: q ∧ y < 0x80 := by
            rcases hh with h | h
            · exact absurd h hne
            · exact h
          rcases h4 with h4 | h4 | ⟨y', q', h4, hy'⟩
          · rw [List.length_nil] at h4; omega
          · rw [h4] at h1; exact hne h1
          · rw [hr, h4] at h1
            simp only [List.cons.injEq] at h1
            omega
        have hl0 : 0 < xs.length := List.length_pos_iff.2 hxs
        rw [if_neg (by omega)]
        have hpr : ∀ x ∈ xs, 0x20 ≤ x ∧ x < 0x7F := by
          intro x hx
          have := hsc x (by rw [h1]; exact List.mem_append_left _ hx)
          have := h3 x hx
          omega
        have hstr : toUtf8Str rem = xs ++ toUtf8Str ys := by rw [h1, str_append, str_ascii xs h3]
        have hdrop : (toUtf8Str rem).drop xs.length = toUtf8Str ys := by rw [hstr, List.drop_left]
        obtain ⟨zs, z, hz⟩ : ∃ zs z, xs = zs ++ [z] := by
          rcases List.eq_nil_or_concat xs with h | ⟨zs, z, h⟩
          · exact absurd h hxs
          · exact ⟨zs, z, by rw [h]; simp⟩
        have hget : (toUtf8Str rem).getD (xs.length - 1) 0 = z := by
          rw [hstr, hz]
          simp [List.getD_eq_getElem?_getD]
        rw [hdrop, hget]
        have hlen2 : (toUtf8Str rem).length = xs.length + (toUtf8Str ys).length := by rw [hstr, List.length_append]
        have hrem : rem.length = xs.length + ys.length := by rw [h1, List.length_append]
        have hz' := hpr z (by rw [hz]; simp)
        have hsp : splitText U rem = zs.map (fun x => [x]) ++ scanSplit U (processInit U z) [z] ys := by
          rw [h1, hz]
          exact split_ascii U z (by omega) ys zs (fun x hx => h3 x (by rw [hz]; simp [hx]))
        have hcols : tot = zs.length + cols U (scanSplit U (processInit U z) [z] ys) := by
          rw [ht, hsp, cols_append, cols_ascii W A zs (fun x hx => hpr x (by rw [hz]; simp [hx]))]
        have hzl : xs.length = zs.length + 1 := by rw [hz]; simp
        have hge : 1 ≤ cols U (scanSplit U (processInit U z) [z] ys) := by
          exact split_ge D A V z hz'.1 hz'.2 ys
        have key := ih true ys { R with count := R.count + xs.length, fin := R.fin + xs.length, st := seed U R.st z, next := R.next + xs.length,
                                        events := R.events ++ [Event.ascii ((toUtf8Str rem).take xs.length)] }
          (cols U (scanSplit U (processInit U z) [z] ys) - 1) (by omega) (fun z hz => hsc z (by rw [h1]; exact List.mem_append_right _ hz)) hid
          (by show fin = R.next + (xs.length : Int) + _; rw [hlen, hlen2]; push_cast; omega)
          (by show R.count + xs.length + _ + 1 ≤ max; omega)
          ⟨by
            rcases h4 with h4 | h4
            · omega
            · exact h4, .inr ⟨z, R.st, hz'.1, hz'.2, rfl, by omega⟩⟩
        refine ⟨?_, key.2⟩
        refine Eq.trans key.1 ?_
        show R.count + xs.length + _ = _
        omega
    · rw [if_neg hgo]
      have hn : R.next = fin := by
        by_contra h
        exact hgo ⟨by omega, h⟩
      have : rem = [] := by
        by_contra hne
        have := str_pos rem hne
        omega
      rw [hnil this]
      exact ⟨rfl, hn⟩

end Verif.Scan
