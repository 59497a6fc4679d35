import Verif.Lemmas.ScanChunk
import Verif.Lemmas.ScanExact
/-!
# The byte machine of the scanner with the columns a call can take back

`Lemmas/ScanChunk` follows the scanner as long as nothing is taken back (no U+FE0E).  Here the machine also carries what the call has counted for the
open character (`count_in_this_call`, scan.cpp:93), which is what a narrowing selector can take back; nothing is excluded.
-/

namespace Verif.Scan.Take
open Verif.Scan Verif.Ucd Verif.Utf8 Verif.Grapheme Verif.Width

/-- What the call has counted for the open character, after a codepoint. -/
def hSuccess (U : Table) (st : State) (here cp : Nat) : Nat :=
  if (isBreakable U st cp).2 then (push U {} cp).width
  else here + ((push U st.acc cp).width - st.reported) - min (st.reported - (push U st.acc cp).width) here

def dSuccess (U : Table) (st : State) (here cp : Nat) : Int :=
  if (isBreakable U st cp).2 then ((push U {} cp).width : Int)
  else (((push U st.acc cp).width - st.reported : Nat) : Int) - ((min (st.reported - (push U st.acc cp).width) here : Nat) : Int)

def hByte (U : Table) (st : State) (here b : Nat) : Nat :=
  if isComplex b then
    match fromUtf8 st.utf8 b with
    | (_, .incomplete) => here
    | (u, .success cp) => hSuccess U { st with utf8 := u } here cp
    | (_, .invalid) => 0
  else 0

def dByte (U : Table) (st : State) (here b : Nat) : Int :=
  if isComplex b then
    match fromUtf8 st.utf8 b with
    | (_, .incomplete) => 0
    | (u, .success cp) => dSuccess U { st with utf8 := u } here cp
    | (_, .invalid) => 1
  else (pend st : Int) + 1

def hRun (U : Table) : State → Nat → List Nat → Nat
  | _, here, [] => here
  | st, here, b :: bs => if mStops st b then here else hRun U (mByte U st b).1 (hByte U st here b) bs

/-- Columns -/
def dRun (U : Table) : State → Nat → List Nat → Int
  | _, _, [] => 0
  | st, here, b :: bs =>
    if mStops st b then (pend st : Int) else dByte U st here b + dRun U (mByte U st b).1 (hByte U st here b) bs

theorem dRun_append (U : Table) (a b : List Nat) : ∀ (st st' : State) (here n : Nat), mRun U st a = (st', n, []) →
    dRun U st here (a ++ b) = dRun U st here a + dRun U st' (hRun U st here a) b := by
  induction a with
  | nil =>
    intro st st' here n h
    simp only [mRun, Prod.mk.injEq, and_true] at h
    obtain ⟨rfl, rfl⟩ := h
    show _ = 0 + _
    rw [Int.zero_add]; rfl
  | cons x a ih =>
    intro st st' here n h
    simp only [mRun] at h
    split at h
    · simp at h
    · rename_i hs
      have := ih (mByte U st x).1 st' (hByte U st here x) (mRun U (mByte U st x).1 a).2.1 (by
        simp only [Prod.mk.injEq] at h
        rw [← h.1, ← h.2.2])
      simp only [List.cons_append, dRun, hRun, if_neg hs]
      rw [this]
      omega

/-- A codepoint adds at most two columns. -/
theorem push_le {U : Table} (hw : ∀ c, (U c).charWidth ≤ 2) (s : Acc) (c : Nat) (hcur : 0 ≤ s.current ∧ s.current ≤ 2) :
    (push U s c).width ≤ s.width + 2 := by
  by_cases hc : c = 0xFE0E
  · subst hc
    have key : ∀ (before : Nat) (s : Acc), 0 ≤ s.current ∧ s.current ≤ 2 → (push' U 0xFE0E before s).total + (push' U 0xFE0E before s).current ≤ s.total + s.current + 2 := by
      intro before s h
      unfold push'
      split
      · simp only; omega
      rw [if_neg (by decide)]
      split
      · rename_i hx; exact absurd hx.1 (by decide)
      split
      · simp only; split <;> omega
      split
      · simp only; omega
      split
      · omega
      unfold measureCp
      have := hw 0xFE0E
      split
      · simp only
        split
        · omega
        · split <;> omega
      split
      · simp only; omega
      split
      · simp only; omega
      · simp only; omega
    have := key s.regionalIndicators { s with regionalIndicators := if (U 0xFE0E).gcb = .Regional_Indicator then s.regionalIndicators + 1 else 0 } hcur
    have e : Width.push U s 0xFE0E = push' U 0xFE0E s.regionalIndicators { s with regionalIndicators := if (U 0xFE0E).gcb = .Regional_Indicator then s.regionalIndicators + 1 else 0 } := rfl
    rw [← e] at this
    generalize Width.push U s 0xFE0E = r at this
    simp only at this
    unfold Acc.width
    split <;> split <;> omega
  · exact (push_width_mono hw _ c hc hcur).2

/-- The selector takes back at most one column. -/
theorem push_ge {U : Table} (hw : ∀ c, (U c).charWidth ≤ 2) (s : Acc) (hcur : 0 ≤ s.current ∧ s.current ≤ 2) :
    s.width ≤ (push U s 0xFE0E).width + 1 := by
  have key : ∀ (before : Nat) (s : Acc), 0 ≤ s.current ∧ s.current ≤ 2 → s.total + s.current ≤ (push' U 0xFE0E before s).total + (push' U 0xFE0E before s).current + 1 := by
    intro before s h
    unfold push'
    split
    · simp only; omega
    rw [if_neg (by decide)]
    split
    · rename_i hx; exact absurd hx.1 (by decide)
    split
    · simp only; split <;> omega
    split
    · simp only; omega
    split
    · omega
    unfold measureCp
    have := hw 0xFE0E
    split
    · simp only
      split
      · omega
      · split <;> omega
    split
    · simp only; omega
    split
    · simp only; omega
    · simp only; omega
  have := key s.regionalIndicators { s with regionalIndicators := if (U 0xFE0E).gcb = .Regional_Indicator then s.regionalIndicators + 1 else 0 } hcur
  have e : Width.push U s 0xFE0E = push' U 0xFE0E s.regionalIndicators { s with regionalIndicators := if (U 0xFE0E).gcb = .Regional_Indicator then s.regionalIndicators + 1 else 0 } := rfl
  rw [← e] at this
  generalize Width.push U s 0xFE0E = r at this
  simp only at this
  unfold Acc.width
  split <;> split <;> omega

/-- How the loop of `scan_for_text_nonascii` ends when the limit is far away. -/
inductive Ends (U : Table) (text : List Nat) (L : Loop) (rest : List Nat) (L' : Loop) : Prop
  | all (k : Nat) (h1 : mRun U L.st rest = (L'.st, k, [])) (h2 : L'.input = text.length)
      (h3 : (L'.count : Int) = L.count + dRun U L.st L.countedHere rest)
  | stop (x : List Nat) (b : Nat) (y : List Nat) (st' : State) (k : Nat) (h1 : rest = x ++ b :: y)
      (h2 : mRun U L.st x = (st', k, [])) (h3 : mStops st' b = true ∨ isComplex b = false)
      (h4 : (L'.count : Int) = L.count + dRun U L.st L.countedHere x + pend st') (h5 : L'.input = L.input + x.length)
      (h6 : L'.resultEnd = L'.input) (h7 : L'.st = resetSt U st')

theorem step_machine {U : Table} (hw : ∀ c, (U c).charWidth ≤ 2) (text : List Nat) (max b : Nat) (L : Loop)
    (hi : SInv L.st) (hch : L.countedHere ≤ L.count) (hmax : L.count + 3 ≤ max) :
    (∃ L', step U text max b L = .stop L' ∧ (mStops L.st b = true ∨ isComplex b = false) ∧
      L'.count = L.count + pend L.st ∧ L'.input = L.input ∧ L'.resultEnd = L.input ∧ L'.st = resetSt U L.st) ∨
    (∃ L', step U text max b L = .go L' ∧ mStops L.st b = false ∧ isComplex b = true ∧ L'.st = (mByte U L.st b).1 ∧
      (L'.count : Int) = L.count + dByte U L.st L.countedHere b ∧ L'.countedHere = hByte U L.st L.countedHere b ∧
      L'.count ≤ L.count + 3 ∧ L'.input = L.input + 1 ∧ L'.countedHere ≤ L'.count) := by
  unfold step
  rw [if_neg (by omega)]
  split
  · rename_i hctl
    left
    refine ⟨_, rfl, ?_, ?_, rfl, rfl, ?_⟩
    · simp only [Bool.or_eq_true, Bool.not_eq_true'] at hctl
      unfold mStops
      rcases hctl with (h | h) | h
      · left; simp [h]
      · right; exact h
      · left; simp [h]
    · show (if _ then _ else _) = _
      unfold pend
      split <;> rfl
    · rfl
  · rename_i hctl
    right
    simp only [Bool.or_eq_true, Bool.not_eq_true', not_or, Bool.not_eq_true, Bool.not_eq_false] at hctl
    obtain ⟨⟨hc1, hcx⟩, hc3⟩ := hctl
    have hstop : mStops L.st b = false := by unfold mStops; simp [hc1, hc3]
    have hm : mByte U L.st b = mComplex U L.st b := by unfold mByte; rw [if_pos hcx]
    rw [hm]
    unfold mComplex dByte hByte
    rw [if_pos hcx, if_pos hcx]
    rcases hf : fromUtf8 L.st.utf8 b with ⟨u, _ | _ | cp⟩
    · refine ⟨_, rfl, hstop, hcx, rfl, ?_, rfl, ?_, rfl, Nat.zero_le _⟩
      · show ((L.count + 1 : Nat) : Int) = _; push_cast; rfl
      · show L.count + 1 ≤ _; omega
    · refine ⟨_, rfl, hstop, hcx, rfl, ?_, rfl, ?_, rfl, hch⟩
      · show (L.count : Int) = L.count + 0; omega
      · show L.count ≤ _; omega
    · have e : mSuccess U { L.st with utf8 := u } cp = mSuccess U (consume L u).st cp := rfl
      have e1 : dSuccess U { L.st with utf8 := u } L.countedHere cp = dSuccess U (consume L u).st L.countedHere cp := rfl
      have e2 : hSuccess U { L.st with utf8 := u } L.countedHere cp = hSuccess U (consume L u).st L.countedHere cp := rfl
      simp only [e, e1, e2]
      unfold onSuccess mSuccess dSuccess hSuccess
      by_cases hbk : (isBreakable U (consume L u).st cp).2 = true
      · simp only [hbk, if_true]
        unfold openCluster
        have h2 := push_fresh_width hw cp
        rw [if_neg (by show ¬ (L.count + _ > max); omega)]
        refine ⟨_, rfl, hstop, hcx, rfl, ?_, rfl, ?_, rfl, ?_⟩
        · show ((L.count + (push U {} cp).width : Nat) : Int) = _
          push_cast; rfl
        · show L.count + (push U {} cp).width ≤ _
          omega
        · show (push U {} cp).width ≤ L.count + (push U {} cp).width
          omega
      · have hbk' := Bool.eq_false_iff.2 hbk
        simp only [hbk', Bool.false_eq_true, if_false]
        unfold joinCluster
        have h2 := push_le hw L.st.acc cp hi.cur
        have h3 := hi.rep
        simp only
        by_cases hge : (push U (consume L u).st.acc cp).width ≥ (consume L u).st.reported
        · rw [if_pos hge, if_neg (by
            show ¬ (_ ∧ L.count + ((push U L.st.acc cp).width - L.st.reported) > max)
            omega)]
          have hge' : (push U L.st.acc cp).width ≥ L.st.reported := hge
          refine ⟨_, rfl, hstop, hcx, rfl, ?_, ?_, ?_, rfl, ?_⟩
          · show ((L.count + ((push U L.st.acc cp).width - L.st.reported) : Nat) : Int) =
              L.count + ((((push U L.st.acc cp).width - L.st.reported : Nat) : Int) - ((min (L.st.reported - (push U L.st.acc cp).width) L.countedHere : Nat) : Int))
            omega
          · show L.countedHere + ((push U L.st.acc cp).width - L.st.reported) =
              L.countedHere + ((push U L.st.acc cp).width - L.st.reported) - min (L.st.reported - (push U L.st.acc cp).width) L.countedHere
            omega
          · show L.count + ((push U L.st.acc cp).width - L.st.reported) ≤ _
            omega
          · show L.countedHere + ((push U L.st.acc cp).width - L.st.reported) ≤ L.count + ((push U L.st.acc cp).width - L.st.reported)
            omega
        · rw [if_neg hge]
          have hlt : ¬ (push U L.st.acc cp).width ≥ L.st.reported := hge
          refine ⟨_, rfl, hstop, hcx, rfl, ?_, ?_, ?_, rfl, ?_⟩
          · show ((L.count - min (L.st.reported - (push U L.st.acc cp).width) L.countedHere : Nat) : Int) =
              L.count + ((((push U L.st.acc cp).width - L.st.reported : Nat) : Int) - ((min (L.st.reported - (push U L.st.acc cp).width) L.countedHere : Nat) : Int))
            omega
          · show L.countedHere - min (L.st.reported - (push U L.st.acc cp).width) L.countedHere =
              L.countedHere + ((push U L.st.acc cp).width - L.st.reported) - min (L.st.reported - (push U L.st.acc cp).width) L.countedHere
            omega
          · show L.count - min _ L.countedHere ≤ _
            omega
          · show L.countedHere - min (L.st.reported - (push U L.st.acc cp).width) L.countedHere ≤ L.count - min (L.st.reported - (push U L.st.acc cp).width) L.countedHere
            omega

theorem loop_machine {U : Table} (hw : ∀ c, (U c).charWidth ≤ 2) (text : List Nat) (max : Nat) (rest : List Nat)
    (L : Loop) (hi : SInv L.st) (hch : L.countedHere ≤ L.count)
    (hmax : L.count + 3 * rest.length ≤ max)
    (hin : L.input + rest.length = text.length) : Ends U text L rest (loop U text max rest L) := by
  induction rest generalizing L with
  | nil =>
    refine .all 0 ?_ ?_ ?_
    · simp [mRun, loop]
    · simpa [loop] using hin
    · show (L.count : Int) = L.count + 0; omega
  | cons b rest ih =>
    simp only [List.length_cons] at hmax hin
    unfold loop
    rcases step_machine hw text max b L hi hch (by omega) with ⟨L', h1, h2, h3, h4, h5, h6⟩ | ⟨L', h1, h2, hcx, h3, h4, h4', h5, h6, h7⟩
    · rw [h1]
      refine .stop [] b rest L.st 0 rfl rfl h2 ?_ ?_ ?_ h6
      · show (L'.count : Int) = L.count + 0 + pend L.st
        omega
      · simpa using h4
      · simp only; omega
    · rw [h1]
      simp only
      have hih := ih L' (h3 ▸ hi.byte hw _ b) h7 (by omega) (by omega)
      rcases hih with ⟨k, a1, a2, a3⟩ | ⟨x, b', y, st', k, a1, a2, a3, a4, a5, a6, a7⟩
      · rw [h3] at a1
        rw [h3, h4'] at a3
        refine .all ((mByte U L.st b).2 + k) ?_ a2 ?_
        · simp only [mRun, h2, Bool.false_eq_true, if_false, a1]
        · simp only [dRun, h2, Bool.false_eq_true, if_false]
          omega
      · rw [h3] at a2
        rw [h3, h4'] at a4
        refine .stop (b :: x) b' y st' ((mByte U L.st b).2 + k) (by rw [a1]; rfl) ?_ a3 ?_ ?_ a6 a7
        · simp only [mRun, h2, Bool.false_eq_true, if_false, a2]
        · simp only [dRun, h2, Bool.false_eq_true, if_false]
          omega
        · simp only [List.length_cons]; omega

/-- A run of printable bytes in an idle state. -/
theorem dRun_printables (U : Table) (xs : List Nat) (hb : ∀ b ∈ xs, b < 256) (hp : ∀ b ∈ xs, Props.Scan.Printable b)
    (here : Nat) (st : State) (hid : st.utf8.expectedLength = 0) :
    dRun U st here xs = xs.length ∧ (xs ≠ [] → hRun U st here xs = 0) := by
  induction xs generalizing st here with
  | nil => exact ⟨rfl, fun h => absurd rfl h⟩
  | cons b xs ih =>
    have hpb := (printable_iff b (hb b (by simp))).1 (hp b (by simp))
    have hc1 : isC1 b = false := by
      have := (hp b (by simp)).2
      unfold isC1; simp; omega
    have hs : mStops st b = false := by unfold mStops; simp [hpb.2, hc1]
    have hm : mByte U st b = (seed U st b, 1) := by
      unfold mByte pend
      rw [if_neg (by simp [hpb.1]), idle_of _ hid, if_neg (by simpa using hid)]
    have hd : dByte U st here b = 1 := by
      unfold dByte pend
      rw [if_neg (by simp [hpb.1]), if_neg (by simpa using hid)]
      rfl
    have hh : hByte U st here b = 0 := by
      unfold hByte
      rw [if_neg (by simp [hpb.1])]
    have key := ih (fun x hx => hb x (by simp [hx])) (fun x hx => hp x (by simp [hx])) 0 (seed U st b) hid
    simp only [dRun, hRun, hs, hm, hd, hh, Bool.false_eq_true, if_false]
    refine ⟨by rw [key.1]; simp only [List.length_cons]; push_cast; omega, fun _ => ?_⟩
    cases xs with
    | nil => rfl
    | cons b' xs => exact key.2 (by simp)

theorem dRun_reset (U : Table) (st : State) (here : Nat) (b : Nat) (y : List Nat) (hb : b < 256)
    (h : mStops st b = true ∨ isComplex b = false) :
    dRun U st here (b :: y) = pend st + dRun U (resetSt U st) 0 (b :: y) := by
  have hl : (resetSt U st).utf8.expectedLength = 0 := idle_len _
  have hp0 : pend (resetSt U st) = 0 := by unfold pend; rw [if_neg (by simpa using hl)]
  by_cases hs : mStops st b = true
  · have hs' : mStops (resetSt U st) b = true := by
      unfold mStops at hs ⊢
      rw [hl]
      simp only [Bool.or_eq_true, Bool.and_eq_true, beq_iff_eq] at hs ⊢
      rcases hs with h | h
      · exact .inl h
      · exact .inr ⟨trivial, h.2⟩
    simp only [dRun, hs, hs', if_true, hp0]
    omega
  · have hc : isComplex b = false := by
      rcases h with h | h
      · exact absurd h hs
      · exact h
    have hs0 : mStops st b = false := by simpa using hs
    have hctl : isControl b = false := by unfold mStops at hs0; simp at hs0; exact hs0.1
    have hpr := (printable_iff b hb).2 ⟨hc, hctl⟩
    have hc1 : isC1 b = false := by have := hpr.2; unfold isC1; simp; omega
    have hs' : mStops (resetSt U st) b = false := by unfold mStops; simp [hctl, hc1]
    have e1 : mByte U st b = (seed U { st with utf8 := idle st.utf8 } b, pend st + 1) := by
      unfold mByte; rw [if_neg (by simp [hc])]
    have e2 : mByte U (resetSt U st) b = (seed U { st with utf8 := idle st.utf8 } b, 1) := by
      unfold mByte
      rw [if_neg (by simp [hc]), hp0]
      simp only [resetSt, idle_idle, seed]
    have d1 : dByte U st here b = pend st + 1 := by unfold dByte; rw [if_neg (by simp [hc])]
    have d2 : dByte U (resetSt U st) 0 b = 1 := by unfold dByte; rw [if_neg (by simp [hc]), hp0]; rfl
    have g1 : hByte U st here b = 0 := by unfold hByte; rw [if_neg (by simp [hc])]
    have g2 : hByte U (resetSt U st) 0 b = 0 := by unfold hByte; rw [if_neg (by simp [hc])]
    simp only [dRun, hs0, hs', Bool.false_eq_true, if_false, e1, e2, d1, d2, g1, g2]
    omega

theorem dByte_bound {U : Table} (hw : ∀ c, (U c).charWidth ≤ 2) (st : State) (hi : SInv st) (here b : Nat) :
    dByte U st here b + pend (mByte U st b).1 ≤ 3 := by
  have hp1 : ∀ s : State, pend s ≤ 1 := by intro s; unfold pend; split <;> omega
  unfold mByte dByte
  split
  · rename_i hcx
    unfold mComplex
    rcases hf : fromUtf8 st.utf8 b with ⟨u, _ | _ | c⟩
    · simp [pend]
    · have := hp1 { st with utf8 := u }
      simp only; omega
    · have hu : u.expectedLength = 0 := fromUtf8_success_idle _ _ _ _ hf
      have hpz : ∀ s : State, s.utf8 = u → pend s = 0 := by
        intro s hs; unfold pend; rw [hs, if_neg (by simpa using hu)]
      simp only
      unfold mSuccess dSuccess
      split
      · have := push_fresh_width hw c
        rw [hpz _ rfl]
        omega
      · have h2 := push_le hw st.acc c hi.cur
        have h3 := hi.rep
        rw [hpz _ rfl]
        simp only; omega
  · have h0 : pend (seed U { st with utf8 := idle st.utf8 } b) = 0 := by
      unfold pend; rw [if_neg]; simp only [seed, idle_len]; simp
    have := hp1 st
    simp only [h0]; omega

theorem dRun_bound {U : Table} (hw : ∀ c, (U c).charWidth ≤ 2) (x : List Nat) : ∀ (st st' : State) (here n : Nat), SInv st →
    mRun U st x = (st', n, []) → dRun U st here x + pend st' ≤ 3 * x.length + pend st := by
  induction x with
  | nil =>
    intro st st' here n _ h
    simp only [mRun, Prod.mk.injEq, and_true] at h
    obtain ⟨rfl, rfl⟩ := h
    simp [dRun]
  | cons b x ih =>
    intro st st' here n hi h
    simp only [mRun] at h
    split at h
    · simp at h
    · rename_i hs
      simp only [Prod.mk.injEq] at h
      have := ih (mByte U st b).1 st' (hByte U st here b) (mRun U (mByte U st b).1 x).2.1 (hi.byte hw st b) (by rw [← h.1, ← h.2.2])
      have h2 := dByte_bound hw st hi here b
      simp only [List.length_cons, dRun, if_neg hs]
      push_cast
      omega

/-- The loop of `scan_text`, far from the limit, is the byte machine. -/
theorem mainLoop_machine {U : Table} (hw : ∀ c, (U c).charWidth ≤ 2) (v : Variant) (w max : Nat) (e : Int) (fuel : Nat)
    (complex : Bool) (text : List Nat) (hb : ∀ b ∈ text, b < 256) (base : Int) (R : Out)
    (he : e = base + text.length) (hnext : R.next = base) (hid : R.st.utf8.expectedLength = 0) (hi : SInv R.st)
    (hmax : R.count + 3 * text.length + 1 ≤ max)
    (hfuel : text.length < fuel)
    (hentry : ∀ b, text[0]? = some b → if complex then ¬ Props.Scan.Printable b
      else Props.Scan.Printable b ∨ mStops R.st b = true) :
    ((mainLoop U v w max e fuel complex text base R).count : Int) = R.count + dRun U R.st 0 text ∧
    (mainLoop U v w max e fuel complex text base R).next = base + text.length - (mRun U R.st text).2.2.length ∧
    ((mRun U R.st text).2.2 = [] → (mainLoop U v w max e fuel complex text base R).st = (mRun U R.st text).1) := by
  induction fuel generalizing complex text base R with
  | zero => omega
  | succ fuel ih =>
    cases text with
    | nil =>
      rw [mainLoop_done _ _ _ _ _ _ _ _ _ _ (by rw [hnext, he]; simp)]
      simp [mRun, dRun, hnext]
    | cons b bs =>
      have hpos : (b :: bs).length = bs.length + 1 := rfl
      have hp0 : pend R.st = 0 := by unfold pend; rw [if_neg (by simpa using hid)]
      unfold mainLoop
      rw [if_pos ⟨by omega, by rw [hnext, he, hpos]; omega⟩]
      have hentry0 := hentry b rfl
      by_cases hstop0 : mStops R.st b = true
      · -- the first byte stops the scan
        have hm : mRun U R.st (b :: bs) = (R.st, 0, b :: bs) := by simp [mRun, hstop0, hp0]
        have hd : dRun U R.st 0 (b :: bs) = 0 := by simp [dRun, hstop0, hp0]
        rw [hm, hd]
        cases complex with
        | true =>
          have hS : scanNonAscii U R.st (b :: bs) (max - R.count) =
              flush (b :: bs) 0 (atControl U (b :: bs) { st := R.st, resultEnd := resultStart R.st }) := by
            unfold scanNonAscii loop step
            have hmx : ¬ (0 > max - R.count) := by omega
            have : (isControl b || !isComplex b || (R.st.utf8.expectedLength == 0 && isC1 b)) = true := by
              unfold mStops at hstop0
              simp only [Bool.or_eq_true] at hstop0 ⊢
              rcases hstop0 with h | h
              · exact .inl (.inl h)
              · exact .inr h
            simp only [this, if_true, hmx, if_false]
            rfl
          have hrs : resultStart R.st = 0 := by unfold resultStart; rw [if_neg (by simpa using hid)]
          have hz : ((scanNonAscii U R.st (b :: bs) (max - R.count)).resultEnd - resultStart R.st).toNat = 0 := by
            rw [hS, hrs]; rfl
          rw [if_pos rfl]
          simp only [hz, if_true]
          rw [hS]
          refine ⟨?_, ?_, by simp⟩
          · show ((R.count + (if _ then _ else _) : Nat) : Int) = _
            rw [if_neg (by simpa using hid)]
            simp
          · show base + ((0 : Nat) : Int) = _
            simp
        | false =>
          have hnp : ¬ Props.Scan.Printable b := by
            intro hp
            have := (printable_iff b (hb b (by simp))).1 hp
            have h2 := hp.2
            unfold mStops isC1 at hstop0
            simp [this.2] at hstop0
            omega
          have hz : scanAscii v w (b :: bs) (max - R.count) = 0 := by
            have hl := Props.Scan.C11_longest_prefix v w (b :: bs) hb (max - R.count)
            generalize scanAscii v w (b :: bs) (max - R.count) = n at hl
            cases n with
            | zero => rfl
            | succ n => exact absurd (hl.printable b (by simp)) hnp
          simp only [Bool.false_eq_true, if_false, hz, if_true]
          refine ⟨(Int.add_zero _).symm, ?_, by simp⟩
          rw [hnext]; omega
      have hs0 : mStops R.st b = false := by simpa using hstop0
      cases complex with
      | true =>
        simp only [if_true] at hentry0
        rw [if_pos rfl]
        have hrs : resultStart R.st = 0 := by unfold resultStart; rw [if_neg (by simpa using hid)]
        have hE := loop_machine hw (b :: bs) (max - R.count) (b :: bs) { st := R.st, resultEnd := resultStart R.st } hi
          (Nat.le_refl _) (by show 0 + 3 * (b :: bs).length ≤ _; omega) (by simp)
        have hS : ∃ S, scanNonAscii U R.st (b :: bs) (max - R.count) = S ∧
          Ends U (b :: bs) { st := R.st, resultEnd := resultStart R.st } (b :: bs) S := by
          refine ⟨_, rfl, ?_⟩
          unfold scanNonAscii
          rcases hE with ⟨k, a1, a2, a3⟩ | ⟨x, b', y, st', k, a1, a2, a3, a4, a5, a6, a7⟩
          · exact .all k a1 a2 a3
          · exact .stop x b' y st' k a1 a2 a3 a4 a5 a6 a7
        obtain ⟨S, hSe, hS⟩ := hS
        rw [hSe]
        simp only [hrs]
        rcases hS with ⟨k, a1, a2, a3⟩ | ⟨x, b', y, st', k, a1, a2, a3, a4, a5, a6, a7⟩
        · simp only at a1 a3
          have a3' : (S.count : Int) = dRun U R.st 0 (b :: bs) := by
            have : (S.count : Int) = ((0 : Nat) : Int) + dRun U R.st 0 (b :: bs) := a3
            omega
          rw [a1]
          split
          · refine ⟨by show ((R.count + S.count : Nat) : Int) = _; omega, ?_, fun _ => rfl⟩
            simp only [a2]; simp
          · rw [mainLoop_done]
            · refine ⟨by show ((R.count + S.count : Nat) : Int) = _; omega, ?_, fun _ => rfl⟩
              simp only [a2]; simp
            · simp only [a2, he]
        · simp only at a2 a4 a5
          have hxe : (S.resultEnd - 0).toNat = x.length := by rw [a6, a5]; omega
          rw [hxe]
          have hxne : x.length ≠ 0 := by
            intro h0
            have hx0 := List.eq_nil_of_length_eq_zero h0
            subst hx0
            simp only [mRun, Prod.mk.injEq, and_true] at a2
            obtain ⟨rfl, _⟩ := a2
            simp only [List.nil_append, List.cons.injEq] at a1
            obtain ⟨rfl, _⟩ := a1
            rcases a3 with h | h
            · exact hstop0 h
            · refine hentry0 ((printable_iff b (hb b (by simp))).2 ⟨h, ?_⟩)
              unfold mStops at hs0
              simp at hs0
              exact hs0.1
          rw [if_neg hxne]
          have hdrop : (b :: bs).drop x.length = b' :: y := by rw [a1]; simp
          rw [hdrop]
          have hlen : (b :: bs).length = x.length + (b' :: y).length := by rw [a1]; simp
          have hb' : ∀ c ∈ b' :: y, c < 256 := fun c hc => hb c (by rw [a1]; exact List.mem_append_right _ hc)
          have hrun := mRun_append U R.st st' x (b' :: y) k a2
          rw [← a1] at hrun
          have hdrun := dRun_append U x (b' :: y) R.st st' 0 k a2
          rw [← a1] at hdrun
          have hst' : SInv st' := by
            have := hi.run hw R.st x; rw [a2] at this; exact this
          have hres := mRun_reset U st' b' y (hb' b' (by simp)) a3
          have hdres := dRun_reset U st' (hRun U R.st 0 x) b' y (hb' b' (by simp)) a3
          have hcnt := dRun_bound hw x R.st st' 0 k hi a2
          have hp1 : pend R.st = 0 := hp0
          have a4' : (S.count : Int) = dRun U R.st 0 x + pend st' := by
            have : (S.count : Int) = ((0 : Nat) : Int) + dRun U R.st 0 x + pend st' := a4
            omega
          have := ih false (b' :: y) hb' (base + x.length) { R with
              count := R.count + S.count, fin := base + S.resultEnd, st := S.st, next := base + S.input, events := R.events ++ S.events }
            (by rw [he, hlen]; omega)
            (by show base + (S.input : Int) = _; rw [a5]; simp)
            (by show S.st.utf8.expectedLength = 0; rw [a7]; exact idle_len _)
            (by show SInv S.st; rw [a7]; exact ⟨by simp [resetSt], by simp [resetSt, Acc.width]⟩)
            (by show R.count + S.count + _ + 1 ≤ max; omega)
            (by omega)
            (by
              intro c hc
              simp only [List.getElem?_cons_zero, Option.some.injEq] at hc
              subst hc
              simp only [Bool.false_eq_true, if_false]
              rw [a7]
              by_cases hpr : Props.Scan.Printable b'
              · exact .inl hpr
              · right
                have hnp : ¬ (isComplex b' = false ∧ isControl b' = false) := fun h => hpr ((printable_iff b' (hb' b' (by simp))).2 h)
                have hl : (resetSt U st').utf8.expectedLength = 0 := idle_len _
                unfold mStops at a3 ⊢
                rw [hl]
                simp only [Bool.or_eq_true, Bool.and_eq_true, beq_iff_eq] at a3 ⊢
                rcases a3 with (h | h) | h
                · exact .inl h
                · exact .inr ⟨trivial, h.2⟩
                · left
                  cases hk : isControl b' with
                  | true => rfl
                  | false => exact absurd ⟨h, hk⟩ hnp)
          obtain ⟨g1, g2, g3⟩ := this
          rw [hrun]
          obtain ⟨r1, r2, r3⟩ := hres
          have hst : (Out.st { R with count := R.count + S.count, fin := base + S.resultEnd, st := S.st, next := base + S.input, events := R.events ++ S.events }) = resetSt U st' := a7
          rw [hst] at g1 g2 g3
          refine ⟨?_, ?_, ?_⟩
          · rw [g1, hdrun, hdres]; simp only; push_cast; omega
          · rw [g2]; simp only; rw [r2, hlen]; push_cast; omega
          · intro h
            simp only at h ⊢
            rw [g3 (r2 ▸ h), r3 h]
      | false =>
        simp only [Bool.false_eq_true, if_false]
        have hl := Props.Scan.C11_longest_prefix v w (b :: bs) hb (max - R.count)
        generalize scanAscii v w (b :: bs) (max - R.count) = n at hl
        have hprb : Props.Scan.Printable b := by
          have := hentry b rfl
          simp only [Bool.false_eq_true, if_false] at this
          rcases this with h | h
          · exact h
          · exact absurd h hstop0
        have hle := hl.le_size
        have hn0 : n ≠ 0 := by
          intro h0
          subst h0
          rcases hl.maximal with h | h | ⟨x, hx, hnp⟩
          · omega
          · simp at h
          · simp only [List.getElem?_cons_zero, Option.some.injEq] at hx
            subst hx; exact hnp hprb
        rw [if_neg hn0]
        have htl : ((b :: bs).take n).length = n := by rw [List.length_take]; omega
        have htne : (b :: bs).take n ≠ [] := by intro h; rw [h] at htl; simp at htl; omega
        have hpm := mRun_printables U ((b :: bs).take n) (fun x hx => hb x (List.mem_of_mem_take hx)) hl.printable htne R.st hid
        have hpd := dRun_printables U ((b :: bs).take n) (fun x hx => hb x (List.mem_of_mem_take hx)) hl.printable 0 R.st hid
        rw [htl] at hpm hpd
        have hget : ((b :: bs).take n).getD (n - 1) 0 = (b :: bs).getD (n - 1) 0 := by
          simp only [List.getD_eq_getElem?_getD, List.getElem?_take]
          rw [if_pos (by omega)]
        rw [hget] at hpm
        have happ : (b :: bs).take n ++ (b :: bs).drop n = b :: bs := List.take_append_drop _ _
        have hrun := mRun_append U R.st _ _ ((b :: bs).drop n) n hpm
        rw [happ] at hrun
        have hdrun := dRun_append U _ ((b :: bs).drop n) R.st _ 0 n hpm
        rw [happ, hpd.1, hpd.2 htne] at hdrun
        rw [hrun]
        have hlen : (b :: bs).length = n + ((b :: bs).drop n).length := by rw [List.length_drop]; omega
        have hsi := hi.run hw R.st ((b :: bs).take n)
        rw [hpm] at hsi
        have := ih true ((b :: bs).drop n) (fun x hx => hb x (List.mem_of_mem_drop hx)) (base + n) { R with
              count := R.count + n
              fin := R.fin + n
              st := seed U R.st ((b :: bs).getD (n - 1) 0)
              next := R.next + n
              events := R.events ++ [.ascii ((b :: bs).take n)] }
          (by rw [he]; omega) (by show R.next + (n : Int) = _; rw [hnext]) hid hsi
          (by show R.count + n + _ + 1 ≤ max; omega) (by omega)
          (by
            intro c hc
            simp only [if_true]
            rw [List.getElem?_drop] at hc
            rcases hl.maximal with h | h | ⟨x, hx, hnp⟩
            · omega
            · rw [h] at hc; simp at hc
            · rw [Nat.add_zero, hx] at hc
              simp only [Option.some.injEq] at hc
              subst hc; exact hnp)
        obtain ⟨g1, g2, g3⟩ := this
        refine ⟨?_, ?_, g3⟩
        · rw [g1, hdrun]; simp only; push_cast; omega
        · rw [g2]; simp only; rw [hlen]; push_cast; omega

/-- `scan_text`, far from the limit, is the byte machine: for all bytes. -/
theorem scanText_machine {U : Table} (hw : ∀ c, (U c).charWidth ≤ 2) (v : Variant) (w : Nat) (st : State)
    (next : Option Int) (hnext : next.getD 0 = 0) (pre text : List Nat) (hb : ∀ b ∈ text, b < 256)
    (hi : SInv st) (max : Nat) (hmax : 3 * text.length + 2 ≤ max) (R : Out)
    (h : scanText U v w st next pre text max = .ok R) :
    (R.count : Int) = dRun U st 0 text ∧ R.next = text.length - (mRun U st text).2.2.length ∧
    ((mRun U st text).2.2 = [] → R.st = (mRun U st text).1) := by
  unfold scanText at h
  simp only at h
  by_cases hid : st.utf8.expectedLength = 0
  · rw [if_neg (by simpa using hid)] at h
    cases text with
    | nil => cases h; simp [mRun, dRun, hnext]
    | cons b bs =>
      simp only at h
      cases h
      have := mainLoop_machine hw v w max ((b :: bs).length : Int) ((b :: bs).length + 1) (isComplex b) (b :: bs) hb 0
        { count := 0, start := 0, fin := 0, st := st, next := next.getD 0, events := [] } (by simp) hnext hid hi
        (by show 0 + _ + 1 ≤ max; omega) (by omega)
        (by intro c hc
            simp only [List.getElem?_cons_zero, Option.some.injEq] at hc
            subst hc
            exact entry_ok st hid b (hb b (by simp)))
      obtain ⟨g1, g2, g3⟩ := this
      simp only at g1 g2 g3
      refine ⟨by rw [g1]; simp, by rw [g2]; omega, g3⟩
  · rw [if_pos hid] at h
    have hE := loop_machine hw text max text { st := st, resultEnd := resultStart st } hi
      (Nat.le_refl _) (by show 0 + 3 * text.length ≤ _; omega) (by simp)
    have hS : ∃ S, scanNonAscii U st text max = S ∧ Ends U text { st := st, resultEnd := resultStart st } text S := by
      refine ⟨_, rfl, ?_⟩
      unfold scanNonAscii
      rcases hE with ⟨k, a1, a2, a3⟩ | ⟨x, b', y, st', k, a1, a2, a3, a4, a5, a6, a7⟩
      · exact .all k a1 a2 a3
      · exact .stop x b' y st' k a1 a2 a3 a4 a5 a6 a7
    obtain ⟨S, hSe, hS⟩ := hS
    rw [hSe] at h
    rcases hS with ⟨k, a1, a2, a3⟩ | ⟨x, b', y, st', k, a1, a2, a3, a4, a5, a6, a7⟩
    · simp only at a1 a3
      have key : R = { count := S.count, start := resultStart st, fin := S.resultEnd, st := S.st, next := S.input, events := S.events } := by
        split at h
        · split at h
          · cases h; rfl
          · cases h
            rw [mainLoop_done]
            simp only [a2]
        · split at h
          · split at h
            · cases h; rfl
            · cases h
              rw [mainLoop_done]
              simp only [a2]
          · cases h
      subst key
      rw [a1]
      refine ⟨?_, by simp [a2], fun _ => rfl⟩
      have : (S.count : Int) = ((0 : Nat) : Int) + dRun U st 0 text := a3
      show (S.count : Int) = _
      omega
    · simp only at a2 a4 a5
      have hge : 0 ≤ S.resultEnd := by rw [a6]; omega
      rw [if_pos hge] at h
      have hxe : S.resultEnd.toNat = x.length := by rw [a6, a5]; omega
      have hdrop : text.drop S.resultEnd.toNat = b' :: y := by rw [hxe, a1]; simp
      rw [hdrop] at h
      simp only at h
      cases h
      have hlen : text.length = x.length + (b' :: y).length := by rw [a1]; simp
      have hb' : ∀ c ∈ b' :: y, c < 256 := fun c hc => hb c (by rw [a1]; exact List.mem_append_right _ hc)
      have hrun := mRun_append U st st' x (b' :: y) k a2
      rw [← a1] at hrun
      have hdrun := dRun_append U x (b' :: y) st st' 0 k a2
      rw [← a1] at hdrun
      have hcnt := dRun_bound hw x st st' 0 k hi a2
      have hp1 : pend st ≤ 1 := by unfold pend; split <;> omega
      have hres := mRun_reset U st' b' y (hb' b' (by simp)) a3
      have hdres := dRun_reset U st' (hRun U st 0 x) b' y (hb' b' (by simp)) a3
      have a4' : (S.count : Int) = dRun U st 0 x + pend st' := by
        have : (S.count : Int) = ((0 : Nat) : Int) + dRun U st 0 x + pend st' := a4
        omega
      have := mainLoop_machine hw v w max (text.length : Int) (text.length + 1) (isComplex b') (b' :: y) hb' S.resultEnd
        { count := S.count, start := resultStart st, fin := S.resultEnd, st := S.st, next := S.input, events := S.events }
        (by rw [hlen, a6, a5]; omega) (by show (S.input : Int) = _; rw [a6])
        (by show S.st.utf8.expectedLength = 0; rw [a7]; exact idle_len _)
        (by show SInv S.st; rw [a7]; exact ⟨by simp [resetSt], by simp [resetSt, Acc.width]⟩)
        (by show S.count + _ + 1 ≤ max; omega)
        (by omega)
        (by intro c hc
            simp only [List.getElem?_cons_zero, Option.some.injEq] at hc
            subst hc
            exact entry_ok _ (by rw [show S.st = resetSt U st' from a7]; exact idle_len _) b' (hb' b' (by simp)))
      obtain ⟨g1, g2, g3⟩ := this
      rw [hrun]
      obtain ⟨r1, r2, r3⟩ := hres
      simp only [a7] at g1 g2 g3 ⊢
      refine ⟨?_, ?_, ?_⟩
      · rw [g1, hdrun, hdres]; omega
      · rw [g2]; rw [r2, hlen, a6, a5]; omega
      · intro h
        rw [g3 (r2 ▸ h), r3 h]

/-! ## Two calls that have counted differently for the open character -/

/-- What was reported has not shrunk, or nothing of it can be taken back. -/
def Good (st : State) (here : Nat) : Prop := st.reported ≤ st.acc.width ∨ here = 0

theorem Good.byte {U : Table} {st : State} {here : Nat} (h : Good st here) (b : Nat) : Good (mByte U st b).1 (hByte U st here b) := by
  unfold mByte hByte
  split
  · unfold mComplex
    rcases hf : fromUtf8 st.utf8 b with ⟨u, _ | _ | c⟩
    · exact .inr rfl
    · exact h
    · simp only
      unfold mSuccess
      split
      · exact .inl (Nat.le_refl _)
      · exact .inl (Nat.le_refl _)
  · exact .inr rfl

theorem Good.run {U : Table} (bs : List Nat) : ∀ {st : State} {here : Nat}, Good st here → Good (mRun U st bs).1 (hRun U st here bs) := by
  induction bs with
  | nil => intro st here h; exact h
  | cons b bs ih =>
    intro st here h
    unfold mRun hRun
    split
    · exact h
    · exact ih (h.byte b)

theorem cmp_byte {U : Table} (hw : ∀ c, (U c).charWidth ≤ 2) (st : State) (hi : SInv st) (hC hW b : Nat) (hle : hC ≤ hW) (hg : Good st hW) :
    dByte U st hW b ≤ dByte U st hC b ∧ dByte U st hC b ≤ dByte U st hW b + ((delivered st.utf8 [b]).count 0xFE0E : Nat) ∧
    hByte U st hC b ≤ hByte U st hW b := by
  unfold dByte hByte
  by_cases hcx : isComplex b = true
  · simp only [if_pos hcx, delivered]
    rcases hf : fromUtf8 st.utf8 b with ⟨u, _ | _ | c⟩
    · exact ⟨Int.le_refl _, by simp, Nat.le_refl _⟩
    · exact ⟨Int.le_refl _, by simp, hle⟩
    · simp only
      unfold dSuccess hSuccess
      split
      · exact ⟨Int.le_refl _, by omega, Nat.le_refl _⟩
      · simp only
        by_cases hc : c = 0xFE0E
        · subst hc
          have h1 := push_ge hw st.acc hi.cur
          have h2 : ([0xFE0E] : List Nat).count 0xFE0E = 1 := by decide
          rw [h2]
          rcases hg with hg | hg <;> refine ⟨?_, ?_, ?_⟩ <;> omega
        · have h1 := (push_width_mono hw st.acc c hc hi.cur).1
          rcases hg with hg | hg <;> refine ⟨?_, ?_, ?_⟩ <;> omega
  · simp only [if_neg hcx]
    exact ⟨Int.le_refl _, by omega, Nat.le_refl _⟩

theorem cmp_run {U : Table} (hw : ∀ c, (U c).charWidth ≤ 2) (bs : List Nat) : ∀ (st : State) (hC hW : Nat), SInv st → hC ≤ hW → Good st hW →
    dRun U st hW bs ≤ dRun U st hC bs ∧ dRun U st hC bs ≤ dRun U st hW bs + ((delivered st.utf8 bs).count 0xFE0E : Nat) := by
  induction bs with
  | nil => intro st hC hW _ _ _; exact ⟨Int.le_refl _, by simp [dRun]⟩
  | cons b bs ih =>
    intro st hC hW hi hle hg
    unfold dRun
    split
    · exact ⟨Int.le_refl _, by omega⟩
    · obtain ⟨h1, h2, h3⟩ := cmp_byte hw st hi hC hW b hle hg
      obtain ⟨g1, g2⟩ := ih (mByte U st b).1 _ _ (hi.byte hw st b) h3 (hg.byte b)
      obtain ⟨l, e1, e2, -⟩ := delivered_cons U st b bs
      rw [e1, List.count_append, ← e2]
      push_cast
      refine ⟨by omega, by omega⟩

end Verif.Scan.Take
