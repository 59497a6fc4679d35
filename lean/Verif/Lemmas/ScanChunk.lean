import Verif.Lemmas.Scan
import Verif.Props.Width
/-!
# The scanner without a column limit is a byte machine

As long as the limit is not reached, `scan_text` processes its input byte by byte with a machine that knows
nothing about chunks, vector blocks, or the change between the ASCII and the complex scanner.
-/

namespace Verif.Scan
open Verif.Ucd Verif.Utf8 Verif.Grapheme Verif.Width

def pending (st : State) : Bool := decide (st.utf8.expectedLength ≠ 0)
def pend (st : State) : Nat := if st.utf8.expectedLength ≠ 0 then 1 else 0

def mStops (st : State) (b : Nat) : Bool := isControl b || (st.utf8.expectedLength == 0 && isC1 b)

def mOpen (U : Table) (st : State) (cp : Nat) : State × Nat :=
  ({ st with acc := push U {} cp, reported := (push U {} cp).width }, (push U {} cp).width)

def mJoin (U : Table) (st : State) (cp : Nat) : State × Nat :=
  ({ st with acc := push U st.acc cp, reported := (push U st.acc cp).width },
    (push U st.acc cp).width - st.reported)

def mSuccess (U : Table) (st : State) (cp : Nat) : State × Nat :=
  if (isBreakable U st cp).2 then mOpen U { st with hint := cp, g := (isBreakable U st cp).1 } cp
  else mJoin U { st with hint := cp, g := (isBreakable U st cp).1 } cp

def mComplex (U : Table) (st : State) (b : Nat) : State × Nat :=
  match fromUtf8 st.utf8 b with
  | (u, .incomplete) => ({ st with utf8 := u }, 0)
  | (u, .success cp) => mSuccess U { st with utf8 := u } cp
  | (u, .invalid) =>
    ({ utf8 := { u with expectedLength := 0 }, hint := 0, g := GState.default U, acc := {}, reported := 0 }, 1)

def idle (u : DecState) : DecState := if u.expectedLength ≠ 0 then {} else u

def mByte (U : Table) (st : State) (b : Nat) : State × Nat :=
  if isComplex b then mComplex U st b
  else (seed U { st with utf8 := idle st.utf8 } b, pend st + 1)

def mRun (U : Table) : State → List Nat → State × Nat × List Nat
  | st, [] => (st, 0, [])
  | st, b :: bs =>
    if mStops st b then (st, pend st, b :: bs)
    else ((mRun U (mByte U st b).1 bs).1, (mByte U st b).2 + (mRun U (mByte U st b).1 bs).2.1,
          (mRun U (mByte U st b).1 bs).2.2)

theorem mRun_append (U : Table) (st st' : State) (a b : List Nat) (n : Nat) (h : mRun U st a = (st', n, [])) :
    mRun U st (a ++ b) = ((mRun U st' b).1, n + (mRun U st' b).2.1, (mRun U st' b).2.2) := by
  induction a generalizing st n with
  | nil => simp only [mRun, Prod.mk.injEq, and_true] at h; obtain ⟨rfl, rfl⟩ := h; simp
  | cons x a ih =>
    simp only [mRun, List.cons_append] at h ⊢
    split at h
    · simp at h
    · rename_i hs
      rw [if_neg hs]
      have := ih (mByte U st x).1 (mRun U (mByte U st x).1 a).2.1 (by
        simp only [Prod.mk.injEq] at h
        rw [← h.1, ← h.2.2])
      rw [this]
      simp only [Prod.mk.injEq] at h
      obtain ⟨_, h2, _⟩ := h
      simp only [Prod.mk.injEq, true_and, and_true]
      omega

/-- Codepoints the scanner's decoder reports. -/
def delivered : DecState → List Nat → List Nat
  | _, [] => []
  | u, b :: bs =>
    if isComplex b then
      match fromUtf8 u b with
      | (u', .success c) => c :: delivered u' bs
      | (u', .invalid) => delivered { u' with expectedLength := 0 } bs
      | (u', .incomplete) => delivered u' bs
    else b :: delivered (idle u) bs

theorem delivered_cons (U : Table) (st : State) (b : Nat) (bs : List Nat) :
    ∃ l, delivered st.utf8 (b :: bs) = l ++ delivered (mByte U st b).1.utf8 bs ∧
      delivered st.utf8 [b] = l ∧
      (∀ u c, isComplex b = true → fromUtf8 st.utf8 b = (u, .success c) → c ∈ l) := by
  simp only [delivered, mByte, mComplex, mSuccess, mOpen, mJoin, seed]
  split
  · rcases hf : fromUtf8 st.utf8 b with ⟨u, _ | _ | c⟩
    · exact ⟨[], rfl, rfl, by simp⟩
    · exact ⟨[], rfl, rfl, by simp⟩
    · refine ⟨[c], ?_, rfl, ?_⟩
      · simp only; split <;> rfl
      · intro u' c' _ h; simp only [Prod.mk.injEq, Result.success.injEq] at h; simp [h.2]
  · rename_i hn
    exact ⟨[b], rfl, rfl, fun u c h => absurd h hn⟩

theorem delivered_append (U : Table) (st st' : State) (a b : List Nat) (n : Nat) (h : mRun U st a = (st', n, [])) :
    delivered st.utf8 (a ++ b) = delivered st.utf8 a ++ delivered st'.utf8 b := by
  induction a generalizing st n with
  | nil => simp only [mRun, Prod.mk.injEq, and_true] at h; obtain ⟨rfl, rfl⟩ := h; rfl
  | cons x a ih =>
    simp only [mRun] at h
    split at h
    · simp at h
    · have := ih (mByte U st x).1 (mRun U (mByte U st x).1 a).2.1 (by
        simp only [Prod.mk.injEq] at h
        rw [← h.1, ← h.2.2])
      obtain ⟨l, h1, h2, _⟩ := delivered_cons U st x (a ++ b)
      obtain ⟨l', h1', h2', _⟩ := delivered_cons U st x a
      rw [List.cons_append, h1, this, h1', ← h2, ← h2', List.append_assoc]

/-- Invariant of the scanner's state between bytes. -/
structure SInv (st : State) : Prop where
  cur : 0 ≤ st.acc.current ∧ st.acc.current ≤ 2
  rep : st.acc.width ≤ st.reported + 1

theorem SInv.init (U : Table) : SInv (State.init U) := ⟨by simp [State.init], by simp [State.init, Acc.width]⟩

theorem push_cur {U : Table} (hw : ∀ c, (U c).charWidth ≤ 2) (s : Acc) (c : Nat)
    (h : 0 ≤ s.current ∧ s.current ≤ 2) : 0 ≤ (push U s c).current ∧ (push U s c).current ≤ 2 := by
  have hwc := hw c
  unfold push push'
  repeat' split
  all_goals try unfold measureCp
  all_goals repeat' split
  all_goals try simp only
  all_goals repeat' split
  all_goals omega

theorem push_width_mono {U : Table} (hw : ∀ c, (U c).charWidth ≤ 2) (s : Acc) (c : Nat) (hc : c ≠ 0xFE0E)
    (h : 0 ≤ s.current ∧ s.current ≤ 2) :
    s.width ≤ (push U s c).width ∧ (push U s c).width ≤ s.width + 2 := by
  have := Verif.Props.push_mono hw s c hc h
  unfold Acc.width
  split <;> split <;> omega

theorem push_fresh_width {U : Table} (hw : ∀ c, (U c).charWidth ≤ 2) (c : Nat) : (push U {} c).width ≤ 2 := by
  have hb := Verif.Props.push_bound hw {} 0 c (Verif.Props.init_bound U)
  have h1 := hb.cur
  have h2 := hb.tot
  unfold Acc.width
  split
  · split at h2 <;> omega
  · omega

theorem SInv.byte {U : Table} (hw : ∀ c, (U c).charWidth ≤ 2) (st : State) (h : SInv st) (b : Nat) :
    SInv (mByte U st b).1 := by
  have h0 : (0:Int) ≤ ({} : Acc).current ∧ ({} : Acc).current ≤ 2 := by simp
  unfold mByte
  split
  · unfold mComplex
    split
    · exact ⟨h.cur, h.rep⟩
    · unfold mSuccess
      split
      · exact ⟨push_cur hw _ _ h0, Nat.le_succ _⟩
      · exact ⟨push_cur hw _ _ h.cur, Nat.le_succ _⟩
    · exact ⟨by simp, by simp [Acc.width]⟩
  · exact ⟨push_cur hw _ _ h0, push_fresh_width hw b⟩

theorem SInv.run {U : Table} (hw : ∀ c, (U c).charWidth ≤ 2) (st : State) (h : SInv st) (bs : List Nat) :
    SInv (mRun U st bs).1 := by
  induction bs generalizing st with
  | nil => exact h
  | cons b bs ih =>
    unfold mRun
    split
    · exact h
    · exact ih _ (h.byte hw st b)

/-- State after a stop byte (scan.cpp:121-136). -/
def resetSt (U : Table) (st : State) : State :=
  { utf8 := idle st.utf8, hint := 0, g := GState.default U, acc := {}, reported := 0 }

/-- How the loop of `scan_for_text_nonascii` ends when the limit is far away. -/
inductive Ends (U : Table) (text : List Nat) (L : Loop) (rest : List Nat) (L' : Loop) : Prop
  | all (h1 : mRun U L.st rest = (L'.st, L'.count - L.count, [])) (h2 : L'.input = text.length)
      (h3 : L.count ≤ L'.count)
  | stop (x : List Nat) (b : Nat) (y : List Nat) (st' : State) (n : Nat) (h1 : rest = x ++ b :: y)
      (h2 : mRun U L.st x = (st', n, [])) (h3 : mStops st' b = true ∨ isComplex b = false)
      (h4 : L'.count = L.count + n + pend st') (h5 : L'.input = L.input + x.length)
      (h6 : L'.resultEnd = L'.input) (h7 : L'.st = resetSt U st')

theorem step_machine {U : Table} (hw : ∀ c, (U c).charWidth ≤ 2) (text : List Nat) (max b : Nat) (L : Loop)
    (hi : SInv L.st) (hch : L.st.reported ≤ L.st.acc.width ∨ L.countedHere = 0)
    (hmax : L.count + 3 ≤ max) (hvs : ∀ u c, isComplex b = true → fromUtf8 L.st.utf8 b = (u, .success c) → c ≠ 0xFE0E) :
    (∃ L', step U text max b L = .stop L' ∧ (mStops L.st b = true ∨ isComplex b = false) ∧
      L'.count = L.count + pend L.st ∧ L'.input = L.input ∧ L'.resultEnd = L.input ∧ L'.st = resetSt U L.st) ∨
    (∃ L', step U text max b L = .go L' ∧ mStops L.st b = false ∧ isComplex b = true ∧ L'.st = (mByte U L.st b).1 ∧
      L'.count = L.count + (mByte U L.st b).2 ∧ L'.count ≤ L.count + 3 ∧ L'.input = L.input + 1 ∧
      (L'.st.reported ≤ L'.st.acc.width ∨ L'.countedHere = 0)) := by
  unfold step
  rw [if_neg (by omega)]
  split
  · rename_i hctl
    left
    refine ⟨_, rfl, ?_, ?_, rfl, rfl, ?_⟩
    · simp only [Bool.or_eq_true, Bool.not_eq_true'] at hctl
      unfold mStops
      rcases hctl with (h | h) | h
      · left; simp [h]
      · right; exact h
      · left; simp [h]
    · show (if _ then _ else _) = _
      unfold pend
      split <;> rfl
    · rfl
  · rename_i hctl
    right
    simp only [Bool.or_eq_true, Bool.not_eq_true', not_or, Bool.not_eq_true, Bool.not_eq_false] at hctl
    obtain ⟨⟨hc1, hcx⟩, hc3⟩ := hctl
    have hstop : mStops L.st b = false := by unfold mStops; simp [hc1, hc3]
    have hm : mByte U L.st b = mComplex U L.st b := by unfold mByte; rw [if_pos hcx]
    rw [hm]
    unfold mComplex
    rcases hf : fromUtf8 L.st.utf8 b with ⟨u, _ | _ | cp⟩
    · refine ⟨_, rfl, hstop, hcx, rfl, rfl, ?_, rfl, .inr rfl⟩
      show L.count + 1 ≤ _; omega
    · refine ⟨_, rfl, hstop, hcx, rfl, rfl, ?_, rfl, hch⟩
      show L.count ≤ _; omega
    · have hcp := hvs u cp hcx hf
      have e : mSuccess U { L.st with utf8 := u } cp = mSuccess U (consume L u).st cp := rfl
      simp only [e]
      unfold onSuccess mSuccess
      by_cases hbk : (isBreakable U (consume L u).st cp).2 = true
      · simp only [hbk, if_true]
        unfold openCluster
        have h2 := push_fresh_width hw cp
        rw [if_neg (by show ¬ (L.count + _ > max); omega)]
        refine ⟨_, rfl, hstop, hcx, rfl, rfl, ?_, rfl, .inl ?_⟩
        · show L.count + (push U {} cp).width ≤ _
          omega
        · exact Nat.le_refl (push U {} cp).width
      · have hbk' := Bool.eq_false_iff.2 hbk
        simp only [hbk', Bool.false_eq_true, if_false]
        unfold joinCluster
        have h2 := push_width_mono hw L.st.acc cp hcp hi.cur
        have h3 := hi.rep
        simp only
        by_cases hge : (push U (consume L u).st.acc cp).width ≥ (consume L u).st.reported
        · rw [if_pos hge, if_neg (by
            show ¬ (_ ∧ L.count + ((push U L.st.acc cp).width - L.st.reported) > max)
            omega)]
          have hge' : (push U L.st.acc cp).width ≥ L.st.reported := hge
          refine ⟨_, rfl, hstop, hcx, rfl, rfl, ?_, rfl, .inl ?_⟩
          · show L.count + ((push U L.st.acc cp).width - L.st.reported) ≤ _
            omega
          · exact Nat.le_refl (push U L.st.acc cp).width
        · rw [if_neg hge]
          have hlt : ¬ (push U L.st.acc cp).width ≥ L.st.reported := hge
          have h0 : L.countedHere = 0 := by omega
          refine ⟨_, rfl, hstop, hcx, rfl, ?_, ?_, rfl, .inl ?_⟩
          · show L.count - min _ L.countedHere = L.count + ((push U L.st.acc cp).width - L.st.reported)
            omega
          · show L.count - min _ L.countedHere ≤ _
            omega
          · exact Nat.le_refl (push U L.st.acc cp).width

theorem loop_machine {U : Table} (hw : ∀ c, (U c).charWidth ≤ 2) (text : List Nat) (max : Nat) (rest : List Nat)
    (L : Loop) (hi : SInv L.st) (hch : L.st.reported ≤ L.st.acc.width ∨ L.countedHere = 0)
    (hmax : L.count + 3 * rest.length ≤ max) (hvs : 0xFE0E ∉ delivered L.st.utf8 rest)
    (hin : L.input + rest.length = text.length) : Ends U text L rest (loop U text max rest L) := by
  induction rest generalizing L with
  | nil =>
    refine .all ?_ ?_ (Nat.le_refl _)
    · simp [mRun, loop]
    · simpa [loop] using hin
  | cons b rest ih =>
    simp only [List.length_cons] at hmax hin
    obtain ⟨l, hl1, hl2, hl3⟩ := delivered_cons U L.st b rest
    rw [hl1, List.mem_append, not_or] at hvs
    unfold loop
    rcases step_machine hw text max b L hi hch (by omega)
      (fun u c h h' e => hvs.1 (e ▸ hl3 u c h h')) with ⟨L', h1, h2, h3, h4, h5, h6⟩ | ⟨L', h1, h2, hcx, h3, h4, h5, h6, h7⟩
    · rw [h1]
      refine .stop [] b rest L.st 0 rfl rfl h2 h3 ?_ ?_ h6
      · simpa using h4
      · simp only; omega
    · rw [h1]
      simp only
      have hih := ih L' (h3 ▸ hi.byte hw _ b) h7 (by omega) (h3 ▸ hvs.2) (by omega)
      rcases hih with ⟨a1, a2, a3⟩ | ⟨x, b', y, st', n, a1, a2, a3, a4, a5, a6, a7⟩
      · rw [h3] at a1
        refine .all ?_ a2 (by omega)
        simp only [mRun, h2, Bool.false_eq_true, if_false, a1, Prod.mk.injEq, true_and, and_true]
        omega
      · rw [h3] at a2
        refine .stop (b :: x) b' y st' ((mByte U L.st b).2 + n) (by rw [a1]; rfl) ?_ a3 (by omega) ?_ a6 a7
        · simp only [mRun, h2, Bool.false_eq_true, if_false, a2]
        · simp only [List.length_cons]; omega

theorem idle_idle (u : DecState) : idle (idle u) = idle u := by
  unfold idle
  by_cases h : u.expectedLength = 0
  · simp [h]
  · simp [h]

theorem idle_of (u : DecState) (h : u.expectedLength = 0) : idle u = u := by simp [idle, h]

theorem idle_len (u : DecState) : (idle u).expectedLength = 0 := by
  unfold idle; split
  · rfl
  · rename_i h; simpa using h

theorem printable_iff (b : Nat) (hb : b < 256) : Props.Scan.Printable b ↔ isComplex b = false ∧ isControl b = false := by
  have h := Props.Scan.isComplex_iff b hb
  unfold Props.Scan.Printable isControl
  cases hc : isComplex b
  · rw [hc] at h; simp at h ⊢; omega
  · rw [hc] at h; simp at h ⊢; omega

/-- A run of printable bytes in an idle state. -/
theorem mRun_printables (U : Table) (xs : List Nat) (hb : ∀ b ∈ xs, b < 256) (hp : ∀ b ∈ xs, Props.Scan.Printable b)
    (hne : xs ≠ []) (st : State) (hid : st.utf8.expectedLength = 0) :
    mRun U st xs = (seed U st (xs.getD (xs.length - 1) 0), xs.length, []) := by
  induction xs generalizing st with
  | nil => exact absurd rfl hne
  | cons b xs ih =>
    have hpb := (printable_iff b (hb b (by simp))).1 (hp b (by simp))
    have hc1 : isC1 b = false := by
      have := (hp b (by simp)).2
      unfold isC1; simp; omega
    have hs : mStops st b = false := by unfold mStops; simp [hpb.2, hc1]
    have hm : mByte U st b = (seed U st b, 1) := by
      unfold mByte pend
      rw [if_neg (by simp [hpb.1]), idle_of _ hid, if_neg (by simpa using hid)]
    simp only [mRun, hs, hm, Bool.false_eq_true, if_false]
    cases xs with
    | nil => simp [mRun]
    | cons b' xs =>
      rw [ih (fun x hx => hb x (by simp [hx])) (fun x hx => hp x (by simp [hx])) (by simp) (seed U st b) hid]
      simp [seed, Nat.add_comm]

theorem mainLoop_done (U : Table) (v : Variant) (w max : Nat) (e : Int) (fuel : Nat) (complex : Bool) (text : List Nat)
    (base : Int) (R : Out) (h : R.next = e) : mainLoop U v w max e fuel complex text base R = R := by
  cases fuel with
  | zero => rfl
  | succ n => unfold mainLoop; rw [if_neg (by simp [h])]

theorem mRun_reset (U : Table) (st : State) (b : Nat) (y : List Nat) (hb : b < 256)
    (h : mStops st b = true ∨ isComplex b = false) :
    (mRun U st (b :: y)).2.1 = pend st + (mRun U (resetSt U st) (b :: y)).2.1 ∧
    (mRun U st (b :: y)).2.2 = (mRun U (resetSt U st) (b :: y)).2.2 ∧
    ((mRun U st (b :: y)).2.2 = [] → (mRun U st (b :: y)).1 = (mRun U (resetSt U st) (b :: y)).1) := by
  have hl : (resetSt U st).utf8.expectedLength = 0 := idle_len _
  have hp0 : pend (resetSt U st) = 0 := by unfold pend; rw [if_neg (by simpa using hl)]
  by_cases hs : mStops st b = true
  · have hs' : mStops (resetSt U st) b = true := by
      unfold mStops at hs ⊢
      rw [hl]
      simp only [Bool.or_eq_true, Bool.and_eq_true, beq_iff_eq] at hs ⊢
      rcases hs with h | h
      · exact .inl h
      · exact .inr ⟨trivial, h.2⟩
    simp only [mRun, hs, hs', if_true, hp0]
    exact ⟨rfl, trivial, fun h => by simp at h⟩
  · have hc : isComplex b = false := by
      rcases h with h | h
      · exact absurd h hs
      · exact h
    have hs0 : mStops st b = false := by simpa using hs
    have hctl : isControl b = false := by unfold mStops at hs0; simp at hs0; exact hs0.1
    have hpr := (printable_iff b hb).2 ⟨hc, hctl⟩
    have hc1 : isC1 b = false := by have := hpr.2; unfold isC1; simp; omega
    have hs' : mStops (resetSt U st) b = false := by unfold mStops; simp [hctl, hc1]
    have e1 : mByte U st b = (seed U { st with utf8 := idle st.utf8 } b, pend st + 1) := by
      unfold mByte; rw [if_neg (by simp [hc])]
    have e2 : mByte U (resetSt U st) b = (seed U { st with utf8 := idle st.utf8 } b, 1) := by
      unfold mByte
      rw [if_neg (by simp [hc]), hp0]
      simp only [resetSt, idle_idle, seed]
    simp only [mRun, hs0, hs', Bool.false_eq_true, if_false, e1, e2, implies_true, and_true]
    omega

theorem delivered_reset (U : Table) (st : State) (b : Nat) (y : List Nat) (hb : b < 256)
    (h : mStops st b = true ∨ isComplex b = false) (hn : 0xFE0E ∉ delivered st.utf8 (b :: y)) :
    0xFE0E ∉ delivered (resetSt U st).utf8 (b :: y) ∨ mStops (resetSt U st) b = true := by
  by_cases hc : isComplex b = true
  · right
    have hl : (resetSt U st).utf8.expectedLength = 0 := idle_len _
    rcases h with h | h
    · unfold mStops at h ⊢
      rw [hl]
      simp only [Bool.or_eq_true, Bool.and_eq_true, beq_iff_eq] at h ⊢
      rcases h with h | h
      · exact .inl h
      · exact .inr ⟨trivial, h.2⟩
    · rw [hc] at h; exact absurd h (by decide)
  · left
    unfold delivered at hn ⊢
    rw [if_neg hc] at hn
    rw [if_neg hc]
    simp only [resetSt, idle_idle]
    exact hn

theorem mByte_bound {U : Table} (hw : ∀ c, (U c).charWidth ≤ 2) (st : State) (hi : SInv st) (b : Nat)
    (hvs : ∀ u c, isComplex b = true → fromUtf8 st.utf8 b = (u, .success c) → c ≠ 0xFE0E) :
    (mByte U st b).2 + pend (mByte U st b).1 ≤ 3 := by
  have hp1 : ∀ s : State, pend s ≤ 1 := by intro s; unfold pend; split <;> omega
  unfold mByte
  split
  · rename_i hcx
    unfold mComplex
    rcases hf : fromUtf8 st.utf8 b with ⟨u, _ | _ | c⟩
    · simp [pend]
    · have := hp1 { st with utf8 := u }
      simp only; omega
    · have hu : u.expectedLength = 0 := fromUtf8_success_idle _ _ _ _ hf
      have hpz : ∀ s : State, s.utf8 = u → pend s = 0 := by
        intro s hs; unfold pend; rw [hs, if_neg (by simpa using hu)]
      simp only
      unfold mSuccess
      split
      · have := push_fresh_width hw c
        rw [hpz _ rfl]
        simp only [mOpen]; omega
      · have h2 := push_width_mono hw st.acc c (hvs u c hcx hf) hi.cur
        have h3 := hi.rep
        rw [hpz _ rfl]
        simp only [mJoin]; omega
  · have h0 : pend (seed U { st with utf8 := idle st.utf8 } b) = 0 := by
      unfold pend; rw [if_neg]; simp only [seed, idle_len]; simp
    have := hp1 st
    simp only [h0]; omega

theorem mRun_bound {U : Table} (hw : ∀ c, (U c).charWidth ≤ 2) (st st' : State) (hi : SInv st) (x : List Nat) (n : Nat)
    (hvs : 0xFE0E ∉ delivered st.utf8 x) (h : mRun U st x = (st', n, [])) : n + pend st' ≤ 3 * x.length + pend st := by
  induction x generalizing st n with
  | nil => simp only [mRun, Prod.mk.injEq, and_true] at h; obtain ⟨rfl, rfl⟩ := h; simp
  | cons b x ih =>
    simp only [mRun] at h
    split at h
    · simp at h
    · simp only [Prod.mk.injEq] at h
      obtain ⟨l, hl1, _, hl3⟩ := delivered_cons U st b x
      rw [hl1, List.mem_append, not_or] at hvs
      have := ih (mByte U st b).1 (hi.byte hw st b) (mRun U (mByte U st b).1 x).2.1 hvs.2 (by rw [← h.1, ← h.2.2])
      have h2 := mByte_bound hw st hi b (fun u c h h' e => hvs.1 (e ▸ hl3 u c h h'))
      simp only [List.length_cons]
      omega

/-- The loop of `scan_text`, far from the limit, is the byte machine. -/
theorem mainLoop_machine {U : Table} (hw : ∀ c, (U c).charWidth ≤ 2) (v : Variant) (w max : Nat) (e : Int) (fuel : Nat)
    (complex : Bool) (text : List Nat) (hb : ∀ b ∈ text, b < 256) (base : Int) (R : Out)
    (he : e = base + text.length) (hnext : R.next = base) (hid : R.st.utf8.expectedLength = 0) (hi : SInv R.st)
    (hmax : R.count + 3 * text.length + 1 ≤ max) (hvs : 0xFE0E ∉ delivered R.st.utf8 text ∨ ∃ b, text[0]? = some b ∧ mStops R.st b = true)
    (hfuel : text.length < fuel)
    (hentry : ∀ b, text[0]? = some b → if complex then ¬ Props.Scan.Printable b
      else Props.Scan.Printable b ∨ mStops R.st b = true) :
    (mainLoop U v w max e fuel complex text base R).count = R.count + (mRun U R.st text).2.1 ∧
    (mainLoop U v w max e fuel complex text base R).next = base + text.length - (mRun U R.st text).2.2.length ∧
    ((mRun U R.st text).2.2 = [] → (mainLoop U v w max e fuel complex text base R).st = (mRun U R.st text).1) := by
  induction fuel generalizing complex text base R with
  | zero => omega
  | succ fuel ih =>
    cases text with
    | nil =>
      rw [mainLoop_done _ _ _ _ _ _ _ _ _ _ (by rw [hnext, he]; simp)]
      simp [mRun, hnext]
    | cons b bs =>
      have hpos : (b :: bs).length = bs.length + 1 := rfl
      have hp0 : pend R.st = 0 := by unfold pend; rw [if_neg (by simpa using hid)]
      unfold mainLoop
      rw [if_pos ⟨by omega, by rw [hnext, he, hpos]; omega⟩]
      have hentry0 := hentry b rfl
      by_cases hstop0 : mStops R.st b = true
      · -- the first byte stops the scan
        have hm : mRun U R.st (b :: bs) = (R.st, 0, b :: bs) := by simp [mRun, hstop0, hp0]
        rw [hm]
        cases complex with
        | true =>
          have hS : scanNonAscii U R.st (b :: bs) (max - R.count) =
              flush (b :: bs) 0 (atControl U (b :: bs) { st := R.st, resultEnd := resultStart R.st }) := by
            unfold scanNonAscii loop step
            have hmx : ¬ (0 > max - R.count) := by omega
            have : (isControl b || !isComplex b || (R.st.utf8.expectedLength == 0 && isC1 b)) = true := by
              unfold mStops at hstop0
              simp only [Bool.or_eq_true] at hstop0 ⊢
              rcases hstop0 with h | h
              · exact .inl (.inl h)
              · exact .inr h
            simp only [this, if_true, hmx, if_false]
            rfl
          have hrs : resultStart R.st = 0 := by unfold resultStart; rw [if_neg (by simpa using hid)]
          have hz : ((scanNonAscii U R.st (b :: bs) (max - R.count)).resultEnd - resultStart R.st).toNat = 0 := by
            rw [hS, hrs]; rfl
          rw [if_pos rfl]
          simp only [hz, if_true]
          rw [hS]
          refine ⟨?_, ?_, by simp⟩
          · show R.count + (if _ then _ else _) = _
            rw [if_neg (by simpa using hid)]
          · show base + ((0 : Nat) : Int) = _
            simp
        | false =>
          have hnp : ¬ Props.Scan.Printable b := by
            intro hp
            have := (printable_iff b (hb b (by simp))).1 hp
            have h2 := hp.2
            unfold mStops isC1 at hstop0
            simp [this.2] at hstop0
            omega
          have hz : scanAscii v w (b :: bs) (max - R.count) = 0 := by
            have hl := Props.Scan.C11_longest_prefix v w (b :: bs) hb (max - R.count)
            generalize scanAscii v w (b :: bs) (max - R.count) = n at hl
            cases n with
            | zero => rfl
            | succ n => exact absurd (hl.printable b (by simp)) hnp
          simp only [Bool.false_eq_true, if_false, hz, if_true]
          refine ⟨rfl, ?_, by simp⟩
          rw [hnext]; omega
      have hs0 : mStops R.st b = false := by simpa using hstop0
      have hvs' : 0xFE0E ∉ delivered R.st.utf8 (b :: bs) := by
        rcases hvs with h | ⟨x, hx, h⟩
        · exact h
        · simp only [List.getElem?_cons_zero, Option.some.injEq] at hx
          subst hx; exact absurd h hstop0
      cases complex with
      | true =>
        simp only [if_true] at hentry0
        rw [if_pos rfl]
        have hrs : resultStart R.st = 0 := by unfold resultStart; rw [if_neg (by simpa using hid)]
        have hE := loop_machine hw (b :: bs) (max - R.count) (b :: bs) { st := R.st, resultEnd := resultStart R.st } hi
          (.inr rfl) (by show 0 + 3 * (b :: bs).length ≤ _; omega) hvs' (by simp)
        have hS : ∃ S, scanNonAscii U R.st (b :: bs) (max - R.count) = S ∧
          Ends U (b :: bs) { st := R.st, resultEnd := resultStart R.st } (b :: bs) S := by
          refine ⟨_, rfl, ?_⟩
          unfold scanNonAscii
          rcases hE with ⟨a1, a2, a3⟩ | ⟨x, b', y, st', n, a1, a2, a3, a4, a5, a6, a7⟩
          · exact .all a1 a2 a3
          · exact .stop x b' y st' n a1 a2 a3 a4 a5 a6 a7
        obtain ⟨S, hSe, hS⟩ := hS
        rw [hSe]
        simp only [hrs]
        rcases hS with ⟨a1, a2, a3⟩ | ⟨x, b', y, st', n, a1, a2, a3, a4, a5, a6, a7⟩
        · simp only [hrs] at a1
          rw [a1]
          split
          · refine ⟨by simp, ?_, fun _ => rfl⟩
            simp only [a2]; simp
          · rw [mainLoop_done]
            · refine ⟨by simp, ?_, fun _ => rfl⟩
              simp only [a2]; simp
            · simp only [a2, he]
        · simp only at a2 a4 a5
          have hxe : (S.resultEnd - 0).toNat = x.length := by rw [a6, a5]; omega
          rw [hxe]
          have hxne : x.length ≠ 0 := by
            intro h0
            have hx0 := List.eq_nil_of_length_eq_zero h0
            subst hx0
            simp only [mRun, Prod.mk.injEq, and_true] at a2
            obtain ⟨rfl, _⟩ := a2
            simp only [List.nil_append, List.cons.injEq] at a1
            obtain ⟨rfl, _⟩ := a1
            rcases a3 with h | h
            · exact hstop0 h
            · refine hentry0 ((printable_iff b (hb b (by simp))).2 ⟨h, ?_⟩)
              unfold mStops at hs0
              simp at hs0
              exact hs0.1
          rw [if_neg hxne]
          have hdrop : (b :: bs).drop x.length = b' :: y := by rw [a1]; simp
          rw [hdrop]
          have hlen : (b :: bs).length = x.length + (b' :: y).length := by rw [a1]; simp
          have hb' : ∀ c ∈ b' :: y, c < 256 := fun c hc => hb c (by rw [a1]; exact List.mem_append_right _ hc)
          have hrun := mRun_append U R.st st' x (b' :: y) n a2
          rw [← a1] at hrun
          have hdel := delivered_append U R.st st' x (b' :: y) n a2
          rw [← a1] at hdel
          rw [hdel, List.mem_append, not_or] at hvs'
          have hst' : SInv st' := by
            have := hi.run hw R.st x; rw [a2] at this; exact this
          have hres := mRun_reset U st' b' y (hb' b' (by simp)) a3
          have hcnt := mRun_bound hw R.st st' hi x n hvs'.1 a2
          have := ih false (b' :: y) hb' (base + x.length) { R with
              count := R.count + S.count, fin := base + S.resultEnd, st := S.st, next := base + S.input, events := R.events ++ S.events }
            (by rw [he, hlen]; omega)
            (by show base + (S.input : Int) = _; rw [a5]; simp)
            (by show S.st.utf8.expectedLength = 0; rw [a7]; exact idle_len _)
            (by show SInv S.st; rw [a7]; exact ⟨by simp [resetSt], by simp [resetSt, Acc.width]⟩)
            (by show R.count + S.count + _ + 1 ≤ max; rw [a4]; omega)
            (by
              show _ ∨ _
              rw [show (Out.st { R with count := R.count + S.count, fin := base + S.resultEnd, st := S.st, next := base + S.input, events := R.events ++ S.events }) = S.st from rfl, a7]
              rcases delivered_reset U st' b' y (hb' b' (by simp)) a3 hvs'.2 with h | h
              · exact .inl h
              · exact .inr ⟨b', rfl, h⟩)
            (by omega)
            (by
              intro c hc
              simp only [List.getElem?_cons_zero, Option.some.injEq] at hc
              subst hc
              simp only [Bool.false_eq_true, if_false]
              rw [a7]
              by_cases hpr : Props.Scan.Printable b'
              · exact .inl hpr
              · right
                have hnp : ¬ (isComplex b' = false ∧ isControl b' = false) := fun h => hpr ((printable_iff b' (hb' b' (by simp))).2 h)
                have hl : (resetSt U st').utf8.expectedLength = 0 := idle_len _
                unfold mStops at a3 ⊢
                rw [hl]
                simp only [Bool.or_eq_true, Bool.and_eq_true, beq_iff_eq] at a3 ⊢
                rcases a3 with (h | h) | h
                · exact .inl h
                · exact .inr ⟨trivial, h.2⟩
                · left
                  cases hk : isControl b' with
                  | true => rfl
                  | false => exact absurd ⟨h, hk⟩ hnp)
          obtain ⟨g1, g2, g3⟩ := this
          rw [hrun]
          obtain ⟨r1, r2, r3⟩ := hres
          have hst : (Out.st { R with count := R.count + S.count, fin := base + S.resultEnd, st := S.st, next := base + S.input, events := R.events ++ S.events }) = resetSt U st' := a7
          rw [hst] at g1 g2 g3
          refine ⟨?_, ?_, ?_⟩
          · rw [g1]; simp only; omega
          · rw [g2]; simp only; rw [r2, hlen]; push_cast; omega
          · intro h
            simp only at h ⊢
            rw [g3 (r2 ▸ h), r3 h]
      | false =>
        simp only [Bool.false_eq_true, if_false]
        have hl := Props.Scan.C11_longest_prefix v w (b :: bs) hb (max - R.count)
        generalize scanAscii v w (b :: bs) (max - R.count) = n at hl
        have hprb : Props.Scan.Printable b := by
          have := hentry b rfl
          simp only [Bool.false_eq_true, if_false] at this
          rcases this with h | h
          · exact h
          · exact absurd h hstop0
        have hle := hl.le_size
        have hn0 : n ≠ 0 := by
          intro h0
          subst h0
          rcases hl.maximal with h | h | ⟨x, hx, hnp⟩
          · omega
          · simp at h
          · simp only [List.getElem?_cons_zero, Option.some.injEq] at hx
            subst hx; exact hnp hprb
        rw [if_neg hn0]
        have htl : ((b :: bs).take n).length = n := by rw [List.length_take]; omega
        have htne : (b :: bs).take n ≠ [] := by intro h; rw [h] at htl; simp at htl; omega
        have hpm := mRun_printables U ((b :: bs).take n) (fun x hx => hb x (List.mem_of_mem_take hx)) hl.printable htne R.st hid
        rw [htl] at hpm
        have hget : ((b :: bs).take n).getD (n - 1) 0 = (b :: bs).getD (n - 1) 0 := by
          simp only [List.getD_eq_getElem?_getD, List.getElem?_take]
          rw [if_pos (by omega)]
        rw [hget] at hpm
        have happ : (b :: bs).take n ++ (b :: bs).drop n = b :: bs := List.take_append_drop _ _
        have hrun := mRun_append U R.st _ _ ((b :: bs).drop n) n hpm
        rw [happ] at hrun
        have hdel := delivered_append U R.st _ _ ((b :: bs).drop n) n hpm
        rw [happ] at hdel
        rw [hdel, List.mem_append, not_or] at hvs'
        rw [hrun]
        have hlen : (b :: bs).length = n + ((b :: bs).drop n).length := by rw [List.length_drop]; omega
        have hsi := hi.run hw R.st ((b :: bs).take n)
        rw [hpm] at hsi
        have := ih true ((b :: bs).drop n) (fun x hx => hb x (List.mem_of_mem_drop hx)) (base + n) { R with
              count := R.count + n
              fin := R.fin + n
              st := seed U R.st ((b :: bs).getD (n - 1) 0)
              next := R.next + n
              events := R.events ++ [.ascii ((b :: bs).take n)] }
          (by rw [he]; omega) (by show R.next + (n : Int) = _; rw [hnext]) hid hsi
          (by show R.count + n + _ + 1 ≤ max; omega) (.inl hvs'.2) (by omega)
          (by
            intro c hc
            simp only [if_true]
            rw [List.getElem?_drop] at hc
            rcases hl.maximal with h | h | ⟨x, hx, hnp⟩
            · omega
            · rw [h] at hc; simp at hc
            · rw [Nat.add_zero, hx] at hc
              simp only [Option.some.injEq] at hc
              subst hc; exact hnp)
        obtain ⟨g1, g2, g3⟩ := this
        refine ⟨?_, ?_, g3⟩
        · rw [g1]; simp only; omega
        · rw [g2]; simp only; rw [hlen]; push_cast; omega

theorem entry_ok (st : State) (hid : st.utf8.expectedLength = 0) (b : Nat) (hb : b < 256) :
    if isComplex b then ¬ Props.Scan.Printable b else Props.Scan.Printable b ∨ mStops st b = true := by
  have hp := printable_iff b hb
  cases hc : isComplex b with
  | true => simp only [if_true]; rw [hp, hc]; simp
  | false =>
    simp only [Bool.false_eq_true, if_false]
    cases hk : isControl b with
    | false => left; exact hp.2 ⟨hc, hk⟩
    | true => right; unfold mStops; simp [hk]

/-- `scan_text`, far from the limit, is the byte machine. -/
theorem scanText_machine {U : Table} (hw : ∀ c, (U c).charWidth ≤ 2) (v : Variant) (w : Nat) (st : State)
    (next : Option Int) (hnext : next.getD 0 = 0) (pre text : List Nat) (hb : ∀ b ∈ text, b < 256)
    (hi : SInv st) (max : Nat) (hmax : 3 * text.length + 2 ≤ max) (hvs : 0xFE0E ∉ delivered st.utf8 text) (R : Out)
    (h : scanText U v w st next pre text max = .ok R) :
    R.count = (mRun U st text).2.1 ∧ R.next = text.length - (mRun U st text).2.2.length ∧
    ((mRun U st text).2.2 = [] → R.st = (mRun U st text).1) := by
  unfold scanText at h
  simp only at h
  by_cases hid : st.utf8.expectedLength = 0
  · rw [if_neg (by simpa using hid)] at h
    cases text with
    | nil => cases h; simp [mRun, hnext]
    | cons b bs =>
      simp only at h
      cases h
      have := mainLoop_machine hw v w max ((b :: bs).length : Int) ((b :: bs).length + 1) (isComplex b) (b :: bs) hb 0
        { count := 0, start := 0, fin := 0, st := st, next := next.getD 0, events := [] } (by simp) hnext hid hi
        (by show 0 + _ + 1 ≤ max; omega) (.inl hvs) (by omega)
        (by intro c hc
            simp only [List.getElem?_cons_zero, Option.some.injEq] at hc
            subst hc
            exact entry_ok st hid b (hb b (by simp)))
      obtain ⟨g1, g2, g3⟩ := this
      simp only at g1 g2 g3
      refine ⟨by rw [g1]; simp, by rw [g2]; omega, g3⟩
  · rw [if_pos hid] at h
    have hE := loop_machine hw text max text { st := st, resultEnd := resultStart st } hi
      (.inr rfl) (by show 0 + 3 * text.length ≤ _; omega) hvs (by simp)
    have hS : ∃ S, scanNonAscii U st text max = S ∧ Ends U text { st := st, resultEnd := resultStart st } text S := by
      refine ⟨_, rfl, ?_⟩
      unfold scanNonAscii
      rcases hE with ⟨a1, a2, a3⟩ | ⟨x, b', y, st', n, a1, a2, a3, a4, a5, a6, a7⟩
      · exact .all a1 a2 a3
      · exact .stop x b' y st' n a1 a2 a3 a4 a5 a6 a7
    obtain ⟨S, hSe, hS⟩ := hS
    rw [hSe] at h
    rcases hS with ⟨a1, a2, a3⟩ | ⟨x, b', y, st', n, a1, a2, a3, a4, a5, a6, a7⟩
    · simp only at a1 a3
      have key : R = { count := S.count, start := resultStart st, fin := S.resultEnd, st := S.st, next := S.input, events := S.events } := by
        split at h
        · split at h
          · cases h; rfl
          · cases h
            rw [mainLoop_done]
            simp only [a2]
        · split at h
          · split at h
            · cases h; rfl
            · cases h
              rw [mainLoop_done]
              simp only [a2]
          · cases h
      subst key
      rw [a1]
      refine ⟨by simp, by simp [a2], fun _ => rfl⟩
    · simp only at a2 a4 a5
      have hge : 0 ≤ S.resultEnd := by rw [a6]; omega
      rw [if_pos hge] at h
      have hxe : S.resultEnd.toNat = x.length := by rw [a6, a5]; omega
      have hdrop : text.drop S.resultEnd.toNat = b' :: y := by rw [hxe, a1]; simp
      rw [hdrop] at h
      simp only at h
      cases h
      have hlen : text.length = x.length + (b' :: y).length := by rw [a1]; simp
      have hb' : ∀ c ∈ b' :: y, c < 256 := fun c hc => hb c (by rw [a1]; exact List.mem_append_right _ hc)
      have hrun := mRun_append U st st' x (b' :: y) n a2
      rw [← a1] at hrun
      have hdel := delivered_append U st st' x (b' :: y) n a2
      rw [← a1] at hdel
      rw [hdel, List.mem_append, not_or] at hvs
      have hcnt := mRun_bound hw st st' hi x n hvs.1 a2
      have hp1 : pend st ≤ 1 := by unfold pend; split <;> omega
      have hres := mRun_reset U st' b' y (hb' b' (by simp)) a3
      have := mainLoop_machine hw v w max (text.length : Int) (text.length + 1) (isComplex b') (b' :: y) hb' S.resultEnd
        { count := S.count, start := resultStart st, fin := S.resultEnd, st := S.st, next := S.input, events := S.events }
        (by rw [hlen, a6, a5]; omega) (by show (S.input : Int) = _; rw [a6])
        (by show S.st.utf8.expectedLength = 0; rw [a7]; exact idle_len _)
        (by show SInv S.st; rw [a7]; exact ⟨by simp [resetSt], by simp [resetSt, Acc.width]⟩)
        (by show S.count + _ + 1 ≤ max; rw [a4]; omega)
        (by
          show _ ∨ _
          simp only [a7]
          rcases delivered_reset U st' b' y (hb' b' (by simp)) a3 hvs.2 with h | h
          · exact .inl h
          · exact .inr ⟨b', rfl, h⟩)
        (by omega)
        (by intro c hc
            simp only [List.getElem?_cons_zero, Option.some.injEq] at hc
            subst hc
            exact entry_ok _ (by rw [show S.st = resetSt U st' from a7]; exact idle_len _) b' (hb' b' (by simp)))
      obtain ⟨g1, g2, g3⟩ := this
      rw [hrun]
      obtain ⟨r1, r2, r3⟩ := hres
      simp only [a7] at g1 g2 g3 ⊢
      refine ⟨?_, ?_, ?_⟩
      · rw [g1]; omega
      · rw [g2]; rw [r2, hlen, a6, a5]; omega
      · intro h
        rw [g3 (r2 ▸ h), r3 h]

end Verif.Scan
