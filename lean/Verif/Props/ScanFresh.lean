import Verif.Lemmas.ScanFresh
import Verif.Spec.Toy
/-!
# C72: what is behind a control character is scanned like new

`scan_text` stops in front of control characters.  A caller handles the control character and scans what is behind it with the same state.
-/

namespace Verif.Props.Scan
open Verif.Ucd Verif.Utf8 Verif.Grapheme Verif.Scan Verif.Scan.Fresh Verif.Toy

/-- A byte that stops the scanner between characters: C0 or C1 (scan.h:99-102). -/
def ControlByte (b : Nat) : Prop := b < 0x20 ∨ 0x80 ≤ b ∧ b ≤ 0x9F

/-- Two scans report the same: columns, pointers and calls of the receiver. -/
def SameScan (a b : Mem Out) : Prop :=
  ∃ A B, a = .ok A ∧ b = .ok B ∧ A.count = B.count ∧ A.start = B.start ∧ A.fin = B.fin ∧ A.next = B.next ∧ A.events = B.events

/-- The claim: when a scan of a text (from a new state) stops at a control character, whatever comes behind it is scanned as with a new state. -/
def C72_Afresh : Prop :=
  ∀ (U : Table) (v : Variant) (w : Nat) (text : List Nat), (∀ b ∈ text, b < 256) → ∀ (max : Nat) (R : Out) (b : Nat),
    scanText U v w (State.init U) none [] text max = .ok R → text[R.next.toNat]? = some b → ControlByte b →
    ∀ (rest : List Nat) (max' : Nat), SameScan (scanText U v w R.st none [] rest max') (scanText U v w (State.init U) none [] rest max')

/-- It is refuted: `"a\n"` with one column.  The line is full, the scan stops behind `a`, and does not look at the line feed.  A mark behind the line feed is
told as one column wide, with the column of `a`; it is of none. -/
theorem C72_fails_full_line : ¬ C72_Afresh := by
  intro h
  have e : ∀ R, scanText toy .none 16 (State.init toy) none [] [0x61, 0x0A] 1 = .ok R → R.next = 1 ∧
      (∀ A, scanText toy .none 16 R.st none [] [0xCC, 0x81] 10 = .ok A → A.events = [.cluster [0xCC, 0x81] 1]) := by
    intro R hR
    injection hR with hR
    subst hR
    refine ⟨by decide +kernel, fun A hA => ?_⟩
    injection hA with hA
    subst hA
    decide +kernel
  obtain ⟨R, hR⟩ : ∃ R, scanText toy .none 16 (State.init toy) none [] [0x61, 0x0A] 1 = .ok R := ⟨_, rfl⟩
  obtain ⟨e1, e2⟩ := e R hR
  obtain ⟨A, B, hA, hB, -, -, -, -, hev⟩ := h toy .none 16 [0x61, 0x0A] (by decide) 1 R 0x0A hR (by rw [e1]; rfl) (.inl (by decide)) [0xCC, 0x81] 10
  rw [e2 A hA] at hev
  have hB' : B.events = [.cluster [0xCC, 0x81] 0] := by
    injection hB with hB
    subst hB
    decide +kernel
  rw [hB'] at hev
  exact absurd hev (by decide)

/-- The same happens without any limit, if the line feed is at the beginning of a chunk: `"a"`, then `"\n"`, then a mark. -/
theorem C72_fails_chunk : ∃ R1 R2 A B, scanText toy .none 16 (State.init toy) none [] [0x61] 80 = .ok R1 ∧
    scanText toy .none 16 R1.st none [] [0x0A, 0xCC, 0x81] 80 = .ok R2 ∧ R2.next = 0 ∧
    scanText toy .none 16 R2.st none [] [0xCC, 0x81] 80 = .ok A ∧ scanText toy .none 16 (State.init toy) none [] [0xCC, 0x81] 80 = .ok B ∧
    A.events = [.cluster [0xCC, 0x81] 1] ∧ B.events = [.cluster [0xCC, 0x81] 0] := by
  refine ⟨_, _, _, _, rfl, rfl, ?_, rfl, rfl, ?_, ?_⟩ <;> decide +kernel

/-- **C72 (part).** When a scan that does not begin inside a UTF-8 sequence stops at a control character with a column to spare, after it has consumed
something or at a C1 control character, then whatever comes behind is scanned as with a new state.  Any text, well formed or not, any state, any data.  What is
missing, and false, is the full line and a C0 control character at the beginning of the text. -/
theorem C72_afresh_partial (U : Table) (v : Variant) (w : Nat) (st : State) (hid : st.utf8.expectedLength = 0) (pre text : List Nat)
    (hb : ∀ b ∈ text, b < 256) (max : Nat) (R : Out) (b : Nat) (h : scanText U v w st none pre text max = .ok R) (hpos : 0 ≤ R.next)
    (hat : text[R.next.toNat]? = some b) (hc : ControlByte b) (hroom : R.count < max) (hsome : 0 < R.next ∨ 0x80 ≤ b) :
    ∀ (v' : Variant) (w' : Nat) (pre' rest : List Nat) (max' : Nat),
      SameScan (scanText U v' w' R.st none pre' rest max') (scanText U v' w' (State.init U) none [] rest max') := by
  intro v' w' pre' rest max'
  have hcl : Clean U R.st := by
    refine scanText_stopped U v w st hid pre text hb max R h b hpos hat ?_ hroom
    rcases hc with hc | hc
    · rcases hsome with h | h
      · exact .inl ⟨hc, h⟩
      · omega
    · exact .inr hc
  obtain ⟨B, u, e1, e2⟩ := scanText_clean U v' w' R.st hcl pre' rest max'
  exact ⟨_, B, e2, e1, rfl, rfl, rfl, rfl, rfl⟩

/-- **C72 (part).** A control character in the middle of a UTF-8 sequence also ends everything: the sequence is reported as invalid, in one column, and what
comes behind is scanned as with a new state. -/
theorem C72_cut (U : Table) (v : Variant) (w : Nat) (st : State) (hid : st.utf8.expectedLength ≠ 0) (pre text : List Nat) (hb : ∀ b ∈ text, b < 256) (b : Nat) (hc : b < 0x20)
    (max : Nat) : ∃ R, scanText U v w st none pre (b :: text) max = .ok R ∧ R.count = 1 ∧ R.next = 0 ∧ R.fin = 0 ∧ R.events = [.invalid] ∧
      ∀ (v' : Variant) (w' : Nat) (pre' rest : List Nat) (max' : Nat),
        SameScan (scanText U v' w' R.st none pre' rest max') (scanText U v' w' (State.init U) none [] rest max') := by
  have hstep : scanNonAscii U st (b :: text) max =
      { st := { g := GState.default U }, count := 1, resultEnd := 0, events := [.invalid] } := by
    have hs : step U (b :: text) max b { st := st, resultEnd := resultStart st } = .stop (atControl U (b :: text) { st := st, resultEnd := resultStart st }) := by
      unfold step
      rw [if_neg (Nat.not_lt_zero _), if_pos (by unfold isControl; rw [decide_eq_true hc]; rfl)]
    unfold scanNonAscii
    have hl : loop U (b :: text) max (b :: text) { st := st, resultEnd := resultStart st } = atControl U (b :: text) { st := st, resultEnd := resultStart st } := by
      rw [loop, hs]
    simp only
    rw [hl]
    unfold atControl
    simp only [if_pos hid]
    rfl
  have hcx : isComplex b = false := by
    cases h : isComplex b with
    | false => rfl
    | true => have := (isComplex_iff b (by omega)).1 h; omega
  have hmain : ∀ R : Out, mainLoop U v w max ((b :: text).length : Nat) ((b :: text).length + 1) (isComplex b) (b :: text) 0 R = R := by
    intro R
    rw [hcx]
    unfold mainLoop
    split
    · simp only [Bool.false_eq_true, if_false]
      have h0 : scanAscii v w (b :: text) (max - R.count) = 0 := by
        by_contra hn
        obtain ⟨n, hn'⟩ := Nat.exists_eq_succ_of_ne_zero hn
        have hb' : ∀ x ∈ b :: text, x < 256 := by
          intro x hx
          rcases List.mem_cons.1 hx with rfl | hx
          · omega
          · exact hb x hx
        have := (C11_longest_prefix v w (b :: text) hb' (max - R.count)).printable b (by rw [hn']; simp)
        have := this.1
        omega
      rw [if_pos h0]
    · rfl
  refine ⟨{ count := 1, start := resultStart st, fin := 0, st := { g := GState.default U }, next := 0, events := [.invalid] }, ?_, rfl, rfl, rfl, rfl, ?_⟩
  · unfold scanText
    rw [if_pos hid, hstep]
    exact congrArg Mem.ok (hmain _)
  · intro v' w' pre' rest max'
    obtain ⟨B, u, e1, e2⟩ := scanText_clean U v' w' { g := GState.default U } ⟨rfl, rfl, rfl, rfl, rfl⟩ pre' rest max'
    exact ⟨_, B, e2, e1, rfl, rfl, rfl, rfl, rfl⟩

/-- The hypotheses of `C72_afresh_partial` are met by `"aé\n"`, by malformed bytes in front of a line feed, and by a C1 control character behind text. -/
example : (∃ R, scanText toy .none 16 (State.init toy) none [] [0x61, 0xC3, 0xA9, 0x0A, 0x62] 80 = .ok R ∧ R.next = 3 ∧ R.count < 80) ∧
    (∃ R, scanText toy .none 16 (State.init toy) none [] [0x61, 0xFF, 0xC3, 0x0A] 80 = .ok R ∧ R.next = 3 ∧ R.count < 80) ∧
    (∃ R, scanText toy .none 16 (State.init toy) none [] [0x61, 0xC3, 0xA9, 0x85] 80 = .ok R ∧ R.next = 3 ∧ R.count < 80) := by
  refine ⟨⟨_, rfl, ?_, ?_⟩, ⟨_, rfl, ?_, ?_⟩, ⟨_, rfl, ?_, ?_⟩⟩ <;> decide +kernel

/-- The hypothesis of `C72_cut`: a state in the middle of `é`, reached by scanning its first byte. -/
example : ∃ R, scanText toy .none 16 (State.init toy) none [] [0x61, 0xC3] 80 = .ok R ∧ R.st.utf8.expectedLength ≠ 0 := by
  refine ⟨_, rfl, ?_⟩
  decide +kernel

end Verif.Props.Scan
