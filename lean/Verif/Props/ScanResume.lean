import Verif.Lemmas.ScanResume
import Verif.Props.Scan
/-!
# Property C13 for calls that resume a sequence within one buffer
-/

namespace Verif.Props.Scan
open Verif.Scan Verif.Ucd Verif.Utf8 Verif.Grapheme Verif.Width Verif.Toy

/-- The states a scanner can be in when the text lies in one buffer and every call continues at `state.next`:
`InBuffer U v w st done` says that the bytes in front of the next call's text are `done`.  The calls may have any lengths,
limits and CPU variants. -/
inductive InBuffer (U : Table) : State → List Nat → Prop
  | fresh (before : List Nat) : (∀ b ∈ before, b < 256) → InBuffer U (State.init U) before
  | call {st pre v w next text max R} : InBuffer U st pre → next.getD 0 = 0 → (∀ b ∈ text, b < 256) →
      scanText U v w st next pre text max = .ok R →
      InBuffer U R.st ((pre ++ text).take (pre.length + R.next).toNat)

theorem InBuffer.inv {U : Table} {st : State} {pre : List Nat} (h : InBuffer U st pre) :
    (∀ b ∈ pre, b < 256) ∧ (st.utf8.expectedLength ≠ 0 → LastHigh st.utf8.currentLength pre) := by
  induction h with
  | fresh before hb => exact ⟨hb, fun h => absurd rfl h⟩
  | @call st pre v w next text max R _ hn hb hR ih =>
    refine ⟨fun b hm => ?_, fun hp => ?_⟩
    · rcases List.mem_append.1 (List.mem_of_mem_take hm) with h | h
      · exact ih.1 b h
      · exact hb b h
    · have h1 := scanText_pend U v w st next pre text hb ih.1 ih.2 max R hR hp
      have hlen : R.next = text.length := by
        by_cases hs : st.utf8.expectedLength = 0
        · obtain ⟨R', g1, g2⟩ := scanText_idle_post U v w st next hs hn pre text hb max
          rw [hR] at g1
          cases g1
          have := g2.hnext
          by_contra hne
          exact hp (g2.hidle (by omega))
        · have hl := ih.2 hs
          obtain ⟨R', g1, g2, g3, g4, g5, g6⟩ := scanText_ptr U v w st next hs pre text hb ih.1 hl.pos hl.le hl.high max
          rw [hR] at g1
          cases g1
          by_contra hne
          exact hp (g6 (by omega))
      rw [hlen, show ((pre.length : Int) + text.length).toNat = (pre ++ text).length by rw [List.length_append]; omega, List.take_length]
      exact h1

/-- **C13 (partial), resumed calls.**  As long as the text stays in one buffer, every call, also one that resumes a sequence
cut by the end of the text of an earlier call, reads only bytes of the buffer, and
`result.start <= result.end <= state.next <= text end` with `result.start` in the buffer.  For every history of calls. -/
theorem C13_one_buffer_partial {U : Table} {st : State} {pre : List Nat} (h : InBuffer U st pre) (v : Variant) (w : Nat)
    (next : Option Int) (hnext : next.getD 0 = 0) (text : List Nat) (hb : ∀ b ∈ text, b < 256) (max : Nat) :
    ∃ R, scanText U v w st next pre text max = .ok R ∧ -(pre.length : Int) ≤ R.start ∧ R.start ≤ 0 ∧
      R.start ≤ R.fin ∧ R.fin ≤ R.next ∧ R.next ≤ text.length ∧
      (R.next < text.length → R.st.utf8.expectedLength = 0) := by
  obtain ⟨hpre, hpend⟩ := h.inv
  by_cases hs : st.utf8.expectedLength = 0
  · obtain ⟨R, h1, h2⟩ := scanText_idle_post U v w st next hs hnext pre text hb max
    have h3 := h2.hstart
    have h4 := h2.hfin
    exact ⟨R, h1, by omega, by omega, by omega, h2.hend, h2.hnext, h2.hidle⟩
  · have hl := hpend hs
    obtain ⟨R, g1, g2, g3, g4, g5, g6⟩ := scanText_ptr U v w st next hs pre text hb hpre hl.pos hl.le hl.high max
    have := hl.le
    exact ⟨R, g1, by omega, by omega, g3, g4, g5, g6⟩

/-- A history with a sequence cut twice: `⌚` in three calls of one byte each, where the first two leave it pending. -/
example : ∃ R1 R2 R3, scanText toy .none 16 (State.init toy) none [] [0xE2] 80 = .ok R1 ∧
    scanText toy .none 16 R1.st (some 0) [0xE2] [0x8C] 80 = .ok R2 ∧
    scanText toy .none 16 R2.st (some 0) [0xE2, 0x8C] [0x9A] 80 = .ok R3 ∧
    R1.st.utf8.expectedLength ≠ 0 ∧ R2.st.utf8.expectedLength ≠ 0 ∧ R2.start = -1 ∧ R3.start = -2 ∧ R3.fin = 1 ∧ R3.count = 2 :=
  ⟨_, _, _, rfl, rfl, rfl, by decide +kernel⟩

/-! ## C44 for resumed calls -/

theorem InBuffer.sinv {U : Table} (hw : ∀ c, (U c).charWidth ≤ 2) {st : State} {pre : List Nat} (h : InBuffer U st pre) : SInv st := by
  induction h with
  | fresh before hb => exact SInv.init U
  | @call st pre v w next text max R _ hn hb hR ih => exact scanText_sinv hw v w st next pre text max ih R hR

/-- **C44 (partial), resumed calls.**  For every history of calls on one buffer and every next call of it, also one that resumes a
sequence: if the limit is at least three columns and this call reports no invalid sequence, the receiver gets every byte from
the beginning of the text up to `state.next` exactly once and in order, and the limit is kept.  (The bytes of the resumed sequence that
lie in earlier texts have been handed out by the earlier calls.) -/
theorem C44_one_buffer_partial {U : Table} (hw : ∀ c, (U c).charWidth ≤ 2) {st : State} {pre : List Nat} (h : InBuffer U st pre)
    (v : Variant) (w : Nat) (next : Option Int) (hnext : next.getD 0 = 0) (text : List Nat) (hb : ∀ b ∈ text, b < 256) (max : Nat)
    (h3 : 3 ≤ max) :
    ∃ R, scanText U v w st next pre text max = .ok R ∧
      (.invalid ∉ R.events → slices R.events = text.take R.next.toNat ∧ R.count ≤ max) := by
  obtain ⟨R, hR, -⟩ := C13_one_buffer_partial h v w next hnext text hb max
  refine ⟨R, hR, fun hno => ?_⟩
  by_cases hp : st.utf8.expectedLength = 0
  · obtain ⟨R', g1, g2⟩ := scanText_idle_post U v w st next hp hnext pre text hb max
    rw [hR] at g1
    cases g1
    exact ⟨g2.hslices, g2.hvalid hno⟩
  · exact scanText_resumed_slices hw v w st next hp (h.sinv hw) pre text hb max h3 R hR hno

/-- Non-trivial case: `a⌚é` and a stop, cut inside both characters. -/
example : ∃ R1 R2 R3, scanText toy .none 16 (State.init toy) none [] [0x61, 0xE2] 80 = .ok R1 ∧
    scanText toy .none 16 R1.st (some 0) [0x61, 0xE2] [0x8C, 0x9A, 0xC3] 80 = .ok R2 ∧
    scanText toy .none 16 R2.st (some 0) [0x61, 0xE2, 0x8C, 0x9A, 0xC3] [0xA9, 0x0A] 80 = .ok R3 ∧
    R2.st.utf8.expectedLength ≠ 0 ∧ R2.events = [.cluster [0x8C, 0x9A, 0xC3] 2] ∧ R3.events = [.cluster [0xA9] 1] ∧ R3.next = 1 :=
  ⟨_, _, _, rfl, rfl, rfl, by decide +kernel⟩

/-- The same claim without the lower bound on the limit. -/
def C44_OneBuffer : Prop :=
  ∀ (U : Table) (_ : ∀ c, (U c).charWidth ≤ 2) (st : State) (pre : List Nat) (_ : InBuffer U st pre) (v : Variant) (w : Nat)
    (text : List Nat) (_ : ∀ b ∈ text, b < 256) (max : Nat) (R : Out),
    scanText U v w st none pre text max = .ok R → .invalid ∉ R.events → slices R.events = text.take R.next.toNat

/-- It is false for a limit of one column: after `a` and a zero width joiner, a wide Hangul letter whose bytes are cut by the end of
the text does not fit, the scanner rewinds into the earlier text, forgets that it has already seen the letter, joins the letter with
itself, and hands it out whole, as one more part of the previous cluster and without counting a column. -/
theorem C44_fails_small_limit : ¬ C44_OneBuffer := by
  intro h
  have h1 : InBuffer toy _ ([0x61, 0xE2, 0x80, 0x8D, 0xE1].take (((0 : Nat) : Int) + 5).toNat) :=
    .call (v := .none) (w := 16) (next := none) (text := [0x61, 0xE2, 0x80, 0x8D, 0xE1]) (max := 80) (.fresh [] (by decide)) rfl (by decide) rfl
  have := h toy toy_width_ok.le_two _ _ h1 .none 16 [0x84, 0x80] (by decide) 1 _ rfl
  revert this
  decide +kernel

end Verif.Props.Scan
