import Verif.Lemmas.ScanFit
import Verif.Spec.Toy
import Mathlib.Tactic.Common
/-!
# Properties C12, C13, C44: column limit, pointers, and what the receiver sees
-/

namespace Verif.Props.Scan
open Verif.Scan Verif.Ucd Verif.Utf8 Verif.Grapheme Verif.Width Verif.Toy

/-! ## C12 column limit -/

/-- The property as a user expects it: the number of columns reported never exceeds the limit. -/
def C12_Limit : Prop :=
  ∀ (U : Table) (v : Variant) (w : Nat) (st : State) (next : Option Int) (pre text : List Nat) (max : Nat) (R : Out),
    (∀ b ∈ text, b < 256) → (∀ b ∈ pre, b < 256) → scanText U v w st next pre text max = .ok R → R.count ≤ max

/-- The code violates it: two stray bytes and a limit of one column. -/
theorem C12_fails : ¬ C12_Limit := by
  intro h
  have := h toy .none 16 (State.init toy) none [] [0xFF, 0xFF] 1 _ (by decide) (by decide) rfl
  revert this
  decide +kernel

/-- **C12 (partial).**  From any state and for any bytes, the limit is exceeded by at most one column, and only
if the receiver has been told about an invalid sequence. -/
theorem C12_limit_partial (U : Table) (v : Variant) (w : Nat) (st : State) (next : Option Int) (pre text : List Nat)
    (hb : ∀ b ∈ text, b < 256) (hp : ∀ b ∈ pre, b < 256) (max : Nat) (R : Out)
    (h : scanText U v w st next pre text max = .ok R) :
    R.count ≤ max + 1 ∧ (.invalid ∉ R.events → R.count ≤ max) := by
  have hs := scanNonAscii_post U st text max
  unfold scanText at h
  simp only at h
  split at h
  · split at h
    · split at h
      · cases h; exact ⟨hs.hmax, hs.hvalid⟩
      · rename_i heq
        cases h
        exact mainLoop_count U v w max _ _ _ _ (fun b hm => hb b (List.mem_of_mem_drop (heq ▸ hm))) _ _ hs.hmax hs.hvalid
    · split at h
      · split at h
        · cases h; exact ⟨hs.hmax, hs.hvalid⟩
        · rename_i heq
          cases h
          refine mainLoop_count U v w max _ _ _ _ (fun b hm => ?_) _ _ hs.hmax hs.hvalid
          rw [← heq, List.mem_append] at hm
          rcases hm with hm | hm
          · exact hp b (List.mem_of_mem_drop hm)
          · exact hb b hm
      · cases h
  · split at h
    · cases h; exact ⟨Nat.zero_le _, fun _ => Nat.zero_le _⟩
    · cases h
      exact mainLoop_count U v w max _ _ _ _ hb _ _ (Nat.zero_le _) (fun _ => Nat.zero_le _)

/-! ## C13 pointers -/

/-- The property as a user expects it: `text.data() <= result.start <= result.end <= state.next <= text end`,
for every state a previous call left behind. -/
def C13_Pointers : Prop :=
  ∀ (U : Table) (v : Variant) (w : Nat) (pre text : List Nat) (max max' : Nat) (R : Out),
    (∀ b ∈ text, b < 256) → (∀ b ∈ pre, b < 256) →
    scanText U v w (State.init U) none [] pre max = .ok R →
    ∃ R', scanText U v w R.st none [] text max' = .ok R' ∧
      0 ≤ R'.start ∧ R'.start ≤ R'.fin ∧ R'.fin ≤ R'.next ∧ R'.next ≤ text.length

/-- The code violates it: resuming a sequence cut after its first byte with an empty chunk (or with one that
does not complete it) reads the byte in front of the new chunk. -/
theorem C13_fails_oob : ¬ C13_Pointers := by
  intro h
  obtain ⟨R', h1, _⟩ := h toy .none 16 [0xE2] [] 10 10 _ (by decide) (by decide) rfl
  have h2 : (Mem.oob : Mem Out) = .ok R' := by rw [← h1]; rfl
  cases h2

/-- **C13 (partial).**  For every byte string, column limit and every state in which no sequence is pending, the
call returns without reading outside the text, and
`text.data() = result.start <= result.end <= state.next <= text end`.  If `state.next` stops short of the end,
no sequence is pending, so the next call again starts between two codepoints. -/
theorem C13_pointers_partial (U : Table) (v : Variant) (w : Nat) (st : State) (next : Option Int)
    (hidle : st.utf8.expectedLength = 0) (hnext : next.getD 0 = 0) (text : List Nat) (hb : ∀ b ∈ text, b < 256)
    (max : Nat) : ∃ R, scanText U v w st next [] text max = .ok R ∧
      R.start = 0 ∧ 0 ≤ R.fin ∧ R.fin ≤ R.next ∧ R.next ≤ text.length ∧
      (R.next < text.length → R.st.utf8.expectedLength = 0) := by
  obtain ⟨R, h1, h2⟩ := scanText_idle_post U v w st next hidle hnext [] text hb max
  exact ⟨R, h1, h2.hstart, h2.hfin, h2.hend, h2.hnext, h2.hidle⟩

/-- **C13.**  Why a call (with no pending sequence) stops.  `state.next` is the end of the text, or

* the column limit is used up, or
* the byte at `state.next` is a C0 control or lies in the C1 range 0x80..0x9F, or
* the text at `state.next` starts with codepoints `cps` of a cluster that needs more columns than are left, or
* the codepoint at `state.next` continues a cluster opened before: by an earlier call (`state.next` is still the
  start of the text), or by the printable ASCII character right in front of `state.next`; the scanner never
  takes a cluster back that it has already handed out, nor a part of one that does not fit. -/
theorem C13_stop_reason (U : Table) (v : Variant) (w : Nat) (st : State) (next : Option Int)
    (hidle : st.utf8.expectedLength = 0) (hnext : next.getD 0 = 0) (pre text : List Nat) (hb : ∀ b ∈ text, b < 256)
    (max : Nat) (R : Out) (h : scanText U v w st next pre text max = .ok R) :
    R.next = text.length ∨
    max ≤ R.count ∨
    (∃ b, text[R.next.toNat]? = some b ∧ (b < 0x20 ∨ 0x80 ≤ b ∧ b ≤ 0x9F)) ∨
    (∃ bs cps, bs <+: text.drop R.next.toNat ∧ Decodes bs cps ∧ cps ≠ [] ∧ R.count + accWidth U cps > max) ∨
    (R.next = 0 ∧ st.hint ≠ 0 ∧ ∃ bs c, bs <+: text ∧ Single bs c ∧ (processBreakable U c st.g).2 = false) ∨
    (∃ a bs c, 0 < R.next ∧ text[R.next.toNat - 1]? = some a ∧ Printable a ∧ bs <+: text.drop R.next.toNat ∧
      Single bs c ∧ (processBreakable U c (processInit U a)).2 = false) := by
  obtain ⟨R', g1, g2⟩ := scanText_idle_post U v w st next hidle hnext pre text hb max
  rw [h] at g1
  cases g1
  have hpos := g2.hfin
  have hpos' := g2.hend
  rcases scanText_stop U v w st next hidle hnext pre text hb max R h with h1 | ⟨h1 | ⟨b, h1, h2⟩ | h1 | ⟨h1, h2⟩ | ⟨a, st', h1, h2, h3, h4⟩⟩
  · exact .inl h1
  · exact .inr (.inl h1)
  · refine .inr (.inr (.inl ⟨b, h1, ?_⟩))
    rcases h2 with h2 | h2
    · left; simpa [isControl] using h2
    · right; simpa [isC1] using h2
  · exact .inr (.inr (.inr (.inl h1)))
  · refine .inr (.inr (.inr (.inr (.inl ?_))))
    obtain ⟨bs, c, h3, h4, h5⟩ := h2
    unfold isBreakable at h5
    split at h5
    · cases h5
    · rename_i hh
      exact ⟨by omega, hh, bs, c, h3, h4, h5⟩
  · refine .inr (.inr (.inr (.inr (.inr ?_))))
    obtain ⟨bs, c, h5, h6, h7⟩ := h4
    unfold isBreakable at h7
    split at h7
    · cases h7
    · exact ⟨a, bs, c, by omega, h2, h3, h5, h6, h7⟩

/-- The reasons occur: a line feed; an emoji (two columns) with one column left; `a` followed by a spacing mark
with no column left for it. -/
example :
    (∃ R, scanText toy .none 16 (State.init toy) none [] [0x61, 0xC3, 0xA9, 0x0A] 80 = .ok R ∧ R.next = 3) ∧
    (∃ R, scanText toy .none 16 (State.init toy) none [] [0x61, 0xF0, 0x9F, 0x98, 0x80] 2 = .ok R ∧ R.next = 1 ∧ R.count = 1) ∧
    (∃ R, scanText toy .none 16 (State.init toy) none [] [0xC3, 0xA9, 0x61, 0xE0, 0xA4, 0x83] 2 = .ok R ∧ R.next = 3 ∧ R.count = 2) :=
  ⟨⟨_, rfl, by decide +kernel⟩, ⟨_, rfl, by decide +kernel⟩, ⟨_, rfl, by decide +kernel⟩⟩

/-! ## C44 the receiver sees every byte once -/

/-- The property as a user expects it, for resumed calls too: the slices handed to the receiver, concatenated,
are the bytes up to `state.next`. -/
def C44_Receiver : Prop :=
  ∀ (U : Table) (v : Variant) (w : Nat) (pre text : List Nat) (max max' : Nat) (R R' : Out),
    (∀ b ∈ text, b < 256) → (∀ b ∈ pre, b < 256) →
    scanText U v w (State.init U) none [] pre max = .ok R → 
    scanText U v w R.st none pre text max' = .ok R' → slices R'.events = text.take R'.next.toNat

/-- The code violates it when a sequence is resumed and an invalid byte precedes a cluster that does not fit:
the invalid byte is scanned, counted and reported twice. -/
theorem C44_fails_resumed : ¬ C44_Receiver := by
  intro h
  have := h toy .none 16 [0xC3] [0xA9, 0xFF, 0xF0, 0x9F, 0x98, 0x80] 10 3 _ _ (by decide) (by decide) rfl rfl
  revert this
  decide +kernel

/-- **C44 (partial).**  For every byte string, well formed or not, every limit and every state in which no
sequence is pending: the receiver gets every byte up to `state.next` exactly once and in order. -/
theorem C44_receiver_partial (U : Table) (v : Variant) (w : Nat) (st : State) (next : Option Int)
    (hidle : st.utf8.expectedLength = 0) (hnext : next.getD 0 = 0) (pre text : List Nat) (hb : ∀ b ∈ text, b < 256)
    (max : Nat) (R : Out) (h : scanText U v w st next pre text max = .ok R) :
    slices R.events = text.take R.next.toNat := by
  obtain ⟨R', h1, h2⟩ := scanText_idle_post U v w st next hidle hnext pre text hb max
  rw [h] at h1
  cases h1
  exact h2.hslices

/-- A non-trivial case of the hypotheses: `"aé"`, a stray byte, an emoji, a line feed. -/
example : ∃ R, scanText toy .none 16 (State.init toy) none [] [0x61, 0xC3, 0xA9, 0xFF, 0xF0, 0x9F, 0x98, 0x80, 0x0A] 80 = .ok R
    ∧ R.count = 5 ∧ R.next = 8 ∧ R.fin = 8
    ∧ R.events = [.ascii [0x61], .cluster [0xC3, 0xA9] 1, .invalid, .cluster [0xFF] 0, .cluster [0xF0, 0x9F, 0x98, 0x80] 2] :=
  ⟨_, rfl, by decide +kernel⟩

end Verif.Props.Scan
