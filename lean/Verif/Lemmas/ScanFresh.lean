import Verif.Lemmas.Scan
import Verif.Props.ScanAscii
import Mathlib.Tactic.Common
/-!
# What the scanner keeps when it has stopped in front of a control character
-/

namespace Verif.Scan.Fresh
open Verif.Ucd Verif.Utf8 Verif.Grapheme Verif.Width Verif.Scan

/-! ## What an idle decoder remembers is without effect -/

/-- Two decoders that cannot be told apart. -/
def Like (u u' : DecState) : Prop := u = u' ∨ u.expectedLength = 0 ∧ u'.expectedLength = 0

theorem Like.len {u u' : DecState} (h : Like u u') : u.expectedLength = u'.expectedLength := by
  rcases h with rfl | ⟨h, h'⟩
  · rfl
  · rw [h, h']

theorem startByte_like (u u' : DecState) (h : u.expectedLength = 0) (h' : u'.expectedLength = 0) (b : Nat) :
    (startByte u b).2 = (startByte u' b).2 ∧ Like (startByte u b).1 (startByte u' b).1 := by
  unfold startByte
  split
  · exact ⟨rfl, .inr ⟨h, h'⟩⟩
  split
  · exact ⟨rfl, .inl rfl⟩
  split
  · exact ⟨rfl, .inl rfl⟩
  split
  · exact ⟨rfl, .inl rfl⟩
  · exact ⟨rfl, .inr ⟨rfl, rfl⟩⟩

theorem Like.fromUtf8 {u u' : DecState} (h : Like u u') (b : Nat) :
    (fromUtf8 u b).2 = (fromUtf8 u' b).2 ∧ Like (fromUtf8 u b).1 (fromUtf8 u' b).1 := by
  rcases h with rfl | ⟨h, h'⟩
  · exact ⟨rfl, .inl rfl⟩
  · unfold Utf8.fromUtf8
    rw [if_pos h, if_pos h']
    exact startByte_like u u' h h' b

/-- The same with another decoder. -/
def _root_.Verif.Scan.Loop.withU (L : Loop) (u : DecState) : Loop := { L with st := { L.st with utf8 := u } }

/-- The same flow with another decoder, which cannot be told apart. -/
def FlowLike : Flow → Flow → Prop
  | .go M, F => ∃ u, Like M.st.utf8 u ∧ F = .go (M.withU u)
  | .stop M, F => ∃ u, Like M.st.utf8 u ∧ F = .stop (M.withU u)

theorem onSuccess_like (U : Table) (text : List Nat) (max cp : Nat) (L : Loop) (u : DecState) (h : Like L.st.utf8 u) :
    FlowLike (onSuccess U text max cp L) (onSuccess U text max cp (L.withU u)) := by
  have hb : isBreakable U (L.withU u).st cp = isBreakable U L.st cp := rfl
  unfold onSuccess
  rw [hb]
  unfold Loop.withU
  simp only
  by_cases hv : (isBreakable U L.st cp).2 = true
  · rw [if_pos hv, if_pos hv]
    unfold openCluster
    simp only
    split
    · exact ⟨u, h, rfl⟩
    · exact ⟨u, h, rfl⟩
  · rw [if_neg hv, if_neg hv]
    unfold joinCluster
    simp only
    by_cases h1 : (push U L.st.acc cp).width ≥ L.st.reported
    · rw [if_pos h1, if_pos h1]
      split
      · exact ⟨u, h, rfl⟩
      · exact ⟨u, h, rfl⟩
    · rw [if_neg h1, if_neg h1]
      exact ⟨u, h, rfl⟩

theorem step_like (U : Table) (text : List Nat) (max b : Nat) (L : Loop) (u : DecState) (h : Like L.st.utf8 u) :
    FlowLike (step U text max b L) (step U text max b (L.withU u)) := by
  unfold step
  have hl : (L.withU u).st.utf8.expectedLength = L.st.utf8.expectedLength := h.len.symm
  rw [hl]
  split
  · rename_i hc
    rw [if_pos (show (L.withU u).count > max from hc)]
    exact ⟨u, h, rfl⟩
  · rename_i hc
    rw [if_neg (show ¬ (L.withU u).count > max from hc)]
    split
    · unfold atControl
      simp only
      rw [hl]
      by_cases h0 : L.st.utf8.expectedLength ≠ 0
      · rw [if_pos h0, if_pos h0, if_pos h0]
        exact ⟨{}, .inl rfl, by rw [if_pos h0, if_pos h0, if_pos h0]; rfl⟩
      · rw [if_neg h0, if_neg h0, if_neg h0]
        exact ⟨u, h, by rw [if_neg h0, if_neg h0, if_neg h0]; rfl⟩
    · obtain ⟨h2, h1⟩ := h.fromUtf8 b
      have e : (L.withU u).st.utf8 = u := rfl
      rw [e]
      rcases hx : fromUtf8 L.st.utf8 b with ⟨u1, r⟩
      rcases hx' : fromUtf8 u b with ⟨u2, r'⟩
      rw [hx, hx'] at h1 h2
      simp only at h1 h2
      subst h2
      cases r with
      | incomplete => exact ⟨u2, h1, rfl⟩
      | success cp => exact onSuccess_like U text max cp (consume L u1) u2 h1
      | invalid =>
        exact ⟨{ u2 with expectedLength := 0 }, .inr ⟨rfl, rfl⟩, rfl⟩

theorem loop_like (U : Table) (text : List Nat) (max : Nat) (rest : List Nat) : ∀ (L : Loop) (u : DecState), Like L.st.utf8 u →
    ∃ u', Like (loop U text max rest L).st.utf8 u' ∧ loop U text max rest (L.withU u) = (loop U text max rest L).withU u' := by
  induction rest with
  | nil => exact fun L u h => ⟨u, h, rfl⟩
  | cons b rest ih =>
    intro L u h
    have hs := step_like U text max b L u h
    show ∃ u', Like (match step U text max b L with | .stop L' => L' | .go L' => loop U text max rest L').st.utf8 u' ∧
      (match step U text max b (L.withU u) with | .stop L' => L' | .go L' => loop U text max rest L') = _
    rw [loop]
    cases hx : step U text max b L with
    | stop M =>
      rw [hx] at hs
      obtain ⟨u', h1, h2⟩ := hs
      rw [h2]
      exact ⟨u', h1, rfl⟩
    | go M =>
      rw [hx] at hs
      obtain ⟨u', h1, h2⟩ := hs
      rw [h2]
      exact ih M u' h1

theorem resultStart_like (st : State) (u : DecState) (h : Like st.utf8 u) : resultStart { st with utf8 := u } = resultStart st := by
  unfold resultStart
  rcases h with rfl | ⟨h, h'⟩
  · rfl
  · rw [if_neg (by simpa using h'), if_neg (by simpa using h)]

theorem scanNonAscii_like (U : Table) (st : State) (text : List Nat) (max : Nat) (u : DecState) (h : Like st.utf8 u) :
    ∃ u', Like (scanNonAscii U st text max).st.utf8 u' ∧ scanNonAscii U { st with utf8 := u } text max = (scanNonAscii U st text max).withU u' := by
  unfold scanNonAscii
  rw [resultStart_like st u h]
  obtain ⟨u', h1, h2⟩ := loop_like U text max text { st := st, resultEnd := resultStart st } u h
  refine ⟨u', h1, ?_⟩
  show flush text (loop U text max text (Loop.withU { st := st, resultEnd := resultStart st } u)).input
    (loop U text max text (Loop.withU { st := st, resultEnd := resultStart st } u)) = _
  rw [h2]
  rfl

def _root_.Verif.Scan.Out.withU (R : Out) (u : DecState) : Out := { R with st := { R.st with utf8 := u } }

theorem mainLoop_like (U : Table) (v : Variant) (w max : Nat) (fin : Int) (fuel : Nat) : ∀ (complex : Bool) (text : List Nat) (base : Int) (R : Out)
    (u : DecState), Like R.st.utf8 u → ∃ u', Like (mainLoop U v w max fin fuel complex text base R).st.utf8 u' ∧
      mainLoop U v w max fin fuel complex text base (R.withU u) = (mainLoop U v w max fin fuel complex text base R).withU u' := by
  induction fuel with
  | zero => exact fun _ _ _ R u h => ⟨u, h, rfl⟩
  | succ fuel ih =>
    intro complex text base R u h
    unfold mainLoop
    by_cases hgo : R.count < max ∧ R.next ≠ fin
    · have hgo' : (R.withU u).count < max ∧ (R.withU u).next ≠ fin := hgo
      rw [if_pos hgo, if_pos hgo']
      cases complex with
      | true =>
        simp only [if_true]
        obtain ⟨u', h1, h2⟩ := scanNonAscii_like U R.st text (max - R.count) u h
        have e : scanNonAscii U (R.withU u).st text (max - (R.withU u).count) = (scanNonAscii U R.st text (max - R.count)).withU u' := h2
        have e3 : resultStart (R.withU u).st = resultStart R.st := resultStart_like R.st u h
        rw [e, e3]
        generalize scanNonAscii U R.st text (max - R.count) = S at h1
        have e4 : (S.withU u').resultEnd = S.resultEnd := rfl
        rw [e4]
        split
        · exact ⟨u', h1, rfl⟩
        · exact ih _ _ _ { R with count := R.count + S.count, fin := base + S.resultEnd, st := S.st, next := base + S.input, events := R.events ++ S.events } u' h1
      | false =>
        simp only [Bool.false_eq_true, if_false]
        have e : (R.withU u).count = R.count := rfl
        rw [e]
        split
        · exact ⟨u, h, rfl⟩
        · exact ih _ _ _ { R with count := R.count + scanAscii v w text (max - R.count), fin := R.fin + scanAscii v w text (max - R.count),
                                  st := seed U R.st (text.getD (scanAscii v w text (max - R.count) - 1) 0), next := R.next + scanAscii v w text (max - R.count),
                                  events := R.events ++ [.ascii (text.take (scanAscii v w text (max - R.count)))] } u h
    · have hgo' : ¬ ((R.withU u).count < max ∧ (R.withU u).next ≠ fin) := hgo
      rw [if_neg hgo, if_neg hgo']
      exact ⟨u, h, rfl⟩

/-! ## Stopping in front of a control character -/

/-- As in the beginning, but for what the decoder remembers. -/
structure Clean (U : Table) (st : State) : Prop where
  idle : st.utf8.expectedLength = 0
  hint : st.hint = 0
  g : st.g = GState.default U
  acc : st.acc = {}
  reported : st.reported = 0

theorem isComplex_high {b : Nat} (h : isComplex b = true) : 0x80 ≤ b := by
  unfold isComplex at h
  have h1 : b &&& 0x80 ≠ 0 := by simpa using h
  by_contra hn
  exact h1 (by
    have : b < 2 ^ 7 := by omega
    apply Nat.eq_of_testBit_eq
    intro i
    rw [Nat.testBit_and, Nat.zero_testBit]
    have h80 : (0x80 : Nat) = 2 ^ 7 := rfl
    rw [h80, Nat.testBit_two_pow]
    by_cases hi : 7 = i
    · subst hi
      rw [Nat.testBit_lt_two_pow this]; rfl
    · simp [hi])

/-- A byte that is not ASCII is at this place. -/
def HighAt (text : List Nat) (i : Nat) : Prop := ∃ b, text[i]? = some b ∧ 0x80 ≤ b

/-- A byte that is neither ASCII nor a C1 control character is at this place. -/
def LeadAt (text : List Nat) (i : Nat) : Prop := ∃ b, text[i]? = some b ∧ 0xA0 ≤ b

/-- Inside a pass. -/
structure InPass (text : List Nat) (L : Loop) : Prop where
  high : ∀ i, i < L.input → HighAt text i
  bytes : L.byteCount ≤ L.input
  start : L.clusterStart + L.byteCount ≤ L.input
  res : L.resultEnd + L.byteCount ≤ L.input
  pos : 0 ≤ L.resultEnd
  fresh : L.byteCount = 0 → L.st.utf8.expectedLength = 0
  cp : 0 < L.byteCount → LeadAt text (L.input - L.byteCount)
  cl : L.clusterStart < L.input → LeadAt text L.clusterStart

/-- The end of a pass. -/
structure PassEnd (U : Table) (text : List Nat) (max : Nat) (L : Loop) : Prop where
  why : L.input = text.length ∨ Clean U L.st ∨ max < L.count ∨ (LeadAt text L.input ∧ L.st.utf8.expectedLength = 0)
  pos : 0 ≤ L.resultEnd
  res : L.resultEnd = L.input ∨ HighAt text L.resultEnd.toNat
  le : L.input ≤ text.length

theorem HighAt.lt {text : List Nat} {i : Nat} (h : HighAt text i) : i < text.length := by
  obtain ⟨b, hb, -⟩ := h
  by_contra hn
  rw [List.getElem?_eq_none (by omega)] at hb
  cases hb

/-- What one byte does in a pass. -/
def PassStep (U : Table) (text : List Nat) (max n : Nat) : Flow → Prop
  | .stop M => PassEnd U text max M
  | .go M => InPass text M ∧ M.input = n

theorem InPass.resOk {text : List Nat} {L : Loop} (I : InPass text L) : L.resultEnd = L.input ∨ HighAt text L.resultEnd.toNat := by
  have h1 := I.res
  have h2 := I.pos
  by_cases h : L.resultEnd = L.input
  · exact .inl h
  · exact .inr (I.high _ (by omega))

theorem step_pass (U : Table) (text : List Nat) (max b : Nat) (L : Loop) (I : InPass text L) (hb : text[L.input]? = some b) :
    PassStep U text max (L.input + 1) (step U text max b L) := by
  have hres := I.resOk
  obtain ⟨i1, i2, i3, i4, i5, i6, i7, i8⟩ := I
  have hlt : L.input < text.length := by
    by_contra hn
    rw [List.getElem?_eq_none (by omega)] at hb
    cases hb
  unfold step
  by_cases hc : L.count > max
  · rw [if_pos hc]
    exact ⟨.inr (.inr (.inl hc)), i5, hres, by omega⟩
  rw [if_neg hc]
  by_cases hcx : (isControl b || !isComplex b || (L.st.utf8.expectedLength == 0 && isC1 b)) = true
  · rw [if_pos hcx]
    refine ⟨.inr (.inl ⟨?_, rfl, rfl, rfl, rfl⟩), ?_, .inl ?_, Nat.le_of_lt hlt⟩
    · show (if L.st.utf8.expectedLength ≠ 0 then ({} : DecState) else L.st.utf8).expectedLength = 0
      split
      · rfl
      · rename_i h; simpa using h
    · show (0 : Int) ≤ (L.input : Int); omega
    · rfl
  rw [if_neg hcx]
  have hhigh : 0x80 ≤ b := by
    refine isComplex_high ?_
    simp only [Bool.or_eq_true, not_or, Bool.not_eq_true, Bool.not_eq_false'] at hcx
    exact hcx.1.2
  have hi : ∀ i, i < L.input + 1 → HighAt text i := by
    intro i hi
    by_cases h : i = L.input
    · rw [h]; exact ⟨b, hb, hhigh⟩
    · exact i1 i (by omega)
  have hlead : L.byteCount = 0 → LeadAt text L.input := by
    intro h0
    refine ⟨b, hb, ?_⟩
    rw [i6 h0] at hcx
    by_contra hn
    apply hcx
    unfold isC1
    rw [decide_eq_true (by omega : 0x80 ≤ b), decide_eq_true (by omega : b ≤ 0x9F)]
    simp
  have hcp : LeadAt text (L.input + 1 - (L.byteCount + 1)) := by
    rw [Nat.add_sub_add_right]
    rcases Nat.eq_zero_or_pos L.byteCount with h0 | h0
    · rw [h0]; exact hlead h0
    · exact i7 h0
  have hcl : LeadAt text L.clusterStart := by
    by_cases h : L.clusterStart < L.input
    · exact i8 h
    · have e : L.clusterStart = L.input := by omega
      rw [e]; exact hlead (by omega)
  rcases hx : fromUtf8 L.st.utf8 b with ⟨u, r⟩
  cases r with
  | incomplete =>
    refine ⟨⟨hi, ?_, ?_, ?_, i5, fun h => absurd h (Nat.succ_ne_zero _), fun _ => hcp, fun _ => hcl⟩, rfl⟩
    · show L.byteCount + 1 ≤ L.input + 1; omega
    · show L.clusterStart + (L.byteCount + 1) ≤ L.input + 1; omega
    · show L.resultEnd + ((L.byteCount + 1 : Nat) : Int) ≤ ((L.input + 1 : Nat) : Int); omega
  | invalid =>
    refine ⟨⟨hi, Nat.zero_le _, ?_, ?_, i5, fun _ => rfl, fun h => absurd h (Nat.lt_irrefl _), fun _ => hcp⟩, rfl⟩
    · show L.input + 1 - (L.byteCount + 1) + 0 ≤ L.input + 1; omega
    · show L.resultEnd + ((0 : Nat) : Int) ≤ ((L.input + 1 : Nat) : Int); omega
  | success cp =>
    have hid : u.expectedLength = 0 := fromUtf8_success_idle _ _ _ _ hx
    show PassStep U text max (L.input + 1) (onSuccess U text max cp (consume L u))
    unfold onSuccess
    simp only
    split
    · unfold openCluster
      simp only
      split
      · refine ⟨.inr (.inr (.inr ⟨hcp, hid⟩)), i5, ?_, ?_⟩
        · show L.resultEnd = ((L.input + 1 - (L.byteCount + 1) : Nat) : Int) ∨ HighAt text L.resultEnd.toNat
          by_cases h : L.resultEnd = ((L.input + 1 - (L.byteCount + 1) : Nat) : Int)
          · exact .inl h
          · exact .inr (hi _ (by omega))
        · show L.input + 1 - (L.byteCount + 1) ≤ text.length; omega
      · refine ⟨⟨hi, Nat.zero_le _, ?_, ?_, ?_, fun _ => hid, fun h => absurd h (Nat.lt_irrefl _), fun _ => hcp⟩, rfl⟩
        · show L.input + 1 - (L.byteCount + 1) + 0 ≤ L.input + 1; omega
        · show ((L.input + 1 : Nat) : Int) + ((0 : Nat) : Int) ≤ ((L.input + 1 : Nat) : Int); omega
        · show (0 : Int) ≤ ((L.input + 1 : Nat) : Int); omega
    · unfold joinCluster
      simp only
      have hgo : ∀ (M : Loop), M.input = L.input + 1 → M.byteCount = 0 → M.clusterStart = L.clusterStart → M.resultEnd = ((L.input + 1 : Nat) : Int) →
          M.st.utf8 = u →
          PassStep U text max (L.input + 1) (.go M) := by
        intro M m1 m2 m3 m4 m5
        refine ⟨⟨by rw [m1]; exact hi, by omega, by omega, by omega, by omega, fun _ => by rw [m5]; exact hid, fun h => by omega, fun _ => by rw [m3]; exact hcl⟩, m1⟩
      split
      · split
        · refine ⟨.inr (.inr (.inr ⟨hcl, hid⟩)), ?_, .inl rfl, ?_⟩
          · show (0 : Int) ≤ (L.clusterStart : Int); omega
          · show L.clusterStart ≤ text.length; omega
        · exact hgo _ rfl rfl rfl rfl rfl
      · exact hgo _ rfl rfl rfl rfl rfl

theorem pass_end (U : Table) (text : List Nat) (max : Nat) (rest : List Nat) : ∀ (p : List Nat) (L : Loop), text = p ++ rest → L.input = p.length →
    InPass text L → PassEnd U text max (loop U text max rest L) := by
  induction rest with
  | nil =>
    intro p L ht hp I
    have e : L.input = text.length := by rw [hp, ht, List.append_nil]
    exact ⟨.inl e, I.pos, I.resOk, Nat.le_of_eq e⟩
  | cons b rest ih =>
    intro p L ht hp I
    have hs := step_pass U text max b L I (by rw [ht, hp]; simp)
    show PassEnd U text max (match step U text max b L with | .stop L' => L' | .go L' => loop U text max rest L')
    cases hx : step U text max b L with
    | stop M => rw [hx] at hs; exact hs
    | go M =>
      rw [hx] at hs
      exact ih (p ++ [b]) M (by rw [ht]; simp) (by rw [hs.2, hp]; simp) hs.1

theorem scanNonAscii_end (U : Table) (st : State) (text : List Nat) (max : Nat) (hid : st.utf8.expectedLength = 0) :
    PassEnd U text max (scanNonAscii U st text max) := by
  have hr : resultStart st = 0 := by unfold resultStart; rw [if_neg (by simpa using hid)]
  have := pass_end U text max text [] { st := st, resultEnd := resultStart st } rfl rfl
    ⟨fun i h => absurd h (Nat.not_lt_zero _), Nat.le_refl _, Nat.le_refl _, by rw [hr]; exact Int.le_refl _, by show 0 ≤ resultStart st; rw [hr]; exact Int.le_refl _, fun _ => hid, fun h => absurd h (Nat.lt_irrefl _), fun h => absurd h (Nat.lt_irrefl _)⟩
  exact ⟨this.why, this.pos, this.res, this.le⟩

/-- Nothing is remembered, unless there is no control character at the place reached, or the limit is reached, or nothing has been scanned. -/
def Stopped (U : Table) (all : List Nat) (max : Nat) (R : Out) : Prop :=
  ∀ b, 0 ≤ R.next → all[R.next.toNat]? = some b → (b < 0x20 ∧ 0 < R.next ∨ 0x80 ≤ b ∧ b ≤ 0x9F) → R.count < max → Clean U R.st

theorem scanAscii_nil (v : Variant) (w m : Nat) : scanAscii v w [] m = 0 := by
  unfold scanAscii
  cases v <;> rfl

theorem scanAscii_head {v : Variant} {w : Nat} {text : List Nat} (hb : ∀ b ∈ text, b < 256) {m : Nat} (h : scanAscii v w text m ≠ 0) :
    ¬ HighAt text 0 := by
  rintro ⟨b, h1, h2⟩
  cases text with
  | nil => cases h1
  | cons a t =>
    obtain rfl : a = b := by simpa using h1
    have hl := Props.Scan.C11_longest_prefix v w (a :: t) hb m
    obtain ⟨-, -, h3, -⟩ := hl
    obtain ⟨n, hn⟩ := Nat.exists_eq_succ_of_ne_zero h
    have := h3 a (by rw [hn]; simp)
    have := this.2
    omega

theorem mainLoop_stopped (U : Table) (v : Variant) (w max : Nat) (all : List Nat) (hall : ∀ b ∈ all, b < 256) (fuel : Nat) :
    ∀ (complex : Bool) (k : Nat) (R : Out), k ≤ all.length → all.length < fuel + k →
      (R.st.utf8.expectedLength = 0 ∨ ¬ (R.count < max ∧ R.next ≠ all.length)) →
      (complex = false → Stopped U all max R ∧ (R.next = k ∨ HighAt all k)) →
      Stopped U all max (mainLoop U v w max all.length fuel complex (all.drop k) k R) := by
  induction fuel with
  | zero => intro complex k R h1 h2; omega
  | succ fuel ih =>
    intro complex k R hk hfu hid hfalse
    have hdlen : (all.drop k).length = all.length - k := List.length_drop ..
    have hat : ∀ i, HighAt (all.drop k) i ↔ HighAt all (k + i) := by
      intro i
      unfold HighAt
      rw [List.getElem?_drop]
    have hat2 : ∀ i, LeadAt (all.drop k) i ↔ LeadAt all (k + i) := by
      intro i
      unfold LeadAt
      rw [List.getElem?_drop]
    unfold mainLoop
    by_cases hgo : R.count < max ∧ R.next ≠ all.length
    · rw [if_pos hgo]
      have hid' : R.st.utf8.expectedLength = 0 := by
        rcases hid with h | h
        · exact h
        · exact absurd hgo h
      cases complex with
      | true =>
        simp only [if_true]
        have p := scanNonAscii_end U R.st (all.drop k) (max - R.count) hid'
        have hr : resultStart R.st = 0 := by unfold resultStart; rw [if_neg (by simpa using hid')]
        rw [hr]
        generalize scanNonAscii U R.st (all.drop k) (max - R.count) = S at p
        obtain ⟨p1, p2, p3, p4⟩ := p
        have hst : Stopped U all max { R with count := R.count + S.count, fin := (k : Int) + S.resultEnd, st := S.st, next := (k : Int) + S.input, events := R.events ++ S.events } := by
          intro b _ h2 h3 h4
          have h2' : all[k + S.input]? = some b := by
            have : ((k : Int) + (S.input : Int)).toNat = k + S.input := by omega
            rw [← this]; exact h2
          have h4' : R.count + S.count < max := h4
          rcases p1 with h | h | h | ⟨h, -⟩
          · exfalso
            rw [List.getElem?_eq_none (by omega)] at h2'
            cases h2'
          · exact h
          · omega
          · exfalso
            obtain ⟨b', e1, e2⟩ := (hat2 _).1 h
            rw [h2'] at e1
            injection e1 with e1
            omega
        have hi2 : S.st.utf8.expectedLength = 0 ∨ ¬ (R.count + S.count < max ∧ (k : Int) + (S.input : Int) ≠ all.length) := by
          rcases p1 with h | h | h | ⟨-, h⟩
          · right; intro hh; exact hh.2 (by omega)
          · exact .inl h.idle
          · right; intro hh; omega
          · exact .inl h
        split
        · exact hst
        · rename_i hc
          have hle : k + (S.resultEnd - 0).toNat ≤ all.length := by
            rcases p3 with h | h
            · omega
            · have := h.lt; omega
          have e1 : (all.drop k).drop (S.resultEnd - 0).toNat = all.drop (k + (S.resultEnd - 0).toNat) := List.drop_drop ..
          have e2 : (k : Int) + ((S.resultEnd - 0).toNat : Int) = ((k + (S.resultEnd - 0).toNat : Nat) : Int) := by push_cast; rfl
          rw [e1, e2]
          refine ih false _ _ hle (by omega) hi2 (fun _ => ⟨hst, ?_⟩)
          rcases p3 with h | h
          · left
            show (k : Int) + (S.input : Int) = _
            omega
          · right
            have e3 : (S.resultEnd - 0).toNat = S.resultEnd.toNat := by omega
            rw [e3]
            exact (hat _).1 h
      | false =>
        simp only [Bool.false_eq_true, if_false]
        obtain ⟨hs, hn⟩ := hfalse rfl
        split
        · exact hs
        · rename_i hc
          have hne : all.drop k ≠ [] := by
            intro h
            rw [h] at hc
            exact hc (scanAscii_nil ..)
          have hpos := List.length_pos_iff.2 hne
          have hlow := scanAscii_head (fun b hb => hall b (List.mem_of_mem_drop hb)) hc
          have hL := Props.Scan.C11_longest_prefix v w (all.drop k) (fun b hb => hall b (List.mem_of_mem_drop hb)) (max - R.count)
          have hle := hL.le_size
          generalize scanAscii v w (all.drop k) (max - R.count) = n at *
          have e1 : (all.drop k).drop n = all.drop (k + n) := List.drop_drop ..
          have e2 : (k : Int) + (n : Int) = ((k + n : Nat) : Int) := by push_cast; rfl
          rw [e1, e2]
          exact ih true _ _ (by omega) (by omega) (.inl hid') (fun h => by cases h)
    · rw [if_neg hgo]
      intro b h1 h2 h3 h4
      exfalso
      by_cases hx : R.next = all.length
      · rw [hx] at h2
        rw [List.getElem?_eq_none (by omega)] at h2
        cases h2
      · exact hgo ⟨h4, hx⟩

theorem scanText_stopped (U : Table) (v : Variant) (w : Nat) (st : State) (hid : st.utf8.expectedLength = 0) (pre text : List Nat) (hb : ∀ b ∈ text, b < 256)
    (max : Nat) (R : Out) (h : scanText U v w st none pre text max = .ok R) : Stopped U text max R := by
  unfold scanText at h
  rw [if_neg (by simpa using hid)] at h
  cases text with
  | nil =>
    injection h with h
    subst h
    intro b _ h1
    cases h1
  | cons b bs =>
    injection h with h
    subst h
    exact mainLoop_stopped U v w max (b :: bs) hb _ (isComplex b) 0 _ (Nat.zero_le _) (by omega) (.inl hid)
      (fun hx => ⟨(fun b' _ h1 h2 => by
        obtain rfl : b = b' := by
          have : (b :: bs)[0]? = some b' := h1
          simpa using this
        rcases h2 with ⟨-, h2⟩ | ⟨h2, -⟩
        · exact absurd h2 (Int.lt_irrefl 0)
        · rw [(Props.Scan.isComplex_iff b (hb b (by simp))).2 h2] at hx
          cases hx), .inl rfl⟩)

/-- A scan that begins with nothing remembered is that of a new state. -/
theorem scanText_clean (U : Table) (v : Variant) (w : Nat) (st : State) (hc : Clean U st) (pre text : List Nat) (max : Nat) :
    ∃ R u, scanText U v w (State.init U) none [] text max = .ok R ∧ scanText U v w st none pre text max = .ok (R.withU u) := by
  obtain ⟨u, h, g, a, r⟩ := st
  obtain ⟨h1, h2, h3, h4, h5⟩ := hc
  simp only at h1 h2 h3 h4 h5
  subst h2 h3 h4 h5
  have i0 : ¬ (State.init U).utf8.expectedLength ≠ 0 := fun h => h rfl
  unfold scanText
  simp only
  rw [if_neg i0, if_neg (by simpa using h1)]
  cases text with
  | nil => exact ⟨_, u, rfl, rfl⟩
  | cons b bs =>
    obtain ⟨u', -, e⟩ := mainLoop_like U v w max (b :: bs).length ((b :: bs).length + 1) (isComplex b) (b :: bs) 0
      { count := 0, start := 0, fin := 0, st := State.init U, next := 0, events := [] } u (.inr ⟨rfl, h1⟩)
    exact ⟨_, u', rfl, congrArg Mem.ok e⟩

end Verif.Scan.Fresh
