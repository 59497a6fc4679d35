import Verif.Lemmas.Scan
/-!
# Why the scanner stops
-/

namespace Verif.Scan
open Verif.Ucd Verif.Utf8 Verif.Grapheme Verif.Width

/-- Feeding `bs` to an idle decoder reports nothing but the codepoint `c`, with the last byte. -/
def Single (bs : List Nat) (c : Nat) : Prop :=
  bs ≠ [] ∧ (feed {} bs).2 = List.replicate (bs.length - 1) .incomplete ++ [.success c]

/-- `bs` decodes to the codepoints `cs`. -/
inductive Decodes : List Nat → List Nat → Prop
  | nil : Decodes [] []
  | cons {bs c rest cs} : Single bs c → Decodes rest cs → Decodes (bs ++ rest) (c :: cs)

theorem Decodes.snoc {bs cs b c} (h : Decodes bs cs) (hs : Single b c) : Decodes (bs ++ b) (cs ++ [c]) := by
  induction h with
  | nil => simpa using Decodes.cons hs .nil
  | cons h1 _ ih => rw [List.append_assoc]; exact .cons h1 ih

/-- The next cluster at offset `n` does not fit into what is left of the line: the text at `n` starts with
codepoints `cps` that need more columns than remain. -/
def NoRoom (U : Table) (text : List Nat) (n count max : Nat) : Prop :=
  ∃ bs cps, bs <+: text.drop n ∧ Decodes bs cps ∧ cps ≠ [] ∧ count + accWidth U cps > max

/-- The codepoint at the start of `text` continues the cluster that is open in `st`. -/
def Continues (U : Table) (st : State) (text : List Nat) : Prop :=
  ∃ bs c, bs <+: text ∧ Single bs c ∧ (isBreakable U st c).2 = false

/-- Invariant: bytes of the codepoint being decoded, and codepoints of the open cluster. -/
structure FInv (U : Table) (st0 : State) (text : List Nat) (L : Loop) : Prop where
  hin : L.input ≤ text.length
  hcs : L.clusterStart + L.byteCount ≤ L.input
  hdec : ∃ s0 : DecState, s0.expectedLength = 0 ∧
    feed s0 ((text.drop (L.input - L.byteCount)).take L.byteCount) =
      (L.st.utf8, List.replicate L.byteCount .incomplete)
  hclus : L.st.hint = 0 ∨
    (L.clusterStart = 0 ∧ ((L.byteCount = L.input ∧ L.st.hint = st0.hint ∧ L.st.g = st0.g) ∨ Continues U st0 text)) ∨
    (∃ cps, cps ≠ [] ∧ Decodes ((text.drop L.clusterStart).take (L.input - L.byteCount - L.clusterStart)) cps ∧
      L.st.acc = cps.foldl (push U) {} ∧ L.st.reported = L.st.acc.width ∧ L.countedHere = L.st.reported ∧ L.countedHere ≤ L.count)

/-- Why `scan_for_text_nonascii` stopped. -/
def FStop (U : Table) (st0 : State) (text : List Nat) (max : Nat) (L : Loop) : Prop :=
  L.input = text.length ∨ max < L.count ∨
  (∃ b, text[L.input]? = some b ∧ (isControl b = true ∨ isComplex b = false ∨ isC1 b = true) ∧ L.resultEnd = L.input) ∨
  NoRoom U text L.input L.count max ∨ (L.input = 0 ∧ Continues U st0 text)

/-- For a byte that is not ASCII, an idle decoder answers independently of its remembered fields unless it
answers `invalid`. -/
theorem feed_idle (s0 : DecState) (h0 : s0.expectedLength = 0) (b : Nat) (bs : List Nat) (hc : isComplex b = true)
    (hr : (fromUtf8 s0 b).2 ≠ .invalid) : feed s0 (b :: bs) = feed {} (b :: bs) := by
  have : fromUtf8 s0 b = fromUtf8 {} b := by
    rw [fromUtf8_idle s0 b h0, fromUtf8_idle {} b rfl]
    rw [fromUtf8_idle s0 b h0] at hr
    unfold startByte at hr ⊢
    have hc' : ¬ ((b &&& 0x80) == 0) = true := by
      unfold isComplex at hc
      simpa using hc
    rw [if_neg hc'] at hr
    rw [if_neg hc', if_neg hc']
    split
    · rfl
    split
    · rfl
    split
    · rfl
    · rename_i h1 h2 h3
      rw [if_neg h1, if_neg h2, if_neg h3] at hr
      exact absurd rfl hr
  simp only [feed, this]

theorem feed_cons (s : DecState) (b : Nat) (bs : List Nat) :
    feed s (b :: bs) = ((feed (fromUtf8 s b).1 bs).1, (fromUtf8 s b).2 :: (feed (fromUtf8 s b).1 bs).2) := rfl

theorem feed_one (s : DecState) (b : Nat) : feed s [b] = ((fromUtf8 s b).1, [(fromUtf8 s b).2]) := rfl

theorem single_of_feed (s0 : DecState) (h0 : s0.expectedLength = 0) (bs : List Nat) (hne : bs ≠ []) (c : Nat)
    (hc : ∀ b, bs[0]? = some b → isComplex b = true)
    (h : (feed s0 bs).2 = List.replicate (bs.length - 1) .incomplete ++ [.success c]) : Single bs c := by
  refine ⟨hne, ?_⟩
  cases bs with
  | nil => exact absurd rfl hne
  | cons b bs =>
    rw [← feed_idle s0 h0 b bs (hc b rfl)]
    · exact h
    · rw [feed_cons] at h
      intro hi
      simp only at h
      rw [hi] at h
      cases bs with
      | nil => simp at h
      | cons b' bs => simp [List.replicate_succ] at h

theorem step_fit (U : Table) (st0 : State) (text : List Nat) (max : Nat) (b : Nat) (L : Loop)
    (h : FInv U st0 text L) (hcx : ∀ i, i < L.input → ∀ b, text[i]? = some b → isComplex b = true)
    (hb : text[L.input]? = some b) :
    (∀ L', step U text max b L = .go L' → FInv U st0 text L') ∧
    (∀ L', step U text max b L = .stop L' → FStop U st0 text max L') := by
  obtain ⟨hlt, hbe⟩ := List.getElem?_eq_some_iff.1 hb
  have hcs := h.hcs
  obtain ⟨s0, hs0, hdec⟩ := h.hdec
  unfold step
  by_cases hc : L.count > max
  · rw [if_pos hc]
    refine ⟨fun L' e => (by simp at e), fun L' e => ?_⟩
    simp only [Flow.stop.injEq] at e
    subst e
    exact .inr (.inl hc)
  rw [if_neg hc]
  split
  · rename_i hctl
    refine ⟨fun L' e => (by simp at e), fun L' e => ?_⟩
    simp only [Flow.stop.injEq] at e
    subst e
    right; right; left
    refine ⟨b, hb, ?_, rfl⟩
    simp only [Bool.or_eq_true, Bool.and_eq_true, Bool.not_eq_true', beq_iff_eq] at hctl
    rcases hctl with (h1 | h1) | h1
    · exact .inl h1
    · exact .inr (.inl h1)
    · exact .inr (.inr h1.2)
  rename_i hctl
  have hcb : isComplex b = true := by
    simp only [Bool.or_eq_true, Bool.not_eq_true', not_or] at hctl
    simpa using hctl.1.2
  -- the slice grows by one byte
  have hslice : (text.drop (L.input - L.byteCount)).take (L.byteCount + 1) =
      (text.drop (L.input - L.byteCount)).take L.byteCount ++ [b] := by
    rw [List.take_add_one, List.getElem?_drop, show L.input - L.byteCount + L.byteCount = L.input by omega, hb]
    rfl
  have hslen : ((text.drop (L.input - L.byteCount)).take L.byteCount).length = L.byteCount := by
    rw [List.length_take, List.length_drop]; omega
  have hfeed : ∀ u r, fromUtf8 L.st.utf8 b = (u, r) →
      feed s0 ((text.drop (L.input - L.byteCount)).take (L.byteCount + 1)) =
        (u, List.replicate L.byteCount .incomplete ++ [r]) := by
    intro u r hr
    rw [hslice, feed_append, hdec]
    simp only [feed_one, hr]
  cases hr : fromUtf8 L.st.utf8 b with
  | mk u r =>
    cases r with
    | incomplete =>
      simp only
      refine ⟨fun L' e => ?_, fun L' e => (by simp at e)⟩
      simp only [Flow.go.injEq] at e
      subst e
      refine ⟨?_, ?_, ⟨s0, hs0, ?_⟩, ?_⟩
      · show L.input + 1 ≤ _; omega
      · show L.clusterStart + (L.byteCount + 1) ≤ L.input + 1; omega
      · show feed s0 ((text.drop (L.input + 1 - (L.byteCount + 1))).take (L.byteCount + 1)) =
          (u, List.replicate (L.byteCount + 1) .incomplete)
        rw [show L.input + 1 - (L.byteCount + 1) = L.input - L.byteCount by omega, hfeed u _ hr,
          ← List.replicate_succ']
      · show L.st.hint = 0 ∨
          (L.clusterStart = 0 ∧ ((L.byteCount + 1 = L.input + 1 ∧ L.st.hint = st0.hint ∧ L.st.g = st0.g) ∨ Continues U st0 text)) ∨
          (∃ cps, cps ≠ [] ∧ Decodes ((text.drop L.clusterStart).take (L.input + 1 - (L.byteCount + 1) - L.clusterStart)) cps ∧
            L.st.acc = cps.foldl (push U) {} ∧ L.st.reported = L.st.acc.width ∧ L.countedHere = L.st.reported ∧ L.countedHere ≤ L.count)
        rw [show L.input + 1 - (L.byteCount + 1) = L.input - L.byteCount by omega]
        rcases h.hclus with h1 | ⟨h1, h2⟩ | h1
        · exact .inl h1
        · refine .inr (.inl ⟨h1, ?_⟩)
          rcases h2 with h2 | h2
          · exact .inl ⟨by rw [h2.1], h2.2⟩
          · exact .inr h2
        · exact .inr (.inr h1)
    | invalid =>
      simp only
      refine ⟨fun L' e => ?_, fun L' e => (by simp at e)⟩
      simp only [Flow.go.injEq] at e
      subst e
      refine ⟨?_, ?_, ⟨{ u with expectedLength := 0 }, rfl, rfl⟩, .inl rfl⟩
      · show L.input + 1 ≤ _; omega
      · show (L.input + 1 - (L.byteCount + 1)) + 0 ≤ L.input + 1; omega
    | success cp =>
      simp only
      have hidle := fromUtf8_success_idle _ _ _ _ hr
      -- the codepoint's bytes
      have hsg : Single ((text.drop (L.input - L.byteCount)).take (L.byteCount + 1)) cp := by
        refine single_of_feed s0 hs0 _ ?_ cp ?_ ?_
        · rw [hslice]; simp
        · intro x hx
          rw [List.getElem?_take, if_pos (by omega), List.getElem?_drop, Nat.add_zero] at hx
          by_cases hz : L.byteCount = 0
          · rw [hz, Nat.sub_zero, hb] at hx
            cases hx
            exact hcb
          · exact hcx _ (by omega) x hx
        · rw [hfeed u _ hr]
          have : ((text.drop (L.input - L.byteCount)).take (L.byteCount + 1)).length - 1 = L.byteCount := by
            rw [hslice, List.length_append, hslen]; rfl
          rw [this]
      unfold onSuccess
      simp only
      have hbrk : isBreakable U (consume L u).st cp = isBreakable U L.st cp := rfl
      rw [hbrk]
      have hinp : (consume L u).input - (consume L u).byteCount = L.input - L.byteCount := by
        show L.input + 1 - (L.byteCount + 1) = _; omega
      rw [hinp]
      split
      · unfold openCluster
        simp only
        split
        · rename_i hfit
          refine ⟨fun L' e => (by simp at e), fun L' e => ?_⟩
          simp only [Flow.stop.injEq] at e
          subst e
          right; right; right; left
          refine ⟨_, [cp], List.take_prefix (L.byteCount + 1) _, ?_, by simp, hfit⟩
          simpa using Decodes.cons hsg .nil
        · refine ⟨fun L' e => ?_, fun L' e => (by simp at e)⟩
          simp only [Flow.go.injEq] at e
          subst e
          refine ⟨?_, ?_, ⟨u, hidle, rfl⟩, .inr (.inr ⟨[cp], by simp, ?_, rfl, rfl, rfl, ?_⟩)⟩
          · show L.input + 1 ≤ _; omega
          · show L.input - L.byteCount + 0 ≤ L.input + 1; omega
          · show Decodes ((text.drop (L.input - L.byteCount)).take (L.input + 1 - 0 - (L.input - L.byteCount))) [cp]
            rw [show L.input + 1 - 0 - (L.input - L.byteCount) = L.byteCount + 1 by omega]
            simpa using Decodes.cons hsg .nil
          · show (push U {} cp).width ≤ L.count + (push U {} cp).width; omega
      · rename_i hnb
        have hnb' : (isBreakable U L.st cp).2 = false := by simpa using hnb
        have hh : L.st.hint ≠ 0 := by
          intro h0
          unfold isBreakable at hnb'
          rw [if_pos h0] at hnb'
          simp at hnb'
        have hcl := h.hclus
        -- the cluster either was opened before the call, or consists of `cps`
        have hcl' : (L.clusterStart = 0 ∧ Continues U st0 text) ∨
            (∃ cps, cps ≠ [] ∧ Decodes ((text.drop L.clusterStart).take (L.input - L.byteCount - L.clusterStart)) cps ∧
              L.st.acc = cps.foldl (push U) {} ∧ L.st.reported = L.st.acc.width ∧ L.countedHere = L.st.reported ∧ L.countedHere ≤ L.count) := by
          rcases hcl with h1 | ⟨h1, h2⟩ | h1
          · exact absurd h1 hh
          · left
            refine ⟨h1, ?_⟩
            rcases h2 with ⟨h2, h3, h4⟩ | h2
            · refine ⟨_, cp, ?_, hsg, ?_⟩
              · rw [h2, Nat.sub_self, List.drop_zero]; exact List.take_prefix _ _
              · unfold isBreakable at hnb' ⊢
                rw [if_neg hh] at hnb'
                rw [if_neg (h3 ▸ hh), ← h4]
                exact hnb'
            · exact h2
          · exact .inr h1
        have hdec' : ∀ cps, Decodes ((text.drop L.clusterStart).take (L.input - L.byteCount - L.clusterStart)) cps →
            Decodes ((text.drop L.clusterStart).take (L.input + 1 - L.clusterStart)) (cps ++ [cp]) := by
          intro cps hd
          have := hd.snoc hsg
          rw [show L.input + 1 - L.clusterStart = (L.input - L.byteCount - L.clusterStart) + (L.byteCount + 1) by omega,
            List.take_add, List.drop_drop, show L.clusterStart + (L.input - L.byteCount - L.clusterStart) = L.input - L.byteCount by omega]
          exact this
        unfold joinCluster
        simp only
        split
        · rename_i hge
          split
          · rename_i hfit
            have hfit' : (push U L.st.acc cp).width - L.st.reported ≠ 0 ∧
              L.count + ((push U L.st.acc cp).width - L.st.reported) > max := hfit
            refine ⟨fun L' e => (by simp at e), fun L' e => ?_⟩
            simp only [Flow.stop.injEq] at e
            subst e
            right; right; right
            rcases hcl' with ⟨h1, h2⟩ | ⟨cps, h1, h2, h3, h4, h5, h6⟩
            · right; exact ⟨h1, h2⟩
            · left
              refine ⟨_, cps ++ [cp], List.take_prefix (L.input + 1 - L.clusterStart) _, hdec' cps h2, by simp, ?_⟩
              show L.count - L.countedHere + accWidth U (cps ++ [cp]) > max
              unfold accWidth
              rw [List.foldl_append, ← h3]
              show L.count - L.countedHere + (push U L.st.acc cp).width > max
              omega
          · refine ⟨fun L' e => ?_, fun L' e => (by simp at e)⟩
            simp only [Flow.go.injEq] at e
            subst e
            have hge' : (push U L.st.acc cp).width ≥ L.st.reported := hge
            refine ⟨?_, ?_, ⟨u, hidle, rfl⟩, ?_⟩
            · show L.input + 1 ≤ _; omega
            · show L.clusterStart + 0 ≤ L.input + 1; omega
            · right
              rcases hcl' with ⟨h1, h2⟩ | ⟨cps, h1, h2, h3, h4, h5, h6⟩
              · left; exact ⟨h1, .inr h2⟩
              · right
                refine ⟨cps ++ [cp], by simp, hdec' cps h2, ?_, rfl, ?_, ?_⟩
                · show push U L.st.acc cp = _
                  rw [List.foldl_append, ← h3]; rfl
                · show L.countedHere + ((push U L.st.acc cp).width - L.st.reported) = (push U L.st.acc cp).width
                  omega
                · show L.countedHere + ((push U L.st.acc cp).width - L.st.reported) ≤
                    L.count + ((push U L.st.acc cp).width - L.st.reported)
                  omega
        · rename_i hlt'
          have hlt'' : ¬ (push U L.st.acc cp).width ≥ L.st.reported := hlt'
          refine ⟨fun L' e => ?_, fun L' e => (by simp at e)⟩
          simp only [Flow.go.injEq] at e
          subst e
          refine ⟨?_, ?_, ⟨u, hidle, rfl⟩, ?_⟩
          · show L.input + 1 ≤ _; omega
          · show L.clusterStart + 0 ≤ L.input + 1; omega
          · right
            rcases hcl' with ⟨h1, h2⟩ | ⟨cps, h1, h2, h3, h4, h5, h6⟩
            · left; exact ⟨h1, .inr h2⟩
            · right
              have hmin : min (L.st.reported - (push U L.st.acc cp).width) L.countedHere =
                  L.st.reported - (push U L.st.acc cp).width := by omega
              refine ⟨cps ++ [cp], by simp, hdec' cps h2, ?_, rfl, ?_, ?_⟩
              · show push U L.st.acc cp = _
                rw [List.foldl_append, ← h3]; rfl
              · show L.countedHere - min (L.st.reported - (push U L.st.acc cp).width) L.countedHere = (push U L.st.acc cp).width
                rw [hmin]; omega
              · show L.countedHere - min (L.st.reported - (push U L.st.acc cp).width) L.countedHere ≤
                  L.count - min (L.st.reported - (push U L.st.acc cp).width) L.countedHere
                omega

theorem loop_fit (U : Table) (st0 : State) (text : List Nat) (max : Nat) (rest : List Nat) (L : Loop)
    (hI : LInv text max 0 L) (h : FInv U st0 text L) (hrest : rest = text.drop L.input) :
    FStop U st0 text max (loop U text max rest L) := by
  induction rest generalizing L with
  | nil =>
    left
    have h1 := List.drop_eq_nil_iff.1 hrest.symm
    have h2 := h.hin
    show L.input = text.length
    omega
  | cons b rest ih =>
    have hb : text[L.input]? = some b := by
      have : (text.drop L.input)[0]? = some b := by rw [← hrest]; rfl
      rw [List.getElem?_drop] at this
      exact this
    obtain ⟨h1, h2⟩ := step_fit U st0 text max b L h hI.hcplx hb
    obtain ⟨h3, _⟩ := step_inv U text max 0 (Int.le_refl _) b L hI hb
    unfold loop
    cases hs : step U text max b L with
    | stop L' => exact h2 L' hs
    | go L' =>
      obtain ⟨h5, h6⟩ := h3 L' hs
      refine ih L' h5 (h1 L' hs) ?_
      rw [h6, ← List.drop_drop, ← hrest]
      rfl

theorem scanNonAscii_fit (U : Table) (st : State) (hidle : st.utf8.expectedLength = 0) (text : List Nat) (max : Nat) :
    FStop U st text max (scanNonAscii U st text max) := by
  have hr : resultStart st = 0 := by unfold resultStart; rw [if_neg (by simpa using hidle)]
  have hp := loop_fit U st text max text { st := st, resultEnd := resultStart st }
    (by
      rw [hr]
      exact ⟨Nat.zero_le _, Nat.le_refl _, Nat.le_refl _, by simp, Int.le_refl _, rfl,
        Nat.zero_le _, fun _ => Nat.zero_le _, fun h => absurd h (Nat.not_lt_zero _), fun i hi => absurd hi (Nat.not_lt_zero _)⟩)
    ⟨Nat.zero_le _, Nat.le_refl _, ⟨st.utf8, hidle, rfl⟩, .inr (.inl ⟨rfl, .inl ⟨rfl, rfl, rfl⟩⟩)⟩ rfl
  exact hp

/-- Why `scan_text` stopped before the end of the text. -/
structure Stopped (U : Table) (st0 : State) (T : List Nat) (max : Nat) (count n : Nat) : Prop where
  why : max ≤ count ∨ (∃ b, T[n]? = some b ∧ StopByte b) ∨ NoRoom U T n count max ∨
    (n = 0 ∧ Continues U st0 T) ∨
    (∃ a st, 0 < n ∧ T[n - 1]? = some a ∧ Props.Scan.Printable a ∧ Continues U (seed U st a) (T.drop n))

/-- Continuing depends only on the hint and the segmenter state. -/
theorem Continues.congr {U : Table} {a b : State} {text : List Nat} (h1 : a.hint = b.hint) (h2 : a.g = b.g)
    (h : Continues U a text) : Continues U b text := by
  obtain ⟨bs, c, h3, h4, h5⟩ := h
  refine ⟨bs, c, h3, h4, ?_⟩
  unfold isBreakable at h5 ⊢
  rw [← h1, ← h2]
  exact h5

/-- Invariant of the main loop for the stop reason. -/
structure KInv (U : Table) (st0 : State) (T : List Nat) (max : Nat) (complex : Bool) (i n : Nat) (R : Out) : Prop where
  hT : complex = true → R.count < max → (∀ b, T[n]? = some b → ¬ Props.Scan.Printable b) ∧
    ((n = 0 ∧ R.st.hint = st0.hint ∧ R.st.g = st0.g) ∨
      (∃ a st, 0 < n ∧ T[n - 1]? = some a ∧ Props.Scan.Printable a ∧ R.st.hint = (seed U st a).hint ∧ R.st.g = (seed U st a).g))
  hF : complex = false → Stopped U st0 T max R.count n ∨ (n = i ∧ ∀ b, T[n]? = some b → isComplex b = false)

theorem noRoom_drop (U : Table) (T : List Nat) (n k c d max : Nat) (hd : d ≤ max) (h : NoRoom U (T.drop n) k c (max - d)) :
    NoRoom U T (n + k) (d + c) max := by
  obtain ⟨bs, cps, h1, h2, h3, h4⟩ := h
  refine ⟨bs, cps, ?_, h2, h3, by omega⟩
  rwa [List.drop_drop] at h1

theorem mainLoop_stop (U : Table) (v : Variant) (w max : Nat) (st0 : State) (T : List Nat) (hb : ∀ b ∈ T, b < 256) (fuel : Nat)
    (complex : Bool) (i n : Nat) (R : Out) (hf : T.length - i < fuel) (h : MInv T max complex i n R)
    (hk : KInv U st0 T max complex i n R) :
    (mainLoop U v w max T.length fuel complex (T.drop i) i R).next = T.length ∨
    Stopped U st0 T max (mainLoop U v w max T.length fuel complex (T.drop i) i R).count
      (mainLoop U v w max T.length fuel complex (T.drop i) i R).next.toNat := by
  induction fuel generalizing complex i n R with
  | zero => omega
  | succ fuel ih =>
    unfold mainLoop
    have h2 := h.hnext
    have hnl := h.hnl
    have hin := h.hin
    split
    · rename_i hcond
      have hnlt : n < T.length := by omega
      have hidle := h.hidle hnlt
      split
      · rename_i hcx
        have hni : n = i := by
          rcases h.hsync with h | h
          · exact h
          · rw [hcx] at h; simp at h
        subst hni
        have hp := scanNonAscii_post U R.st (T.drop n) (max - R.count)
        have hq := scanNonAscii_fit U R.st hidle (T.drop n) (max - R.count)
        have hr : resultStart R.st = 0 := by unfold resultStart; rw [if_neg (by simpa using hidle)]
        simp only [hr] at hp ⊢
        generalize scanNonAscii U R.st (T.drop n) (max - R.count) = S at hp hq
        have p1 := hp.hin
        have p2 := hp.hend
        have p3 := hp.hstart
        have p4 := hp.hmax
        rw [List.length_drop] at p1
        have hnp := (hk.hT hcx hcond.1).1
        have hcontinue : Continues U R.st (T.drop n) → Stopped U st0 T max (R.count + S.count) n := by
          intro hq2
          rcases (hk.hT hcx hcond.1).2 with ⟨hn0, hh, hg⟩ | ⟨a, st, hn0, ha, hpa, hh, hg⟩
          · subst hn0
            rw [List.drop_zero] at hq2
            exact ⟨.inr (.inr (.inr (.inl ⟨rfl, hq2.congr hh hg⟩)))⟩
          · exact ⟨.inr (.inr (.inr (.inr ⟨a, st, hn0, ha, hpa, hq2.congr hh hg⟩)))⟩
        -- the reason, in terms of the whole text
        have hreason : n + S.input = T.length ∨ Stopped U st0 T max (R.count + S.count) (n + S.input) ∨
            ((∀ b, T[n + S.input]? = some b → isComplex b = false) ∧ S.input ≠ 0 ∧ S.resultEnd = S.input) := by
          rcases hq with hq | hq | ⟨b, hq1, hq2, hq3⟩ | hq | ⟨hq1, hq2⟩
          · left; rw [List.length_drop] at hq; omega
          · right; left; exact ⟨.inl (by omega)⟩
          · right
            rw [List.getElem?_drop] at hq1
            have hblt : b < 256 := hb b (List.mem_of_getElem? hq1)
            by_cases hstop : StopByte b
            · left; exact ⟨.inr (.inl ⟨b, hq1, hstop⟩)⟩
            · have hnc : isComplex b = false := by
                rcases hq2 with h | h | h
                · exact absurd (.inl h) hstop
                · exact h
                · exact absurd (.inr h) hstop
              right
              refine ⟨fun x hx => ?_, ?_, hq3⟩
              · rw [hq1] at hx; cases hx; exact hnc
              · intro h0
                rw [h0, Nat.add_zero] at hq1
                refine hnp b hq1 ?_
                have hc80 : ¬ 0x80 ≤ b := fun hge => by
                  rw [(Props.Scan.isComplex_iff b hblt).2 hge] at hnc; cases hnc
                have hc20 : ¬ b < 0x20 := fun hl => hstop (.inl (by unfold isControl; simpa using hl))
                exact ⟨by omega, by omega⟩
          · right; left
            exact ⟨.inr (.inr (.inl (noRoom_drop U T n _ _ _ max (Nat.le_of_lt hcond.1) hq)))⟩
          · right; left
            rw [hq1, Nat.add_zero]
            exact hcontinue hq2
        have hnt : ((n : Int) + (S.input : Int)).toNat = n + S.input := by omega
        split
        · rename_i hcons
          show (n : Int) + S.input = T.length ∨ Stopped U st0 T max (R.count + S.count) ((n : Int) + S.input).toNat
          rw [hnt]
          rcases hreason with hr1 | hr1 | ⟨_, hr2, hr3⟩
          · left; omega
          · right; exact hr1
          · exfalso; omega
        · rename_i hcons
          obtain ⟨e, he⟩ : ∃ e : Nat, S.resultEnd = e := ⟨S.resultEnd.toNat, by omega⟩
          have hec : (S.resultEnd - 0).toNat = e := by omega
          rw [hec]
          rw [List.drop_drop]
          by_cases hcont : n + S.input < T.length ∧ R.count + S.count < max
          · have := ih false (n + e) (n + S.input) { R with
              count := R.count + S.count, fin := (n : Int) + S.resultEnd, st := S.st, next := (n : Int) + S.input,
              events := R.events ++ S.events } ?_ ?_ ?_
            · rw [show ((n + e : Nat) : Int) = (n : Int) + (e : Int) by omega] at this
              exact this
            · omega
            · refine ⟨by omega, by omega, h.hstart, ?_, ?_, ?_, ?_, ?_, ?_, ?_⟩
              · show (n : Int) + S.resultEnd = ((n + e : Nat) : Int); omega
              · show (n : Int) + S.input = ((n + S.input : Nat) : Int); omega
              · show slices (R.events ++ S.events) = T.take (n + S.input)
                rw [slices_append, h.hslices, hp.hslices, ← List.take_add]
              · rcases hp.hfront with hf | hf | hf | hf
                · rw [List.length_drop] at hf; omega
                · exfalso; omega
                · left; omega
                · right
                  refine ⟨rfl, fun b hb => hf b ?_⟩
                  rw [List.getElem?_drop, he]
                  exact hb
              · intro hl
                exact hp.hidle (by rw [List.length_drop]; omega)
              · show R.count + S.count ≤ max + 1; omega
              · intro hno
                show R.count + S.count ≤ max
                omega
            · refine ⟨fun hc => (by simp at hc), fun _ => ?_⟩
              show Stopped U st0 T max (R.count + S.count) (n + S.input) ∨ _
              rcases hreason with hr1 | hr1 | ⟨hr2, _, hr4⟩
              · omega
              · exact .inl hr1
              · exact .inr ⟨by omega, hr2⟩
          · have hfin : (n : Int) + S.input = T.length ∨ Stopped U st0 T max (R.count + S.count) ((n : Int) + S.input).toNat := by
              by_cases hl : n + S.input < T.length
              · right
                have : max ≤ R.count + S.count := Nat.le_of_not_lt fun hh => hcont ⟨hl, hh⟩
                exact ⟨.inl this⟩
              · left; omega
            cases fuel with
            | zero => exact hfin
            | succ fuel =>
              unfold mainLoop
              rw [if_neg]
              · exact hfin
              · intro hh
                have q1 : R.count + S.count < max := hh.1
                have q2 : (n : Int) + S.input ≠ T.length := hh.2
                exact hcont ⟨by omega, q1⟩
      · rename_i hcx
        have hcf : complex = false := by simpa using hcx
        have hbd : ∀ b ∈ T.drop i, b < 256 := fun b h => hb b (List.mem_of_mem_drop h)
        have hlp := Props.Scan.C11_longest_prefix v w (T.drop i) hbd (max - R.count)
        simp only
        have hnt : R.next.toNat = n := by omega
        have hkf := hk.hF hcf
        split
        · rename_i hn0
          right
          rw [hnt]
          rcases hkf with hkf | ⟨hs, hkf⟩
          · exact hkf
          · -- the byte at `n` is neither printable nor complex
            have hget : T[n]? = some T[n] := List.getElem?_eq_getElem hnlt
            have hnc := hkf _ hget
            subst hs
            rw [hn0] at hlp
            rcases hlp.maximal with h1 | h1 | ⟨b, h1, h3⟩
            · omega
            · rw [List.length_drop] at h1; omega
            · rw [List.getElem?_drop, Nat.add_zero] at h1
              rw [hget] at h1
              cases h1
              have hlt256 := hb _ (List.getElem_mem hnlt)
              have hc80 : ¬ 0x80 ≤ T[n] := fun hge => by
                rw [(Props.Scan.isComplex_iff _ hlt256).2 hge] at hnc; cases hnc
              refine ⟨.inr (.inl ⟨T[n], hget, .inl ?_⟩)⟩
              unfold isControl
              simp only [decide_eq_true_eq]
              apply Nat.lt_of_not_le
              intro hge
              exact h3 ⟨hge, by omega⟩
        · rename_i hn0
          have hni : n = i := by
            rcases h.hsync with h | h
            · exact h
            · exfalso
              refine hn0 (scanAscii_complex v w _ hbd _ fun b hb' => h.2 b ?_)
              rwa [List.getElem?_drop] at hb'
          subst hni
          generalize scanAscii v w (T.drop n) (max - R.count) = k at hlp hn0
          have l1 := hlp.le_max
          have l2 := hlp.le_size
          have l3 := hlp.printable
          have l4 := hlp.maximal
          rw [List.length_drop] at l2
          rw [List.drop_drop]
          have hf' := h.hfin
          have hlast : (T.drop n).getD (k - 1) 0 = T[n + (k - 1)]'(by omega) := by
            rw [List.getD_eq_getElem?_getD, List.getElem?_drop, List.getElem?_eq_getElem (by omega)]
            rfl
          have := ih true (n + k) (n + k) { R with
              count := R.count + k
              fin := R.fin + k
              st := seed U R.st ((T.drop n).getD (k - 1) 0)
              next := R.next + k
              events := R.events ++ [.ascii ((T.drop n).take k)] } ?_ ?_ ?_
          · rw [show ((n + k : Nat) : Int) = (n : Int) + (k : Int) by omega] at this
            exact this
          · omega
          · refine ⟨Nat.le_refl _, by omega, h.hstart, ?_, ?_, ?_, .inl rfl, fun _ => hidle, ?_, ?_⟩
            · show R.fin + (k : Int) = ((n + k : Nat) : Int); omega
            · show R.next + (k : Int) = ((n + k : Nat) : Int); omega
            · show slices (R.events ++ [.ascii ((T.drop n).take k)]) = T.take (n + k)
              rw [slices_append, h.hslices, slices_ascii, ← List.take_add]
            · show R.count + k ≤ max + 1; omega
            · intro _; show R.count + k ≤ max; omega
          · refine ⟨fun _ hlt => ⟨?_, .inr ⟨T[n + (k - 1)]'(by omega), R.st, by omega, ?_, ?_, ?_, ?_⟩⟩, fun hc => (by simp at hc)⟩
            · intro b hb' 
              have hlt' : R.count + k < max := hlt
              rcases l4 with h1 | h1 | ⟨x, h1, h3⟩
              · omega
              · rw [List.length_drop] at h1
                have := (List.getElem?_eq_some_iff.1 hb').1
                omega
              · rw [List.getElem?_drop, hb'] at h1
                cases h1
                exact h3
            · rw [show n + k - 1 = n + (k - 1) by omega]
              exact List.getElem?_eq_getElem _
            · refine l3 _ ?_
              rw [List.mem_iff_getElem?]
              exact ⟨k - 1, by rw [List.getElem?_take, if_pos (by omega), List.getElem?_drop, List.getElem?_eq_getElem]⟩
            · show (T.drop n).getD (k - 1) 0 = _; exact hlast
            · show processInit U ((T.drop n).getD (k - 1) 0) = _; rw [hlast]; rfl
    · rename_i hcond
      by_cases hn : R.next = T.length
      · exact .inl hn
      · right
        have : max ≤ R.count := Nat.le_of_not_lt fun hh => hcond ⟨hh, hn⟩
        exact ⟨.inl this⟩

theorem scanText_stop (U : Table) (v : Variant) (w : Nat) (st : State) (next : Option Int)
    (hidle : st.utf8.expectedLength = 0) (hnext : next.getD 0 = 0) (pre text : List Nat) (hb : ∀ b ∈ text, b < 256)
    (max : Nat) (R : Out) (h : scanText U v w st next pre text max = .ok R) :
    R.next = text.length ∨ Stopped U st text max R.count R.next.toNat := by
  unfold scanText at h
  simp only at h
  rw [if_neg (by simpa using hidle)] at h
  have hinv : ∀ c, MInv text max c 0 0
      { count := 0, start := 0, fin := 0, st := st, next := next.getD 0, events := [] } := fun c =>
    ⟨Nat.le_refl _, Nat.zero_le _, rfl, rfl, hnext, by simp, .inl rfl, fun _ => hidle, Nat.zero_le _, fun _ => Nat.zero_le _⟩
  cases text with
  | nil =>
    cases h
    left; exact hnext
  | cons b bs =>
    cases h
    refine mainLoop_stop U v w max st (b :: bs) hb _ (isComplex b) 0 0 _ (by omega) (hinv _) ⟨?_, ?_⟩
    · intro hc _
      refine ⟨fun x hx => ?_, .inl ⟨rfl, rfl, rfl⟩⟩
      cases hx
      have := (Props.Scan.isComplex_iff b (hb b (by simp))).1 hc
      intro hp
      have := hp.2
      omega
    · intro hc
      right
      refine ⟨rfl, fun x hx => ?_⟩
      cases hx
      exact hc

end Verif.Scan
