import Verif.Lemmas.ScanChunk
import Verif.Spec.Toy
/-!
# Properties C45, C46: scanning in chunks, and scanned columns versus text width
-/

namespace Verif.Props.Scan
open Verif.Scan Verif.Ucd Verif.Utf8 Verif.Grapheme Verif.Width Verif.Toy Verif.Spec.GB

theorem incomplete_pending (s u : DecState) (b : Nat) (h : fromUtf8 s b = (u, .incomplete)) : u.expectedLength ≠ 0 := by
  unfold fromUtf8 startByte finish at h
  repeat' split at h
  all_goals first | (simp only [Prod.mk.injEq, reduceCtorEq, and_false] at h) | skip
  all_goals first | (obtain ⟨rfl, _⟩ := h; simp only [ne_eq] at *; omega) | skip

/-- A run of bytes that decodes to one codepoint. -/
theorem mRun_decoded (U : Table) (bs : List Nat) (hcx : ∀ b ∈ bs, 0x80 ≤ b ∧ b < 256) (st : State) (c : Nat)
    (h0 : st.utf8.expectedLength ≠ 0 ∨ ∀ b, bs[0]? = some b → isC1 b = false)
    (hne : bs ≠ []) (h : (feed st.utf8 bs).2 = List.replicate (bs.length - 1) .incomplete ++ [.success c]) :
    mRun U st bs = ((mSuccess U { st with utf8 := (feed st.utf8 bs).1 } c).1,
      (mSuccess U { st with utf8 := (feed st.utf8 bs).1 } c).2, []) ∧ delivered st.utf8 bs = [c] := by
  induction bs generalizing st with
  | nil => exact absurd rfl hne
  | cons b bs ih =>
    have hb := hcx b (by simp)
    have hc : isComplex b = true := (isComplex_iff b hb.2).2 hb.1
    have hstop : mStops st b = false := by
      have hctl : isControl b = false := by unfold isControl; simp; omega
      unfold mStops
      rw [hctl]
      rcases h0 with h | h
      · simp [h]
      · simp [h b rfl]
    have hm : mByte U st b = mComplex U st b := by unfold mByte; rw [if_pos hc]
    simp only [mRun, hstop, Bool.false_eq_true, if_false, hm, delivered, hc, if_true]
    simp only [feed] at h ⊢
    cases bs with
    | nil =>
      unfold mComplex
      rcases hf : fromUtf8 st.utf8 b with ⟨u, r⟩
      rw [hf] at h
      simp [feed] at h
      subst h
      simp [mRun, feed, delivered]
    | cons b' bs =>
      simp only [List.length_cons, Nat.add_sub_cancel, List.replicate_succ, List.cons_append, List.cons.injEq] at h
      obtain ⟨h1, h2⟩ := h
      rcases hf : fromUtf8 st.utf8 b with ⟨u, r⟩
      rw [hf] at h1 h2
      simp only at h1 h2
      subst h1
      have hu := incomplete_pending _ _ _ hf
      have := ih (fun x hx => hcx x (by simp [hx])) { st with utf8 := u } (.inl hu) (by simp) (by
        simpa [List.replicate_succ] using h2)
      unfold mComplex
      rw [hf]
      simp only at this ⊢
      rw [this.1, this.2]
      simp

theorem toUtf8_high (c : Nat) (hc : 0x80 ≤ c) (hc' : c ≤ 0x1FFFFF) :
    (∀ b ∈ toUtf8 c, 0x80 ≤ b ∧ b < 256) ∧ ∀ b, (toUtf8 c)[0]? = some b → isC1 b = false := by
  rw [toUtf8_eq]
  rw [if_neg (by omega)]
  split
  · refine ⟨?_, ?_⟩
    · intro b hb; simp at hb; omega
    · intro b hb; simp at hb; unfold isC1; simp; omega
  split
  · refine ⟨?_, ?_⟩
    · intro b hb; simp at hb; omega
    · intro b hb; simp at hb; unfold isC1; simp; omega
  · refine ⟨?_, ?_⟩
    · intro b hb; simp at hb; omega
    · intro b hb; simp at hb; unfold isC1; simp; omega

theorem mRun_char (U : Table) (st : State) (hid : st.utf8.expectedLength = 0) (c : Nat) (hc : 0x80 ≤ c) (hc' : c ≤ 0x1FFFFF) :
    ∃ u : DecState, u.expectedLength = 0 ∧ mRun U st (toUtf8 c) =
      ((mSuccess U { st with utf8 := u } c).1, (mSuccess U { st with utf8 := u } c).2, []) ∧
      delivered st.utf8 (toUtf8 c) = [c] := by
  have hf := feed_toUtf8 st.utf8 hid c hc'
  have h := mRun_decoded U (toUtf8 c) (toUtf8_high c hc hc').1 st c (.inr (toUtf8_high c hc hc').2) (toUtf8_ne_nil c) hf.1
  exact ⟨_, hf.2.1, h.1, h.2⟩

theorem toUtf8_low (c : Nat) (hc : c < 0x80) : toUtf8 c = [c] := by
  rw [toUtf8_eq, if_pos (by omega)]

theorem mSuccess_utf8 (U : Table) (st : State) (c : Nat) : (mSuccess U st c).1.utf8 = st.utf8 := by
  unfold mSuccess; split <;> rfl

/-- The UTF-8 form of a text delivers the text. -/
theorem delivered_encoded (U : Table) (cs : List Nat) (hc : ∀ c ∈ cs, c ≤ 0x1FFFFF) (u : DecState) (hu : u.expectedLength = 0) :
    delivered u (toUtf8Str cs) = cs := by
  rw [toUtf8Str_eq]
  induction cs generalizing u with
  | nil => rfl
  | cons c cs ih =>
    rw [List.flatMap_cons]
    by_cases hlt : c < 0x80
    · rw [toUtf8_low c hlt]
      have hcx : isComplex c = false := by
        cases h : isComplex c with
        | false => rfl
        | true => have := (isComplex_iff c (by omega)).1 h; omega
      simp only [List.cons_append, List.nil_append, delivered, hcx, Bool.false_eq_true, if_false]
      rw [ih (fun x hx => hc x (by simp [hx])) (idle u) (idle_len u)]
    · obtain ⟨u', h1, h2, h3⟩ := mRun_char U { utf8 := u, g := GState.default U } hu c (by omega) (hc c (by simp))
      have := delivered_append U { utf8 := u, g := GState.default U } _ _ (cs.flatMap toUtf8) _ h2
      simp only at this h3
      rw [this, h3, mSuccess_utf8]
      simp only [List.singleton_append, List.cons.injEq, true_and]
      exact ih (fun x hx => hc x (by simp [hx])) u' h1

/-! ## C45 chunks -/

/-- `Scanned U v w st chunks n st'`: calling `scan_text` on the chunks one after the other, beginning in state
`st` and reusing the state, reaches the end of every chunk and reports `n` columns in total.  Each call may have
its own limit, as long as it is not what stops the scan, and each chunk may lie anywhere in memory (`pre`). -/
inductive Scanned (U : Table) (v : Variant) (w : Nat) : State → List (List Nat) → Nat → State → Prop
  | nil (st) : Scanned U v w st [] 0 st
  | cons {st pre chunk chunks max R n st'} : 3 * chunk.length + 2 ≤ max →
      scanText U v w st none pre chunk max = .ok R → R.next = chunk.length →
      Scanned U v w R.st chunks n st' → Scanned U v w st (chunk :: chunks) (R.count + n) st'

theorem scanned_machine {U : Table} (hw : ∀ c, (U c).charWidth ≤ 2) (v : Variant) (w : Nat) (st st' : State)
    (chunks : List (List Nat)) (n : Nat) (hb : ∀ b ∈ chunks.flatten, b < 256) (hi : SInv st)
    (hvs : 0xFE0E ∉ delivered st.utf8 chunks.flatten) (h : Scanned U v w st chunks n st') :
    mRun U st chunks.flatten = (st', n, []) ∧ SInv st' := by
  induction h with
  | nil => exact ⟨rfl, hi⟩
  | @cons st pre chunk chunks max R n st' hmax hs hn _ ih =>
    rw [List.flatten_cons] at hb hvs ⊢
    have hbc : ∀ b ∈ chunk, b < 256 := fun b h => hb b (List.mem_append_left _ h)
    -- the bytes of the chunk deliver a prefix
    have hpre : 0xFE0E ∉ delivered st.utf8 chunk := by
      have : ∀ (a : List Nat) (st : State), ∃ l, delivered st.utf8 (a ++ chunks.flatten) = delivered st.utf8 a ++ l := by
        intro a
        induction a with
        | nil => intro st; exact ⟨_, rfl⟩
        | cons x a ih =>
          intro st
          obtain ⟨l, h1, h2, _⟩ := delivered_cons U st x (a ++ chunks.flatten)
          obtain ⟨l', h1', h2', _⟩ := delivered_cons U st x a
          obtain ⟨m, hm⟩ := ih (mByte U st x).1
          exact ⟨m, by rw [List.cons_append, h1, hm, h1', ← h2, ← h2', List.append_assoc]⟩
      obtain ⟨l, hl⟩ := this chunk st
      rw [hl, List.mem_append, not_or] at hvs
      exact hvs.1
    obtain ⟨h1, h2, h3⟩ := scanText_machine hw v w st none rfl pre chunk hbc hi max hmax hpre R hs
    have hrem : (mRun U st chunk).2.2 = [] := List.eq_nil_of_length_eq_zero (by omega)
    have hm : mRun U st chunk = (R.st, R.count, []) := by rw [h3 hrem, h1, ← hrem]
    have hR : SInv R.st := by rw [h3 hrem]; exact hi.run hw st chunk
    have hd := delivered_append U st R.st chunk chunks.flatten R.count hm
    rw [hd, List.mem_append, not_or] at hvs
    obtain ⟨g1, g2⟩ := ih (fun b h => hb b (List.mem_append_right _ h)) hR hvs.2
    refine ⟨?_, g2⟩
    rw [mRun_append U st R.st chunk _ R.count hm, g1]

/-- The property as documented (scan.h:61-62): the columns reported for the chunks of a text add up to the
columns reported for the text, wherever it is cut. -/
def C45_Additive : Prop :=
  ∀ (U : Table) (v : Variant) (w : Nat) (chunks : List (List Nat)) (cs : List Nat) (max : Nat)
    (n : Nat) (st : State) (R : Out), (∀ c, (U c).charWidth ≤ 2) → (∀ c ∈ cs, c ≤ 0x10FFFF) →
    chunks.flatten = toUtf8Str cs → 3 * (toUtf8Str cs).length + 2 ≤ max →
    Scanned U v w (State.init U) chunks n st →
    scanText U v w (State.init U) none [] (toUtf8Str cs) max = .ok R → R.count = n

/-- The code violates it: a text presentation selector (U+FE0E) in a later chunk than its base does not take the
second column back. -/
theorem C45_fails_vs15 : ¬ C45_Additive := by
  intro h
  obtain ⟨n, st, hs, hn⟩ : ∃ n st, Scanned toy .none 16 (State.init toy) [[0xE2, 0x8C, 0x9A], [0xEF, 0xB8, 0x8E]] n st ∧ n = 2 :=
    ⟨_, _, .cons (pre := []) (max := 20) (by decide) rfl (by decide +kernel)
      (.cons (pre := []) (max := 20) (by decide) rfl (by decide +kernel) (.nil _)), by decide +kernel⟩
  have := h toy .none 16 _ [0x231A, 0xFE0E] 40 n st _ toy_width_ok.le_two (by decide) (by decide) (by decide) hs rfl
  subst hn
  revert this
  decide +kernel

/-- **C45 (partial).**  For any bytes, however they are cut into chunks (also in the middle of a codepoint or of a
cluster), as long as no U+FE0E is delivered: the counts reported for the chunks add up to the count
reported for the whole, the scans stop at the same byte, and if they reach the end they leave the same state behind.
The last chunk may contain a byte that stops the scan. -/
theorem C45_chunks_partial {U : Table} (hw : ∀ c, (U c).charWidth ≤ 2) (v v' : Variant) (w w' : Nat)
    (chunks : List (List Nat)) (last : List Nat) (hb : ∀ b ∈ chunks.flatten ++ last, b < 256)
    (hvs : 0xFE0E ∉ delivered {} (chunks.flatten ++ last)) (n : Nat) (st : State)
    (h : Scanned U v w (State.init U) chunks n st)
    (pre : List Nat) (max max' : Nat) (hmax : 3 * last.length + 2 ≤ max)
    (hmax' : 3 * (chunks.flatten ++ last).length + 2 ≤ max')
    (R R' : Out) (hR : scanText U v w st none pre last max = .ok R)
    (hR' : scanText U v' w' (State.init U) none [] (chunks.flatten ++ last) max' = .ok R') :
    R'.count = n + R.count ∧ R'.next = chunks.flatten.length + R.next ∧
    (R.next = last.length → R'.st = R.st) := by
  have hb1 : ∀ b ∈ chunks.flatten, b < 256 := fun b h => hb b (List.mem_append_left _ h)
  have hb2 : ∀ b ∈ last, b < 256 := fun b h => hb b (List.mem_append_right _ h)
  have hv1 : 0xFE0E ∉ delivered {} chunks.flatten := by
    have : ∀ (a : List Nat) (st : State), ∃ l, delivered st.utf8 (a ++ last) = delivered st.utf8 a ++ l := by
      intro a
      induction a with
      | nil => intro st; exact ⟨_, rfl⟩
      | cons x a ih =>
        intro st
        obtain ⟨l, h1, h2, _⟩ := delivered_cons U st x (a ++ last)
        obtain ⟨l', h1', h2', _⟩ := delivered_cons U st x a
        obtain ⟨m, hm⟩ := ih (mByte U st x).1
        exact ⟨m, by rw [List.cons_append, h1, hm, h1', ← h2, ← h2', List.append_assoc]⟩
    obtain ⟨l, hl⟩ := this chunks.flatten (State.init U)
    rw [show ({} : DecState) = (State.init U).utf8 from rfl, hl, List.mem_append, not_or] at hvs
    exact hvs.1
  obtain ⟨m1, hi⟩ := scanned_machine hw v w (State.init U) st chunks n hb1 (SInv.init U) hv1 h
  have hd := delivered_append U (State.init U) st chunks.flatten last n m1
  have hv2 : 0xFE0E ∉ delivered st.utf8 last := by
    rw [show ({} : DecState) = (State.init U).utf8 from rfl, hd, List.mem_append, not_or] at hvs
    exact hvs.2
  obtain ⟨a1, a2, a3⟩ := scanText_machine hw v w st none rfl pre last hb2 hi max hmax hv2 R hR
  obtain ⟨b1, b2, b3⟩ := scanText_machine hw v' w' (State.init U) none rfl [] _ hb (SInv.init U) max' hmax' hvs R' hR'
  have m2 := mRun_append U (State.init U) st chunks.flatten last n m1
  rw [m2] at b1 b2 b3
  simp only [List.length_append] at b1 b2 b3
  refine ⟨by omega, by omega, fun he => ?_⟩
  have hz : (mRun U st last).2.2 = [] := List.eq_nil_of_length_eq_zero (by omega)
  rw [b3 hz, a3 hz]

/-- **C45 (partial), for UTF-8 text.**  For every text without U+FE0E. -/
theorem C45_text_partial {U : Table} (hw : ∀ c, (U c).charWidth ≤ 2) (v v' : Variant) (w w' : Nat)
    (cs : List Nat) (hc : ∀ c ∈ cs, c ≤ 0x1FFFFF) (hvs : 0xFE0E ∉ cs)
    (chunks : List (List Nat)) (hcut : chunks.flatten = toUtf8Str cs) (n : Nat) (st : State)
    (h : Scanned U v w (State.init U) chunks n st) (max : Nat) (hmax : 3 * (toUtf8Str cs).length + 2 ≤ max) (R : Out)
    (hR : scanText U v' w' (State.init U) none [] (toUtf8Str cs) max = .ok R) :
    R.count = n ∧ R.next = (toUtf8Str cs).length ∧ R.st = st := by
  have hb : ∀ b ∈ toUtf8Str cs, b < 256 := by
    rw [toUtf8Str_eq]
    intro b hb
    obtain ⟨c, _, h⟩ := List.mem_flatMap.1 hb
    exact toUtf8_lt256 c b h
  have hv : 0xFE0E ∉ delivered {} (toUtf8Str cs) := by rw [delivered_encoded U cs hc {} rfl]; exact hvs
  obtain ⟨m1, hi⟩ := scanned_machine hw v w (State.init U) st chunks n (by rw [hcut]; exact hb) (SInv.init U)
    (by rw [hcut]; exact hv) h
  rw [hcut] at m1
  obtain ⟨b1, b2, b3⟩ := scanText_machine hw v' w' (State.init U) none rfl [] _ hb (SInv.init U) max hmax hv R hR
  rw [m1] at b1 b2 b3
  exact ⟨b1, by simpa using b2, b3 rfl⟩

/-- The hypotheses are met by cutting `"aé👩"` inside both non-ASCII codepoints. -/
example : ∃ n st, Scanned toy .none 16 (State.init toy) [[0x61, 0xC3], [0xA9, 0xF0, 0x9F], [0x98, 0x80]] n st ∧ n = 4 ∧
    [[0x61, 0xC3], [0xA9, 0xF0, 0x9F], [0x98, 0x80]].flatten = toUtf8Str [0x61, 0xE9, 0x1F600] :=
  ⟨_, _, .cons (pre := []) (max := 20) (by decide) rfl (by decide +kernel)
    (.cons (pre := []) (max := 20) (by decide) rfl (by decide +kernel)
    (.cons (pre := []) (max := 20) (by decide) rfl (by decide +kernel) (.nil _))), by decide +kernel, by decide +kernel⟩

end Verif.Props.Scan
