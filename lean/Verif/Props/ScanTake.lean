import Verif.Props.ScanExact
import Verif.Lemmas.ScanTake
/-!
# Property C45: scanning in chunks, with nothing excluded
-/

namespace Verif.Props.Scan
open Verif.Scan Verif.Ucd Verif.Utf8 Verif.Grapheme Verif.Width Verif.Toy Verif.Spec.GB Verif.Spec

/-- The chunks one after the other, against the machine. -/
theorem scanned_take {U : Table} (hw : ∀ c, (U c).charWidth ≤ 2) (v : Variant) (w : Nat) (st st' : State)
    (chunks : List (List Nat)) (n : Nat) (hb : ∀ b ∈ chunks.flatten, b < 256) (hi : SInv st)
    (h : Scanned U v w st chunks n st') : ∀ (here : Nat), Take.Good st here → ∃ k, mRun U st chunks.flatten = (st', k, []) ∧ SInv st' ∧
      Take.dRun U st here chunks.flatten ≤ n ∧
      (n : Int) ≤ Take.dRun U st here chunks.flatten + ((delivered st.utf8 chunks.flatten).count 0xFE0E : Nat) := by
  induction h with
  | nil => intro here _; exact ⟨0, rfl, hi, Int.le_refl _, by simp [Take.dRun]⟩
  | @cons st pre chunk chunks max R n st' hmax hs hn _ ih =>
    intro here hg
    rw [List.flatten_cons] at hb ⊢
    have hbc : ∀ b ∈ chunk, b < 256 := fun b h => hb b (List.mem_append_left _ h)
    obtain ⟨h1, h2, h3⟩ := Take.scanText_machine hw v w st none rfl pre chunk hbc hi max hmax R hs
    have hrem : (mRun U st chunk).2.2 = [] := List.eq_nil_of_length_eq_zero (by omega)
    have hm : mRun U st chunk = (R.st, (mRun U st chunk).2.1, []) := by rw [h3 hrem, ← hrem]
    have hR : SInv R.st := by rw [h3 hrem]; exact hi.run hw st chunk
    have hgR : Take.Good R.st (Take.hRun U st here chunk) := by
      have := hg.run (U := U) chunk
      rw [hm] at this
      exact this
    obtain ⟨k, g1, g2, g3, g4⟩ := ih (fun b h => hb b (List.mem_append_right _ h)) hR _ hgR
    have hd := delivered_append U st R.st chunk chunks.flatten _ hm
    have ha := Take.dRun_append U chunk chunks.flatten st R.st here _ hm
    obtain ⟨c1, c2⟩ := Take.cmp_run hw chunk st 0 here hi (Nat.zero_le _) hg
    refine ⟨_, by rw [mRun_append U st R.st chunk _ _ hm, g1], g2, ?_, ?_⟩
    · rw [ha]; push_cast; omega
    · rw [ha, hd, List.count_append]; push_cast; omega

/-- **C45.**  Any bytes, cut into chunks anywhere (also inside a codepoint or a character), scanned chunk by chunk with the state carried over: the scan
stops at the same byte as the scan of the whole, it leaves the same state behind at the end, and it never reports fewer columns.  It reports at most
one column more for each U+FE0E in the text (what the selector takes off its base cannot be taken back once an earlier call has
reported it). -/
theorem C45_chunks {U : Table} (hw : ∀ c, (U c).charWidth ≤ 2) (v v' : Variant) (w w' : Nat)
    (chunks : List (List Nat)) (last : List Nat) (hb : ∀ b ∈ chunks.flatten ++ last, b < 256) (n : Nat) (st : State)
    (h : Scanned U v w (State.init U) chunks n st)
    (pre : List Nat) (max max' : Nat) (hmax : 3 * last.length + 2 ≤ max)
    (hmax' : 3 * (chunks.flatten ++ last).length + 2 ≤ max')
    (R R' : Out) (hR : scanText U v w st none pre last max = .ok R)
    (hR' : scanText U v' w' (State.init U) none [] (chunks.flatten ++ last) max' = .ok R') :
    R'.next = chunks.flatten.length + R.next ∧ (R.next = last.length → R'.st = R.st) ∧
    R'.count ≤ n + R.count ∧ n + R.count ≤ R'.count + (delivered {} (chunks.flatten ++ last)).count 0xFE0E := by
  have hb1 : ∀ b ∈ chunks.flatten, b < 256 := fun b h => hb b (List.mem_append_left _ h)
  have hb2 : ∀ b ∈ last, b < 256 := fun b h => hb b (List.mem_append_right _ h)
  have hg : Take.Good (State.init U) 0 := .inr rfl
  obtain ⟨k, m1, hi, m2, m3⟩ := scanned_take hw v w (State.init U) st chunks n hb1 (SInv.init U) h 0 hg
  obtain ⟨a1, a2, a3⟩ := Take.scanText_machine hw v w st none rfl pre last hb2 hi max hmax R hR
  obtain ⟨b1, b2, b3⟩ := Take.scanText_machine hw v' w' (State.init U) none rfl [] _ hb (SInv.init U) max' hmax' R' hR'
  have hgs : Take.Good st (Take.hRun U (State.init U) 0 chunks.flatten) := by
    have := hg.run (U := U) chunks.flatten
    rw [m1] at this
    exact this
  have e2 := mRun_append U (State.init U) st chunks.flatten last k m1
  have ed := Take.dRun_append U chunks.flatten last (State.init U) st 0 k m1
  have hd := delivered_append U (State.init U) st chunks.flatten last k m1
  obtain ⟨c1, c2⟩ := Take.cmp_run hw last st 0 _ hi (Nat.zero_le _) hgs
  rw [e2] at b2 b3
  rw [ed] at b1
  rw [show ({} : DecState) = (State.init U).utf8 from rfl, hd, List.count_append]
  simp only [List.length_append] at b2 b3
  refine ⟨by omega, fun he => ?_, by omega, by omega⟩
  have hz : (mRun U st last).2.2 = [] := List.eq_nil_of_length_eq_zero (by omega)
  rw [b3 hz, a3 hz]

/-- **C45, for UTF-8 text.** -/
theorem C45_text {U : Table} (hw : ∀ c, (U c).charWidth ≤ 2) (v v' : Variant) (w w' : Nat)
    (cs : List Nat) (hc : ∀ c ∈ cs, c ≤ 0x1FFFFF)
    (chunks : List (List Nat)) (hcut : chunks.flatten = toUtf8Str cs) (n : Nat) (st : State)
    (h : Scanned U v w (State.init U) chunks n st) (max : Nat) (hmax : 3 * (toUtf8Str cs).length + 2 ≤ max) (R : Out)
    (hR : scanText U v' w' (State.init U) none [] (toUtf8Str cs) max = .ok R) :
    R.next = (toUtf8Str cs).length ∧ R.st = st ∧ R.count ≤ n ∧ n ≤ R.count + cs.count 0xFE0E := by
  have hb : ∀ b ∈ toUtf8Str cs, b < 256 := by
    rw [toUtf8Str_eq]
    intro b hb
    obtain ⟨c, _, h⟩ := List.mem_flatMap.1 hb
    exact toUtf8_lt256 c b h
  have hv : delivered (State.init U).utf8 (toUtf8Str cs) = cs := delivered_encoded U cs hc {} rfl
  obtain ⟨k, m1, hi, m2, m3⟩ := scanned_take hw v w (State.init U) st chunks n (by rw [hcut]; exact hb) (SInv.init U) h 0 (.inr rfl)
  rw [hcut] at m1 m2 m3
  rw [hv] at m3
  obtain ⟨b1, b2, b3⟩ := Take.scanText_machine hw v' w' (State.init U) none rfl [] _ hb (SInv.init U) max hmax R hR
  rw [m1] at b2 b3
  exact ⟨by simpa using b2, b3 rfl, by omega, by omega⟩

end Verif.Props.Scan
