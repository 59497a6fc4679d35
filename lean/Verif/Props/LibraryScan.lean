import Verif.Props.LibrarySample
import Verif.Props.ScanLine
/-!
# C56: scanning with a library generated from the files, exactly
-/

namespace Verif.Props.Tg
open Verif.Tg Verif.Spec.Ucd Verif.Spec Verif.Ucd Verif.Width Verif.Scan

/-- What the files must say about characters with text and emoji presentation and about Indic consonants (the Unicode Character Database does). -/
def Varied (U : Contents) (N : ValueNames) : Prop :=
  ∀ c r, c ≤ 0x10FFFF → Row.Says U N c r → (c ∈ U.evs ∨ r.incb = "Consonant".toList) → r.gcb = "Other".toList

theorem shows_varied {U N T} (hv : Varied U N) (h : Shows U N T) : GB.VariationOk T := by
  have row : ∀ c, ∃ r, Row.Shown r (T c) ∧ Row.Says U N (if c ≤ 0x10FFFF then c else 0) r := by
    intro c
    obtain ⟨r, h1, h2⟩ := h c
    exact ⟨r, h2, h1⟩
  have le : ∀ c : Nat, (if c ≤ 0x10FFFF then c else 0) ≤ 0x10FFFF := by intro c; split <;> omega
  refine ⟨fun c hc => ?_, fun c hc => ?_⟩
  · obtain ⟨r, hs, hr⟩ := row c
    have hm : (if c ≤ 0x10FFFF then c else 0) ∈ U.evs := by
      unfold Props.isEmojiVariationBase at hc
      rw [hs.flags2, hr.variationBase] at hc
      by_contra hn
      rw [if_neg hn] at hc
      exact absurd hc (by decide)
    exact gcb_inj (b := .Other) (by rw [hs.gcb, hv _ r (le c) hr (.inl hm)]; rfl)
  · obtain ⟨r, hs, hr⟩ := row c
    exact gcb_inj (b := .Other) (by rw [hs.gcb, hv _ r (le c) hr (.inr (by rw [← hs.incb, hc]; rfl))]; rfl)

/-- **C56, scanning.** With a library generated from such files, `scan_text` counts, for every text without control characters, the widths of the
pieces between the borders it sees (C46_exact). -/
theorem C56_scan_exact {U N T} (hu : Usable U N) (hv : Varied U N) (h : Shows U N T) (v : Scan.Variant) (w : Nat) (cs : List Nat)
    (hsc : Scan.Scannable cs) (max : Nat) (hmax : 3 * cs.length + 1 ≤ max) (cls : List (List Nat)) (hp : Partition cls cs)
    (hb : ∀ l b post, l ≠ [] → cs = l ++ b :: post → (SegBoundary cls l ↔ GB.ScanBorder T l b)) :
    ∃ R, Verif.Scan.scanText T v w (Verif.Scan.State.init T) none [] (Utf8.toUtf8Str cs) max = .ok R ∧
      R.count = (cls.map (Width.clusterWidth T)).sum ∧ R.next = (Utf8.toUtf8Str cs).length := by
  obtain ⟨h1, h2, -, h4⟩ := shows_ok hu h
  exact Scan.C46_exact h1 h2 h4 (shows_varied hv h) v w cs hsc max hmax cls hp hb

/-- **C56, lines.** With a library generated from such files, `scan_text` fills lines as `C66_exact` says, for every text without control characters and
every limit. -/
theorem C56_line_exact {U N T} (hu : Usable U N) (hv : Varied U N) (h : Shows U N T) (v : Scan.Variant) (w : Nat) (cs : List Nat)
    (hsc : Scan.Scannable cs) (max : Nat) (cls : List (List Nat)) (hp : Partition cls cs)
    (hb : ∀ l b post, l ≠ [] → cs = l ++ b :: post → (SegBoundary cls l ↔ GB.ScanBorder T l b)) :
    ∃ R front, Verif.Scan.scanText T v w (Verif.Scan.State.init T) none [] (Utf8.toUtf8Str cs) max = .ok R ∧
      Line.Filled (Width.clusterWidth T) max (Line.glyphs cls) front R.count ∧
      R.events.flatMap told = front.map (fun x => (Utf8.toUtf8Str x.text, x.columns (Width.clusterWidth T))) ∧
      R.start = 0 ∧ R.fin = R.next ∧ R.next = (Utf8.toUtf8Str (front.flatMap (·.text))).length := by
  obtain ⟨h1, h2, -, h4⟩ := shows_ok hu h
  exact Scan.C66_exact h1 h2 h4 (shows_varied hv h) v w cs hsc max cls hp hb

/-- The small database (a base of variation sequences and an Indic consonant are in it) meets the condition. -/
theorem rU_varied : Varied rU rN := by
  intro c r _ h hc
  have other : (∀ e ∈ allOf rU.gcb, ¬ (e.1 ≤ c ∧ c ≤ e.2.1)) → r.gcb = "Other".toList := by
    intro hn
    rcases named_cases h.gcb with ⟨e, he, h3, -⟩ | ⟨-, h4⟩
    · exact absurd h3 (hn e he)
    · exact h4
  rcases hc with hc | hc
  · have key : ∀ x ∈ rU.evs, ∀ e ∈ allOf rU.gcb, ¬ (e.1 ≤ x ∧ x ≤ e.2.1) := by decide +kernel
    exact other (key c hc)
  · rcases named_cases (rU_incb_named h) with ⟨e, he, h1, p, hp, h2, hm⟩ | ⟨-, h2⟩
    · have := checkNamed_ok (es := rIncb) (l := rN.incb)
        (q := fun e f => !(decide (f = "Consonant".toList)) || (allOf rU.gcb).all (apart e)) (by decide +kernel) he hp hm
      rw [Bool.or_eq_true] at this
      rcases this with h3 | h3
      · rw [← h2, hc] at h3
        exact absurd h3 (by decide)
      · exact other fun e' he' h' => apart_ok (List.all_eq_true.1 h3 e' he') h1 h'
    · rw [h2] at hc
      exact absurd hc (by decide)

example : rU.evs ≠ [] ∧ ∃ e ∈ rIncb, e.2.2 = "Consonant".toList := by decide +kernel

end Verif.Props.Tg
