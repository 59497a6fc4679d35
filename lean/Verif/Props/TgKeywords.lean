import Verif.Spec.CxxKeywords
import Verif.Props.TgProgramEnums
/-!
# C71: no enumeration or enumerator is called like a keyword

The generator writes what the data files call their values, without a check against the words of the language.
-/

namespace Verif.Props.Tg
open Verif.Tg Verif.Spec.Ucd Verif.Spec.UcdFile
open Verif.Spec.Cxx (Keyword keywords)

theorem capital_free {s : Str} (h : Capital s) : ¬ Keyword s := by
  obtain ⟨c, t, rfl, h1, h2⟩ := h
  have : ∀ k ∈ keywords, (k.toList.head?.any fun c => decide ('A' ≤ c ∧ c ≤ 'Z')) = false := by decide +kernel
  rintro ⟨k, hk, e⟩
  have := this k hk
  rw [e] at this
  have hd : decide ('A' ≤ c ∧ c ≤ 'Z') = true := decide_eq_true ⟨h1, h2⟩
  rw [List.head?_cons, Option.any_some, hd] at this
  cases this

theorem capital_identifier {s id : Str} (h : Capital s) (hi : Identifier s id) : Capital id := by
  obtain ⟨c, t, rfl, h1, h2⟩ := h
  obtain ⟨hl, hc⟩ := hi
  cases id with
  | nil => cases hl
  | cons d u =>
    have := hc 0 (by rw [List.length_cons]; omega) (by rw [List.length_cons]; omega)
    simp only [List.getElem_cons_zero] at this
    have hne : ¬ (c = ' ' ∨ c = '-') := by
      rintro (rfl | rfl)
      · revert h1; decide
      · revert h1; decide
    rw [if_neg hne] at this
    exact ⟨d, u, rfl, this ▸ h1, this ▸ h2⟩

theorem capital_text {s : String} (h : (s.toList.head?.any fun c => decide ('A' ≤ c ∧ c ≤ 'Z')) = true) : Capital s.toList := by
  cases e : s.toList with
  | nil => rw [e] at h; cases h
  | cons c t =>
    rw [e] at h
    exact ⟨c, t, rfl, of_decide_eq_true h⟩

/-- **C71, keywords.**  If the values in the files are written with a capital letter, as they are, then no enumeration and no enumerator that `ucd_enums.h`
declares (C71_enums: exactly the `Enumerator`s) is a word of the language. -/
theorem C71_keywords {U : Contents} {N : ValueNames} (h : Capitals U N) {E id : Str} (he : Enumerator U N E id) : ¬ Keyword E ∧ ¬ Keyword id := by
  suffices Capital E ∧ Capital id from ⟨capital_free this.1, capital_free this.2⟩
  cases he with
  | @plane n hn =>
    refine ⟨capital_text (by decide), ?_⟩
    have : ∀ n ∈ planeNames, (n.toList.head?.any fun c => decide ('A' ≤ c ∧ c ≤ 'Z')) = true := by decide +kernel
    exact capital_text (this n hn)
  | unassigned => exact ⟨capital_text (by decide), capital_text (by decide)⟩
  | age ha hi => exact ⟨capital_text (by decide), capital_identifier (h.ages _ _ ha) hi⟩
  | undefined => exact ⟨capital_text (by decide), capital_text (by decide)⟩
  | value hs hv hi => exact ⟨(h.sections _ _ hs).1, capital_identifier ((h.sections _ _ hs).2 _ _ hv) hi⟩
  | core he hw hi => exact ⟨capital_text (by decide), capital_identifier (h.core _ he hw) hi⟩
  | gcUnspecified => exact ⟨capital_text (by decide), capital_text (by decide)⟩
  | gc _ hg hi => exact ⟨capital_text (by decide), capital_identifier (h.gc _ _ hg) hi⟩
  | @scriptFixed s hs =>
    refine ⟨capital_text (by decide), ?_⟩
    have : ∀ n ∈ ["Invalid", "Unknown", "Common"], (n.toList.head?.any fun c => decide ('A' ≤ c ∧ c ≤ 'Z')) = true := by decide +kernel
    exact capital_text (this s hs)
  | script hs hi => exact ⟨capital_text (by decide), capital_identifier (h.scripts _ hs) hi⟩
  | blockUnspecified => exact ⟨capital_text (by decide), capital_text (by decide)⟩
  | block hb hi => exact ⟨capital_text (by decide), capital_identifier (h.blocks _ hb) hi⟩
  | @width w hw =>
    refine ⟨capital_text (by decide), ?_⟩
    have : ∀ n ∈ ["Ambiguous", "FullWidth", "HalfWidth", "Neutral", "Narrow", "Wide", "Unspecified"],
      (n.toList.head?.any fun c => decide ('A' ≤ c ∧ c ≤ 'Z')) = true := by decide +kernel
    exact capital_text (this w hw)

/-- The generator makes no check: a block called `new` becomes an enumerator called `new`. -/
theorem C71_fails_keyword {U : Contents} {N : ValueNames} {a b : Nat} (h : (a, b, "new".toList) ∈ U.blocks) :
    ∃ id, Enumerator U N "Block".toList id ∧ Keyword id :=
  by
  have hi : Identifier "new".toList "new".toList := ⟨rfl, by decide +kernel⟩
  exact ⟨"new".toList, .block h hi, "new", by decide +kernel, rfl⟩

def capB (s : Str) : Bool := s.head?.any fun c => decide ('A' ≤ c ∧ c ≤ 'Z')

theorem capB_ok {s : Str} (h : capB s = true) : Capital s := by
  cases s with
  | nil => cases h
  | cons c t => exact ⟨c, t, rfl, of_decide_eq_true h⟩

/-- The sample files are such files. -/
theorem eU_capitals : Capitals eU rN where
  ages := by
    have h : ∀ e ∈ rN.age, capB e.2 = true := by decide +kernel
    exact fun a f hf => capB_ok (h _ hf)
  sections := by
    have h : ∀ s ∈ eU.aliases, capB s.1 = true ∧ ∀ e ∈ s.2, capB e.2 = true := by decide +kernel
    exact fun prop es hs => ⟨capB_ok (h _ hs.1).1, fun a f hf => capB_ok ((h _ hs.1).2 _ hf)⟩
  core := by
    have h : ∀ e ∈ eU.core, capB e.2.2 = true := by decide +kernel
    exact fun e he _ => capB_ok (h _ he)
  gc := by
    have h : ∀ e ∈ rN.gc, capB e.2 = true := by decide +kernel
    exact fun a f hf => capB_ok (h _ hf)
  scripts := by
    have h : ∀ e ∈ eU.scripts, capB e.2.2 = true := by decide +kernel
    exact fun e he => capB_ok (h _ he)
  blocks := by
    have h : ∀ e ∈ eU.blocks, capB e.2.2 = true := by decide +kernel
    exact fun e he => capB_ok (h _ he)

end Verif.Props.Tg
