import Verif.Props.Convert
import Verif.Props.Norm
import Verif.Props.FsArray
import Verif.Props.Width
import Verif.Props.Utf8
import Verif.Props.Case
import Verif.Props.Capi
import Verif.Props.Tables
import Verif.Props.Script
import Verif.Props.Query2
import Verif.Props.Inspect3
import Verif.Props.ScanAscii
import Verif.Props.Simd
import Verif.Props.SimdConvert
import Verif.Props.SimdDetect
import Verif.Props.ScanCols
import Verif.Props.ScanFresh
import Verif.Props.ScanTake
import Verif.Props.Scan
/-!
# Concrete cases: the library

For theorems with hypotheses whose own file has no concrete case directly behind them: the theorem is applied to concrete arguments, all its
hypotheses are discharged, and what it says then is the type of the example.
-/

namespace Verif.Props.Instances
open Verif.Ucd Verif.Utf8 Verif.Convert Verif.Spec

/-! ## Encodings -/

example : fromUtf8Str 16 ([0x41, 0x7F] ++ List.replicate 40 0x20) = [0x41, 0x7F] ++ List.replicate 40 0x20 :=
  (C08_ascii_identity 16 _ (by decide)).1

example : ∀ c ∈ fromUtf8Str 16 [0xF7, 0xBF, 0xBF, 0xBF, 0xC1, 0x80, 0xFF], c < 2^21 := C09_values_bounded 16 _ (by decide)

example : convertIt decode8It toUtf8 ([0xE2, 0x82] ++ [0x00]) ≠ .oob := C10_safe_if_ascii_terminated _ _ 0 (by decide)

example : convertTo32From8It [0xE2, 0x82, 0xAC, 0x41] = .ok (fromUtf8Str 16 [0xE2, 0x82, 0xAC, 0x41]) :=
  (C10_iterator_eq_bulk 16 _ [0x20AC, 0x41] (.cons (.three (b0 := 0xE2) (b1 := 0x82) (b2 := 0xAC) (.inr (.inl ⟨by decide, by decide, by decide, by decide⟩)) ⟨by decide, by decide⟩)
    (.cons (.one (b := 0x41) (by decide)) .nil))).1

example : toUtf8 0x20AC ≠ toUtf8 0x20AD := fun h => absurd (C03_injective _ _ (by decide) (by decide) h) (by decide)

example : toUtf8Str [0x41, 0x20AC] ≠ toUtf8Str [0x41, 0x20AD] :=
  fun h => absurd (C03_string_injective _ _ (by decide) (by decide) h) (by decide)

example : (feed {} ([0xF0, 0x9F, 0xFF, 0x80] ++ toUtf8 0x20AC)).2.getLast? = some (.success 0x20AC) :=
  (C05_resync_multibyte_partial _ 0x20AC (by decide) (by decide)).1

example : (feed {} ([0xF0, 0x9F] ++ [0x41, 0x42, 0x43])).1.expectedLength = 0 :=
  C05_bounded_damage [0xF0, 0x9F] (by decide) 0x41 0x42 0x43 (by decide) (by decide) (by decide)

/-! ## Normalization -/

section norm
open Verif.Norm Verif.Spec.Norm Verif.Props.Norm

example : canonicalOrder toy [0x61, 0x301, 0x323] = canonicalOrder toy [0x61, 0x323, 0x301] :=
  (C26_confluent (T := toy) _ _ (.single (.mk [0x61] [] 0x301 0x323 (by unfold Reorderable; decide)))).1

example : canonicalOrder toy ([0x301, 0x323] ++ 0x61 :: [0x301, 0x323]) = canonicalOrder toy [0x301, 0x323] ++ 0x61 :: canonicalOrder toy [0x301, 0x323] :=
  (C26_starters (T := toy) _ _ 0x61 (by decide)).1

example : (canonicalOrder toy [0x301, 0x323, 0x307]).Perm [0x301, 0x323, 0x307] := (C26_sorts_runs (T := toy) _ (by unfold Marks; decide)).1

example : normalize toy .NFD ([0x212B] ++ 0x1E69 :: [0x301]) = normalize toy .NFD [0x212B] ++ normalize toy .NFD (0x1E69 :: [0x301]) :=
  C27_concat (T := toy) .NFD (.inl rfl) [0x212B] 0x1E69 [0x301] 0x73 [0x323, 0x307] (by decide) (by decide)

example : hangulDecompose (hangulCompose 0x1112 0x1161 0x11AB) = [0x1112, 0x1161, 0x11AB] :=
  (C29_decompose_compose 0x1112 0x1161 0x11AB (by decide) (by decide) (by decide)).2.2

example : hangulDecompose 0xD55C ≠ hangulDecompose 0xAE00 := fun h => absurd (C29_injective _ _ (by decide) (by decide) h) (by decide)

example : canonEquiv toy [0x1E69] (normalize toy .NFD [0x1E69]) = true := (C32_representative toy_ranked toy_jamo [0x1E69] []).1

example : canonEquiv toy ([0x1E69] ++ [0x212B]) ([0x73, 0x307, 0x323] ++ [0xC5]) = true :=
  (C32_congruence toy_ranked toy_jamo [0x1E69] [0x73, 0x307, 0x323] [0x212B] [0xC5]).1 (by decide) (by decide)

end norm

/-! ## Widths -/

section width
open Verif.Width Verif.Toy

example : clusterWidth toy [0x1F1E6, 0x1F1E7] = 1 :=
  C20_flag toy_width_ok 0x1F1E6 0x1F1E7 (by decide) (by decide) (by decide) (by decide)

end width

/-! ## Case -/

section case
open Verif.Case Verif.Spec.Case Verif.Props.Case

example : changesWhenUppercased sample 0xDF = true ↔ toUppercase sample [0xDF] ≠ [0xDF] :=
  (C42_changes_when sample sample_sorted (by unfold NoIdentity; decide) (by unfold NoIdentity; decide) (by unfold NoIdentity; decide)
    (by unfold NoIdentity; decide) 0xDF).1

end case

/-! ## The C functions -/

section capi
open Verif.Capi Verif.Grapheme Verif.Width Verif.Toy Verif.Props.Capi

example : u32GcWidth toy [0x2764, 0xFE0F, 0x61] 0 = .ok ((clusters toy [0x2764, 0xFE0F, 0x61]).map (baseWidth toy)).sum :=
  C39_u32_width_legacy toy _ (by decide)

example : (u32u8Convert [0xE4, 0x20AC] (fun _ => 9) 100 6).1 99 = 9 ∧ (u32u8Convert [0xE4, 0x20AC] (fun _ => 9) 100 6).1 106 = 9 :=
  ⟨C39_convert_in_bounds _ (fun _ => 9) 100 6 99 (by decide), C39_convert_in_bounds _ (fun _ => 9) 100 6 106 (by decide)⟩

example : (u32u8Convert [0xE4, 0x20AC] (fun _ => 9) 100 6).2 = ((toUtf8Str [0xE4, 0x20AC]).length : Int) :=
  (C39_convert_success [0xE4, 0x20AC] (fun _ => 9) 100 6 (by decide)).1

example : (u32u8Convert [0xE4, 0x20AC] (fun _ => 9) 100 4).2 = -1 := (C39_convert_failure [0xE4, 0x20AC] (fun _ => 9) 100 4 (by decide)).1

example : unusedBitGet (unusedBitOn 0x1F600 3) 3 = true ∧ unusedBitGet (unusedBitOn 0x1F600 3) 4 = unusedBitGet 0x1F600 4 :=
  ⟨(C47_set_get 0x1F600 3 3 (by decide)).1, (C47_set_get 0x1F600 3 4 (by decide)).1⟩

end capi

/-! ## Tables -/

section tables
open Verif.Tables Verif.Props.Tables

example : ∃ r, contains sampleIntervals 0x3B1 = .ok r ∧ (r = true ↔ ∃ x ∈ sampleIntervals, x.lo ≤ 0x3B1 ∧ 0x3B1 ≤ x.hi) :=
  C37_contains sampleIntervals sample_ok (by unfold sampleIntervals; decide) (by unfold sampleIntervals; decide) 0x3B1

end tables

/-! ## Scripts, and the tools -/

section tools
open Verif.Script Verif.Tools Verif.Query Verif.Props.Script Verif.Props.Tools Verif.Props.Query

example : ∃ segs : List (Script × List Nat), runs toyClean [0x41, 0x6F22, 0x20, 0x41] = endsOf 0 segs ∧
    Partition (segs.map Prod.snd) [0x41, 0x6F22, 0x20, 0x41] ∧ (∀ x ∈ segs, SharedBy toyClean x.2 x.1) ∧ ForcedBorders toyClean segs :=
  C22_borders_forced toyClean_ok _

example : escape cLocale [0x41, 0x1B] ≠ escape cLocale [0x41, 0x5C] :=
  fun h => absurd (C59_escape_injective cLocale_ok _ _ (by decide) (by decide) h) (by decide)

example : ∃ out, scripts toyEnv [0xE2, 0x82, 0xFF, 0x41] = .ok out := C59_scripts_safe toyScripts_ok _

example : ∃ o, query toyQuery [lit "gc", lit "-e", [0xC3]] = .ok o ∧ o.code ≤ 1 := C60_safe cLocale_ok toyScripts_ok _ (by decide +kernel)

example : query toyQuery [lit "U+xx"] = query toyQuery [lit "properties", lit "U+xx"] :=
  C60_default toyQuery _ _ (by decide +kernel) (by decide +kernel) (by decide +kernel) (by decide +kernel)

example : prettyAge (lit "V15_1") = lit "15.1" := C60_age (lit "15") (lit "1") (by decide +kernel) (by decide +kernel)

example : ∀ x ∈ escaped cLocale [0x41, 0x22, 0x0A, 0xC3, 0xA9], 0x20 ≤ x ∧ x ≤ 0x7E ∧ x ≠ 0x22 :=
  C60_escaped_printable cLocale_ok (fun b hb => by unfold cLocale; simp; omega) _ (by decide)

example : escapeControlCodes true (lit "plain text") = lit "plain text" := C60_shown_unchanged_partial true _ (by decide +kernel)

end tools

/-! ## Scanning, vectors, machines -/

section scan
open Verif.Scan Verif.Simd Verif.Props.Scan Verif.Props.Simd

example : scanAscii .none 16 [0x41, 0x42, 0x0A] 80 = scanAscii .intrin512 64 [0x41, 0x42, 0x0A] 80 := C11_cpu_independent _ _ _ _ _ (by decide) _

example : ∃ R, scanText Toy.toy .none 16 (State.init Toy.toy) none [] [0x41, 0xC3, 0xA4, 0xFF, 0xE2] 80 = .ok R ∧ R.start = 0 ∧ 0 ≤ R.fin ∧ R.fin ≤ R.next ∧
    R.next ≤ 5 ∧ R.count ≤ 81 := by
  obtain ⟨R, h, h1, h2, h3, h4, -⟩ := C13_pointers_partial Toy.toy .none 16 (State.init Toy.toy) none rfl rfl [0x41, 0xC3, 0xA4, 0xFF, 0xE2] (by decide) 80
  exact ⟨R, h, h1, h2, h3, h4, (C12_limit_partial Toy.toy .none 16 _ none [] _ (by decide) (by simp) 80 R h).1⟩

/-- A watch in one chunk, U+FE0E and a letter in the next, cut within the selector: at most one column too many. -/
example : ∃ (n : Nat) (st : State) (R : Out),
    Scanned Toy.toy .none 16 (State.init Toy.toy) [[0xE2, 0x8C, 0x9A, 0xEF], [0xB8, 0x8E, 0x61]] n st ∧
    scanText Toy.toy .intrin256 32 (State.init Toy.toy) none [] (toUtf8Str [0x231A, 0xFE0E, 0x61]) 100 = .ok R ∧
    R.next = (toUtf8Str [0x231A, 0xFE0E, 0x61]).length ∧ R.st = st ∧ R.count ≤ n ∧ n ≤ R.count + [0x231A, 0xFE0E, 0x61].count 0xFE0E := by
  obtain ⟨n, st, h⟩ : ∃ n st, Scanned Toy.toy .none 16 (State.init Toy.toy) [[0xE2, 0x8C, 0x9A, 0xEF], [0xB8, 0x8E, 0x61]] n st :=
    ⟨_, _, .cons (pre := []) (max := 20) (by decide) rfl (by decide +kernel)
      (.cons (pre := []) (max := 20) (by decide) rfl (by decide +kernel) (.nil _))⟩
  obtain ⟨R, hR, -⟩ := C13_pointers_partial Toy.toy .intrin256 32 (State.init Toy.toy) none rfl rfl (toUtf8Str [0x231A, 0xFE0E, 0x61]) (by decide +kernel) 100
  exact ⟨n, st, R, h, hR, C45_text toy_width_ok.le_two .none .intrin256 16 32 _ (by decide) _ (by decide +kernel) n st h 100 (by decide +kernel) R hR⟩

end scan

end Verif.Props.Instances
