import Verif.Model.Case
import Verif.Spec.Case
import Verif.Props.Tables
import Verif.Props.Word
import Verif.Props.Convert
/-!
# C33 – C35, C42, C43: case mapping
-/

namespace Verif.Props.Case
open Verif.Utf8 Verif.Tables Verif.Ucd Verif.Word Verif.Case Verif.Spec.Case
open Verif.Props.Tables (Sorted)

/-- All eight tables are sorted by source (what the table writer produces). -/
structure TablesSorted (T : CaseTables) : Prop where
  su : Sorted (·.1) T.simpleUpper
  sl : Sorted (·.1) T.simpleLower
  st : Sorted (·.1) T.simpleTitle
  sf : Sorted (·.1) T.simpleFold
  fu : Sorted (·.1) T.fullUpper
  fl : Sorted (·.1) T.fullLower
  ft : Sorted (·.1) T.fullTitle
  ff : Sorted (·.1) T.fullFold

/-- The codepoints a mapping result stands for: case_mapping.h:39-40. -/
def apply (m : List Nat) (c : Nat) : List Nat := if m = [] then [c] else m

theorem append_eq (acc m : List Nat) (c : Nat) : Verif.Case.append acc m c = acc ++ apply m c := by
  unfold Verif.Case.append apply; split <;> rfl

theorem mapLoop_eq (m : Nat → List Nat) (acc text : List Nat) :
    mapLoop m acc text = acc ++ text.flatMap (fun c => apply (m c) c) := by
  induction text generalizing acc with
  | nil => simp [mapLoop]
  | cons c cs ih => rw [mapLoop, ih, append_eq, List.flatMap_cons, List.append_assoc]

/-! ### One codepoint -/

theorem full_cases (tab : List (Nat × List Nat)) (hs : Sorted (·.1) tab) (c : Nat) :
    (∃ ds, Listed tab c ds ∧ full tab c = ds) ∨ ((∀ ds, ¬ Listed tab c ds) ∧ full tab c = []) := by
  have h := Verif.Props.Tables.C36_list tab hs c
  by_cases hex : ∃ ds, (c, ds) ∈ tab
  · obtain ⟨ds, hd⟩ := hex
    exact Or.inl ⟨ds, hd, by unfold full; rw [h.1 ds hd]; rfl⟩
  · have hn : ∀ ds, (c, ds) ∉ tab := fun ds hd => hex ⟨ds, hd⟩
    exact Or.inr ⟨hn, by unfold full; rw [h.2 hn]; rfl⟩

theorem simple_cases (tab : List (Nat × Nat)) (hs : Sorted (·.1) tab) (c : Nat) :
    (∃ d, Listed tab c d ∧ simple tab c = d) ∨ ((∀ d, ¬ Listed tab c d) ∧ simple tab c = c) := by
  have h := Verif.Props.Tables.C36_simple tab hs c
  by_cases hex : ∃ d, (c, d) ∈ tab
  · obtain ⟨d, hd⟩ := hex
    exact Or.inl ⟨d, hd, by unfold simple; rw [h.1 d hd]; rfl⟩
  · have hn : ∀ d, (c, d) ∉ tab := fun d hd => hex ⟨d, hd⟩
    exact Or.inr ⟨hn, by unfold simple; rw [h.2 hn]; rfl⟩

theorem listed_unique {β : Type} (tab : List (Nat × β)) (hs : Sorted (·.1) tab) (c : Nat) (d e : β)
    (h1 : Listed tab c d) (h2 : Listed tab c e) : d = e := by
  have a := (find?_key_unique tab (·.1) hs c (c, d)).2 ⟨h1, rfl⟩
  have b := (find?_key_unique tab (·.1) hs c (c, e)).2 ⟨h2, rfl⟩
  rw [a] at b
  injection b with b
  injection b

/-- `MapsTo` is a function when the tables are sorted. -/
theorem mapsTo_unique (ascii : Nat → Option Nat) (ftab : List (Nat × List Nat)) (stab : List (Nat × Nat))
    (hf : Sorted (·.1) ftab) (hs : Sorted (·.1) stab) (c : Nat) (x y : List Nat)
    (hx : MapsTo ascii ftab stab c x) (hy : MapsTo ascii ftab stab c y) : x = y := by
  cases hx with
  | full h1 h2 =>
    cases hy with
    | full h3 _ => exact listed_unique ftab hf c _ _ h1 h3
    | ascii h3 _ => exact absurd (h3 _ h1) h2
    | one h3 _ _ => exact absurd (h3 _ h1) h2
    | same h3 _ _ => exact absurd (h3 _ h1) h2
  | ascii h1 h2 =>
    cases hy with
    | full h3 h4 => exact absurd (h1 _ h3) h4
    | ascii _ h4 => rw [h2] at h4; injection h4 with h; rw [h]
    | one _ h4 _ => rw [h2] at h4; exact absurd h4 (by simp)
    | same _ h4 _ => rw [h2] at h4; exact absurd h4 (by simp)
  | one h1 h2 h5 =>
    cases hy with
    | full h3 h4 => exact absurd (h1 _ h3) h4
    | ascii _ h4 => rw [h2] at h4; exact absurd h4 (by simp)
    | one _ _ h6 => rw [listed_unique stab hs c _ _ h5 h6]
    | same _ _ h6 => exact absurd h5 (h6 _)
  | same h1 h2 h5 =>
    cases hy with
    | full h3 h4 => exact absurd (h1 _ h3) h4
    | ascii _ h4 => rw [h2] at h4; exact absurd h4 (by simp)
    | one _ _ h6 => exact absurd h6 (h5 _)
    | same _ _ _ => rfl

/-- The four `full_*` functions compute `MapsTo`. -/
theorem mapsTo_of (ascii : Nat → Option Nat) (ftab : List (Nat × List Nat)) (stab : List (Nat × Nat))
    (hf : Sorted (·.1) ftab) (hs : Sorted (·.1) stab) (c s : Nat)
    (hsim : (∃ d, ascii c = some d ∧ s = d ∧ d ≠ c) ∨ (ascii c = none ∧ s = simple stab c)) :
    MapsTo ascii ftab stab c (apply (fullOr (full ftab c) s c) c) := by
  have hnofull : full ftab c = [] → ∀ ds, Listed ftab c ds → ds = [] := by
    intro h0 ds hds
    rcases full_cases ftab hf c with ⟨ds', h1, h2⟩ | ⟨h1, _⟩
    · rw [listed_unique ftab hf c _ _ hds h1, ← h2, h0]
    · exact absurd hds (h1 _)
  unfold fullOr
  by_cases h0 : full ftab c = []
  · rw [if_neg (by simpa using h0)]
    rcases hsim with ⟨d, h1, rfl, h3⟩ | ⟨h1, rfl⟩
    · rw [if_pos h3]
      exact .ascii (hnofull h0) h1
    · rcases simple_cases stab hs c with ⟨d, h2, h3⟩ | ⟨h2, h3⟩
      · by_cases hd : simple stab c = c
        · rw [if_neg (by simpa using hd)]
          rw [hd] at h3; subst h3
          exact .one (hnofull h0) h1 h2
        · rw [if_pos hd]
          rw [h3]
          exact .one (hnofull h0) h1 h2
      · rw [if_neg (by simpa using h3)]
        exact .same (hnofull h0) h1 h2
  · rw [if_pos h0]
    rcases full_cases ftab hf c with ⟨ds, h1, h2⟩ | ⟨_, h2⟩
    · unfold apply; rw [if_neg h0, h2]
      exact .full h1 (by rw [← h2]; exact h0)
    · exact absurd h2 h0

theorem lower_sim (stab : List (Nat × Nat)) (c s : Nat) (hs : s = if isAsciiUpper c then c + 0x20 else simple stab c) :
    (∃ d, asciiDown c = some d ∧ s = d ∧ d ≠ c) ∨ (asciiDown c = none ∧ s = simple stab c) := by
  unfold asciiDown
  by_cases h : 65 ≤ c ∧ c ≤ 90
  · left
    rw [if_pos h]
    have : isAsciiUpper c = true := by unfold isAsciiUpper; rw [Bool.and_eq_true, decide_eq_true_iff, decide_eq_true_iff]; exact h
    rw [this] at hs
    exact ⟨c + 32, rfl, hs, by omega⟩
  · right
    rw [if_neg h]
    have : ¬ isAsciiUpper c = true := by
      unfold isAsciiUpper; rw [Bool.and_eq_true, decide_eq_true_iff, decide_eq_true_iff]; exact h
    rw [if_neg this] at hs
    exact ⟨rfl, hs⟩

theorem upper_sim (stab : List (Nat × Nat)) (c s : Nat) (hs : s = if isAsciiLower c then c - 0x20 else simple stab c) :
    (∃ d, asciiUp c = some d ∧ s = d ∧ d ≠ c) ∨ (asciiUp c = none ∧ s = simple stab c) := by
  unfold asciiUp
  by_cases h : 97 ≤ c ∧ c ≤ 122
  · left
    rw [if_pos h]
    have : isAsciiLower c = true := by unfold isAsciiLower; rw [Bool.and_eq_true, decide_eq_true_iff, decide_eq_true_iff]; exact h
    rw [this] at hs
    exact ⟨c - 32, rfl, hs, by omega⟩
  · right
    rw [if_neg h]
    have : ¬ isAsciiLower c = true := by
      unfold isAsciiLower; rw [Bool.and_eq_true, decide_eq_true_iff, decide_eq_true_iff]; exact h
    rw [if_neg this] at hs
    exact ⟨rfl, hs⟩

/-- The result of the four single-codepoint functions, "identity" read as the codepoint itself. -/
def upperOf (T : CaseTables) (c : Nat) : List Nat := apply (fullUppercase T c) c
def lowerOf (T : CaseTables) (c : Nat) : List Nat := apply (fullLowercase T c) c
def titleOf (T : CaseTables) (c : Nat) : List Nat := apply (fullTitlecase T c) c
def foldOf (T : CaseTables) (c : Nat) : List Nat := apply (fullCasefold T c) c

/-- **C33, one codepoint.** `full_uppercase`, `full_lowercase`, `full_titlecase` and `full_casefold` (empty result read as
"unchanged") compute the mapping the tables describe. -/
theorem C33_codepoint (T : CaseTables) (hT : TablesSorted T) (c : Nat) :
    MapsTo asciiUp T.fullUpper T.simpleUpper c (upperOf T c)
    ∧ MapsTo asciiDown T.fullLower T.simpleLower c (lowerOf T c)
    ∧ MapsTo asciiUp T.fullTitle T.simpleTitle c (titleOf T c)
    ∧ MapsTo asciiDown T.fullFold T.simpleFold c (foldOf T c) :=
  ⟨mapsTo_of _ _ _ hT.fu hT.su c _ (upper_sim _ c _ rfl), mapsTo_of _ _ _ hT.fl hT.sl c _ (lower_sim _ c _ rfl),
   mapsTo_of _ _ _ hT.ft hT.st c _ (upper_sim _ c _ rfl), mapsTo_of _ _ _ hT.ff hT.sf c _ (lower_sim _ c _ rfl)⟩

theorem toUppercase_eq (T : CaseTables) (text : List Nat) : toUppercase T text = text.flatMap (upperOf T) := by
  unfold toUppercase; rw [mapLoop_eq]; rfl
theorem toLowercase_eq (T : CaseTables) (text : List Nat) : toLowercase T text = text.flatMap (lowerOf T) := by
  unfold toLowercase; rw [mapLoop_eq]; rfl
theorem casefold_eq (T : CaseTables) (text : List Nat) : casefold T text = text.flatMap (foldOf T) := by
  unfold casefold; rw [mapLoop_eq]; rfl

theorem mapsText_iff (R : Nat → List Nat → Prop) (f : Nat → List Nat) (hf : ∀ c, R c (f c))
    (hu : ∀ c x y, R c x → R c y → x = y) (text out : List Nat) :
    MapsText R text out ↔ out = text.flatMap f := by
  constructor
  · intro h
    induction h with
    | nil => rfl
    | cons h1 _ ih => rw [ih, List.flatMap_cons, hu _ _ _ h1 (hf _)]
  · rintro rfl
    induction text with
    | nil => exact .nil
    | cons c cs ih => rw [List.flatMap_cons]; exact .cons (hf c) ih

/-- **C33.** For all sorted tables and every text, `to_uppercase`, `to_lowercase` and `casefold` return the text in which
every codepoint is replaced by its mapping, and nothing else does. -/
theorem C33_exact (T : CaseTables) (hT : TablesSorted T) (text out : List Nat) :
    (MapsText (MapsTo asciiUp T.fullUpper T.simpleUpper) text out ↔ out = toUppercase T text)
    ∧ (MapsText (MapsTo asciiDown T.fullLower T.simpleLower) text out ↔ out = toLowercase T text)
    ∧ (MapsText (MapsTo asciiDown T.fullFold T.simpleFold) text out ↔ out = casefold T text) := by
  rw [toUppercase_eq, toLowercase_eq, casefold_eq]
  exact ⟨mapsText_iff _ _ (fun c => (C33_codepoint T hT c).1) (fun c x y => mapsTo_unique _ _ _ hT.fu hT.su c x y) _ _,
    mapsText_iff _ _ (fun c => (C33_codepoint T hT c).2.1) (fun c x y => mapsTo_unique _ _ _ hT.fl hT.sl c x y) _ _,
    mapsText_iff _ _ (fun c => (C33_codepoint T hT c).2.2.2) (fun c x y => mapsTo_unique _ _ _ hT.ff hT.sf c x y) _ _⟩

/-- **C33.** Case mapping of a concatenation is the concatenation of the results. -/
theorem C33_homomorphism (T : CaseTables) (a b : List Nat) :
    toUppercase T (a ++ b) = toUppercase T a ++ toUppercase T b
    ∧ toLowercase T (a ++ b) = toLowercase T a ++ toLowercase T b
    ∧ casefold T (a ++ b) = casefold T a ++ casefold T b := by
  simp only [toUppercase_eq, toLowercase_eq, casefold_eq, List.flatMap_append, and_self]

/-- **C33.** The UTF-8 overloads return the UTF-8 encoding of the UTF-32 result, on every CPU. -/
theorem C33_utf8 (U : Table) (T : CaseTables) (simd : Nat) (text : List Nat) (h : ∀ c ∈ text, c ≤ 0x1FFFFF) :
    toUppercase8 T simd (toUtf8Str text) = .ok (toUtf8Str (toUppercase T text))
    ∧ toLowercase8 T simd (toUtf8Str text) = .ok (toUtf8Str (toLowercase T text))
    ∧ toTitlecase8 U T simd (toUtf8Str text) = .ok (toUtf8Str (toTitlecase U T text))
    ∧ casefold8 T simd (toUtf8Str text) = .ok (toUtf8Str (casefold T text)) := by
  have key : ∀ op : List Nat → List Nat, viaUtf32 op simd (toUtf8Str text) = .ok (toUtf8Str (op text)) := by
    intro op
    unfold viaUtf32 Convert.convertTo8From32
    rw [Verif.Props.C02_utf8_string_roundtrip simd text h, Convert.convert32_any, toUtf8Str_eq]
    rfl
  exact ⟨key _, key _, key _, key _⟩

/-- **C33.** The UTF-8 overloads never fail, on any bytes, and their output encodes the mapping of what the bytes decode
to. -/
theorem C33_utf8_any (T : CaseTables) (simd : Nat) (bytes : List Nat) :
    toUppercase8 T simd bytes = .ok (toUtf8Str (toUppercase T (Convert.fromUtf8Str simd bytes)))
    ∧ toLowercase8 T simd bytes = .ok (toUtf8Str (toLowercase T (Convert.fromUtf8Str simd bytes)))
    ∧ casefold8 T simd bytes = .ok (toUtf8Str (casefold T (Convert.fromUtf8Str simd bytes))) := by
  have key : ∀ op : List Nat → List Nat, viaUtf32 op simd bytes = .ok (toUtf8Str (op (Convert.fromUtf8Str simd bytes))) := by
    intro op
    unfold viaUtf32 Convert.convertTo8From32
    rw [Convert.convert32_any, toUtf8Str_eq]; rfl
  exact ⟨key _, key _, key _⟩

/-- Every full mapping has at most three codepoints (`MaxCaseMappingLength`, the size of the target array). -/
def Short (tab : List (Nat × List Nat)) : Prop := ∀ e ∈ tab, e.2.length ≤ 3

theorem apply_length (tab : List (Nat × List Nat)) (hs : Sorted (·.1) tab) (h3 : Short tab) (c s : Nat) :
    1 ≤ (apply (fullOr (full tab c) s c) c).length ∧ (apply (fullOr (full tab c) s c) c).length ≤ 3 := by
  unfold fullOr
  by_cases h0 : full tab c = []
  · rw [if_neg (by simpa using h0)]
    by_cases hc : s = c
    · rw [if_neg (by simpa using hc)]; simp [apply]
    · rw [if_pos hc]; simp [apply]
  · rw [if_pos h0]
    unfold apply
    rw [if_neg h0]
    rcases full_cases tab hs c with ⟨ds, h1, h2⟩ | ⟨_, h2⟩
    · rw [h2]
      exact ⟨List.length_pos_iff.2 (by rw [← h2]; exact h0), h3 _ h1⟩
    · exact absurd h2 h0

theorem flatMap_bounds (f : Nat → List Nat) (h : ∀ c, 1 ≤ (f c).length ∧ (f c).length ≤ 3) (text : List Nat) :
    text.length ≤ (text.flatMap f).length ∧ (text.flatMap f).length ≤ 3 * text.length := by
  induction text with
  | nil => simp
  | cons c cs ih =>
    have := h c
    rw [List.flatMap_cons, List.length_append, List.length_cons]
    omega

/-- **C33.** No text shrinks and none grows more than threefold. -/
theorem C33_length (T : CaseTables) (hT : TablesSorted T) (hu : Short T.fullUpper) (hl : Short T.fullLower)
    (hf : Short T.fullFold) (text : List Nat) :
    (text.length ≤ (toUppercase T text).length ∧ (toUppercase T text).length ≤ 3 * text.length)
    ∧ (text.length ≤ (toLowercase T text).length ∧ (toLowercase T text).length ≤ 3 * text.length)
    ∧ (text.length ≤ (casefold T text).length ∧ (casefold T text).length ≤ 3 * text.length) := by
  rw [toUppercase_eq, toLowercase_eq, casefold_eq]
  exact ⟨flatMap_bounds _ (fun c => apply_length _ hT.fu hu c _) _, flatMap_bounds _ (fun c => apply_length _ hT.fl hl c _) _,
    flatMap_bounds _ (fun c => apply_length _ hT.ff hf c _) _⟩

/-! ### A concrete instance -/

/-- A fragment of the Unicode case tables: é, ß, ŉ, İ, ǆ/ǅ/Ǆ and the ﬃ ligature. -/
def sample : CaseTables where
  simpleUpper := [(0xE9, 0xC9), (0x1C5, 0x1C4), (0x1C6, 0x1C4)]
  simpleLower := [(0xC9, 0xE9), (0x130, 0x69), (0x1C4, 0x1C6), (0x1C5, 0x1C6), (0x1E9E, 0xDF)]
  simpleTitle := [(0xE9, 0xC9), (0x1C4, 0x1C5), (0x1C5, 0x1C5), (0x1C6, 0x1C5)]
  simpleFold := [(0xC9, 0xE9), (0x1C4, 0x1C6), (0x1C5, 0x1C6), (0x1E9E, 0xDF)]
  fullUpper := [(0xDF, [0x53, 0x53]), (0x149, [0x2BC, 0x4E]), (0xFB03, [0x46, 0x46, 0x49])]
  fullLower := [(0x130, [0x69, 0x307])]
  fullTitle := [(0xDF, [0x53, 0x73]), (0x149, [0x2BC, 0x4E]), (0xFB03, [0x46, 0x66, 0x69])]
  fullFold := [(0xC9, [0xE9]), (0xDF, [0x73, 0x73]), (0x1E9E, [0x73, 0x73]), (0xFB03, [0x66, 0x66, 0x69])]

theorem sample_sorted : TablesSorted sample := by
  refine ⟨?_, ?_, ?_, ?_, ?_, ?_, ?_, ?_⟩ <;> (unfold Sorted sample; decide)

theorem sample_short : Short sample.fullUpper ∧ Short sample.fullLower ∧ Short sample.fullFold := by
  refine ⟨?_, ?_, ?_⟩ <;> (unfold Short sample; decide)

/-- "Straße" in capitals. -/
example : toUppercase sample [0x53, 0x74, 0x72, 0x61, 0xDF, 0x65] = [0x53, 0x54, 0x52, 0x41, 0x53, 0x53, 0x45] := by
  apply ((C33_exact sample sample_sorted _ _).1.1 _).symm
  refine .cons (d := [0x53]) (.same (by simp [Listed, sample]) (by decide) (by simp [Listed, sample])) ?_
  refine .cons (d := [0x54]) (.ascii (by simp [Listed, sample]) (by decide)) ?_
  refine .cons (d := [0x52]) (.ascii (by simp [Listed, sample]) (by decide)) ?_
  refine .cons (d := [0x41]) (.ascii (by simp [Listed, sample]) (by decide)) ?_
  refine .cons (d := [0x53, 0x53]) (.full (by simp [Listed, sample]) (by decide)) ?_
  exact .cons (d := [0x45]) (.ascii (by simp [Listed, sample]) (by decide)) .nil

/-! ## C34: comparison -/

theorem stringCompare_cons (x y : Nat) (xs ys : List Nat) :
    stringCompare (x :: xs) (y :: ys) = if x < y then -1 else if y < x then 1 else stringCompare xs ys := by
  unfold stringCompare
  rw [List.length_cons, List.length_cons, Nat.add_min_add_right, traitsCompare]
  by_cases h1 : x < y
  · rw [if_pos h1, if_pos h1]; rfl
  · rw [if_neg h1, if_neg h1]
    by_cases h2 : y < x
    · rw [if_pos h2, if_pos h2]; rfl
    · rw [if_neg h2, if_neg h2]
      have : ((xs.length + 1 : Nat) : Int) - ((ys.length + 1 : Nat) : Int) = (xs.length : Int) - ys.length := by omega
      rw [this]

theorem stringCompare_nil_cons (y : Nat) (ys : List Nat) : stringCompare [] (y :: ys) < 0 := by
  unfold stringCompare
  simp only [List.length_nil, List.length_cons, Nat.zero_min, traitsCompare]
  simp only [ne_eq, not_true_eq_false, if_false]
  split
  · omega
  · split
    · omega
    · omega

theorem stringCompare_cons_nil (x : Nat) (xs : List Nat) : 0 < stringCompare (x :: xs) [] := by
  unfold stringCompare
  simp only [List.length_nil, List.length_cons, Nat.min_zero, traitsCompare]
  simp only [ne_eq, not_true_eq_false, if_false]
  split
  · omega
  · split
    · omega
    · omega

/-- `std::basic_string::compare` is the lexicographic order. -/
theorem stringCompare_spec (a b : List Nat) :
    (stringCompare a b < 0 ↔ a < b) ∧ (stringCompare a b = 0 ↔ a = b) ∧ (0 < stringCompare a b ↔ b < a) := by
  induction a generalizing b with
  | nil =>
    cases b with
    | nil => simp [stringCompare, traitsCompare]
    | cons y ys =>
      have := stringCompare_nil_cons y ys
      refine ⟨⟨fun _ => by simp, fun _ => this⟩, ⟨fun h => by omega, fun h => by simp at h⟩, ⟨fun h => by omega, fun h => by simp at h⟩⟩
  | cons x xs ih =>
    cases b with
    | nil =>
      have := stringCompare_cons_nil x xs
      refine ⟨⟨fun h => by omega, fun h => by simp at h⟩, ⟨fun h => by omega, fun h => by simp at h⟩, ⟨fun _ => by simp, fun _ => this⟩⟩
    | cons y ys =>
      rw [stringCompare_cons, List.cons_lt_cons_iff, List.cons_lt_cons_iff, List.cons.injEq]
      obtain ⟨i1, i2, i3⟩ := ih ys
      by_cases h1 : x < y
      · rw [if_pos h1]; refine ⟨?_, ?_, ?_⟩ <;> omega
      · rw [if_neg h1]
        by_cases h2 : y < x
        · rw [if_pos h2]; refine ⟨?_, ?_, ?_⟩ <;> omega
        · rw [if_neg h2]
          have : x = y := by omega
          subst this
          simp [i1, i2, i3]

/-- **C34.** `casefold_compare` compares the folded texts lexicographically by codepoint. -/
theorem C34_compare (T : CaseTables) (a b : List Nat) :
    (casefoldCompare T a b < 0 ↔ casefold T a < casefold T b)
    ∧ (casefoldCompare T a b = 0 ↔ casefold T a = casefold T b)
    ∧ (0 < casefoldCompare T a b ↔ casefold T b < casefold T a) := stringCompare_spec _ _

/-- **C34.** The comparison is a total preorder: reflexive, antisymmetric in sign, transitive. -/
theorem C34_total_preorder (T : CaseTables) :
    (∀ a, casefoldCompare T a a = 0)
    ∧ (∀ a b, casefoldCompare T a b < 0 ↔ 0 < casefoldCompare T b a)
    ∧ (∀ a b c, casefoldCompare T a b ≤ 0 → casefoldCompare T b c ≤ 0 → casefoldCompare T a c ≤ 0)
    ∧ (∀ a b c, casefoldCompare T a b < 0 → casefoldCompare T b c ≤ 0 → casefoldCompare T a c < 0) := by
  have hle : ∀ x y, casefoldCompare T x y ≤ 0 ↔ casefold T x ≤ casefold T y := by
    intro x y
    have := C34_compare T x y
    rw [show (casefoldCompare T x y ≤ 0) ↔ ¬ (0 < casefoldCompare T x y) by omega, this.2.2]
    exact List.not_lt
  refine ⟨fun a => (C34_compare T a a).2.1.2 rfl, fun a b => ?_, fun a b c h1 h2 => ?_, fun a b c h1 h2 => ?_⟩
  · rw [(C34_compare T a b).1, (C34_compare T b a).2.2]
  · rw [hle] at *; exact List.le_trans h1 h2
  · rw [hle] at h2
    rw [(C34_compare T a b).1] at h1
    rw [(C34_compare T a c).1]
    by_contra hn
    rw [List.not_lt] at hn
    exact absurd h1 (List.not_lt.2 (List.le_trans h2 hn))

/-- **C34.** `casefold_equals` holds exactly when the folded texts are the same, hence is an equivalence relation. -/
theorem C34_equals (T : CaseTables) (a b : List Nat) : casefoldEquals T a b = true ↔ casefold T a = casefold T b := by
  unfold casefoldEquals
  rw [beq_iff_eq]
  exact (C34_compare T a b).2.1

theorem C34_equivalence (T : CaseTables) : Equivalence (fun a b => casefoldEquals T a b = true) := by
  refine ⟨fun a => (C34_equals T a a).2 rfl, fun {a b} h => ?_, fun {a b c} h1 h2 => ?_⟩
  · rw [C34_equals] at *; exact h.symm
  · rw [C34_equals] at *; exact h1.trans h2

/-- Encoding in UTF-8 preserves the order of codepoints, whatever follows. -/
theorem toUtf8_lt (c d : Nat) (h : c < d) (hd : d ≤ 0x1FFFFF) (r s : List Nat) : toUtf8 c ++ r < toUtf8 d ++ s := by
  rw [toUtf8_eq, toUtf8_eq]
  have : ∀ (p : Prop) [Decidable p], p ∨ ¬ p := fun p _ => Decidable.em p
  rcases this (c ≤ 0x7F) with c1 | c1
  · rw [if_pos c1]
    rcases this (d ≤ 0x7F) with d1 | d1
    · rw [if_pos d1]; simp only [List.cons_append, List.nil_append, List.cons_lt_cons_iff]; omega
    · rw [if_neg d1]
      rcases this (d ≤ 0x7FF) with d2 | d2
      · rw [if_pos d2]; simp only [List.cons_append, List.nil_append, List.cons_lt_cons_iff]; omega
      · rw [if_neg d2]
        rcases this (d ≤ 0xFFFF) with d3 | d3
        · rw [if_pos d3]; simp only [List.cons_append, List.nil_append, List.cons_lt_cons_iff]; omega
        · rw [if_neg d3]; simp only [List.cons_append, List.nil_append, List.cons_lt_cons_iff]; omega
  · rw [if_neg c1, if_neg (show ¬ d ≤ 0x7F by omega)]
    rcases this (c ≤ 0x7FF) with c2 | c2
    · rw [if_pos c2]
      rcases this (d ≤ 0x7FF) with d2 | d2
      · rw [if_pos d2]; simp only [List.cons_append, List.nil_append, List.cons_lt_cons_iff]; omega
      · rw [if_neg d2]
        rcases this (d ≤ 0xFFFF) with d3 | d3
        · rw [if_pos d3]; simp only [List.cons_append, List.nil_append, List.cons_lt_cons_iff]; omega
        · rw [if_neg d3]; simp only [List.cons_append, List.nil_append, List.cons_lt_cons_iff]; omega
    · rw [if_neg c2, if_neg (show ¬ d ≤ 0x7FF by omega)]
      rcases this (c ≤ 0xFFFF) with c3 | c3
      · rw [if_pos c3]
        rcases this (d ≤ 0xFFFF) with d3 | d3
        · rw [if_pos d3]; simp only [List.cons_append, List.nil_append, List.cons_lt_cons_iff]; omega
        · rw [if_neg d3]; simp only [List.cons_append, List.nil_append, List.cons_lt_cons_iff]; omega
      · rw [if_neg c3, if_neg (show ¬ d ≤ 0xFFFF by omega)]
        have e1 : c / 4096 / 64 = c / 262144 := by rw [Nat.div_div_eq_div_mul]
        have e2 : c / 64 / 64 = c / 4096 := by rw [Nat.div_div_eq_div_mul]
        have e3 : d / 4096 / 64 = d / 262144 := by rw [Nat.div_div_eq_div_mul]
        have e4 : d / 64 / 64 = d / 4096 := by rw [Nat.div_div_eq_div_mul]
        have e5 : c / 262144 % 8 = c / 262144 := by omega
        have e6 : d / 262144 % 8 = d / 262144 := by omega
        simp only [List.cons_append, List.nil_append, List.cons_lt_cons_iff]; omega

/-- Strings of codepoints up to 0x1FFFFF are ordered like their encodings. -/
theorem toUtf8Str_lt (xs ys : List Nat) (hx : ∀ c ∈ xs, c ≤ 0x1FFFFF) (hy : ∀ c ∈ ys, c ≤ 0x1FFFFF) (h : xs < ys) :
    toUtf8Str xs < toUtf8Str ys := by
  rw [toUtf8Str_eq, toUtf8Str_eq]
  induction xs generalizing ys with
  | nil =>
    cases ys with
    | nil => simp at h
    | cons y ys =>
      rw [List.flatMap_cons]
      cases he : toUtf8 y with
      | nil => exact absurd he (toUtf8_ne_nil y)
      | cons b bs => simp
  | cons x xs ih =>
    cases ys with
    | nil => simp at h
    | cons y ys =>
      rw [List.flatMap_cons, List.flatMap_cons]
      rw [List.cons_lt_cons_iff] at h
      rcases h with h | ⟨rfl, h⟩
      · exact toUtf8_lt x y h (hy y (by simp)) _ _
      · have := ih ys (fun c hc => hx c (by simp [hc])) (fun c hc => hy c (by simp [hc])) h
        generalize toUtf8 x = p
        induction p with
        | nil => exact this
        | cons b bs ihb => rw [List.cons_append, List.cons_append, List.cons_lt_cons_iff]; exact Or.inr ⟨rfl, ihb⟩

/-- All folding targets are below 2^21 (the real ones are Unicode codepoints). -/
def Encodable (T : CaseTables) : Prop :=
  (∀ e ∈ T.simpleFold, e.2 ≤ 0x1FFFFF) ∧ (∀ e ∈ T.fullFold, ∀ d ∈ e.2, d ≤ 0x1FFFFF)

theorem casefold_encodable (T : CaseTables) (hT : TablesSorted T) (hE : Encodable T) (a : List Nat)
    (ha : ∀ c ∈ a, c ≤ 0x1FFFFF) : ∀ c ∈ casefold T a, c ≤ 0x1FFFFF := by
  intro d hd
  rw [casefold_eq, List.mem_flatMap] at hd
  obtain ⟨c, hc, hd⟩ := hd
  have hc' := ha c hc
  have hm := (C33_codepoint T hT c).2.2.2
  generalize foldOf T c = out at hm hd
  cases hm with
  | full h1 _ => exact hE.2 _ h1 d hd
  | ascii _ h2 =>
    unfold asciiDown at h2
    split at h2
    · injection h2 with h2
      rw [List.mem_singleton] at hd
      omega
    · exact absurd h2 (by simp)
  | one _ _ h3 => rw [List.mem_singleton] at hd; rw [hd]; exact hE.1 _ h3
  | same _ _ _ => rw [List.mem_singleton] at hd; rw [hd]; exact hc'

/-- **C34.** For UTF-8 strings the comparison has the same sign as for the UTF-32 strings they encode, so both overloads
order text alike. -/
theorem C34_utf8_agrees (T : CaseTables) (hT : TablesSorted T) (hE : Encodable T) (simd : Nat) (a b : List Nat)
    (ha : ∀ c ∈ a, c ≤ 0x1FFFFF) (hb : ∀ c ∈ b, c ≤ 0x1FFFFF) :
    ∃ r, casefoldCompare8 T simd (toUtf8Str a) (toUtf8Str b) = .ok r
      ∧ (r < 0 ↔ casefoldCompare T a b < 0) ∧ (r = 0 ↔ casefoldCompare T a b = 0) ∧ (0 < r ↔ 0 < casefoldCompare T a b) := by
  refine ⟨stringCompare (toUtf8Str (casefold T a)) (toUtf8Str (casefold T b)), ?_, ?_⟩
  · unfold casefoldCompare8
    rw [(C33_utf8 (fun _ => {}) T simd a ha).2.2.2, (C33_utf8 (fun _ => {}) T simd b hb).2.2.2]
  · have hfa := casefold_encodable T hT hE a ha
    have hfb := casefold_encodable T hT hE b hb
    have h8 := stringCompare_spec (toUtf8Str (casefold T a)) (toUtf8Str (casefold T b))
    have h32 := C34_compare T a b
    rcases (show casefoldCompare T a b < 0 ∨ casefoldCompare T a b = 0 ∨ 0 < casefoldCompare T a b by omega) with h | h | h
    · have := h8.1.2 (toUtf8Str_lt _ _ hfa hfb (h32.1.1 h))
      refine ⟨?_, ?_, ?_⟩ <;> omega
    · have := h8.2.1.2 (by rw [h32.2.1.1 h])
      refine ⟨?_, ?_, ?_⟩ <;> omega
    · have := h8.2.2.2 (toUtf8Str_lt _ _ hfb hfa (h32.2.2.1 h))
      refine ⟨?_, ?_, ?_⟩ <;> omega

/-- **C34.** So do the two overloads of `casefold_equals`. -/
theorem C34_utf8_equals (T : CaseTables) (hT : TablesSorted T) (hE : Encodable T) (simd : Nat) (a b : List Nat)
    (ha : ∀ c ∈ a, c ≤ 0x1FFFFF) (hb : ∀ c ∈ b, c ≤ 0x1FFFFF) :
    casefoldEquals8 T simd (toUtf8Str a) (toUtf8Str b) = .ok (casefoldEquals T a b) := by
  obtain ⟨r, hr, -, h0, -⟩ := C34_utf8_agrees T hT hE simd a b ha hb
  unfold casefoldEquals8 casefoldEquals
  rw [hr]
  dsimp only
  congr 1
  rw [Bool.eq_iff_iff, beq_iff_eq, beq_iff_eq]
  exact h0

example : Encodable sample := by unfold Encodable sample; decide

/-- "STRASSE" and "straße" are equal up to case. -/
example : casefoldEquals sample [0x53, 0x54, 0x52, 0x41, 0x53, 0x53, 0x45] [0x73, 0x74, 0x72, 0x61, 0xDF, 0x65] = true := by
  rw [C34_equals]
  have h1 := (C33_exact sample sample_sorted [0x53, 0x54, 0x52, 0x41, 0x53, 0x53, 0x45] [0x73, 0x74, 0x72, 0x61, 0x73, 0x73, 0x65]).2.2
  have h2 := (C33_exact sample sample_sorted [0x73, 0x74, 0x72, 0x61, 0xDF, 0x65] [0x73, 0x74, 0x72, 0x61, 0x73, 0x73, 0x65]).2.2
  rw [← h1.1 ?_, ← h2.1 ?_]
  · have same : ∀ c, c ∈ [0x73, 0x74, 0x72, 0x61, 0x65] → MapsTo asciiDown sample.fullFold sample.simpleFold c [c] := by
      intro c hc
      simp only [List.mem_cons, List.not_mem_nil, or_false] at hc
      rcases hc with rfl | rfl | rfl | rfl | rfl <;>
        exact .same (by simp [Listed, sample]) (by decide) (by simp [Listed, sample])
    refine .cons (d := [0x73]) (same _ (by simp)) (.cons (d := [0x74]) (same _ (by simp)) (.cons (d := [0x72]) (same _ (by simp))
      (.cons (d := [0x61]) (same _ (by simp)) (.cons (d := [0x73, 0x73]) (.full (by simp [Listed, sample]) (by decide)) (.cons (d := [0x65]) (same _ (by simp)) .nil)))))
  · have up : ∀ c, 65 ≤ c → c ≤ 90 → MapsTo asciiDown sample.fullFold sample.simpleFold c [c + 32] := by
      intro c h1 h2
      refine .ascii ?_ (by unfold asciiDown; rw [if_pos ⟨h1, h2⟩])
      intro ds hds
      simp only [Listed, sample, List.mem_cons, Prod.mk.injEq, List.not_mem_nil, or_false] at hds
      omega
    exact .cons (d := [0x73]) (up _ (by omega) (by omega)) (.cons (d := [0x74]) (up _ (by omega) (by omega))
      (.cons (d := [0x72]) (up _ (by omega) (by omega)) (.cons (d := [0x61]) (up _ (by omega) (by omega))
      (.cons (d := [0x73]) (up _ (by omega) (by omega)) (.cons (d := [0x73]) (up _ (by omega) (by omega))
      (.cons (d := [0x65]) (up _ (by omega) (by omega)) .nil))))))

/-! ## C35: title casing -/

/-- One word in title case: nothing changes before the first cased codepoint, that one is title-cased, and behind it every
cased codepoint is lowercased. -/
def titleWordSpec (cased : Nat → Bool) (title lower : Nat → List Nat) (w : List Nat) : List Nat :=
  w.takeWhile (fun c => !cased c) ++
    match w.dropWhile (fun c => !cased c) with
    | [] => []
    | c :: cs => title c ++ cs.flatMap (fun d => if cased d then lower d else [d])

theorem titleWord_tail (U : Table) (T : CaseTables) (w acc : List Nat) :
    titleWordLoop U T false acc w = acc ++ w.flatMap (fun d => if isCased U d then lowerOf T d else [d]) := by
  induction w generalizing acc with
  | nil => simp [titleWordLoop]
  | cons c cs ih =>
    rw [titleWordLoop]
    by_cases h : isCased U c = true
    · simp only [h, Bool.and_true, Bool.false_eq_true, if_false, Bool.not_false, if_true]
      rw [ih, append_eq]
      simp [h, lowerOf]
    · simp only [Bool.not_eq_true] at h
      simp only [h, Bool.and_false, Bool.false_eq_true, if_false]
      rw [ih]
      simp [h]

theorem titleWord_eq (U : Table) (T : CaseTables) (w acc : List Nat) :
    titleWordLoop U T true acc w = acc ++ titleWordSpec (isCased U) (titleOf T) (lowerOf T) w := by
  induction w generalizing acc with
  | nil => simp [titleWordLoop, titleWordSpec]
  | cons c cs ih =>
    rw [titleWordLoop]
    by_cases h : isCased U c = true
    · simp only [h, Bool.and_true, if_true]
      rw [titleWord_tail, append_eq]
      simp [titleWordSpec, h, titleOf]
    · simp only [Bool.not_eq_true] at h
      simp only [h, Bool.and_false, Bool.false_eq_true, if_false]
      rw [ih]
      simp [titleWordSpec, h]

theorem titleLoop_eq (U : Table) (T : CaseTables) (fuel : Nat) (s : WState) (word rest acc : List Nat) (hw : word ≠ [])
    (hf : rest.length < fuel) :
    titleLoop U T fuel s word rest acc =
      acc ++ titleWordSpec (isCased U) (titleOf T) (lowerOf T) word ++
        (segmentsLoop U rest.length s rest).flatMap (titleWordSpec (isCased U) (titleOf T) (lowerOf T)) := by
  induction fuel generalizing s word rest acc with
  | zero => omega
  | succ fuel ih =>
    unfold titleLoop
    rw [if_neg (fun h => hw h.1)]
    cases rest with
    | nil => simp [titleWord_eq, segmentsLoop]
    | cons c cs =>
      dsimp only
      have ha := extendSegment_append U (processInit U c s) cs
      have hl := congrArg List.length ha
      rw [List.length_append] at hl
      rw [List.length_cons] at hf
      rw [ih _ _ _ _ (by simp) (by omega), titleWord_eq]
      rw [List.length_cons, segmentsLoop]
      rw [List.flatMap_cons, List.append_assoc, List.append_assoc, List.append_assoc]
      congr 3
      rw [show segmentsLoop U cs.length (extendSegment U (processInit U c s) cs).1 (extendSegment U (processInit U c s) cs).2.2
          = segmentsLoop U (extendSegment U (processInit U c s) cs).2.2.length _ _ from
        Verif.Props.Word.segmentsLoop_fuel U _ _ _ (by omega)]

/-- **C35.** `to_titlecase` treats the word segments of the text (C18, C19) one by one: in each of them the first cased codepoint is
replaced by its title case mapping, the cased codepoints behind it by their lower case mapping, and everything else is
unchanged. -/
theorem C35_titlecase (U : Table) (T : CaseTables) (hT : TablesSorted T) (text : List Nat) :
    ∃ (cased : Nat → Bool) (title lower : Nat → List Nat),
      (∀ c, cased c = true ↔ (U c).generalCategory = .Uppercase_Letter ∨ (U c).generalCategory = .Lowercase_Letter
        ∨ (U c).generalCategory = .Titlecase_Letter)
      ∧ (∀ c, MapsTo asciiUp T.fullTitle T.simpleTitle c (title c))
      ∧ (∀ c, MapsTo asciiDown T.fullLower T.simpleLower c (lower c))
      ∧ toTitlecase U T text = (segments U text).flatMap (titleWordSpec cased title lower) := by
  refine ⟨isCased U, titleOf T, lowerOf T, fun c => by simp [isCased, or_assoc], fun c => (C33_codepoint T hT c).2.2.1, fun c => (C33_codepoint T hT c).2.1, ?_⟩
  cases text with
  | nil => simp [toTitlecase, titleLoop, segments, segmentsLoop]
  | cons c cs =>
    unfold toTitlecase
    have hl := congrArg List.length (extendSegment_append U (processInit U c {}) cs)
    rw [List.length_append] at hl
    dsimp only
    rw [titleLoop_eq U T _ _ _ _ _ (by simp) (by rw [List.length_cons]; omega)]
    unfold segments
    rw [List.length_cons, segmentsLoop]
    rw [List.flatMap_cons, List.nil_append]
    congr 2
    exact (Verif.Props.Word.segmentsLoop_fuel U _ _ _ (by omega)).symm

/-- What `titleWordSpec` says, position by position: a codepoint is replaced depending on whether a cased codepoint precedes it in its
word. -/
theorem C35_positions (cased : Nat → Bool) (title lower : Nat → List Nat) (w : List Nat) :
    titleWordSpec cased title lower w =
      (w.zipIdx.map (fun p =>
        if cased p.1 then if (w.take p.2).any cased then lower p.1 else title p.1 else [p.1])).flatten := by
  have gen : ∀ (w pre : List Nat), 
      ((w.zipIdx pre.length).map (fun p =>
        if cased p.1 then if ((pre ++ w).take p.2).any cased then lower p.1 else title p.1 else [p.1])).flatten
      = if pre.any cased then w.flatMap (fun d => if cased d then lower d else [d]) else titleWordSpec cased title lower w := by
    intro w
    induction w with
    | nil => intro pre; simp [titleWordSpec]
    | cons c cs ih =>
      intro pre
      have := ih (pre ++ [c])
      rw [List.length_append, List.length_singleton, List.append_assoc, List.singleton_append] at this
      rw [List.zipIdx_cons, List.map_cons, List.flatten_cons, this]
      dsimp only
      rw [List.take_left']
      · by_cases hp : pre.any cased = true
        · simp [hp]
        · simp only [Bool.not_eq_true] at hp
          by_cases hc : cased c = true
          · simp [hp, hc, titleWordSpec]
          · simp only [Bool.not_eq_true] at hc
            simp [hp, hc, titleWordSpec]
      · rfl
  have := gen w []
  simp only [List.length_nil, List.nil_append, List.any_nil, Bool.false_eq_true, if_false] at this
  exact this.symm

/-- The toy data, with upper and lower case letters. -/
def lettered : Table := fun c =>
  if 65 ≤ c ∧ c ≤ 90 then { generalCategory := .Uppercase_Letter, wb := .ALetter }
  else if 97 ≤ c ∧ c ≤ 122 then { generalCategory := .Lowercase_Letter, wb := .ALetter }
  else if c = 0x1C6 then { generalCategory := .Lowercase_Letter, wb := .ALetter }
  else Verif.Toy.toy c

/-- "1aB ǆC" becomes "1Ab ǅc": the digit is skipped, the digraph gets its title case form. -/
example : toTitlecase lettered sample [0x31, 0x61, 0x42, 0x20, 0x1C6, 0x43] = [0x31, 0x41, 0x62, 0x20, 0x1C5, 0x63] := by
  decide +kernel

/-! ## C42: the changes_when queries -/

/-- No full mapping is listed that maps a codepoint to just itself. -/
def NoIdentity (tab : List (Nat × List Nat)) : Prop := ∀ e ∈ tab, e.2 ≠ [e.1]

theorem changes_iff (tab : List (Nat × List Nat)) (hs : Sorted (·.1) tab) (hn : NoIdentity tab) (c s : Nat) :
    ((s != c || fullOr (full tab c) s c != []) = true) ↔ apply (fullOr (full tab c) s c) c ≠ [c] := by
  unfold fullOr
  by_cases h0 : full tab c = []
  · rw [if_neg (by simpa using h0)]
    by_cases hc : s = c
    · subst hc; simp [apply]
    · rw [if_pos hc]; simp [apply, hc]
  · rw [if_pos h0]
    unfold apply
    rw [if_neg h0]
    rcases full_cases tab hs c with ⟨ds, h1, h2⟩ | ⟨_, h2⟩
    · have := hn _ h1
      simp only [bne_iff_ne, ne_eq, Bool.or_eq_true]
      constructor
      · intro _ he; rw [h2] at he; exact this he
      · intro _; exact Or.inr h0
    · exact absurd h2 h0

/-- **C42.** `changes_when_uppercased(c)` holds exactly when converting the one-character text changes it; likewise for lower
case and case folding, and for title case with respect to `full_titlecase`. -/
theorem C42_changes_when (T : CaseTables) (hT : TablesSorted T) (hu : NoIdentity T.fullUpper) (hl : NoIdentity T.fullLower)
    (ht : NoIdentity T.fullTitle) (hf : NoIdentity T.fullFold) (c : Nat) :
    (changesWhenUppercased T c = true ↔ toUppercase T [c] ≠ [c])
    ∧ (changesWhenLowercased T c = true ↔ toLowercase T [c] ≠ [c])
    ∧ (changesWhenCasefolded T c = true ↔ casefold T [c] ≠ [c])
    ∧ (changesWhenTitlecased T c = true ↔ ¬ MapsTo asciiUp T.fullTitle T.simpleTitle c [c]) := by
  rw [toUppercase_eq, toLowercase_eq, casefold_eq]
  simp only [List.flatMap_cons, List.flatMap_nil, List.append_nil]
  refine ⟨changes_iff _ hT.fu hu c _, changes_iff _ hT.fl hl c _, changes_iff _ hT.ff hf c _, ?_⟩
  have h1 := changes_iff _ hT.ft ht c (simpleTitlecase T c)
  refine Iff.trans h1 (not_congr ⟨fun h => ?_, fun h => ?_⟩)
  · have := (C33_codepoint T hT c).2.2.1
    unfold titleOf fullTitlecase at this
    rw [h] at this
    exact this
  · exact mapsTo_unique _ _ _ hT.ft hT.st c _ _ (C33_codepoint T hT c).2.2.1 h

/-- Without the hypothesis the query can be wrong: an explicit identity entry hides a simple mapping. -/
theorem C42_needs_no_identity :
    changesWhenUppercased { sample with fullUpper := [(0xE9, [0xE9])] } 0xE9 = true
    ∧ toUppercase { sample with fullUpper := [(0xE9, [0xE9])] } [0xE9] = [0xE9] := by
  constructor <;> decide +kernel

example : NoIdentity sample.fullUpper ∧ NoIdentity sample.fullLower ∧ NoIdentity sample.fullTitle ∧ NoIdentity sample.fullFold := by
  unfold NoIdentity sample; decide

/-! ## C43: folding is idempotent and forgets case -/

/-- A condition on the finite tables: every folding target is stable, i.e. not an ASCII capital, has no (non-empty) full
folding and no simple folding to another codepoint. -/
def Stable (T : CaseTables) (d : Nat) : Prop :=
  asciiDown d = none ∧ (∀ e ∈ T.fullFold, e.1 = d → e.2 = []) ∧ (∀ e ∈ T.simpleFold, e.1 = d → e.2 = d)

theorem stable_fold (T : CaseTables) (hT : TablesSorted T) (d : Nat) (h : Stable T d) : foldOf T d = [d] := by
  refine mapsTo_unique _ _ _ hT.ff hT.sf d _ _ (C33_codepoint T hT d).2.2.2 ?_
  by_cases hex : ∃ x, Listed T.simpleFold d x
  · obtain ⟨x, hx⟩ := hex
    have := h.2.2 _ hx rfl
    dsimp only at this
    rw [this] at hx
    exact .one (fun ds hds => h.2.1 _ hds rfl) h.1 hx
  · exact .same (fun ds hds => h.2.1 _ hds rfl) h.1 (fun x hx => hex ⟨x, hx⟩)

/-- The targets of all foldings, including the ASCII ones, are stable; simple foldings of codepoints that also have a full
folding do not count. -/
def TargetsStable (T : CaseTables) : Prop :=
  (∀ e ∈ T.fullFold, ∀ d ∈ e.2, Stable T d)
    ∧ (∀ e ∈ T.simpleFold, (∀ f ∈ T.fullFold, f.1 = e.1 → f.2 = []) → Stable T e.2)
    ∧ (∀ d, 97 ≤ d → d ≤ 122 → Stable T d)

theorem fold_targets (T : CaseTables) (hT : TablesSorted T) (hS : TargetsStable T) (c d : Nat) (hd : d ∈ foldOf T c) :
    foldOf T d = [d] := by
  have hm := (C33_codepoint T hT c).2.2.2
  generalize ho : foldOf T c = out at hm hd
  cases hm with
  | full h1 _ => exact stable_fold T hT d (hS.1 _ h1 d hd)
  | ascii _ h2 =>
    rw [List.mem_singleton] at hd; subst hd
    unfold asciiDown at h2
    split at h2
    · injection h2 with h2
      exact stable_fold T hT d (hS.2.2 d (by omega) (by omega))
    · exact absurd h2 (by simp)
  | one h1 _ h3 =>
    rw [List.mem_singleton] at hd; subst hd
    exact stable_fold T hT d (hS.2.1 _ h3 (fun f hf he => h1 f.2 (by dsimp only at he; rw [← he]; exact hf)))
  | same h1 h2 h3 =>
    rw [List.mem_singleton] at hd; subst hd
    exact ho

/-- **C43.** If every folding target in the tables is stable, folding twice is folding once, for every text; hence a text
equals its folding up to case. -/
theorem C43_idempotent (T : CaseTables) (hT : TablesSorted T) (hS : TargetsStable T) (text : List Nat) :
    casefold T (casefold T text) = casefold T text ∧ casefoldEquals T text (casefold T text) = true := by
  have key : casefold T (casefold T text) = casefold T text := by
    rw [casefold_eq, casefold_eq, List.flatMap_assoc]
    congr 1
    funext c
    have : ∀ l : List Nat, (∀ d ∈ l, foldOf T d = [d]) → l.flatMap (foldOf T) = l := by
      intro l
      induction l with
      | nil => intro _; rfl
      | cons d ds ih => intro h; rw [List.flatMap_cons, h d (by simp), ih (fun x hx => h x (by simp [hx]))]; rfl
    exact this _ (fun d hd => fold_targets T hT hS c d hd)
  exact ⟨key, (C34_equals T _ _).2 key.symm⟩

/-- **C43.** Uppercasing a text gives a text that is equal to it up to case, provided this holds for each of its codepoints
(U+0131 is one for which it does not hold); likewise lowercasing. -/
theorem C43_forgets_case (T : CaseTables) (text : List Nat) :
    ((∀ c ∈ text, casefoldEquals T (toUppercase T [c]) [c] = true) → casefoldEquals T (toUppercase T text) text = true)
    ∧ ((∀ c ∈ text, casefoldEquals T (toLowercase T [c]) [c] = true) → casefoldEquals T (toLowercase T text) text = true) := by
  simp only [C34_equals]
  constructor
  · induction text with
    | nil => intro _; rfl
    | cons c cs ih =>
      intro h
      rw [show c :: cs = [c] ++ cs from rfl, (C33_homomorphism T [c] cs).1, (C33_homomorphism T _ _).2.2, h c (by simp),
        ih (fun x hx => h x (by simp [hx])), (C33_homomorphism T [c] cs).2.2]
  · induction text with
    | nil => intro _; rfl
    | cons c cs ih =>
      intro h
      rw [show c :: cs = [c] ++ cs from rfl, (C33_homomorphism T [c] cs).2.1, (C33_homomorphism T _ _).2.2, h c (by simp),
        ih (fun x hx => h x (by simp [hx])), (C33_homomorphism T [c] cs).2.2]

example : ∀ c ∈ [0x53, 0x74, 0x72, 0x61, 0xDF, 0x65], casefoldEquals sample (toUppercase sample [c]) [c] = true := by
  decide +kernel

/-- The sample tables are stable. -/
theorem sample_stable : TargetsStable sample := by
  refine ⟨?_, ?_, ?_⟩
  · unfold Stable sample; decide
  · unfold Stable sample; decide
  · intro d h1 h2
    refine ⟨by unfold asciiDown; rw [if_neg (by omega)], ?_, ?_⟩ <;>
    · intro e he hd
      simp only [sample, List.mem_cons, List.not_mem_nil, or_false] at he
      rcases he with rfl | rfl | rfl | rfl <;> omega

end Verif.Props.Case
