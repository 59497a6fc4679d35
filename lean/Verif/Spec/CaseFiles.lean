import Verif.Spec.UcdFields

/-!
# Independent specification: what the case-mapping files of the UCD say

UnicodeData.txt fields 12-14 (simple mappings), SpecialCasing.txt (unconditional full mappings), CaseFolding.txt (statuses C
and F: full, C and S: simple).
-/

namespace Verif.Spec.UcdFile

/-- The mapping of `c`: the full mapping if there is one, otherwise the simple mapping, otherwise `c` itself. -/
inductive CaseMaps (full : Nat → List Nat → Prop) (simple : Nat → Nat → Prop) (c : Nat) : List Nat → Prop
  | full {ds} : full c ds → ds ≠ [] → CaseMaps full simple c ds
  | simple {d} : (∀ ds, full c ds → ds = []) → simple c d → CaseMaps full simple c [d]
  | same : (∀ ds, full c ds → ds = []) → (∀ d, ¬ simple c d) → CaseMaps full simple c [c]

/-- A simple mapping: the listed codepoint, otherwise `c` itself. -/
inductive SimpleMaps (simple : Nat → Nat → Prop) (c : Nat) : Nat → Prop
  | listed {d} : simple c d → SimpleMaps simple c d
  | same : (∀ d, ¬ simple c d) → SimpleMaps simple c c

/-- UnicodeData.txt lists `d` in the field `get` for `c`. -/
def UdSays (ud : List UdEntry) (get : UdEntry → Option Nat) (c d : Nat) : Prop := ∃ e ∈ ud, e.cp = c ∧ get e = some d

/-- SpecialCasing.txt lists `ds` unconditionally in the field `get` for `c`. -/
def SpecialSays (sp : List SpecialEntry) (get : SpecialEntry → List Nat) (c : Nat) (ds : List Nat) : Prop :=
  ∃ e ∈ sp, e.cp = c ∧ e.conditional = false ∧ get e = ds

/-- CaseFolding.txt lists `ds` for `c` with one of the given statuses. -/
def FoldSays (cf : List FoldEntry) (statuses : List Char) (c : Nat) (ds : List Nat) : Prop :=
  ∃ e ∈ cf, e.cp = c ∧ e.status ∈ statuses ∧ e.mapping = ds

/-- What the library expects of the three files. -/
structure CaseFiles (ud : List UdEntry) (sp : List SpecialEntry) (cf : List FoldEntry) : Prop where
  /-- one line per codepoint -/
  udOne : ∀ e ∈ ud, ∀ e' ∈ ud, e.cp = e'.cp → e = e'
  /-- one unconditional mapping per codepoint -/
  spOne : ∀ e ∈ sp, ∀ e' ∈ sp, e.cp = e'.cp → e.conditional = false → e'.conditional = false → e = e'
  /-- one simple and one full folding per codepoint -/
  cfSimple : ∀ e ∈ cf, ∀ e' ∈ cf, e.cp = e'.cp → e.status ∈ ['C', 'S'] → e'.status ∈ ['C', 'S'] → e = e'
  cfFull : ∀ e ∈ cf, ∀ e' ∈ cf, e.cp = e'.cp → e.status ∈ ['C', 'F'] → e'.status ∈ ['C', 'F'] → e = e'
  /-- no mapping is longer than three codepoints -/
  spShort : ∀ e ∈ sp, e.conditional = false → e.lower.length ≤ 3 ∧ e.title.length ≤ 3 ∧ e.upper.length ≤ 3
  cfShort : ∀ e ∈ cf, e.mapping.length ≤ 3
  /-- the ASCII letters have their usual mappings -/
  asciiLower : ∀ c, 0x61 ≤ c → c ≤ 0x7A → ∃ e ∈ ud, e.cp = c ∧ e.upper = some (c - 32) ∧ e.title = some (c - 32)
  asciiUpper : ∀ c, 0x41 ≤ c → c ≤ 0x5A → ∃ e ∈ ud, e.cp = c ∧ e.lower = some (c + 32)
  asciiFold : ∀ c, 0x41 ≤ c → c ≤ 0x5A → FoldSays cf ['C'] c [c + 32]

end Verif.Spec.UcdFile
