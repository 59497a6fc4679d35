import Verif.Spec.CaseFiles
import Verif.Spec.Norm
import Verif.Spec.Case

/-!
# Independent specification: what the normalization files of the UCD say

UnicodeData.txt fields 3 and 5, CompositionExclusions.txt, DerivedNormalizationProps.txt.
-/

namespace Verif.Spec.UcdFile
open Verif.Spec

/-- `HEX` or `HEX..HEX`. -/
def CpRange (s : List Char) (a b : Nat) : Prop :=
  (HexOf s a ∧ b = a) ∨ ∃ h h', s = h ++ ['.', '.'] ++ h' ∧ HexOf h a ∧ HexOf h' b

/-- What a line of DerivedNormalizationProps.txt says: a property of a range, with its value if there is one. -/
structure PropEntry where
  first : Nat
  last : Nat
  prop : List Char
  value : Option (List Char)
  /-- the line ends with a comment -/
  comment : Bool
deriving DecidableEq, Repr

/-- A property name. -/
def Word (s : List Char) : Prop := s ≠ [] ∧ ∀ c ∈ s, c ≠ ' ' ∧ c ≠ '\t' ∧ c ≠ '\r' ∧ c ≠ '\n' ∧ c ≠ ';' ∧ c ≠ '#'

/-- Nothing or a comment. -/
def CommentIf (b : Bool) (s : List Char) : Prop := (b = false ∧ s = []) ∨ (b = true ∧ ∃ t, s = '#' :: t)

/-- A line of DerivedNormalizationProps.txt: `code(s) ; property # comment` or `code(s) ; property ; value # comment`. -/
def PropLine (line : List Char) (e : PropEntry) : Prop :=
  ∃ cps w₁ w₂ w₃ tail, CpRange cps e.first e.last ∧ e.last ≤ 0x10FFFF ∧ e.first ≤ 0x10FFFF ∧ Blank w₁ ∧ Blank w₂ ∧ Blank w₃ ∧ Word e.prop ∧
    CommentIf e.comment tail ∧
    ((e.value = none ∧ line = cps ++ w₁ ++ ';' :: w₂ ++ e.prop ++ w₃ ++ tail) ∨
      ∃ v w₄ w₅, e.value = some v ∧ v ≠ [] ∧ Value v ∧ ';' ∉ v ∧ Blank w₄ ∧ Blank w₅ ∧
        line = cps ++ w₁ ++ ';' :: w₂ ++ e.prop ++ w₃ ++ ';' :: w₄ ++ v ++ w₅ ++ tail)

/-- A line of CompositionExclusions.txt: `code(s) # comment`. -/
def ExclLine (line : List Char) (e : Nat × Nat) : Prop :=
  ∃ cps w tail, CpRange cps e.1 e.2 ∧ e.2 ≤ 0x10FFFF ∧ e.1 ≤ 0x10FFFF ∧ Blank w ∧ Tail tail ∧ line = cps ++ w ++ tail

/-- DerivedNormalizationProps.txt gives `c` the value `v` of the property `p`. -/
def PropSays (qc : List PropEntry) (p v : String) (c : Nat) : Prop :=
  ∃ e ∈ qc, e.prop = p.toList ∧ e.value = some v.toList ∧ e.first ≤ c ∧ c ≤ e.last

/-- DerivedNormalizationProps.txt gives `c` the Boolean property `p`. -/
def PropHolds (qc : List PropEntry) (p : String) (c : Nat) : Prop := ∃ e ∈ qc, e.prop = p.toList ∧ e.first ≤ c ∧ c ≤ e.last

/-- CompositionExclusions.txt lists `c`. -/
def Excluded (ex : List (Nat × Nat)) (c : Nat) : Prop := ∃ e ∈ ex, e.1 ≤ c ∧ c ≤ e.2

/-- UnicodeData.txt gives `c` the canonical decomposition `ns`. -/
def Canonical (ud : List UdEntry) (c : Nat) (ns : List Nat) : Prop := ∃ e ∈ ud, e.cp = c ∧ e.decomp = .canonical ns

/-- UnicodeData.txt gives `c` the compatibility decomposition `ns`. -/
def Compat (ud : List UdEntry) (c : Nat) (ns : List Nat) : Prop := ∃ e ∈ ud, e.cp = c ∧ ∃ tag, e.decomp = .compat tag ns

/-- UnicodeData.txt gives `c` the combining class `n`. -/
def Class (ud : List UdEntry) (c n : Nat) : Prop := ∃ e ∈ ud, e.cp = c ∧ e.ccc = n

/-- The combining class of a codepoint: 0 unless UnicodeData.txt says otherwise. -/
def classOf (ud : List UdEntry) (c : Nat) : Nat := ((ud.find? (fun e => e.cp = c)).map (·.ccc)).getD 0

/-- A Hangul syllable. -/
def HangulSyllable (c : Nat) : Prop := 0xAC00 ≤ c ∧ c ≤ 0xD7A3
/-- A conjoining leading consonant, vowel, trailing consonant. -/
def JamoL (c : Nat) : Prop := 0x1100 ≤ c ∧ c ≤ 0x1112
def JamoV (c : Nat) : Prop := 0x1161 ≤ c ∧ c ≤ 0x1175
def JamoT (c : Nat) : Prop := 0x11A8 ≤ c ∧ c ≤ 0x11C2

/-- Some codepoint met while decomposing `c` canonically has a compatibility decomposition. -/
inductive UsesCompat (ud : List UdEntry) : Nat → Prop
  | here {c ns} : Compat ud c ns → UsesCompat ud c
  | inside {c ns d} : Canonical ud c ns → d ∈ ns → UsesCompat ud d → UsesCompat ud c

/-- Why a codepoint never appears in NFC: its canonical decomposition is a singleton, or excluded from composition, or begins
with a non-starter. -/
def NeverComposed (ud : List UdEntry) (ex : List (Nat × Nat)) (c : Nat) : Prop :=
  ∃ ns, Canonical ud c ns ∧ (ns.length ≠ 2 ∨ Excluded ex c ∨ ∃ d ds, ns = d :: ds ∧ classOf ud d ≠ 0)

/-- The full decomposition of a codepoint (D68, `k = false`; D66, `k = true`), Hangul syllables included. -/
inductive FullDecomp (ud : List UdEntry) (k : Bool) : Nat → List Nat → Prop
  | hangul {c l v t} : HangulSyllable c → JamoL l → JamoV v → t < 28 →
      c = 0xAC00 + ((l - 0x1100) * 21 + (v - 0x1161)) * 28 + t →
      FullDecomp ud k c ([l, v] ++ if t = 0 then [] else [0x11A7 + t])
  | canonical {c ns out} : ¬ HangulSyllable c → Canonical ud c ns →
      Case.MapsText (FullDecomp ud k) ns out → FullDecomp ud k c out
  | compat {c ns out} : ¬ HangulSyllable c → k = true → Compat ud c ns →
      Case.MapsText (FullDecomp ud k) ns out → FullDecomp ud k c out
  | same {c} : ¬ HangulSyllable c → (∀ ns, ¬ Canonical ud c ns) → (k = true → ∀ ns, ¬ Compat ud c ns) → FullDecomp ud k c [c]

/-- `out` is the full decomposition of `text` in canonical order (D68/D66 and D109), according to UnicodeData.txt. -/
def Decomposed (ud : List UdEntry) (k : Bool) (text out : List Nat) : Prop :=
  ∃ mid, Case.MapsText (FullDecomp ud k) text mid ∧ Norm.Reorders (classOf ud) mid out ∧ Norm.Ordered (classOf ud) out

/-- D114: `c` is the primary composite of `a` and `b`. -/
inductive Primary (ud : List UdEntry) (ex : List (Nat × Nat)) : Nat → Nat → Nat → Prop
  | listed {a b c} : Canonical ud c [a, b] → ¬ Excluded ex c → Primary ud ex a b c
  | lv {l v} : JamoL l → JamoV v → Primary ud ex l v (0xAC00 + ((l - 0x1100) * 21 + (v - 0x1161)) * 28)
  | lvt {s t} : HangulSyllable s → (s - 0xAC00) % 28 = 0 → JamoT t → Primary ud ex s t (s + (t - 0x11A7))

open Classical in
/-- The primary composite, if there is one. -/
noncomputable def primaryOf (ud : List UdEntry) (ex : List (Nat × Nat)) (a b : Nat) : Option Nat :=
  if h : ∃ c, Primary ud ex a b c then some h.choose else none

/-- What the library expects of the files; `depth` bounds the nesting of decompositions. -/
structure NormFiles (ud : List UdEntry) (ex : List (Nat × Nat)) (qc : List PropEntry) (depth : Nat) : Prop where
  /-- one line per codepoint -/
  udOne : ∀ e ∈ ud, ∀ e' ∈ ud, e.cp = e'.cp → e = e'
  /-- U+0000 has no decomposition -/
  nul : ∀ ns, ¬ Canonical ud 0 ns
  /-- Hangul syllables and conjoining jamo are starters without decomposition mapping (theirs is arithmetic) -/
  hangul : ∀ e ∈ ud, HangulSyllable e.cp ∨ JamoL e.cp ∨ JamoV e.cp ∨ JamoT e.cp → e.decomp = .none ∧ e.ccc = 0
  /-- decomposing ends -/
  ranked : ∃ rank : Nat → Nat, (∀ c, rank c ≤ depth) ∧
    ∀ c ns, (Canonical ud c ns ∨ Compat ud c ns) → ∀ d ∈ ns, rank d < rank c
  /-- two codepoints that may be composed have different decompositions -/
  pairOne : ∀ c c' a b, Canonical ud c [a, b] → Canonical ud c' [a, b] → ¬ Excluded ex c → ¬ Excluded ex c' → c = c'
  /-- a composite of a starter is a starter -/
  comp0 : ∀ c a b, Canonical ud c [a, b] → classOf ud a = 0 → classOf ud c = 0
  /-- the second codepoint of a decomposition is no vowel or trailing consonant (those combine arithmetically) -/
  hangulPair : ∀ c a b, Canonical ud c [a, b] → ¬ JamoV b ∧ ¬ JamoT b
  /-- no Hangul syllable is excluded from composition -/
  hangulIncl : ∀ c, HangulSyllable c → ¬ Excluded ex c
  /-- no Full_Composition_Exclusion line without a comment (none has an effect otherwise, see `C52_fails_full_exclusion`) -/
  fullExcl : ∀ e ∈ qc, e.prop = "Full_Composition_Exclusion".toList → e.value = none ∧ e.comment = true
  /-- the quick-check properties -/
  nfdNo : ∀ c, PropSays qc "NFD_QC" "N" c ↔ HangulSyllable c ∨ ∃ ns, Canonical ud c ns
  nfkdNo : ∀ c, PropSays qc "NFKD_QC" "N" c ↔ HangulSyllable c ∨ (∃ ns, Canonical ud c ns) ∨ ∃ ns, Compat ud c ns
  nfcNo : ∀ c, PropSays qc "NFC_QC" "N" c → NeverComposed ud ex c
  nfkcNo : ∀ c, PropSays qc "NFKC_QC" "N" c → NeverComposed ud ex c ∨ UsesCompat ud c

/-- The quick-check value of the composition form is Yes (`p` is NFC_QC or NFKC_QC). -/
def QcYes (qc : List PropEntry) (p : String) (c : Nat) : Prop := ¬ PropSays qc p "N" c ∧ ¬ PropSays qc p "M" c

/-- What the streaming normalizer expects of a composition form's quick-check property. -/
structure StreamFiles (ud : List UdEntry) (ex : List (Nat × Nat)) (qc : List PropEntry) (p : String) (k : Bool) : Prop where
  /-- a starter that combines with something before it has not the value Yes -/
  second : ∀ c a b, Canonical ud c [a, b] → ¬ Excluded ex c → classOf ud b = 0 → ¬ QcYes qc p b
  jamo : ∀ c, JamoV c ∨ JamoT c → ¬ QcYes qc p c
  lead : ∀ c, JamoL c → QcYes qc p c
  /-- the decomposition of a starter with the value Yes begins with such a starter -/
  first : ∀ c d ds, classOf ud c = 0 → QcYes qc p c → (Canonical ud c (d :: ds) ∨ k = true ∧ Compat ud c (d :: ds)) →
    classOf ud d = 0 ∧ QcYes qc p d

end Verif.Spec.UcdFile
