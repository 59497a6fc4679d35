import Verif.Model.TgParser
import Verif.Model.Tables
import Verif.Model.Case
import Verif.Model.Norm

/-!
# Model of the case and normalization part of the table generator

tablegen/ucd_parser.cpp:582-890 (loaders of UnicodeData.txt, CaseFolding.txt, SpecialCasing.txt, CompositionExclusions.txt,
DerivedNormalizationProps.txt) and tablegen/case_norm_generator.cpp (writers).

`std::map<char32_t, V>` and `std::set<char32_t>` are the lists of their elements in iteration order.  The textual C++
initialisers the writers print are modelled by the arrays they denote.
-/

namespace Verif.Tg
open Verif.Utf8 (Mem)

/-! ## `std::map<char32_t, V>`, `std::set<char32_t>` -/

/-- `m[k] = v` -/
def nSet {V : Type} (k : Nat) (v : V) : List (Nat × V) → List (Nat × V)
  | [] => [(k, v)]
  | e :: m => if k = e.1 then (k, v) :: m else if k < e.1 then (k, v) :: e :: m else e :: nSet k v m

/-- `m.count(k)`, `m.at(k)`, `m.find(k)` -/
def nFind {V : Type} (m : List (Nat × V)) (k : Nat) : Option V := (m.find? (fun e => e.1 = k)).map (·.2)

/-- `s.insert(k)` -/
def nInsert (k : Nat) : List Nat → List Nat
  | [] => [k]
  | x :: s => if k = x then x :: s else if k < x then k :: x :: s else x :: nInsert k s

/-! ## UnicodeData.txt -/

/-- `int v = 0; std::from_chars(first, last, v)`: ucd_parser.cpp:629-630.  A leading minus sign is not modelled; the value
stays 0 without a digit or when it does not fit. -/
def fromCharsDec (s : Str) : Nat :=
  if (s.takeWhile Char.isDigit).foldl (fun n c => n * 10 + (c.toNat - 48)) 0 < 2 ^ 31 then
    (s.takeWhile Char.isDigit).foldl (fun n c => n * 10 + (c.toNat - 48)) 0
  else 0

/-- `struct Decomposition` (ucd_parser.h), without the source. -/
structure Decomp where
  targets : List Nat
  type : Str
deriving DecidableEq, Repr

/-- Type and rest of a decomposition field: ucd_parser.cpp:639-646.  Without a closing angle bracket `find` is `npos`:
the type is everything after the bracket and `substr(npos + 1)` is the whole field. -/
def decompParts (field : Str) : Str × Str :=
  match field with
  | '<' :: r =>
    match cutAt '>' r with
    | some (t, rest) => (t, trim rest)
    | none => (r, trim field)
  | _ => ("canonical".toList, field)

/-- ucd_parser.cpp:636-651; the field is trimmed. -/
def parseDecomp (field : Str) : Option Decomp :=
  if field = [] then none
  else if (decompParts field).2 = [] then none
  else some ⟨parseCodepoints (decompParts field).2, (decompParts field).1⟩

/-- The members of `UcdParser` filled by `loadUnicodeData`. -/
structure Ud where
  ccc : List (Nat × Nat) := []
  decomps : List (Nat × Decomp) := []
  upper : List (Nat × Nat) := []
  lower : List (Nat × Nat) := []
  title : List (Nat × Nat) := []
deriving DecidableEq, Repr

/-- `m[k] = v` if there is a value. -/
def nSetOpt {V : Type} (k : Nat) (v : Option V) (m : List (Nat × V)) : List (Nat × V) :=
  match v with
  | some x => nSet k x m
  | none => m

/-- A non-empty field as a codepoint: ucd_parser.cpp:654-666. -/
def optCp (field : Str) : Option Nat := if trim field = [] then none else some (parseCodepoint (trim field))

/-- ucd_parser.cpp:626-633 -/
def optCcc (field : Str) : Option Nat :=
  if trim field = [] then none else if fromCharsDec (trim field) = 0 then none else some (fromCharsDec (trim field))

/-- ucd_parser.cpp:623-666, for the split line. -/
def udFields (fs : List Str) (u : Ud) : Ud :=
  { ccc := nSetOpt (parseCodepoint (fs.getD 0 [])) (optCcc (fs.getD 3 [])) u.ccc
    decomps := nSetOpt (parseCodepoint (fs.getD 0 [])) (parseDecomp (trim (fs.getD 5 []))) u.decomps
    upper := nSetOpt (parseCodepoint (fs.getD 0 [])) (optCp (fs.getD 12 [])) u.upper
    lower := nSetOpt (parseCodepoint (fs.getD 0 [])) (optCp (fs.getD 13 [])) u.lower
    title := nSetOpt (parseCodepoint (fs.getD 0 [])) (optCp (fs.getD 14 [])) u.title }

/-- `trimmed.empty() || trimmed[0] == '#'`: ucd_parser.cpp:605-607, 681-683, 731-733, 785-787, 818-820. -/
def skipped (trimmed : Str) : Bool := decide (trimmed = [] ∨ trimmed.head? = some '#')

/-- One line of `loadUnicodeData`: ucd_parser.cpp:605-667. -/
def udLine (u : Ud) (line : Str) : Ud :=
  if skipped (trim line) then u
  else if (splitFields (trim line)).length < 15 then u
  else udFields (splitFields (trim line)) u

/-- `loadUnicodeData`: ucd_parser.cpp:598-668. -/
def loadUnicodeData (lines : List Str) : Ud := lines.foldl udLine {}

/-! ## CaseFolding.txt -/

/-- The members filled by `loadCaseFolding`. -/
structure Folds where
  simple : List (Nat × Nat) := []
  full : List (Nat × List Nat) := []
deriving DecidableEq, Repr

/-- `if (mapping.size() == 1) _simpleCasefold[cp] = mapping[0]`: ucd_parser.cpp:704-705, 710-711. -/
def setSimple (cp : Nat) (mapping : List Nat) (m : List (Nat × Nat)) : List (Nat × Nat) :=
  match mapping with
  | [x] => nSet cp x m
  | _ => m

/-- ucd_parser.cpp:697-717 -/
def cfFields (fs : List Str) (u : Folds) : Folds :=
  if trim (fs.getD 1 []) = "C".toList then
    { simple := setSimple (parseCodepoint (fs.getD 0 [])) (parseCodepoints (fs.getD 2 [])) u.simple
      full := nSet (parseCodepoint (fs.getD 0 [])) (parseCodepoints (fs.getD 2 [])) u.full }
  else if trim (fs.getD 1 []) = "S".toList then
    { u with simple := setSimple (parseCodepoint (fs.getD 0 [])) (parseCodepoints (fs.getD 2 [])) u.simple }
  else if trim (fs.getD 1 []) = "F".toList then
    { u with full := nSet (parseCodepoint (fs.getD 0 [])) (parseCodepoints (fs.getD 2 [])) u.full }
  else u

/-- One line of `loadCaseFolding`: ucd_parser.cpp:680-718. -/
def cfLine (u : Folds) (line : Str) : Folds :=
  if skipped (trim line) then u
  else if (splitFields (trim line)).length < 3 then u
  else cfFields (splitFields (trim line)) u

/-- `loadCaseFolding`: ucd_parser.cpp:674-719. -/
def loadCaseFolding (lines : List Str) : Folds := lines.foldl cfLine {}

/-! ## SpecialCasing.txt -/

/-- The members filled by `loadSpecialCasing`. -/
structure Special where
  lower : List (Nat × List Nat) := []
  title : List (Nat × List Nat) := []
  upper : List (Nat × List Nat) := []
deriving DecidableEq, Repr

/-- `x.size() > 1 || (x.size() == 1 && x[0] != expected)`: ucd_parser.cpp:767-772. -/
def nontrivial (x : List Nat) (expected : Nat) : Bool :=
  match x with
  | [] => false
  | [a] => decide (a ≠ expected)
  | _ :: _ :: _ => true

/-- `_full…[cp] = x` for a non-trivial mapping; `simple` is the simple mapping table: ucd_parser.cpp:764-772. -/
def setSpecial (cp : Nat) (x : List Nat) (simple : List (Nat × Nat)) (m : List (Nat × List Nat)) : List (Nat × List Nat) :=
  if nontrivial x ((nFind simple cp).getD cp) then nSet cp x m else m

/-- The test for conditional mappings: ucd_parser.cpp:750-757 (`true`: skip the line).  It is only made if the line has
a comment. -/
def conditional (trimmed : Str) : Bool :=
  match cutAt '#' trimmed with
  | some (before, _) => decide ((before.filter (· = ';')).length > 4)
  | none => false

/-- ucd_parser.cpp:759-772 -/
def scFields (u : Ud) (fs : List Str) (s : Special) : Special :=
  { lower := setSpecial (parseCodepoint (fs.getD 0 [])) (parseCodepoints (fs.getD 1 [])) u.lower s.lower
    title := setSpecial (parseCodepoint (fs.getD 0 [])) (parseCodepoints (fs.getD 2 [])) u.title s.title
    upper := setSpecial (parseCodepoint (fs.getD 0 [])) (parseCodepoints (fs.getD 3 [])) u.upper s.upper }

/-- One line of `loadSpecialCasing`: ucd_parser.cpp:730-773. -/
def scLine (u : Ud) (s : Special) (line : Str) : Special :=
  if skipped (trim line) then s
  else if (splitFields (trim line)).length < 4 then s
  else if conditional (trim line) then s
  else scFields u (splitFields (trim line)) s

/-- `loadSpecialCasing`: ucd_parser.cpp:724-774. -/
def loadSpecialCasing (u : Ud) (lines : List Str) : Special := lines.foldl (scLine u) {}

/-! ## CompositionExclusions.txt and DerivedNormalizationProps.txt -/

/-- `for (auto cp = start; cp <= end; ++cp)`: ucd_parser.cpp:801, 854.  (`end < 2^32 - 1`, else the loop would not end.) -/
def cpRange (a b : Nat) : List Nat := (List.range (b + 1 - a)).map (a + ·)

/-- The codepoints of a (trimmed) codepoint part: ucd_parser.cpp:797-807, 848-861. -/
def cpsOf (part : Str) : List Nat :=
  match cutDots part with
  | some (a, b) => cpRange (parseCodepoint a) (parseCodepoint b)
  | none => [parseCodepoint part]

/-- Everything before a comment sign, trimmed: ucd_parser.cpp:790-792, 842-843. -/
def uncomment (s : Str) : Str :=
  match cutAt '#' s with
  | some (a, _) => trim a
  | none => trim s

def insertAll (cps : List Nat) (s : List Nat) : List Nat := cps.foldl (fun s c => nInsert c s) s

/-- One line of `loadCompositionExclusions`: ucd_parser.cpp:785-808. -/
def exLine (s : List Nat) (line : Str) : List Nat :=
  if skipped (trim line) then s
  else if uncomment (trim line) = [] then s
  else insertAll (cpsOf (uncomment (trim line))) s

/-- The members filled by `loadDerivedNormalizationProps`. -/
structure Qc where
  nfcNo : List Nat := []
  nfcMaybe : List Nat := []
  nfkcNo : List Nat := []
  nfkcMaybe : List Nat := []
  nfdNo : List Nat := []
  nfkdNo : List Nat := []
  excl : List Nat := []
deriving DecidableEq, Repr

/-- The value field without its comment: ucd_parser.cpp:840-844.  (The property field keeps its comment.) -/
def valueOf (fs : List Str) : Str := if fs.length > 2 then uncomment (trim (fs.getD 2 [])) else []

/-- ucd_parser.cpp:863-889, for all codepoints of the line. -/
def qcInsert (prop value : Str) (cps : List Nat) (q : Qc) : Qc :=
  if prop = "NFC_QC".toList then
    if value = "N".toList then { q with nfcNo := insertAll cps q.nfcNo }
    else if value = "M".toList then { q with nfcMaybe := insertAll cps q.nfcMaybe } else q
  else if prop = "NFKC_QC".toList then
    if value = "N".toList then { q with nfkcNo := insertAll cps q.nfkcNo }
    else if value = "M".toList then { q with nfkcMaybe := insertAll cps q.nfkcMaybe } else q
  else if prop = "NFD_QC".toList then
    if value = "N".toList then { q with nfdNo := insertAll cps q.nfdNo } else q
  else if prop = "NFKD_QC".toList then
    if value = "N".toList then { q with nfkdNo := insertAll cps q.nfkdNo } else q
  else if prop = "Full_Composition_Exclusion".toList then { q with excl := insertAll cps q.excl }
  else q

/-- One line of `loadDerivedNormalizationProps`: ucd_parser.cpp:818-890. -/
def qcLine (q : Qc) (line : Str) : Qc :=
  if skipped (trim line) then q
  else if (splitFields (trim line)).length < 2 then q
  else qcInsert (trim ((splitFields (trim line)).getD 1 [])) (valueOf (splitFields (trim line)))
    (cpsOf (trim ((splitFields (trim line)).getD 0 []))) q

/-- `loadCompositionExclusions` followed by `loadDerivedNormalizationProps` (ucd_parser.cpp:216-217, 778-891); both fill
`_compositionExclusions`. -/
def loadNormProps (exLines qcLines : List Str) : Qc := qcLines.foldl qcLine { excl := exLines.foldl exLine [] }

/-! ## Writers: case_norm_generator.cpp -/

/-- The simple case tables, `ccc_table` and the code point sets: `writeSimpleCaseTable` (33-55), `writeCccTable` (92-107),
`writeQuickCheckTable` (265-288).  The elements of a map or set are already in ascending order, so the `std::sort` does
nothing (`C51_tables_sorted`). -/
def writeMap {V : Type} (m : List (Nat × V)) : List (Nat × V) := m

/-- `struct full_…_entry`: case_norm_generator.cpp:66-70. -/
structure FullEntry where
  source : Nat
  targets : List Nat
  length : Nat
deriving DecidableEq, Repr

/-- `while (padded.size() < n) padded.push_back(0)` -/
def pad (n : Nat) (l : List Nat) : List Nat := l ++ List.replicate (n - l.length) 0

/-- `writeFullCaseTable`: case_norm_generator.cpp:57-90: three cells, but the length of the whole mapping (`uint8_t`; the
emitted header would not compile with a larger value). -/
def writeFull (m : List (Nat × List Nat)) : List FullEntry :=
  m.map fun e => ⟨e.1, (pad 3 e.2).take 3, e.2.length⟩

/-- `for (uint8_t i = 0; i < it->length; ++i) result.codepoints[i] = it->targets[i]`: case_mapping.cpp:52-53.  Both arrays
have three cells (case_mapping.h:28, 33). -/
def copyTargets (e : FullEntry) : Mem (List Nat) :=
  if e.length ≤ 3 ∧ e.length ≤ e.targets.length then .ok (e.targets.take e.length) else .oob

/-- `lookup_full` on the emitted table: case_mapping.cpp:43-59. -/
def lookupFull (tab : List FullEntry) (c : Nat) : Mem (List Nat) :=
  match Tables.lookupSorted tab (·.source) c with
  | .oob => .oob
  | .ok (some e) => copyTargets e
  | .ok none => .ok []

/-- The table `lookupFull` reads, as source and visible targets. -/
def visible (tab : List FullEntry) : List (Nat × List Nat) := tab.map fun e => (e.source, e.targets.take e.length)

/-- `d.type == "canonical"` -/
def isCanonical (d : Decomp) : Bool := decide (d.type = "canonical".toList)

/-- `writeDecompositionTable` (109-150) and `writeCompatibilityDecompositionTable` (216-263).  All cells of a table have the
same number of targets, at least as many as the longest mapping, so nothing is cut off; an entry denotes its first
`length` targets. -/
def writeDecomps (canonical : Bool) (m : List (Nat × Decomp)) : List (Nat × List Nat) :=
  (m.filter (fun e => isCanonical e.2 == canonical)).map fun e => (e.1, e.2.targets)

/-- The entries collected by `writeCompositionTable` before sorting: case_norm_generator.cpp:163-168. -/
def compositions (m : List (Nat × Decomp)) (excl : List Nat) : List Tables.Comp :=
  m.filterMap fun e =>
    match e.2.targets with
    | [a, b] => if isCanonical e.2 ∧ e.1 ∉ excl then some ⟨a, b, e.1⟩ else none
    | _ => none

/-- The comparison of case_norm_generator.cpp:169-173. -/
def compLe (x y : Tables.Comp) : Prop := x.first < y.first ∨ x.first = y.first ∧ x.second ≤ y.second

/-- `writeCompositionTable`: case_norm_generator.cpp:152-191.  `std::sort` is not stable: the table is *some* permutation
in which no entry precedes a smaller one. -/
def WrittenCompositions (m : List (Nat × Decomp)) (excl : List Nat) (tab : List Tables.Comp) : Prop :=
  tab.Perm (compositions m excl) ∧ tab.Pairwise compLe

/-! ## The generated tables -/

/-- The eight case tables of `generateCaseNormFile` (case_norm_generator.cpp:311-328), as the look-ups see them. -/
def caseTables (u : Ud) (f : Folds) (s : Special) : Case.CaseTables :=
  { simpleUpper := writeMap u.upper
    simpleLower := writeMap u.lower
    simpleTitle := writeMap u.title
    simpleFold := writeMap f.simple
    fullUpper := visible (writeFull s.upper)
    fullLower := visible (writeFull s.lower)
    fullTitle := visible (writeFull s.title)
    fullFold := visible (writeFull f.full) }

/-- The result of a look-up as a Boolean. -/
def holds (x : Mem Bool) : Bool :=
  match x with
  | .ok b => b
  | .oob => false

/-- The normalization tables of `generateCaseNormFile` (case_norm_generator.cpp:331-362), through the look-up functions
of normalization.cpp; `comp` is the emitted composition table, `depth` is `Tables.depth` (see there). -/
def normTables (u : Ud) (q : Qc) (comp : List Tables.Comp) (depth : Nat) : Norm.Tables :=
  { ccc := fun c => Case.value 0 (Tables.lookupCcc (writeMap u.ccc) c)
    canon := fun c => Case.value [] (Tables.lookupList (writeDecomps true u.decomps) c)
    compat := fun c => Case.value [] (Tables.lookupList (writeDecomps false u.decomps) c)
    comp := fun a b => Case.value 0 (Tables.composeLookup comp a b)
    excl := fun c => holds (Tables.containsCodepoint q.excl c)
    nfcNo := fun c => holds (Tables.containsCodepoint q.nfcNo c)
    nfcMaybe := fun c => holds (Tables.containsCodepoint q.nfcMaybe c)
    nfdNo := fun c => holds (Tables.containsCodepoint q.nfdNo c)
    nfkcNo := fun c => holds (Tables.containsCodepoint q.nfkcNo c)
    nfkcMaybe := fun c => holds (Tables.containsCodepoint q.nfkcMaybe c)
    nfkdNo := fun c => holds (Tables.containsCodepoint q.nfkdNo c)
    depth := depth }

end Verif.Tg
