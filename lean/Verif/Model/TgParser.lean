import Verif.Model.Utf8
/-!
# Model of the UCD text parser of the table generator: tablegen/ucd_parser.cpp

A line of a UCD file is a list of characters (one per byte; only ASCII characters are ever compared).
`std::getline` splitting and file I/O are not modelled: a file is the list of its lines.
-/

namespace Verif.Tg

abbrev Str := List Char

/-- `while (!s.empty() && p(s.front())) s.remove_prefix(1); while (!s.empty() && p(s.back())) s.remove_suffix(1);`:
ucd_parser.cpp:31-34, 60-63. -/
def trimBy (p : Char → Bool) (s : Str) : Str := ((s.dropWhile p).reverse.dropWhile p).reverse

/-- The four whitespace characters of `trim`: ucd_parser.cpp:60-63. -/
def isWs (c : Char) : Bool := c = ' ' || c = '\t' || c = '\r' || c = '\n'

/-- `trim`: ucd_parser.cpp:58-65. -/
def trim (s : Str) : Str := trimBy isWs s

/-- Value of a hexadecimal digit, as recognised by `std::from_chars(…, 16)`. -/
def hexVal (c : Char) : Option Nat :=
  if '0' ≤ c ∧ c ≤ '9' then some (c.toNat - 48)
  else if 'A' ≤ c ∧ c ≤ 'F' then some (c.toNat - 55)
  else if 'a' ≤ c ∧ c ≤ 'f' then some (c.toNat - 87)
  else none

def isHex (c : Char) : Bool := (hexVal c).isSome

/-- Value of a digit string. -/
def hexNum (s : Str) : Nat := s.foldl (fun n c => n * 16 + (hexVal c).getD 0) 0

/-- `unsigned value = 0; std::from_chars(first, last, value, 16)`: ucd_parser.cpp:35-36.  The longest prefix of hex
digits is converted; `value` keeps its initial 0 if there is none or if the number does not fit 32 bits. -/
def fromCharsHex (s : Str) : Nat :=
  if hexNum (s.takeWhile isHex) < 2 ^ 32 then hexNum (s.takeWhile isHex) else 0

/-- `parseCodepoint`: ucd_parser.cpp:29-38. -/
def parseCodepoint (s : Str) : Nat := fromCharsHex (trimBy (· = ' ') s)

/-- `parseCodepoints`: ucd_parser.cpp:40-56; `fuel` bounds the number of tokens (`s.length` suffices, see
`parseCodepoints`). -/
def parseCodepointsLoop : Nat → Str → List Nat
  | 0, _ => []
  | fuel + 1, s =>
    match s.dropWhile (· = ' ') with
    | [] => []
    | c :: cs =>
      parseCodepoint ((c :: cs).takeWhile (· ≠ ' ')) :: parseCodepointsLoop fuel ((c :: cs).dropWhile (· ≠ ' '))

def parseCodepoints (s : Str) : List Nat := parseCodepointsLoop (s.length + 1) s

/-- `s.find(c)` followed by `substr(0, pos)` and `substr(pos + 1)`; `none` for `npos`. -/
def cutAt (c : Char) : Str → Option (Str × Str)
  | [] => none
  | x :: xs => if x = c then some ([], xs) else (cutAt c xs).map fun p => (x :: p.1, p.2)

/-- `s.find("..")` followed by `substr(0, pos)` and `substr(pos + 2)`. -/
def cutDots : Str → Option (Str × Str)
  | [] => none
  | [_] => none
  | x :: y :: xs =>
    if x = '.' ∧ y = '.' then some ([], xs) else (cutDots (y :: xs)).map fun p => (x :: p.1, p.2)

/-- `struct ParsedLine`: ucd_parser.cpp:75-82. -/
structure Parsed where
  first : Nat
  last : Nat
  isRange : Bool
  property : Str
  comment : Str
deriving DecidableEq, Repr

/-- Strip a trailing CR: ucd_parser.cpp:89-90. -/
def stripCr (line : Str) : Str := if line.getLast? = some '\r' then line.dropLast else line

/-- ucd_parser.cpp:133-136 -/
def checkBounds (p : Parsed) : Option Parsed :=
  if p.first > 0x10FFFF ∨ p.last > 0x10FFFF ∨ p.last < p.first then none else some p

/-- ucd_parser.cpp:112-136: the codepoint part (already trimmed) and the property. -/
def parseFields (cpPart property comment : Str) : Option Parsed :=
  match cutDots cpPart with
  | some (a, b) => checkBounds ⟨parseCodepoint a, parseCodepoint b, true, property, comment⟩
  | none => checkBounds ⟨parseCodepoint cpPart, parseCodepoint cpPart, false, property, comment⟩

/-- ucd_parser.cpp:104-136: the line without its comment. -/
def parseBody (line comment : Str) : Option Parsed :=
  match cutAt ';' line with
  | none => none
  | some (cps, prop) => parseFields (trim cps) (trim prop) comment

/-- ucd_parser.cpp:91-136, after the trailing CR is gone. -/
def parseLine' (line : Str) : Option Parsed :=
  if line = [] ∨ line.head? = some '#' ∨ line.head? = some '@' then none
  else
    match cutAt '#' line with
    | some (body, c) => parseBody body (trim c)
    | none => parseBody line []

/-- `parseStandardLine`: ucd_parser.cpp:86-137. -/
def parseStandardLine (line : Str) : Option Parsed := parseLine' (stripCr line)

/-- `firstWord`: ucd_parser.cpp:140-147. -/
def firstWord (s : Str) : Str := (trim s).takeWhile fun c => !(c = ' ' || c = '\t' || c = ';')

/-- `splitSemicolons`: ucd_parser.cpp:150-165 (note: a trailing empty field is not reported). -/
def splitSemicolonsLoop : Nat → Str → List Str
  | 0, _ => []
  | fuel + 1, s =>
    if s = [] then []
    else
      match cutAt ';' s with
      | none => [trim s]
      | some (a, b) => trim a :: splitSemicolonsLoop fuel b

def splitSemicolons (s : Str) : List Str := splitSemicolonsLoop (s.length + 1) s

/-- The field splitter used at ucd_parser.cpp:609-620, 685-695, 735-745, 823-833: all fields, untrimmed. -/
def splitFields : Str → List Str
  | [] => [[]]
  | c :: cs =>
    if c = ';' then [] :: splitFields cs
    else
      match splitFields cs with
      | [] => [[c]]
      | f :: fs => (c :: f) :: fs

/-- `struct PropertyRange` (ucd_parser.h), without the comment. -/
structure PRange where
  first : Nat
  last : Nat
  property : Str
deriving DecidableEq, Repr

/-- The entries collected by the loop of `loadGenericProperties`, before sorting: ucd_parser.cpp:233-240. -/
def genericEntries (lines : List Str) : List PRange :=
  lines.filterMap fun l => (parseStandardLine l).map fun p => ⟨p.first, p.last, firstWord p.property⟩

/-- `std::sort(…, a.first < b.first)` (ucd_parser.cpp:241 and the other calls): `std::sort` is not stable, so its result
is *some* permutation in which no element precedes one with a smaller key. -/
def SortedBy {α : Type} (key : α → Nat) (input output : List α) : Prop :=
  output.Perm input ∧ output.Pairwise fun a b => key a ≤ key b

end Verif.Tg
