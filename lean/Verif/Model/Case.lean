import Verif.Model.Tables
import Verif.Model.Word
import Verif.Model.Convert
/-!
# Case mapping: case_mapping.{h,cpp}

The generated tables are parameters, as lists of entries; they are searched by the model of `lower_bound`
(`Verif.Tables`).  A `case_mapping_result` is the list of its first `length` codepoints (case_mapping.h:31-41), so the
empty list is "identity".
-/

namespace Verif.Case
open Verif.Utf8 (Mem)
open Verif.Tables Verif.Ucd Verif.Word

/-- `case_normalization_data.h` (generated): the eight case tables. -/
structure CaseTables where
  simpleUpper : List (Nat × Nat)
  simpleLower : List (Nat × Nat)
  simpleTitle : List (Nat × Nat)
  simpleFold : List (Nat × Nat)
  fullUpper : List (Nat × List Nat)
  fullLower : List (Nat × List Nat)
  fullTitle : List (Nat × List Nat)
  fullFold : List (Nat × List Nat)

/-- The value of a look-up.  Look-ups never leave their table (`C36_memory_safe`), so the default is never used. -/
def value {α : Type} (d : α) : Mem α → α
  | .ok a => a
  | .oob => d

/-- `lookup_simple`: case_mapping.cpp:29-40 -/
def simple (tab : List (Nat × Nat)) (c : Nat) : Nat := value c (lookupSimple tab c)
/-- `lookup_full`: case_mapping.cpp:43-59 -/
def full (tab : List (Nat × List Nat)) (c : Nat) : List Nat := value [] (lookupList tab c)

/-- `codepoint >= 'a' && codepoint <= 'z'`: case_mapping.cpp:70, 88 -/
def isAsciiLower (c : Nat) : Bool := c ≥ 0x61 && c ≤ 0x7A
/-- `codepoint >= 'A' && codepoint <= 'Z'`: case_mapping.cpp:79, 97 -/
def isAsciiUpper (c : Nat) : Bool := c ≥ 0x41 && c ≤ 0x5A

/-- case_mapping.cpp:67-74 -/
def simpleUppercase (T : CaseTables) (c : Nat) : Nat := if isAsciiLower c then c - 0x20 else simple T.simpleUpper c
/-- case_mapping.cpp:76-83 -/
def simpleLowercase (T : CaseTables) (c : Nat) : Nat := if isAsciiUpper c then c + 0x20 else simple T.simpleLower c
/-- case_mapping.cpp:85-92 -/
def simpleTitlecase (T : CaseTables) (c : Nat) : Nat := if isAsciiLower c then c - 0x20 else simple T.simpleTitle c
/-- case_mapping.cpp:94-101 -/
def simpleCasefold (T : CaseTables) (c : Nat) : Nat := if isAsciiUpper c then c + 0x20 else simple T.simpleFold c

/-- The common body of case_mapping.cpp:107-181: full table first, then the simple mapping, else identity. -/
def fullOr (fromFull : List Nat) (fromSimple c : Nat) : List Nat :=
  if fromFull ≠ [] then fromFull else if fromSimple ≠ c then [fromSimple] else []

/-- case_mapping.cpp:107-124 -/
def fullUppercase (T : CaseTables) (c : Nat) : List Nat := fullOr (full T.fullUpper c) (simpleUppercase T c) c
/-- case_mapping.cpp:126-143 -/
def fullLowercase (T : CaseTables) (c : Nat) : List Nat := fullOr (full T.fullLower c) (simpleLowercase T c) c
/-- case_mapping.cpp:145-162 -/
def fullTitlecase (T : CaseTables) (c : Nat) : List Nat := fullOr (full T.fullTitle c) (simpleTitlecase T c) c
/-- case_mapping.cpp:164-181 -/
def fullCasefold (T : CaseTables) (c : Nat) : List Nat := fullOr (full T.fullFold c) (simpleCasefold T c) c

/-- `if (mapping.is_identity()) result.push_back(cp); else result.append(mapping.view());`:
case_mapping.cpp:195-198, 212-215, 239-242, 248-251, 275-278 -/
def append (result : List Nat) (mapping : List Nat) (c : Nat) : List Nat :=
  if mapping = [] then result ++ [c] else result ++ mapping

/-- The loop of case_mapping.cpp:192-199, 209-216, 272-279 over `text`. -/
def mapLoop (mapping : Nat → List Nat) : List Nat → List Nat → List Nat
  | result, [] => result
  | result, c :: cs => mapLoop mapping (append result (mapping c) c) cs

/-- case_mapping.cpp:187-202 -/
def toUppercase (T : CaseTables) (text : List Nat) : List Nat := mapLoop (fullUppercase T) [] text
/-- case_mapping.cpp:204-219 -/
def toLowercase (T : CaseTables) (text : List Nat) : List Nat := mapLoop (fullLowercase T) [] text
/-- case_mapping.cpp:267-282 -/
def casefold (T : CaseTables) (text : List Nat) : List Nat := mapLoop (fullCasefold T) [] text

/-- `is_cased`: case_mapping.cpp:348-353 -/
def isCased (U : Table) (c : Nat) : Bool :=
  (U c).generalCategory = .Uppercase_Letter || (U c).generalCategory = .Lowercase_Letter
    || (U c).generalCategory = .Titlecase_Letter

/-- `is_case_ignorable`: case_mapping.cpp:355-366 -/
def isCaseIgnorable (U : Table) (c : Nat) : Bool :=
  (U c).generalCategory = .Nonspacing_Mark || (U c).generalCategory = .Enclosing_Mark || (U c).generalCategory = .Format
    || (U c).generalCategory = .Modifier_Letter || (U c).generalCategory = .Modifier_Symbol || (U c).wb = .MidLetter
    || (U c).wb = .MidNumLet || (U c).wb = .Single_Quote

/-- The loop over one word: case_mapping.cpp:233-257. -/
def titleWordLoop (U : Table) (T : CaseTables) : Bool → List Nat → List Nat → List Nat
  | _, result, [] => result
  | firstCased, result, c :: cs =>
    if firstCased && isCased U c then titleWordLoop U T false (append result (fullTitlecase T c) c) cs
    else if !firstCased && isCased U c then titleWordLoop U T firstCased (append result (fullLowercase T c) c) cs
    else titleWordLoop U T firstCased (result ++ [c]) cs

/-- The loop over the words: case_mapping.cpp:227-262, `word` being `*seg`, `rest` the text after it.  `fuel` bounds
the number of rounds. -/
def titleLoop (U : Table) (T : CaseTables) : Nat → WState → List Nat → List Nat → List Nat → List Nat
  | 0, _, _, _, result => result
  | fuel + 1, s, word, rest, result =>
    if word = [] ∧ rest = [] then result
    else
      match rest with
      | [] => titleWordLoop U T true result word
      | c :: cs =>
        titleLoop U T fuel (extendSegment U (processInit U c s) cs).1
          (c :: (extendSegment U (processInit U c s) cs).2.1) (extendSegment U (processInit U c s) cs).2.2
          (titleWordLoop U T true result word)

/-- `to_titlecase`: case_mapping.cpp:221-265.  The constructor of `word_segmenter` advances to the first word
(word_segmenter.h:65-69); on the empty text it stays empty. -/
def toTitlecase (U : Table) (T : CaseTables) (text : List Nat) : List Nat :=
  match text with
  | [] => titleLoop U T 1 {} [] [] []
  | c :: cs =>
    titleLoop U T text.length (extendSegment U (processInit U c {}) cs).1
      (c :: (extendSegment U (processInit U c {}) cs).2.1) (extendSegment U (processInit U c {}) cs).2.2 []

/-! ## UTF-8 overloads: case_mapping.cpp:288-314 -/

/-- `convert_to<char>(op(convert_to<char32_t>(text)))`; `simd` selects the vectorised decoder (C08). -/
def viaUtf32 (op : List Nat → List Nat) (simd : Nat) (bytes : List Nat) : Mem (List Nat) :=
  Convert.convertTo8From32 (op (Convert.fromUtf8Str simd bytes))

/-- case_mapping.cpp:288-293 -/
def toUppercase8 (T : CaseTables) := viaUtf32 (toUppercase T)
/-- case_mapping.cpp:295-300 -/
def toLowercase8 (T : CaseTables) := viaUtf32 (toLowercase T)
/-- case_mapping.cpp:302-307 -/
def toTitlecase8 (U : Table) (T : CaseTables) := viaUtf32 (toTitlecase U T)
/-- case_mapping.cpp:309-314 -/
def casefold8 (T : CaseTables) := viaUtf32 (casefold T)

/-! ## Comparison -/

/-- `char_traits::compare(s1, s2, n)`; for `char` the comparison is by unsigned byte. -/
def traitsCompare : List Nat → List Nat → Nat → Int
  | a :: as, b :: bs, n + 1 => if a < b then -1 else if b < a then 1 else traitsCompare as bs n
  | _, _, _ => 0

/-- `basic_string::compare`: the common length first, then the difference of the lengths clamped to `int`. -/
def stringCompare (a b : List Nat) : Int :=
  let r := traitsCompare a b (min a.length b.length)
  if r ≠ 0 then r
  else if (a.length : Int) - b.length > 2147483647 then 2147483647
  else if (a.length : Int) - b.length < -2147483648 then -2147483648
  else (a.length : Int) - b.length

/-- case_mapping.cpp:320-325 -/
def casefoldCompare (T : CaseTables) (a b : List Nat) : Int := stringCompare (casefold T a) (casefold T b)
/-- case_mapping.cpp:334-337 -/
def casefoldEquals (T : CaseTables) (a b : List Nat) : Bool := casefoldCompare T a b == 0

/-- case_mapping.cpp:327-332 -/
def casefoldCompare8 (T : CaseTables) (simd : Nat) (a b : List Nat) : Mem Int :=
  match casefold8 T simd a, casefold8 T simd b with
  | .ok x, .ok y => .ok (stringCompare x y)
  | _, _ => .oob

/-- case_mapping.cpp:339-342 -/
def casefoldEquals8 (T : CaseTables) (simd : Nat) (a b : List Nat) : Mem Bool :=
  match casefoldCompare8 T simd a b with
  | .ok r => .ok (r == 0)
  | .oob => .oob

/-! ## Queries: case_mapping.cpp:368-386 -/

/-- case_mapping.cpp:368-371 -/
def changesWhenUppercased (T : CaseTables) (c : Nat) : Bool := simpleUppercase T c != c || fullUppercase T c != []
/-- case_mapping.cpp:373-376 -/
def changesWhenLowercased (T : CaseTables) (c : Nat) : Bool := simpleLowercase T c != c || fullLowercase T c != []
/-- case_mapping.cpp:378-381 -/
def changesWhenTitlecased (T : CaseTables) (c : Nat) : Bool := simpleTitlecase T c != c || fullTitlecase T c != []
/-- case_mapping.cpp:383-386 -/
def changesWhenCasefolded (T : CaseTables) (c : Nat) : Bool := simpleCasefold T c != c || fullCasefold T c != []

end Verif.Case
