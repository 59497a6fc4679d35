import Verif.Model.Inspect
import Verif.Model.Utf8Grapheme

/-!
# Model of the command line tool `unicode-query`

src/tools/unicode-query.cpp.  Arguments are byte strings (of C strings: no zero bytes); standard output and standard
error are the bytes written.
-/

namespace Verif.Query
open Verif.Utf8 Verif.Ucd Verif.Convert Verif.Tools

/-- What the tool uses besides the data of `Tools.Env`: `signedChar` is whether `char` is signed, `isTTY` whether standard
output is a terminal, the other fields print the library's answers for a codepoint through the generated
`operator<<`s. -/
structure Env extends Tools.Env where
  signedChar : Bool
  isTTY : Bool
  name : Nat → List Nat
  ageName : Nat → List Nat
  planeName : Nat → List Nat
  blockName : Nat → List Nat
  categoryName : Nat → List Nat
  eastAsianWidthName : Nat → List Nat
  emojiCategoryName : Nat → List Nat
  graphemeBreakName : Nat → List Nat
  isControl : Nat → Bool

/-- a lower case hexadecimal digit of `std::hex` -/
def lowerDigit (v : Nat) : Nat := if v < 10 then 0x30 + v else 0x57 + v

/-- `cout << std::hex << n` -/
def hexLower (n : Nat) : List Nat :=
  if n < 16 then [lowerDigit n] else hexLower (n / 16) ++ [lowerDigit (n % 16)]

/-- `"\\x" << setw(2) << std::hex << (unsigned(ch) & 0xFF)`: unicode-query.cpp:48, 63.  The fill character is the default, a
blank. -/
def hexEscape (b : Nat) : List Nat := [0x5C, 0x78] ++ padLeft 2 (hexLower b)

/-- `escapeControlCodes`, one byte: unicode-query.cpp:45-50.  `ch < 0x20` compares a `char`: where it is signed, all bytes
from 0x80 on are negative. -/
def controlByte (signedChar : Bool) (b : Nat) : List Nat :=
  if b < 0x20 ∨ (signedChar = true ∧ 0x80 ≤ b) then hexEscape b else [b]

/-- `escapeControlCodes`: unicode-query.cpp:42-53. -/
def escapeControlCodes (signedChar : Bool) (text : List Nat) : List Nat := text.flatMap (controlByte signedChar)

/-- `escaped`, one byte: unicode-query.cpp:58-63. -/
def escapedByte (isprint : Nat → Bool) (b : Nat) : List Nat :=
  if isprint b = true ∧ b ≠ 0x22 then [b] else hexEscape b

/-- `escaped`: unicode-query.cpp:55-66. -/
def escaped (isprint : Nat → Bool) (text : List Nat) : List Nat := text.flatMap (escapedByte isprint)

/-- `quotedAndEscaped`: unicode-query.cpp:68-71. -/
def quotedAndEscaped (isprint : Nat → Bool) (text : List Nat) : List Nat := 0x22 :: escaped isprint text ++ [0x22]

/-- `seq`: unicode-query.cpp:81-95. -/
def seq (isTTY : Bool) (text : List Nat) : List Nat := if isTTY then text else []

/-- the digits `std::from_chars` accepts in base 16 -/
def digitValue (d : Nat) : Option Nat :=
  if 0x30 ≤ d ∧ d ≤ 0x39 then some (d - 0x30)
  else if 0x41 ≤ d ∧ d ≤ 0x46 then some (d - 0x37)
  else if 0x61 ≤ d ∧ d ≤ 0x66 then some (d - 0x57)
  else none

/-- The digits at the beginning of a text (their values), and the rest. -/
def digits : List Nat → List Nat × List Nat
  | [] => ([], [])
  | d :: ds =>
    match digitValue d with
    | none => ([], d :: ds)
    | some v => (v :: (digits ds).1, (digits ds).2)

/-- `std::from_chars(first, last, value, 16)` for `uint32_t value{}`: the value, which stays 0 when there is no digit or the
number does not fit, and the text from the returned `ptr` on: behind all digits, or `first` if there are none. -/
def fromChars16 (text : List Nat) : Nat × List Nat :=
  if (digits text).1 = [] then (0, text)
  else if (digits text).1.foldl (fun a v => a * 16 + v) 0 < 2^32 then ((digits text).1.foldl (fun a v => a * 16 + v) 0, (digits text).2)
  else (0, (digits text).2)

/-- `text.size() >= 3 && text[0] == 'U' && text[1] == '+'` -/
def hasPrefix (text : List Nat) : Bool := decide (3 ≤ text.length ∧ text.take 2 = [0x55, 0x2B])

/-- `parseChar`: unicode-query.cpp:98-108. -/
def parseChar (text : List Nat) : Option Nat :=
  let t := if hasPrefix text then text.drop 2 else text
  if (fromChars16 t).2 = [] then some (fromChars16 t).1 else none

/-- `parseChars`: unicode-query.cpp:110-127. -/
def parseChars (simd : Nat) (text : List Nat) : List Nat :=
  if hasPrefix text then
    match parseChar (text.drop 2) with
    | some c => [c]
    | none => []
  else fromUtf8Str simd text

/-- `prettyAge` without the assertion: unicode-query.cpp:129-138. -/
def prettyAge (age : List Nat) : List Nat := (age.drop 1).map fun b => if b = 0x5F then 0x2E else b

/-- `showCodepointProperties(char32_t)`: unicode-query.cpp:140-162.  (`hex` stays in force; the only number printed behind it is
the width, a single digit.) -/
def report (E : Env) (c : Nat) : List Nat :=
  lit "Name                        : " ++ E.name c ++ lit "\n" ++
  lit "Unicode Version             : " ++ prettyAge (E.ageName c) ++ lit "\n" ++
  lit "Codepoint                   : U+" ++ hexLower c ++ lit "\n" ++
  lit "UTF-8                       : " ++ quotedAndEscaped E.isprint (encode8 c) ++ lit "\n" ++
  (if E.isControl c then [] else lit "Display                     : " ++ encode8 c ++ lit "\n") ++
  lit "Plane                       : " ++ E.planeName c ++ lit "\n" ++
  lit "Block                       : " ++ E.blockName c ++ lit "\n" ++
  lit "Script                      : " ++ E.scriptName (E.D.script c) ++ lit "\n" ++
  lit "General Category            : " ++ E.categoryName c ++ lit "\n" ++
  lit "East Asian Width            : " ++ E.eastAsianWidthName c ++ lit "\n" ++
  lit "Character width             : " ++ hexLower (Width.width1 E.U c) ++ lit "\n" ++
  lit "Emoji Segmentation Category : " ++ E.emojiCategoryName c ++ lit "\n" ++
  lit "Emoji Presentation          : " ++ (if (E.U c).isEmojiPresentation then lit "emoji" else lit "text") ++ lit "\n" ++
  lit "Grapheme Cluster Break      : " ++ E.graphemeBreakName c ++ lit "\n\n"

/-- What a run of the tool leaves behind. -/
structure Outcome where
  out : List Nat
  err : List Nat
  code : Nat
deriving DecidableEq, Repr

/-- `showCodepointProperties(int, char const*[])`: unicode-query.cpp:164-178. -/
def showProperties (E : Env) : List (List Nat) → Outcome
  | [] => ⟨[], [], 0⟩
  | arg :: rest =>
    if parseChars E.simd arg = [] then
      { showProperties E rest with err := lit "Failed to parse codepoint " ++ arg ++ lit "\n" ++ (showProperties E rest).err }
    else
      { showProperties E rest with out := (parseChars E.simd arg).flatMap (report E) ++ (showProperties E rest).out }

/-- `printUsage`: unicode-query.cpp:73-79. -/
def usage (code : Nat) : Outcome :=
  ⟨lit "unicode-query [properties] U+XXXX [...]\n" ++ lit "              gc [-e] [--] \"Text string\"\n" ++
    lit "              runs [-e] [--] \"Text string\"\n", [], code⟩

/-- The option loop of `gc` and `runs`: unicode-query.cpp:186-201, 247-262.  `none`: usage error; otherwise whether `-e` was
given, and the remaining arguments. -/
def options : Bool → List (List Nat) → Option (Bool × List (List Nat))
  | e, [] => some (e, [])
  | e, arg :: rest =>
    if arg = lit "-e" then options true rest
    else if arg = lit "--" then some (e, rest)
    else if arg.head? = some 0x2D then none
    else some (e, arg :: rest)

/-- How a text is shown: unicode-query.cpp:209, 231. -/
def shownText (E : Env) (escapeText : Bool) (text8 : List Nat) : List Nat :=
  if escapeText then escaped E.isprint text8 else escapeControlCodes E.signedChar text8

/-- unicode-query.cpp:205-210, for the clusters of one text; `convert_to<char>` cannot fail (`convert32_any`). -/
def clusterLines (E : Env) (escapeText : Bool) (clusters : List (List Nat)) : List Nat :=
  clusters.flatMap fun gc => shownText E escapeText (gc.flatMap encode8) ++ lit "\n"

/-- `showGraphemeClusters`: unicode-query.cpp:182-213. -/
def showClusters (E : Env) (args : List (List Nat)) : Outcome :=
  match options false args with
  | none => usage 1
  | some (e, texts) => ⟨texts.flatMap fun t => clusterLines E e (Utf8Grapheme.segment E.U t), [], 0⟩

/-- How `showRuns` shows the text of a run: unicode-query.cpp:231-235. -/
def runShown (E : Env) (escapeText : Bool) (text8 : List Nat) : List Nat :=
  lit "\"" ++ seq E.isTTY (0x1B :: lit "[32m") ++ shownText E escapeText text8 ++ seq E.isTTY (0x1B :: lit "[m") ++ lit "\"\n\n"

/-- `showRuns(istream&, bool)`: unicode-query.cpp:217-240. -/
def showRunsOf (E : Env) (escapeText : Bool) (bytes : List Nat) : Mem (List Nat) :=
  Tools.runsLoop E.toEnv (runShown E escapeText) (fromUtf8Str E.simd bytes) (Run.textRuns E.D E.cat (fromUtf8Str E.simd bytes))

/-- The loop over the texts: unicode-query.cpp:264-268. -/
def showRunsAll (E : Env) (escapeText : Bool) : List (List Nat) → Mem (List Nat)
  | [] => .ok []
  | t :: rest =>
    match showRunsOf E escapeText t with
    | .oob => .oob
    | .ok a =>
      match showRunsAll E escapeText rest with
      | .oob => .oob
      | .ok b => .ok (a ++ b)

/-- `showRuns(int, char const*[])`: unicode-query.cpp:242-270. -/
def showRuns (E : Env) (args : List (List Nat)) : Mem Outcome :=
  match options false args with
  | none => .ok (usage 1)
  | some (e, texts) =>
    match showRunsAll E e texts with
    | .oob => .oob
    | .ok out => .ok ⟨out, [], 0⟩

/-- `main`: unicode-query.cpp:282-307, on the arguments after the program name. -/
def query (E : Env) : List (List Nat) → Mem Outcome
  | [] => .ok (usage 1)
  | arg :: rest =>
    if arg = lit "help" then .ok (usage 0)
    else if arg = lit "runs" then showRuns E rest
    else if arg = lit "gc" then .ok (showClusters E rest)
    else if arg = lit "properties" then .ok (showProperties E rest)
    else .ok (showProperties E (arg :: rest))

end Verif.Query
