import Verif.Model.Width
import Verif.Model.Run
import Verif.Model.Convert

/-!
# Model of the command line tool `uc-inspect`

src/tools/uc-inspect.cpp.  Standard output is the list of bytes written.  Files and standard input are lists of bytes
(a file that cannot be opened is an empty one: the stream is never `good`, and nothing checks that it was opened).
-/

namespace Verif.Tools
open Verif.Utf8 Verif.Ucd Verif.Grapheme Verif.Convert

/-- The bytes of an ASCII literal. -/
def lit (s : String) : List Nat := s.toList.map Char.toNat

/-- `std::format("{}", n)` of a non-negative integer, and `cout << n` in decimal. -/
def decimal (n : Nat) : List Nat :=
  if n < 10 then [0x30 + n] else decimal (n / 10) ++ [0x30 + n % 10]

/-- `{:>w}` -/
def padLeft (w : Nat) (s : List Nat) : List Nat := List.replicate (w - s.length) 0x20 ++ s
/-- `{:<w}` -/
def padRight (w : Nat) (s : List Nat) : List Nat := s ++ List.replicate (w - s.length) 0x20

/-- an upper case hexadecimal digit of `{:X}` -/
def upperDigit (v : Nat) : Nat := if v < 10 then 0x30 + v else 0x37 + v

/-- `{:08X}` of a `uint32_t` (which never needs more than eight digits) -/
def hex8 (n : Nat) : List Nat :=
  [upperDigit (n / 268435456 % 16), upperDigit (n / 16777216 % 16), upperDigit (n / 1048576 % 16), upperDigit (n / 65536 % 16),
   upperDigit (n / 4096 % 16), upperDigit (n / 256 % 16), upperDigit (n / 16 % 16), upperDigit (n % 16)]

/-- The data and functions of the library and of the C++ runtime the tools use. `isprint b` is `std::isprint` of the
`char` with the bits of `b`.  `scriptName`, `styleName` are the generated formatters. -/
structure Env where
  U : Table
  D : Script.Data
  cat : Nat → Int
  isEmoji : Nat → Bool
  isEmojiComponent : Nat → Bool
  scriptName : Script.Script → List Nat
  styleName : Bool → List Nat
  isprint : Nat → Bool
  simd : Nat

/-- `isEmoji`: uc-inspect.cpp:60-63. -/
def isEmojiText (E : Env) (c : Nat) : Bool := E.isEmoji c && !E.isEmojiComponent c

/-- `escape(uint8_t)`: uc-inspect.cpp:82-98. -/
def escapeByte (isprint : Nat → Bool) (ch : Nat) : List Nat :=
  if ch = 0x5C then [0x5C, 0x5C]
  else if ch = 0x1B then [0x5C, 0x30, 0x33, 0x33]
  else if ch = 0x09 then [0x5C, 0x74]
  else if ch = 0x0D then [0x5C, 0x72]
  else if ch = 0x0A then [0x5C, 0x6E]
  else if ch = 0x22 then [0x5C, 0x22]
  else if isprint ch then [ch]
  else [0x5C, 0x78, upperDigit (ch / 16), upperDigit (ch % 16)]

/-- `escape(T, T)` and `escape(string const&)`: uc-inspect.cpp:100-113. -/
def escape (isprint : Nat → Bool) (s : List Nat) : List Nat := s.foldl (fun a ch => a ++ escapeByte isprint ch) []

/-- `text.find(what, pos)` for a one-byte `what`, on the text from `pos` on: the distance to the first occurrence. -/
def find1 (what : Nat) : List Nat → Option Nat
  | [] => none
  | b :: bs => if b = what then some 0 else (find1 what bs).map (· + 1)

/-- The loop of `replaceAll` for a one-byte `what`: uc-inspect.cpp:71-79.  `text` is the text from `a` on, `b` the position
found, relative to `a`; the next search starts at `a + 1` (`find` with a position behind the end finds nothing). -/
def replaceLoop (what : Nat) (repl : List Nat) : Nat → List Nat → Option Nat → List Nat
  | 0, text, _ => text
  | _ + 1, text, none => text
  | fuel + 1, text, some b =>
    text.take b ++ repl ++
      replaceLoop what repl fuel (text.drop (b + 1)) ((find1 what ((text.drop (b + 1)).drop 1)).map (· + 1))

/-- `replaceAll`: uc-inspect.cpp:65-80 for the only call, uc-inspect.cpp:252, whose `what` is one byte. -/
def replaceAll (what : Nat) (repl : List Nat) (text : List Nat) : List Nat :=
  replaceLoop what repl (text.length + 1) text (find1 what text)

/-- One line of `codepoints`: uc-inspect.cpp:160-172.  `width >= 0` always holds (the width is an unsigned byte). -/
def codepointLine (E : Env) (lastOffset wc : Nat) (breakable : Bool) : List Nat :=
  padLeft 3 (decimal lastOffset) ++ (lit ": U+" ++ (hex8 wc ++ (lit " [" ++
    ((if isEmojiText E wc then lit "EMOJI" else lit "TEXT ") ++ (lit "] [" ++
    (padRight 10 (E.scriptName (E.D.script wc)) ++ (lit "] " ++
    ((if breakable then lit "[breakable  ]" else lit "[unbreakable]") ++ (lit " width:" ++
    (decimal (Width.width1 E.U wc) ++ (lit " UTF8:" ++ (escape E.isprint (toUtf8 wc) ++ [0x0A]))))))))))))

/-- The local variables of `codepoints`: uc-inspect.cpp:128-132. -/
structure CpState where
  lastOffset : Nat := 0
  totalOffset : Nat := 0
  dec : DecState := {}
  lastWc : Nat := 0
  gs : GState

/-- uc-inspect.cpp:149-158: the first codepoint, and any codepoint after U+0000, initialises the segmenter. -/
def breakStep (U : Table) (lastWc wc : Nat) (gs : GState) : GState × Bool :=
  if lastWc = 0 then (processInit U wc, true) else processBreakable U wc gs

/-- The loop of `codepoints`: uc-inspect.cpp:134-179.  (`totalOffset` is an `int`: files below 2 GiB.) -/
def codepointsLoop (E : Env) : CpState → List Nat → List Nat
  | _, [] => []
  | s, b :: bs =>
    match fromUtf8 s.dec b with
    | (d, .success wc) =>
      codepointLine E s.lastOffset wc (breakStep E.U s.lastWc wc s.gs).2 ++
        codepointsLoop E ⟨s.totalOffset + 1, s.totalOffset + 1, d, wc, (breakStep E.U s.lastWc wc s.gs).1⟩ bs
    | (d, .invalid) => codepointsLoop E { s with lastOffset := s.totalOffset + 1, totalOffset := s.totalOffset + 1, dec := d } bs
    | (d, .incomplete) => codepointsLoop E { s with totalOffset := s.totalOffset + 1, dec := d } bs

/-- `codepoints`: uc-inspect.cpp:126-180. -/
def codepoints (E : Env) (bytes : List Nat) : List Nat := codepointsLoop E { gs := GState.default E.U } bytes

/-- The names of a list, separated by `", "`: uc-inspect.cpp:192-201. -/
def joinNames (E : Env) : List Script.Script → List Nat
  | [] => []
  | [s] => E.scriptName s
  | s :: t :: rest => E.scriptName s ++ (lit ", " ++ joinNames E (t :: rest))

/-- `scriptExtensionsString`: uc-inspect.cpp:186-202. -/
def scriptExtensionsString (E : Env) (c : Nat) : List Nat :=
  match E.D.exts c with
  | none => E.scriptName (E.D.script c)
  | some l => joinNames E l

/-- One row of `scripts`: uc-inspect.cpp:221-228 (`{:>04}` pads with blanks: an alignment disables the `0` flag). -/
def scriptRow (E : Env) (i c : Nat) : List Nat :=
  lit "    " ++ padLeft 4 (decimal i) ++ lit ":    U+" ++ hex8 c ++ lit "   " ++ encode8 c ++ [0x09, 0xE2, 0x88, 0x86, 0x20] ++
    decimal (Width.width1 E.U c) ++ [0x09] ++ padRight 12 (E.scriptName (E.D.script c)) ++ [0x09] ++ lit "(" ++
    scriptExtensionsString E c ++ lit ")\n"

/-- `for (size_t i = frontPosition; i < nextPosition; ++i)`: uc-inspect.cpp:219-229; `n` iterations are left. -/
def scriptRows (E : Env) (cps : List Nat) : Nat → Nat → Mem (List Nat)
  | _, 0 => .ok []
  | i, n + 1 =>
    match cps[i]? with
    | none => .oob
    | some c =>
      match scriptRows E cps (i + 1) n with
      | .oob => .oob
      | .ok r => .ok (scriptRow E i c ++ r)

/-- `nextPosition - 1` in `size_t` -/
def pred64 (n : Nat) : Nat := (n + (2^64 - 1)) % 2^64

/-- The loop of `scripts`: uc-inspect.cpp:216-231; the segments are those `consume` reports one by one. -/
def scriptsLoop (E : Env) (cps : List Nat) : Nat → List (Script.Script × Nat) → Mem (List Nat)
  | _, [] => .ok []
  | front, (s, next) :: rest =>
    match scriptRows E cps front (next - front) with
    | .oob => .oob
    | .ok rows =>
      match scriptsLoop E cps next rest with
      | .oob => .oob
      | .ok r => .ok (decimal front ++ lit "-" ++ decimal (pred64 next) ++ lit ": " ++ E.scriptName s ++ lit "\n" ++ rows ++ r)

/-- The heading: uc-inspect.cpp:215. -/
def scriptsHeading : List Nat := lit "   INDEX     CODEPOINT    TEXT  WIDTH   SCRIPT          SCRIPT EXTS\n"

/-- `scripts`: uc-inspect.cpp:204-234. -/
def scripts (E : Env) (bytes : List Nat) : Mem (List Nat) :=
  match scriptsLoop E (fromUtf8Str E.simd bytes) 0 (Script.runs E.D (fromUtf8Str E.simd bytes)) with
  | .oob => .oob
  | .ok r => .ok (scriptsHeading ++ r)

/-- `u32string_view(codepoints.data() + start, end - start)`: a view outside the text is `oob` once it is read. -/
def slice (cps : List Nat) (start stop : Nat) : Mem (List Nat) :=
  if start ≤ stop ∧ stop ≤ cps.length then .ok ((cps.drop start).take (stop - start)) else .oob

/-- The line before the text of a run: uc-inspect.cpp:249, unicode-query.cpp:233-234. -/
def runHeading (E : Env) (r : Run.Range Script.Script Bool) : List Nat :=
  decimal r.start ++ lit "-" ++ decimal (pred64 r.stop) ++ lit " (" ++ decimal (r.stop - r.start) ++ lit "): " ++
    E.scriptName r.props.1 ++ lit " " ++ E.styleName r.props.2 ++ lit "\n"

/-- The loop of `runs`: uc-inspect.cpp:244-255, and of `showRuns`: unicode-query.cpp:225-237.  `shown` is what is printed for
the UTF-8 form of the text of a run. -/
def runsLoop (E : Env) (shown : List Nat → List Nat) (cps : List Nat) : List (Run.Range Script.Script Bool) → Mem (List Nat)
  | [] => .ok []
  | r :: rest =>
    match slice cps r.start r.stop with
    | .oob => .oob
    | .ok text32 =>
      match convertTo8From32 text32 with
      | .oob => .oob
      | .ok text8 =>
        match runsLoop E shown cps rest with
        | .oob => .oob
        | .ok out => .ok (runHeading E r ++ shown text8 ++ out)

/-- How `uc-inspect` shows the text of a run: uc-inspect.cpp:252-254. -/
def inspectShown (text8 : List Nat) : List Nat :=
  lit "\"" ++ 0x1B :: lit "[32m" ++ replaceAll 0x1B (lit "\\033") text8 ++ 0x1B :: lit "[m" ++ lit "\"\n\n"

/-- `runs`: uc-inspect.cpp:236-258. -/
def runs (E : Env) (bytes : List Nat) : Mem (List Nat) :=
  runsLoop E inspectShown (fromUtf8Str E.simd bytes) (Run.textRuns E.D E.cat (fromUtf8Str E.simd bytes))

/-- `enum class Cmd`: uc-inspect.cpp:260-265. -/
inductive Cmd where
  | codepoints | runs | scripts
deriving DecidableEq, Repr

/-- Where the input comes from. -/
inductive Source where
  | stdin
  | file (name : List Nat)
deriving DecidableEq, Repr

/-- The table of commands: uc-inspect.cpp:278-281. -/
def mappings : List (List Nat × Cmd) :=
  [(lit "codepoints", .codepoints), (lit "cp", .codepoints), (lit "runs", .runs), (lit "scripts", .scripts)]

/-- `parseArgs`: uc-inspect.cpp:269-288, on the arguments after the program name (`argc != 3` is: not exactly two). -/
def parseArgs : List (List Nat) → Cmd × Source
  | [arg, name] =>
    match mappings.find? (fun m => m.1 = arg) with
    | some m => (m.2, .file name)
    | none => (.codepoints, .file name)
  | _ => (.codepoints, .stdin)

/-- `run`: uc-inspect.cpp:290-319: what is written to standard output (the exit code is always `EXIT_SUCCESS`). -/
def inspect (E : Env) (read : Source → List Nat) (args : List (List Nat)) : Mem (List Nat) :=
  match (parseArgs args).1 with
  | .codepoints => .ok (codepoints E (read (parseArgs args).2))
  | .runs => runs E (read (parseArgs args).2)
  | .scripts => scripts E (read (parseArgs args).2)

end Verif.Tools
