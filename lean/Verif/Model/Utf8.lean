/-!
# Model of `src/libunicode/utf8.h` and `src/libunicode/utf8.cpp`

Bytes (`uint8_t`), code units and codepoints (`char32_t`) are natural numbers.  All bit operations of the
C++ code are kept as bit operations; the only arithmetic that could leave `char32_t` (`character <<= 6`)
is reduced modulo 2^32 explicitly.
-/

namespace Verif.Utf8


/-- `to_utf8(char32_t, uint8_t*)`: the bytes written to `result`.  Models utf8.h:31-59.
`static_cast<uint8_t>` never truncates here since every operand is masked below 256. -/
def toUtf8 (c : Nat) : List Nat :=
  if c ≤ 0x7F then
    [c &&& 0x7F]
  else if c ≤ 0x7FF then
    [((c >>> 6) &&& 0x1F) ||| 0xC0,
     ((c >>> 0) &&& 0x3F) ||| 0x80]
  else if c ≤ 0xFFFF then
    [((c >>> 12) &&& 0x0F) ||| 0xE0,
     ((c >>> 6) &&& 0x3F) ||| 0x80,
     ((c >>> 0) &&& 0x3F) ||| 0x80]
  else
    [((c >>> 18) &&& 0x07) ||| 0xF0,
     ((c >>> 12) &&& 0x3F) ||| 0x80,
     ((c >>> 6) &&& 0x3F) ||| 0x80,
     ((c >>> 0) &&& 0x3F) ||| 0x80]

/-- `to_utf8(char32_t const*, size_t)` and its `u32string` overloads.  Models utf8.h:62-89: the loop
appends the bytes of every codepoint to `s`. -/
def toUtf8Str (cs : List Nat) : List Nat :=
  cs.foldl (fun s c => s ++ toUtf8 c) []

/-- `struct utf8_decoder_state`.  Models utf8.h:91-96. -/
structure DecState where
  character : Nat := 0
  expectedLength : Nat := 0
  currentLength : Nat := 0
deriving DecidableEq, Repr

/-- `ConvertResult = std::variant<Invalid, Incomplete, Success>`.  Models utf8.h:100-106. -/
inductive Result where
  | invalid
  | incomplete
  | success (value : Nat)
deriving DecidableEq, Repr

/-- Nat is the lead of a 2-byte sequence: `(value & 0b1110'0000) == 0b1100'0000` (utf8.cpp:28). -/
def isLead2 (b : Nat) : Bool := (b &&& 0xE0) == 0xC0
/-- `(value & 0b1111'0000) == 0b1110'0000` (utf8.cpp:34). -/
def isLead3 (b : Nat) : Bool := (b &&& 0xF0) == 0xE0
/-- `(value & 0b1111'1000) == 0b1111'0000` (utf8.cpp:40). -/
def isLead4 (b : Nat) : Bool := (b &&& 0xF8) == 0xF0

/-- The common tail of `from_utf8`: utf8.cpp:73-77. -/
def finish (s : DecState) : DecState × Result :=
  if s.currentLength < s.expectedLength then (s, .incomplete)
  else ({ s with expectedLength := 0 }, .success s.character)

/-- The branch `!state.expectedLength` of `from_utf8(state, value)`: utf8.cpp:21-52 followed by the common
tail 73-77.  (Split out because the recursive call at utf8.cpp:63 always lands here.) -/
def startByte (s : DecState) (b : Nat) : DecState × Result :=
  if (b &&& 0x80) == 0 then
    ({ s with currentLength := 1 }, .success b)
  else if isLead2 b then
    finish { character := b &&& 0x1F, expectedLength := 2, currentLength := 1 }
  else if isLead3 b then
    finish { character := b &&& 0x0F, expectedLength := 3, currentLength := 1 }
  else if isLead4 b then
    finish { character := b &&& 0x07, expectedLength := 4, currentLength := 1 }
  else
    ({ s with currentLength := 1, expectedLength := 0 }, .invalid)

/-- `from_utf8(utf8_decoder_state&, uint8_t)`: new state and result.  Models utf8.cpp:19-78. -/
def fromUtf8 (s : DecState) (b : Nat) : DecState × Result :=
  if s.expectedLength = 0 then
    startByte s b
  else if isLead2 b || isLead3 b || isLead4 b then
    ((startByte { s with expectedLength := 0 } b).1, .invalid)
  else
    finish { s with
      character := ((s.character <<< 6) % 2^32) ||| (b &&& 0x3F)
      currentLength := s.currentLength + 1 }

/-- `from_utf8i`: utf8.h:111-122; `unsigned(-1)` for incomplete, `unsigned(-2)` for invalid. -/
def fromUtf8i (s : DecState) (b : Nat) : DecState × Nat :=
  match fromUtf8 s b with
  | (s', .incomplete) => (s', 0xFFFFFFFF)
  | (s', .invalid) => (s', 0xFFFFFFFE)
  | (s', .success v) => (s', v)

/-- Outcome of reading memory through a raw pointer: either a value, or the read left the buffer. -/
inductive Mem (α : Type) where
  | ok (a : α)
  | oob
deriving DecidableEq, Repr

/-- The loop of `from_utf8(uint8_t const* bytes, size_t* size)`: utf8.h:129-136, starting from a given
decoder state.  The result is the `ConvertResult` and the value stored through `size`.  Dereferencing a
byte beyond the buffer is the distinct outcome `oob`. -/
def fromUtf8PtrLoop : DecState → List Nat → Mem (Result × Nat)
  | _, [] => .oob
  | s, b :: bs =>
    match fromUtf8 s b with
    | (s', .incomplete) => fromUtf8PtrLoop s' bs
    | (s', r) => .ok (r, s'.currentLength)

/-- `from_utf8(uint8_t const* bytes, size_t* size)`: utf8.h:124-137. -/
def fromUtf8Ptr (bytes : List Nat) : Mem (Result × Nat) :=
  fromUtf8PtrLoop {} bytes

/-- Feeding a byte string to the incremental decoder, collecting every reported result.  This is how
every client of `from_utf8(state, byte)` uses it (e.g. scan.cpp:99, utf8_grapheme_segmenter.h, tests). -/
def feed : DecState → List Nat → DecState × List Result
  | s, [] => (s, [])
  | s, b :: bs =>
    let (s', r) := fromUtf8 s b
    let (s'', rs) := feed s' bs
    (s'', r :: rs)

/-- Values reported as `Success`, in order. -/
def successes (rs : List Result) : List Nat :=
  rs.filterMap fun | .success v => some v | _ => none

end Verif.Utf8
