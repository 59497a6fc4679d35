import Verif.Model.Utf8
/-!
# Model of `src/libunicode/convert.h`, `convert.cpp`, `convert_simd_impl.h`
-/

namespace Verif.Convert
open Verif.Utf8

/-- `encoder<char>`: the bytes appended to the output iterator.  Models convert.h:33-62.
(`static_cast<char>` is a reinterpretation of the same 8 bits; bytes are kept as 0..255.) -/
def encode8 (input : Nat) : List Nat :=
  if input ≤ 0x7F then
    [input &&& 0x7F]
  else if input ≤ 0x7FF then
    [((input >>> 6) &&& 0x1F) ||| 0xC0,
     ((input >>> 0) &&& 0x3F) ||| 0x80]
  else if input ≤ 0xFFFF then
    [((input >>> 12) &&& 0x0F) ||| 0xE0,
     ((input >>> 6) &&& 0x3F) ||| 0x80,
     ((input >>> 0) &&& 0x3F) ||| 0x80]
  else
    [((input >>> 18) &&& 0x07) ||| 0xF0,
     ((input >>> 12) &&& 0x3F) ||| 0x80,
     ((input >>> 6) &&& 0x3F) ||| 0x80,
     ((input >>> 0) &&& 0x3F) ||| 0x80]

/-- Tail of the byte decoder: convert.h:107-111. -/
def finish8 (s : DecState) : DecState × Option Nat :=
  if s.currentLength < s.expectedLength then (s, none)
  else ({ s with expectedLength := 0 }, some s.character)

/-- `decoder<char>::operator()(uint8_t)`: convert.h:70-112.  The three data members (convert.h:66-68) are
the same triple as `utf8_decoder_state`. -/
def decode8 (s : DecState) (b : Nat) : DecState × Option Nat :=
  if s.expectedLength = 0 then
    if (b &&& 0x80) == 0 then
      ({ s with currentLength := 1 }, some b)
    else if (b &&& 0xE0) == 0xC0 then
      finish8 { character := b &&& 0x1F, expectedLength := 2, currentLength := 1 }
    else if (b &&& 0xF0) == 0xE0 then
      finish8 { character := b &&& 0x0F, expectedLength := 3, currentLength := 1 }
    else if (b &&& 0xF8) == 0xF0 then
      finish8 { character := b &&& 0x07, expectedLength := 4, currentLength := 1 }
    else
      (s, none)
  else
    finish8 { s with
      character := ((s.character <<< 6) % 2^32) ||| (b &&& 0x3F)
      currentLength := s.currentLength + 1 }

/-- Reads one continuation byte `uint8_t(*input++)` and tests `(ch >> 6) != 2` (convert.h:129-131 and the
identical later occurrences): `oob` past the end, otherwise the remaining input and the byte if it is a
continuation byte. -/
def cont8 : List Nat → Mem (List Nat × Option Nat)
  | [] => .oob
  | b :: bs => if b >>> 6 ≠ 2 then .ok (bs, none) else .ok (bs, some b)

/-- 32-bit subtraction as performed by the final expressions of convert.h:132-193 (`int`/`uint32_t`
arithmetic followed by a cast to `char32_t`, i.e. modulo 2^32). -/
def sub32 (a k : Nat) : Nat := (a % 2^32 + (2^32 - k)) % 2^32

/-- Sequentially reads `n` continuation bytes as the iterator decoder does, stopping at the first bad one
(which has then been consumed). -/
def conts8 : Nat → List Nat → Mem (List Nat × Option (List Nat))
  | 0, bs => .ok (bs, some [])
  | n+1, bs =>
    match cont8 bs with
    | .oob => .oob
    | .ok (r, none) => .ok (r, none)
    | .ok (r, some b) =>
      match conts8 n r with
      | .oob => .oob
      | .ok (r', none) => .ok (r', none)
      | .ok (r', some xs) => .ok (r', some (b :: xs))

/-- `decoder<char>::operator()(InputIterator&)`: convert.h:114-196.  Input: the bytes from the iterator to
the end of the view.  Output: remaining bytes and the optional codepoint, or `oob` when the code would
dereference the end iterator. -/
def decode8It : List Nat → Mem (List Nat × Option Nat)
  | [] => .oob
  | c0 :: rest =>
    if c0 < 0x80 then .ok (rest, some c0)
    else if c0 < 0xC0 then .ok (rest, none)
    else if c0 < 0xE0 then
      match conts8 1 rest with
      | .ok (r, some [c1]) => .ok (r, some (sub32 ((c0 <<< 6) + c1) 0x3080))
      | .ok (r, _) => .ok (r, none)
      | .oob => .oob
    else if c0 < 0xF0 then
      match conts8 2 rest with
      | .ok (r, some [c1, c2]) => .ok (r, some (sub32 ((c0 <<< 12) + (c1 <<< 6) + c2) 0xE2080))
      | .ok (r, _) => .ok (r, none)
      | .oob => .oob
    else if c0 < 0xF8 then
      match conts8 3 rest with
      | .ok (r, some [c1, c2, c3]) =>
        .ok (r, some (sub32 ((c0 <<< 18) + (c1 <<< 12) + (c2 <<< 6) + c3) 0x3C82080))
      | .ok (r, _) => .ok (r, none)
      | .oob => .oob
    else if c0 < 0xFC then
      match conts8 4 rest with
      | .ok (r, some [c1, c2, c3, c4]) =>
        .ok (r, some (sub32 ((c0 <<< 24) + (c1 <<< 18) + (c2 <<< 12) + (c3 <<< 6) + c4) 0xFA082080))
      | .ok (r, _) => .ok (r, none)
      | .oob => .oob
    else if c0 < 0xFE then
      match conts8 5 rest with
      | .ok (r, some [c1, c2, c3, c4, c5]) =>
        .ok (r, some (sub32 ((c0 <<< 30) + (c1 <<< 24) + (c2 <<< 18) + (c3 <<< 12) + (c4 <<< 6) + c5)
          0x82082080))
      | .ok (r, _) => .ok (r, none)
      | .oob => .oob
    else .ok (rest, none)

/-- `encoder<char16_t>`: convert.h:199-228.  `char_type(...)` truncates to 16 bits. -/
def encode16 (input : Nat) : List Nat :=
  if input < 0xD800 then [input % 2^16]
  else if input < 0x10000 then
    if input < 0xE000 then []
    else [input % 2^16]
  else if input < 0x110000 then
    [(0xD7C0 + (input >>> 10)) % 2^16, (0xDC00 + (input &&& 0x3FF)) % 2^16]
  else []

/-- `decoder<char16_t>`: convert.h:231-255.  Input: code units from the iterator to the end. -/
def decode16It : List Nat → Mem (List Nat × Option Nat)
  | [] => .oob
  | c0 :: rest =>
    if c0 < 0xD800 then .ok (rest, some c0)
    else if c0 < 0xDC00 then
      match rest with
      | [] => .oob
      | c1 :: rest' =>
        if c1 >>> 10 ≠ 0x37 then .ok (rest', none)
        else .ok (rest', some (sub32 ((c0 <<< 10) + c1) 0x35FDC00))
    else if c0 < 0xE000 then .ok (rest, none)
    else .ok (rest, some c0)

/-- `encoder<char32_t>`: convert.h:258-267. -/
def encode32 (input : Nat) : List Nat := [input]

/-- `decoder<char32_t>`: convert.h:270-277. -/
def decode32It : List Nat → Mem (List Nat × Option Nat)
  | [] => .oob
  | c :: rest => .ok (rest, some c)

/-- The `while (i != e)` loop of `convert_to(std::basic_string_view<S>, OutputIterator)`:
convert.h:333-351, for a decoder `read` and encoder `write`.  `fuel` bounds the number of iterations; every
decoder consumes at least one element, so `input.length` iterations suffice (`convertIt`). The result is the
list of code units written, or `oob`. -/
def convertLoop (read : List Nat → Mem (List Nat × Option Nat)) (write : Nat → List Nat) :
    Nat → List Nat → Mem (List Nat)
  | 0, _ => .ok []
  | fuel + 1, input =>
    match input with
    | [] => .ok []
    | _ :: _ =>
      match read input with
      | .oob => .oob
      | .ok (rest, o) =>
        match convertLoop read write fuel rest with
        | .oob => .oob
        | .ok out => .ok ((match o with | some c => write c | none => []) ++ out)

/-- `convert_to<T>(std::basic_string_view<S>, OutputIterator)` for `S ≠ T`: convert.h:333-351. -/
def convertIt (read : List Nat → Mem (List Nat × Option Nat)) (write : Nat → List Nat)
    (input : List Nat) : Mem (List Nat) :=
  convertLoop read write input.length input

/-- The scalar tail loop: convert_simd_impl.h:125-131 (UTF-32 output) and 224-231 (UTF-16 output), with the
encoder `write` (`fun c => [c]` resp. `encode16`). -/
def scalarLoop (write : Nat → List Nat) : DecState → List Nat → List Nat
  | _, [] => []
  | s, b :: bs =>
    match decode8 s b with
    | (s', some c) => write c ++ scalarLoop write s' bs
    | (s', none) => scalarLoop write s' bs

/-- The SIMD ASCII fast path: convert_simd_impl.h:47-59 / 63-101 / 105-120 (UTF-32) and 156-166 / 170-202 /
206-219 (UTF-16).  While a whole block of `w` bytes is available and all of it is ASCII (no high bit), the
block is widened element-wise.  Returns the written units and the remaining input.  The shuffles that
implement the zero-extension are modelled by their lane-wise meaning (identity on values). -/
def simdLoop (w : Nat) : Nat → List Nat → List Nat × List Nat
  | 0, src => ([], src)
  | fuel + 1, src =>
    if w ≤ src.length then
      if (src.take w).all (fun b => b < 0x80) then
        let (out, rest) := simdLoop w fuel (src.drop w)
        (src.take w ++ out, rest)
      else ([], src)
    else ([], src)

/-- `convert_utf8_to_utf32_simd<SimdBitWidth>`: convert_simd_impl.h:37-134, with `w = SimdBitWidth/8`. -/
def utf8ToUtf32Simd (w : Nat) (input : List Nat) : List Nat :=
  let (out, rest) := simdLoop w input.length input
  out ++ scalarLoop encode32 {} rest

/-- `convert_utf8_to_utf16_simd<SimdBitWidth>`: convert_simd_impl.h:146-234. -/
def utf8ToUtf16Simd (w : Nat) (input : List Nat) : List Nat :=
  let (out, rest) := simdLoop w input.length input
  out ++ scalarLoop encode16 {} rest

/-- `convert_utf8_to_utf32` dispatch: convert.cpp:12-22; `simdSize` is `max_simd_size()`. -/
def utf8ToUtf32 (simdSize : Nat) (input : List Nat) : List Nat :=
  if simdSize = 512 then utf8ToUtf32Simd (512 / 8) input
  else if simdSize = 256 then utf8ToUtf32Simd (256 / 8) input
  else utf8ToUtf32Simd (128 / 8) input

/-- `convert_utf8_to_utf16` dispatch: convert.cpp:24-34. -/
def utf8ToUtf16 (simdSize : Nat) (input : List Nat) : List Nat :=
  if simdSize = 512 then utf8ToUtf16Simd (512 / 8) input
  else if simdSize = 256 then utf8ToUtf16Simd (256 / 8) input
  else utf8ToUtf16Simd (128 / 8) input

/-- `from_utf8(std::string_view)` (utf8.h:158-169) and `convert_to<char32_t>(string_view)`
(convert.h:355-367): empty input returns empty; otherwise dispatch. -/
def fromUtf8Str (simdSize : Nat) (bytes : List Nat) : List Nat :=
  if bytes.isEmpty then [] else utf8ToUtf32 simdSize bytes

/-- `convert_to<char16_t>(std::string_view)`: convert.h:369-378. -/
def convertTo16FromUtf8 (simdSize : Nat) (bytes : List Nat) : List Nat :=
  if bytes.isEmpty then [] else utf8ToUtf16 simdSize bytes

/-- `convert_to<char>(std::u32string_view)`: convert.h:379-384 with `decoder<char32_t>`, `encoder<char>`. -/
def convertTo8From32 (cs : List Nat) : Mem (List Nat) := convertIt decode32It encode8 cs
/-- `convert_to<char16_t>(std::u32string_view)`. -/
def convertTo16From32 (cs : List Nat) : Mem (List Nat) := convertIt decode32It encode16 cs
/-- `convert_to<char32_t>(std::u16string_view)`. -/
def convertTo32From16 (us : List Nat) : Mem (List Nat) := convertIt decode16It encode32 us
/-- `convert_to<char>(std::u16string_view)`. -/
def convertTo8From16 (us : List Nat) : Mem (List Nat) := convertIt decode16It encode8 us
/-- `convert_to<char32_t>(std::string_view, OutputIterator)` (iterator overload, convert.h:333-351). -/
def convertTo32From8It (bs : List Nat) : Mem (List Nat) := convertIt decode8It encode32 bs
/-- `convert_to<char16_t>(std::string_view, OutputIterator)` (iterator overload). -/
def convertTo16From8It (bs : List Nat) : Mem (List Nat) := convertIt decode8It encode16 bs

end Verif.Convert
