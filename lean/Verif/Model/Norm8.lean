import Verif.Model.Norm
import Verif.Model.Convert
/-!
# UTF-8 front ends of the normalizer

normalization.cpp:363-368, 422-426, 441-445, 456-459, 466-469 and `utf8_normalizer` (600-644).
-/

namespace Verif.Norm
open Verif.Utf8 Verif.Convert

/-- `normalize(std::string_view, form)`: normalization.cpp:363-368 (`simd` = `max_simd_size()`). -/
def normalize8 (T : Tables) (simd : Nat) (f : Form) (text : List Nat) : Mem (List Nat) :=
  convertTo8From32 (normalize T f (fromUtf8Str simd text))

/-- `is_normalized(std::string_view, form)`: normalization.cpp:441-445. -/
def isNormalized8 (T : Tables) (simd : Nat) (f : Form) (text : List Nat) : Bool :=
  isNormalized T f (fromUtf8Str simd text)

/-- The members `_inner._pending` and `_utf8State` of `utf8_normalizer` (normalization.h). -/
structure U8 where
  pending : List Nat
  dec : DecState
deriving DecidableEq, Repr

/-- The part of the loop body of `utf8_normalizer::feed` after a codepoint is known: normalization.cpp:620-622.
`convert_to<char>` of a UTF-32 string is `toUtf8Str` of it (C07). -/
def u8emit (T : Tables) (f : Form) (pending : List Nat) (dec : DecState) (cp : Nat) : U8 × List Nat :=
  (⟨(feed T f pending cp).1, dec⟩, toUtf8Str (feed T f pending cp).2)

/-- Loop body of `utf8_normalizer::feed`: normalization.cpp:610-622. -/
def u8byte (T : Tables) (f : Form) (s : U8) (b : Nat) : U8 × List Nat :=
  match (fromUtf8 s.dec b).2 with
  | .success v => u8emit T f s.pending (fromUtf8 s.dec b).1 v
  | .invalid => u8emit T f s.pending (fromUtf8 s.dec b).1 0xFFFD
  | .incomplete => (⟨s.pending, (fromUtf8 s.dec b).1⟩, [])

/-- `utf8_normalizer::feed`: normalization.cpp:604-626: new state and returned text. -/
def u8feed (T : Tables) (f : Form) (s : U8) : List Nat → U8 × List Nat
  | [] => (s, [])
  | b :: bs => ((u8feed T f (u8byte T f s b).1 bs).1, (u8byte T f s b).2 ++ (u8feed T f (u8byte T f s b).1 bs).2)

/-- `utf8_normalizer::flush`: normalization.cpp:628-637 (the decoder state is kept). -/
def u8flush (T : Tables) (f : Form) (s : U8) : U8 × List Nat :=
  (⟨(flush T f s.pending).1, s.dec⟩, toUtf8Str (flush T f s.pending).2)

/-- A history of `feed` calls, one per chunk. -/
def u8chunks (T : Tables) (f : Form) (s : U8) : List (List Nat) → U8 × List Nat
  | [] => (s, [])
  | c :: cs => ((u8chunks T f (u8feed T f s c).1 cs).1, (u8feed T f s c).2 ++ (u8chunks T f (u8feed T f s c).1 cs).2)

end Verif.Norm
