import Verif.Model.Grapheme
/-!
# Model of `utf8_grapheme_segmenter.h`

Pointers into the text are represented by the bytes from the pointer to `_end`; two pointers are equal iff
these suffixes have the same length.
-/

namespace Verif.Utf8Grapheme
open Verif.Ucd Verif.Utf8 Verif.Grapheme

/-- `class utf8_grapheme_segmenter::iterator`, members used for iteration: utf8_grapheme_segmenter.h:65-74.
(`_start` is never read; `_result` is overwritten before every use.) -/
structure Iter where
  clusterStart : List Nat
  nextCodepointStart : List Nat
  nextUtf8 : List Nat
  dec : DecState := {}
  nextCodepoint : Nat := 0
  cluster : List Nat := []

/-- The loop utf8_grapheme_segmenter.h:118-135: decode until a codepoint (or U+FFFD) is available or the text
ends; returns decoder state, new `_nextUtf8` and new `_nextCodepoint`. -/
def decodeNext : DecState → List Nat → DecState × List Nat × Nat
  | s, [] => (s, [], 0)
  | s, b :: bs =>
    match fromUtf8 s b with
    | (s', .success v) => (s', bs, v)
    | (s', .invalid) => (s', bs, 0xFFFD)
    | (s', .incomplete) => decodeNext s' bs

/-- `consumeCodepoint`: utf8_grapheme_segmenter.h:114-137. Returns the previously pending codepoint. -/
def consumeCodepoint (it : Iter) : Iter × Nat :=
  let d := decodeNext it.dec it.nextUtf8
  ({ it with nextCodepointStart := it.nextUtf8, dec := d.1, nextUtf8 := d.2.1, nextCodepoint := d.2.2 },
    it.nextCodepoint)

/-- The loop utf8_grapheme_segmenter.h:152-153.  `fuel` bounds the number of iterations; every iteration but
the last moves `_nextUtf8`. -/
def clusterLoop (U : Table) : Nat → GState → Iter → Iter
  | 0, _, it => it
  | fuel + 1, g, it =>
    if it.nextCodepointStart.length = 0 then it
    else
      match processBreakable U it.nextCodepoint g with
      | (_, true) => it
      | (g', false) =>
        let r := consumeCodepoint it
        clusterLoop U fuel g' { r.1 with cluster := r.1.cluster ++ [r.2] }

/-- `consumeGraphemeCluster`: utf8_grapheme_segmenter.h:139-154. -/
def consumeGraphemeCluster (U : Table) (it : Iter) : Iter :=
  let it := { it with clusterStart := it.nextCodepointStart, cluster := [] }
  if it.nextCodepointStart.length = 0 then it
  else
    let r := consumeCodepoint it
    let it := { r.1 with cluster := r.1.cluster ++ [r.2] }
    clusterLoop U (it.nextCodepointStart.length + 1) (processInit U r.2) it

/-- The iterator constructor: utf8_grapheme_segmenter.h:94-102. -/
def Iter.mk' (U : Table) (data : List Nat) : Iter :=
  let it : Iter := { clusterStart := data, nextCodepointStart := data, nextUtf8 := data }
  if data.length ≠ 0 then consumeGraphemeCluster U (consumeCodepoint it).1 else it

/-- `for (auto it = begin(); it != end(); ++it) … *it`: iterators compare by `_clusterStart`
(utf8_grapheme_segmenter.h:169-177), so the loop runs until `_clusterStart` is the end of the text. -/
def iterate (U : Table) : Nat → Iter → List (List Nat)
  | 0, _ => []
  | fuel + 1, it =>
    if it.clusterStart.length = 0 then []
    else it.cluster :: iterate U fuel (consumeGraphemeCluster U it)

/-- The clusters a range-for over `utf8_grapheme_segmenter(text)` yields. -/
def segment (U : Table) (text : List Nat) : List (List Nat) :=
  iterate U (text.length + 1) (Iter.mk' U text)

end Verif.Utf8Grapheme
