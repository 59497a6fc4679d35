import Verif.Model.Grapheme
import Verif.Model.Word
import Verif.Model.Utf8Grapheme
/-!
# The segmenters as objects: constructors, `*`, `++`, `bool`, `==`, `<<`

`Model/Grapheme`, `Model/Word` and `Model/Utf8Grapheme` model what one advance finds.  Here are the objects around it, with their pointers: a buffer
lies at the address `base`, and a pointer into it is an offset.
-/

namespace Verif.Grapheme
open Verif.Ucd

/-- `class grapheme_segmenter`: grapheme_segmenter.h:57, members 98-102; `end_` is `base + text.length`.  `state_` is left out: every use begins with
`grapheme_process_init`, which assigns all of it (grapheme_segmenter.cpp:15-29). -/
structure Seg where
  base : Nat
  text : List Nat
  left : Nat
  right : Nat

/-- `operator++`: grapheme_segmenter.h:70-82. -/
def Seg.next (U : Table) (s : Seg) : Seg :=
  if s.right = s.text.length then { s with left := s.right }
  else { s with left := s.right, right := s.right + (advance U (s.text.drop s.right)).1.length }

/-- The constructor from a range or view: grapheme_segmenter.h:60-66. -/
def Seg.make (U : Table) (base : Nat) (text : List Nat) : Seg := Seg.next U ⟨base, text, 0, 0⟩

/-- The default constructor: grapheme_segmenter.h:68. -/
def Seg.default (U : Table) : Seg := Seg.make U 0 []

/-- `operator*`: grapheme_segmenter.h:84-87. -/
def Seg.current (s : Seg) : List Nat := (s.text.drop s.left).take (s.right - s.left)

/-- `codepointsAvailable` and `operator bool`: grapheme_segmenter.h:89-91. -/
def Seg.available (s : Seg) : Bool := decide (s.right ≠ s.text.length)

/-- `operator==`: grapheme_segmenter.h:93-96. -/
def Seg.equal (a b : Seg) : Bool :=
  (!a.available && !b.available) || (decide (a.base + a.left = b.base + b.left) && decide (a.base + a.right = b.base + b.right))

end Verif.Grapheme

namespace Verif.Word
open Verif.Ucd

/-- `class word_segmenter`: word_segmenter.h:63, members 112-116. -/
structure Seg where
  base : Nat
  text : List Nat
  left : Nat
  right : Nat
  state : WState := {}

/-- `operator++`: word_segmenter.h:75-93. -/
def Seg.next (U : Table) (s : Seg) : Seg :=
  match s.text.drop s.right with
  | [] => { s with left := s.right }
  | c :: cs =>
    let r := extendSegment U (processInit U c s.state) cs
    { s with left := s.right, right := s.right + 1 + r.2.1.length, state := r.1 }

/-- The constructor: word_segmenter.h:65-71. -/
def Seg.make (U : Table) (base : Nat) (text : List Nat) : Seg := Seg.next U { base := base, text := text, left := 0, right := 0 }

/-- The default constructor: word_segmenter.h:73. -/
def Seg.default (U : Table) : Seg := Seg.make U 0 []

/-- `operator*`: word_segmenter.h:95-98. -/
def Seg.current (s : Seg) : List Nat := (s.text.drop s.left).take (s.right - s.left)

/-- `codepointsAvailable` and `operator bool`: word_segmenter.h:100-102. -/
def Seg.available (s : Seg) : Bool := decide (s.right ≠ s.text.length)

/-- `size`: word_segmenter.h:105. -/
def Seg.size (s : Seg) : Nat := s.right - s.left

/-- `empty`: word_segmenter.h:104. -/
def Seg.empty (s : Seg) : Bool := decide (s.size = 0)

/-- `operator==`: word_segmenter.h:107-110. -/
def Seg.equal (a b : Seg) : Bool :=
  (!a.available && !b.available) || (decide (a.base + a.left = b.base + b.left) && decide (a.base + a.right = b.base + b.right))

end Verif.Word

namespace Verif.Utf8Grapheme
open Verif.Ucd Verif.Utf8

/-- `begin()`: utf8_grapheme_segmenter.h:82-85. -/
def first (U : Table) (text : List Nat) : Iter := Iter.mk' U text

/-- `end()`: utf8_grapheme_segmenter.h:87-90; `data` is `end`, nothing is left. -/
def last (U : Table) : Iter := Iter.mk' U []

/-- `operator==`, for two iterators into the same text: utf8_grapheme_segmenter.h:169-172. -/
def Iter.equal (a b : Iter) : Bool := decide (a.clusterStart.length = b.clusterStart.length)

/-- `operator!=`: utf8_grapheme_segmenter.h:174-177. -/
def Iter.differs (a b : Iter) : Bool := !a.equal b

/-- `operator++(int)`: utf8_grapheme_segmenter.h:162-167.  The value returned, and what becomes of the iterator. -/
def Iter.post (U : Table) (it : Iter) : Iter × Iter := (it, consumeGraphemeCluster U it)

/-- `operator<<`: utf8_grapheme_segmenter.h:184-188. -/
def Iter.printed (it : Iter) : List Nat := 0x22 :: (toUtf8Str it.cluster ++ [0x22])

end Verif.Utf8Grapheme
