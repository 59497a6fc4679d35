import Verif.Model.Script
import Verif.Model.Emoji

/-!
# Run segmentation

run_segmenter.h: `basic_run_segmenter<S₁, S₂>`; `run_segmenter` is the instance script × emoji (line 177).
A component segmenter is represented by the list of (property, end offset) pairs that its successive `consume` calls
still have to report; an exhausted segmenter returns `false` and leaves the out-parameters alone.
-/

namespace Verif.Run

/-- One component: `positions_[I]`, `properties_<I>` and the segmenter: run_segmenter.h:171-173. -/
structure Comp (α : Type) where
  pos : Nat
  prop : α
  rest : List (α × Nat)
deriving DecidableEq, Repr

variable {α β : Type}

/-- The `for (;;)` of `consumeUntilSplitPosition`: run_segmenter.h:154-161. -/
def advance (last pos : Nat) (prop : α) : List (α × Nat) → Comp α
  | [] => ⟨pos, prop, []⟩
  | (p, e) :: rest => if e > last then ⟨e, p, rest⟩ else advance last e p rest

/-- `consumeUntilSplitPosition`: run_segmenter.h:145-162. -/
def consumeUntil (last size : Nat) (c : Comp α) : Comp α :=
  if c.pos > last then c
  else if c.pos ≥ size then c
  else advance last c.pos c.prop c.rest

/-- A reported range: run_segmenter.h:60-70. -/
structure Range (α β : Type) where
  start : Nat
  stop : Nat
  props : α × β
deriving DecidableEq, Repr

/-- Member variables: run_segmenter.h:169-174 (`candEnd` is `candidate_.end`). -/
structure St (α β : Type) where
  last : Nat
  candEnd : Nat
  a : Comp α
  b : Comp β
  size : Nat

/-- Constructor: run_segmenter.h:90-93; positions are 0, properties default constructed. -/
def init (size : Nat) (da : α) (db : β) (ra : List (α × Nat)) (rb : List (β × Nat)) : St α β :=
  ⟨0, 0, ⟨0, da, ra⟩, ⟨0, db, rb⟩, size⟩

/-- The components after `consumeAllUntilSplitPosition`: run_segmenter.h:138-143 -/
def moved (s : St α β) : St α β :=
  { s with a := consumeUntil s.last s.size s.a, b := consumeUntil s.last s.size s.b }

/-- run_segmenter.h:108-116, on the moved components. -/
def report (s : St α β) : Range α β × St α β :=
  (⟨s.candEnd, min s.a.pos s.b.pos, (s.a.prop, s.b.prop)⟩,
   { s with last := min s.a.pos s.b.pos, candEnd := min s.a.pos s.b.pos })

/-- `consume`: run_segmenter.h:101-118. -/
def consume (s : St α β) : Option (Range α β × St α β) :=
  if s.last ≥ s.size then none else some (report (moved s))

/-- `while (seg.consume(out(r)))`, with fuel. -/
def runsLoop : Nat → St α β → List (Range α β)
  | 0, _ => []
  | n + 1, s =>
    match consume s with
    | none => []
    | some (r, s') => r :: runsLoop n s'

/-- All ranges for a text of the given size and the given component segmentations. -/
def runs (size : Nat) (da : α) (db : β) (ra : List (α × Nat)) (rb : List (β × Nat)) : List (Range α β) :=
  runsLoop size (init size da db ra rb)

/-- `run_segmenter` (run_segmenter.h:177) on a text: `D` are the script data, `cat` the emoji categories. -/
def textRuns (D : Script.Data) (cat : Nat → Int) (text : List Nat) : List (Range Script.Script Bool) :=
  runs text.length .Invalid false (Script.runs D text) (Emoji.runs (text.map cat))

end Verif.Run
