/-!
# `fs_array<T, N>`

support.h:62-128: a fixed array of `N` cells and a fill count.
-/

namespace Verif.FsArray

/-- support.h:126-127: `values_` (here a list of exactly `N` cells, see `Wf`) and `size_`. -/
structure Fs (α : Type) where
  values : List α
  size : Nat
deriving Repr, DecidableEq

/-- The C++ type invariant "`values_` is a `std::array<T, N>`" (support.h:68,126). -/
def Wf {α : Type} (N : Nat) (f : Fs α) : Prop := f.values.length = N

variable {α : Type}

/-- Default constructor, support.h:72: `N` value-initialised cells. -/
def empty (N : Nat) (dflt : α) : Fs α := ⟨List.replicate N dflt, 0⟩

/-- support.h:74-79.  `values_[i].~T()` leaves the cells of trivially destructible types as they are; only such
types are instantiated in the library. -/
def clear (f : Fs α) : Fs α := { f with size := 0 }

/-- support.h:85-91. The capacity `N` is a template parameter. -/
def pushBack (N : Nat) (f : Fs α) (v : α) : Fs α × Bool :=
  if f.size = N then (f, false) else (⟨f.values.set f.size v, f.size + 1⟩, true)

/-- support.h:93-97. -/
def resize (N : Nat) (f : Fs α) (n : Nat) : Fs α :=
  if n < N then { f with size := n } else f

/-- support.h:100: `at` is checked against the capacity (`std::array::at`), *not* against `size_`;
`none` is the `std::out_of_range` outcome. -/
def at? (f : Fs α) (i : Nat) : Option α := f.values[i]?

/-- `front()`: support.h:119-120. -/
def front? (f : Fs α) : Option α := at? f 0

/-- `back()`: support.h:122-123.  `size_ - 1` is computed in `size_t`, so it is `2^64 - 1` for an empty array. -/
def back? (f : Fs α) : Option α := at? f (if f.size = 0 then 2^64 - 1 else f.size - 1)

/-- The elements between `begin()` and `end()`: support.h:102-114. -/
def contents (f : Fs α) : List α := f.values.take f.size

/-- A call a client can make. -/
inductive Op (α : Type) where
  | push (v : α)
  | resize (n : Nat)
  | clear

/-- One call. -/
def step (N : Nat) (f : Fs α) : Op α → Fs α
  | .push v => (pushBack N f v).1
  | .resize n => resize N f n
  | .clear => clear f

end Verif.FsArray
