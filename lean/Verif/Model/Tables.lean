import Verif.Model.Utf8
/-!
# Table look-ups and the multistage table generator

case_mapping.cpp:28-59, normalization.cpp:47-131, ucd_private.h:22-88, multistage_table_view.h:43-55,
multistage_table_generator.h:61-171.  Every element access is checked: an index that is not inside the table gives
the outcome `oob`.
-/

namespace Verif.Tables
open Verif.Utf8 (Mem)

/-- A checked element access. -/
def at? {α : Type} (tab : List α) (i : Nat) : Mem α :=
  match tab[i]? with
  | some e => .ok e
  | none => .oob

/-! ## Binary search over sorted arrays -/

/-- The loop of `std::lower_bound(first, last, value, comp)`, `before e` being `comp(e, value)` (the C++ standard's
half-interval search as libstdc++ and libc++ implement it; called at case_mapping.cpp:33, 46 and normalization.cpp:56, 70,
82): `len` elements from `first` on are undecided. -/
def lowerBoundLoop {α : Type} (tab : List α) (before : α → Bool) (first len : Nat) : Mem Nat :=
  if _h : len = 0 then .ok first
  else
    match at? tab (first + len / 2) with
    | .oob => .oob
    | .ok e =>
      if before e then lowerBoundLoop tab before (first + len / 2 + 1) (len - len / 2 - 1)
      else lowerBoundLoop tab before first (len / 2)
termination_by len
decreasing_by all_goals omega

/-- `std::lower_bound(table.begin(), table.end(), …)`. -/
def lowerBound {α : Type} (tab : List α) (before : α → Bool) : Mem Nat := lowerBoundLoop tab before 0 tab.length

/-- The idiom `it = lower_bound(…); if (it != end && it->key == codepoint) …`: case_mapping.cpp:33-37, 46-50,
normalization.cpp:56-60, 70-74, 82-86. -/
def lookupSorted {α : Type} (tab : List α) (key : α → Nat) (c : Nat) : Mem (Option α) :=
  match lowerBound tab (fun e => decide (key e < c)) with
  | .oob => .oob
  | .ok i =>
    if i = tab.length then .ok none
    else
      match at? tab i with
      | .oob => .oob
      | .ok e => if key e = c then .ok (some e) else .ok none

/-- `lookup_simple`: case_mapping.cpp:29-40. -/
def lookupSimple (tab : List (Nat × Nat)) (c : Nat) : Mem Nat :=
  match lookupSorted tab (·.1) c with
  | .oob => .oob
  | .ok (some e) => .ok e.2
  | .ok none => .ok c

/-- `lookup_ccc`: normalization.cpp:53-63. -/
def lookupCcc (tab : List (Nat × Nat)) (c : Nat) : Mem Nat :=
  match lookupSorted tab (·.1) c with
  | .oob => .oob
  | .ok (some e) => .ok e.2
  | .ok none => .ok 0

/-- `lookup_full`: case_mapping.cpp:43-59, and `find_decomposition`: normalization.cpp:67-77.  An entry is its source and
the first `length` targets; the empty list stands for `length = 0` / the empty span. -/
def lookupList (tab : List (Nat × List Nat)) (c : Nat) : Mem (List Nat) :=
  match lookupSorted tab (·.1) c with
  | .oob => .oob
  | .ok (some e) => .ok e.2
  | .ok none => .ok []

/-- `contains_codepoint`: normalization.cpp:47-51, i.e. `std::binary_search`. -/
def containsCodepoint (tab : List Nat) (c : Nat) : Mem Bool :=
  match lowerBound tab (fun e => decide (e < c)) with
  | .oob => .oob
  | .ok i =>
    if i = tab.length then .ok false
    else
      match at? tab i with
      | .oob => .oob
      | .ok e => .ok (!decide (c < e))

/-- An entry of `composition_table`. -/
structure Comp where
  first : Nat
  second : Nat
  composed : Nat
deriving DecidableEq, Repr

/-- The search over `composition_table`: normalization.cpp:116-131, `[i, e)` being the undecided part. -/
def composeLoop (tab : List Comp) (a b i e : Nat) : Mem Nat :=
  if _h : i < e then
    match at? tab (i + (e - i) / 2) with
    | .oob => .oob
    | .ok m =>
      if m.first < a ∨ (m.first = a ∧ m.second < b) then composeLoop tab a b (i + (e - i) / 2 + 1) e
      else if m.first > a ∨ (m.first = a ∧ m.second > b) then composeLoop tab a b i (i + (e - i) / 2)
      else .ok m.composed
  else .ok 0
termination_by e - i
decreasing_by all_goals omega

def composeLookup (tab : List Comp) (a b : Nat) : Mem Nat := composeLoop tab a b 0 tab.length

/-! ## Interval tables: ucd_private.h -/

/-- `struct Interval` with the property of `struct Prop`: ucd_private.h:22-26, 51-56. -/
structure Entry (α : Type) where
  lo : Nat
  hi : Nat
  val : α
deriving DecidableEq, Repr

/-- `ranges.size() - 1` as a 64-bit `size_t`: ucd_private.h:32, 62. -/
def lastIndex (n : Nat) : Nat := (n + (2 ^ 64 - 1)) % 2 ^ 64

/-- `contains`: ucd_private.h:33-48, from bounds `a`, `b`. -/
def containsLoop {α : Type} (tab : List (Entry α)) (c a b : Nat) : Mem Bool :=
  if _h : a < b then
    match at? tab ((b + a) / 2) with
    | .oob => .oob
    | .ok I =>
      if I.hi < c then containsLoop tab c ((b + a) / 2 + 1) b
      else if I.lo > c then
        if (b + a) / 2 = 0 then .ok false else containsLoop tab c a ((b + a) / 2 - 1)
      else .ok true
  else if a = b then
    match at? tab a with
    | .oob => .oob
    | .ok I => .ok (decide (I.lo ≤ c) && decide (c ≤ I.hi))
  else .ok false
termination_by b - a
decreasing_by all_goals omega

/-- `contains`: ucd_private.h:28-49. -/
def contains {α : Type} (tab : List (Entry α)) (c : Nat) : Mem Bool := containsLoop tab c 0 (lastIndex tab.length)

/-- `search`: ucd_private.h:64-87, from bounds `a`, `b`. -/
def searchLoop {α : Type} (tab : List (Entry α)) (c a b : Nat) : Mem (Option α) :=
  if _h : a < b then
    match at? tab (a + (b - a) / 2) with
    | .oob => .oob
    | .ok I =>
      if I.hi < c then
        if a + (b - a) / 2 = b then .ok none else searchLoop tab c (a + (b - a) / 2 + 1) b
      else if I.lo > c then
        if a + (b - a) / 2 = 0 then .ok none else searchLoop tab c a (a + (b - a) / 2 - 1)
      else .ok (some I.val)
  else if a = b then
    match at? tab a with
    | .oob => .oob
    | .ok I => if I.lo ≤ c ∧ c ≤ I.hi then .ok (some I.val) else .ok none
  else .ok none
termination_by b - a
decreasing_by all_goals omega

/-- `search`: ucd_private.h:58-88. -/
def search {α : Type} (tab : List (Entry α)) (c : Nat) : Mem (Option α) := searchLoop tab c 0 (lastIndex tab.length)

/-! ## Multistage tables -/

/-- `struct multistage_table`: multistage_table_generator.h:41-52, together with the generator's two hash maps
(173-174).  `seen` lists the block starts stored in `_blockHashMap` in the order of insertion; `index` is
`_stage3Map`. -/
structure Gen (α : Type) where
  stage1 : List Nat := []
  stage2 : List Nat := []
  stage3 : List α := []
  seen : List Nat := []
  index : List (α × Nat) := []

/-- The element types: `w1`/`w2` are the number of values of `Stage1ElementType`/`Stage2ElementType`, `B` is
`BlockSize`, `max` is `MaxValue`. -/
structure Shape where
  w1 : Nat
  w2 : Nat
  B : Nat
  max : Nat

/-- The shape of `codepoint_properties`: codepoint_properties.h:80-94. -/
def propertiesShape : Shape := ⟨256, 65536, 256, 0x10FFFF⟩

variable {α : Type} [DecidableEq α]

/-- The block that starts at `start`. -/
def block (S : Shape) (input : List α) (start : Nat) : List α := (input.drop start).take S.B

/-- `find_same_block`: multistage_table_generator.h:139-153 (without the insertion).  The bucket of the block's hash
holds the seen blocks with that hash; `hash` is arbitrary.  `memcmp` is modelled as equality of the values
(`codepoint_properties` is compared by `memcmp`, codepoint_properties.h:107). -/
def findSameBlock (S : Shape) (hash : List α → Nat) (input : List α) (g : Gen α) (start : Nat) : Option Nat :=
  ((g.seen.filter (fun s => hash (block S input s) = hash (block S input start))).find?
    (fun s => block S input s = block S input start)).map (· / S.B)

/-- `get_or_create_stage3_index`: multistage_table_generator.h:160-171. -/
def stage3Index (S : Shape) (g : Gen α) (v : α) : Gen α × Nat :=
  match g.index.find? (fun e => e.1 = v) with
  | some e => (g, e.2)
  | none =>
    ({ g with stage3 := g.stage3 ++ [v], index := g.index ++ [(v, g.stage3.length % S.w2)] }, g.stage3.length % S.w2)

/-- The `for` over the elements of a new block: multistage_table_generator.h:117-118. -/
def pushBlock (S : Shape) : Gen α → List α → Gen α
  | g, [] => g
  | g, v :: vs =>
    pushBlock S { (stage3Index S g v).1 with stage2 := (stage3Index S g v).1.stage2 ++ [(stage3Index S g v).2] } vs

/-- A block that has not been seen: multistage_table_generator.h:113-122 and 151.  The returned index is cast to
`Stage1ElementType`. -/
def newBlock (S : Shape) (input : List α) (g : Gen α) (start : Nat) : Gen α × Nat :=
  (pushBlock S { g with seen := g.seen ++ [start] } (block S input start), (g.stage2.length / S.B) % S.w1)

/-- `get_or_create_index_to_stage2_block`: multistage_table_generator.h:108-123 (the `assert`s, which are compiled out
of release builds, are not modelled). -/
def blockIndex (S : Shape) (hash : List α → Nat) (input : List α) (g : Gen α) (start : Nat) : Mem (Gen α × Nat) :=
  match findSameBlock S hash input g start with
  | some other =>
    match at? g.stage1 other with
    | .oob => .oob
    | .ok i => .ok (g, i)
  | none => .ok (newBlock S input g start)

/-- The loop of `generate()`: multistage_table_generator.h:81-82, for `n` more blocks.  `stage1` is filled from left to
right, so the assignment to the pre-sized vector is modelled as appending. -/
def generateLoop (S : Shape) (hash : List α → Nat) (input : List α) : Nat → Gen α → Mem (Gen α)
  | 0, g => .ok g
  | n + 1, g =>
    match blockIndex S hash input g (g.stage1.length * S.B) with
    | .oob => .oob
    | .ok (g', i) => generateLoop S hash input n { g' with stage1 := g'.stage1 ++ [i] }

/-- `generate()`: multistage_table_generator.h:77-83. -/
def generate (S : Shape) (hash : List α → Nat) (input : List α) : Mem (Gen α) :=
  generateLoop S hash input (input.length / S.B) {}

/-- `unsafe_get`: multistage_table_view.h:48-55. -/
def unsafeGet (S : Shape) (g : Gen α) (i : Nat) : Mem α :=
  match at? g.stage1 (i / S.B) with
  | .oob => .oob
  | .ok p =>
    match at? g.stage2 (p * S.B + i % S.B) with
    | .oob => .oob
    | .ok q => at? g.stage3 q

/-- `get` with the default fallback: multistage_table_view.h:43-46. -/
def get (S : Shape) (g : Gen α) (i : Nat) : Mem α := unsafeGet S g (if i ≤ S.max then i else 0)

end Verif.Tables
