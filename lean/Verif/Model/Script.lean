/-!
# Script segmentation

script_segmenter.h and script_segmenter.cpp.
-/

namespace Verif.Script

/-- `enum class Script` (generated): the three values the code singles out, and all others.
`Script::Unknown` (what `script()` returns for unlisted codepoints) is one of the others. -/
inductive Script where
  | Invalid | Common | Inherited
  | sc (n : Nat)
deriving DecidableEq, Repr

/-- `script(codepoint)` and `script_extensions(codepoint)`: generated data, a parameter of the model. -/
structure Data where
  script : Nat → Script
  exts : Nat → Option (List Script)

/-- script_segmenter.cpp:26-35. -/
def isPreferred : Script → Bool
  | .Invalid => false
  | .Common => false
  | .Inherited => false
  | .sc _ => true

/-- `fs_array<Script, 32>::push_back` on the visible contents (script_segmenter.h:68; support.h:85-91; see
`C40_refines`). -/
def push (l : List Script) (s : Script) : List Script := if l.length < 32 then l ++ [s] else l

/-- `swap(*i, *scriptSet.begin())`: script_segmenter.cpp:141. -/
def swapFront (l : List Script) (i : Nat) : List Script :=
  match l, i with
  | x :: xs, i + 1 => xs.getD i x :: xs.set i x
  | l, _ => l

/-- The collected extensions before the codepoint's own script is moved: script_segmenter.cpp:127-135. -/
def collected (D : Data) (c : Nat) : List Script :=
  match D.exts c with
  | some es => es.foldl push []
  | none => push [] (D.script c)

/-- `getScriptsFor`: script_segmenter.cpp:125-146. -/
def getScriptsFor (D : Data) (c : Nat) : List Script :=
  if D.script c ∈ collected D c then
    swapFront (collected D c) ((collected D c).idxOf (D.script c))
  else push (collected D c) (D.script c)

/-- What `mergeSets` leaves behind: its return value, `currentSet` and `commonPreferredScript_`. -/
structure Merged where
  ok : Bool
  cur : List Script
  pref : Script
deriving DecidableEq, Repr

/-- The in-place rewriting of `currentSet` at script_segmenter.cpp:101-122: what has been written to its front.
`has` is `hasPriorityScript`, `rest` the unread part `[currentSetIter, currentSetEnd)`, `next` is
`[nextSetIter, nextSetEnd)`. -/
def written (has : Bool) (prio : Script) (rest next : List Script) : List Script :=
  (if has then [prio] else []) ++ (if next = [] then [] else rest.filter (fun s => decide (s ∈ next)))

/-- script_segmenter.cpp:116-122: `resize(writeCount)`.  `writeCount ≤ currentSet.size()`, and a `resize(32)` —
which the array ignores — can only happen when the set already has 32 elements. -/
def finish (cur w : List Script) (pref : Script) : Merged :=
  if w = [] then ⟨false, cur, pref⟩ else ⟨true, w, pref⟩

/-- `mergeSets`: script_segmenter.cpp:63-123. -/
def mergeSets (next cur : List Script) (pref : Script) : Merged :=
  match next, cur with
  | [], _ => ⟨false, cur, pref⟩
  | _, [] => ⟨false, cur, pref⟩
  | n0 :: ns, p :: ps =>
    if isPreferred n0 = false then
      -- lines 73-78
      if (n0 :: ns).length = 2 ∧ isPreferred p = false ∧ pref = .Common then ⟨true, p :: ps, ns.headD .Common⟩
      else ⟨true, p :: ps, pref⟩
    else if isPreferred p = false then ⟨true, n0 :: ns, pref⟩  -- lines 81-85
    else if ps = [] then ⟨decide (p ∈ n0 :: ns), p :: ps, pref⟩  -- lines 90-91
    else if p ∈ n0 :: ns then finish (p :: ps) (written true p ps (n0 :: ns)) pref  -- line 94
    else finish (p :: ps) (written (decide (n0 ∈ ps)) n0 ps ns) pref  -- lines 95-99

/-- Member variables of `script_segmenter` (script_segmenter.h:105-110); the unread text is kept separately. -/
structure St where
  offset : Nat := 0
  cur : List Script := [.Common]
  pref : Script := .Common
deriving DecidableEq, Repr

/-- `resolveScript`: script_segmenter.h:95-99.  The code reads cell 0 of the set; the set is never empty when it is
called (`cur_ne_nil`), so the default is never used. -/
def resolve (cur : List Script) (pref : Script) : Script :=
  if cur.headD .Common = .Common then pref else cur.headD .Common

/-- The loop of `consume`: script_segmenter.cpp:43-60.  The last argument is the text from `offset_` on; the result
is (script, end offset), the next state and the text from the new `offset_` on. -/
def consumeLoop (D : Data) (s : St) : List Nat → (Script × Nat) × St × List Nat
  | [] => ((resolve s.cur s.pref, s.offset), { s with cur := [] }, [])
  | c :: cs =>
    if (mergeSets (getScriptsFor D c) s.cur s.pref).ok then
      consumeLoop D ⟨s.offset + 1, (mergeSets (getScriptsFor D c) s.cur s.pref).cur,
        (mergeSets (getScriptsFor D c) s.cur s.pref).pref⟩ cs
    else
      ((resolve (mergeSets (getScriptsFor D c) s.cur s.pref).cur (mergeSets (getScriptsFor D c) s.cur s.pref).pref,
          s.offset),
        ⟨s.offset, getScriptsFor D c, (mergeSets (getScriptsFor D c) s.cur s.pref).pref⟩, c :: cs)

/-- `consume`: script_segmenter.cpp:38-61. -/
def consume (D : Data) (s : St) (rest : List Nat) : Option ((Script × Nat) × St × List Nat) :=
  match rest with
  | [] => none
  | c :: cs => some (consumeLoop D s (c :: cs))

/-- `while (auto r = seg.consume())`, with fuel. -/
def runsLoop (D : Data) : Nat → St → List Nat → List (Script × Nat)
  | 0, _, _ => []
  | n + 1, s, rest =>
    match consume D s rest with
    | none => []
    | some (r, s', rest') => r :: runsLoop D n s' rest'

/-- All segments of a text, in order; `script_segmenter(text)`. -/
def runs (D : Data) (text : List Nat) : List (Script × Nat) := runsLoop D text.length {} text

end Verif.Script
