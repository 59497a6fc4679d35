import Verif.Model.SimdDetect
/-!
# Threads that call the dispatching functions

`scan_for_text_ascii` (scan.cpp:65-79), `convert_utf8_to_utf32` and `convert_utf8_to_utf16` (convert.cpp:12-34) keep the
detected width in a local variable of static storage duration; these are the only variables of the library that are written after
`main` has begun and that calls on different objects have in common (`codepoint_properties::configured_tables` and
`configured_names`, codepoint_properties.cpp:20-27, are shared too, but the library only reads them).

The initialization of such a variable follows [stmt.dcl]: the first thread that passes the declaration performs it, other threads
that pass it meanwhile wait, threads that pass it later skip it.  This is the meaning of the C++ declaration, as far as it matters
here; what the compiler makes of it (`__cxa_guard_acquire`) is not modelled.
-/

namespace Verif.Threads
open Verif.Cpu Verif.Utf8 Verif.Simd Verif.SimdDetect

/-- The functions with such a variable: scan.cpp:68, convert.cpp:15, convert.cpp:27. -/
inductive Fn where
  | scan | to32 | to16
deriving DecidableEq, Repr

/-- A call with its arguments.  The buffers belong to the caller: nobody writes them during the call. -/
inductive Call where
  | scan (text : List Nat) (max : Nat)
  | to32 (input out : List Nat)
  | to16 (input out : List Nat)
deriving DecidableEq, Repr

def Call.fn : Call → Fn
  | .scan .. => .scan
  | .to32 .. => .to32
  | .to16 .. => .to16

/-- What a call returns (and what is then in the output buffer), or how it fails. -/
inductive Res where
  | length (r : Exec Nat)
  | written (r : Exec (Nat × List Nat))

/-- The part of the functions behind the declaration, for the value found in the variable: scan.cpp:69-78, convert.cpp:16-21, 28-33. -/
noncomputable def body (m : Machine) (w : Nat) : Call → Res
  | .scan text max => .length (execute m (scanNeeds (choose w)) (scan (choose w) text max))
  | .to32 input out => .written (execute m (convertNeeds (choose w) input) (convert32 (choose w) input out))
  | .to16 input out => .written (execute m (convertNeeds (choose w) input) (convert16 (choose w) input out))

/-- The state of one of the variables: not initialized, being initialized by a thread, initialized. -/
inductive Static where
  | untouched
  | busy (t : Nat)
  | holds (w : Nat)
deriving DecidableEq, Repr

/-- Where a thread is: outside the functions, in front of the declaration, in the initializer, behind the declaration, or dead because it has read the
variable before it was initialized. -/
inductive Phase where
  | outside
  | declaration (c : Call)
  | initializer (c : Call)
  | behind (c : Call)
  | garbage
deriving DecidableEq, Repr

/-- A thread: where it is and what its calls have returned so far. -/
structure Thread where
  phase : Phase := .outside
  results : List Res := []

/-- The process: the three variables and the threads. -/
structure State where
  var : Fn → Static := fun _ => .untouched
  thread : Nat → Thread := fun _ => {}

def State.setThread (s : State) (t : Nat) (th : Thread) : State := { s with thread := fun u => if u = t then th else s.thread u }
def State.setVar (s : State) (f : Fn) (v : Static) : State := { s with var := fun g => if g = f then v else s.var g }

/-- What a thread does between the calls is its own affair: its next call depends on what it has been told before, in any way. -/
abbrev Program := List Res → Option Call

/-- The steps of a thread; the label says what happens.  A thread in front of the declaration of a variable that another thread initializes has
no step: it waits. -/
inductive Label where
  | call (c : Call) | detect (f : Fn) | store (f : Fn) (w : Nat) | pass | ret | uninitialized

inductive Step (m : Machine) (prog : Nat → Program) : State → Nat → Label → State → Prop
  | call (s : State) (t : Nat) (c : Call) : (s.thread t).phase = .outside → prog t (s.thread t).results = some c →
      Step m prog s t (.call c) (s.setThread t { s.thread t with phase := .declaration c })
  | detect (s : State) (t : Nat) (c : Call) : (s.thread t).phase = .declaration c → s.var c.fn = .untouched →
      Step m prog s t (.detect c.fn) ((s.setVar c.fn (.busy t)).setThread t { s.thread t with phase := .initializer c })
  | store (s : State) (t : Nat) (c : Call) (w : Nat) : (s.thread t).phase = .initializer c → maxSimdSize m = .ok w →
      Step m prog s t (.store c.fn w) ((s.setVar c.fn (.holds w)).setThread t { s.thread t with phase := .behind c })
  | pass (s : State) (t : Nat) (c : Call) (w : Nat) : (s.thread t).phase = .declaration c → s.var c.fn = .holds w →
      Step m prog s t .pass (s.setThread t { s.thread t with phase := .behind c })
  | ret (s : State) (t : Nat) (c : Call) (w : Nat) : (s.thread t).phase = .behind c → s.var c.fn = .holds w →
      Step m prog s t .ret (s.setThread t ⟨.outside, (s.thread t).results ++ [body m w c]⟩)
  | uninitialized (s : State) (t : Nat) (c : Call) : (s.thread t).phase = .behind c → (∀ w, s.var c.fn ≠ .holds w) →
      Step m prog s t .uninitialized (s.setThread t { s.thread t with phase := .garbage })

/-- A schedule: which threads take which steps, one after the other, from the start of the process. -/
inductive Run (m : Machine) (prog : Nat → Program) : List (Nat × Label) → State → Prop
  | start : Run m prog [] {}
  | step {ls : List (Nat × Label)} {s s' : State} {t : Nat} {l : Label} : Run m prog ls s → Step m prog s t l s' → Run m prog (ls ++ [(t, l)]) s'

/-- Further steps, from some state. -/
inductive Goes (m : Machine) (prog : Nat → Program) : State → List Nat → State → Prop
  | done (s : State) : Goes m prog s [] s
  | step {s s' s'' : State} {t : Nat} {l : Label} {ts : List Nat} : Step m prog s t l s' → Goes m prog s' ts s'' → Goes m prog s (t :: ts) s''

end Verif.Threads
