import Verif.Model.Threads
/-!
# A thread on its own

What a thread is told when no other thread exists: every call answers as the sequential functions of `Model/SimdDetect` do.
-/

namespace Verif.Spec.Threads
open Verif.Cpu Verif.SimdDetect Verif.Threads

/-- The answer to a call in a process with one thread. -/
noncomputable def answer (m : Machine) : Call → Res
  | .scan text max => .length (scanForTextAscii m text max)
  | .to32 input out => .written (convertUtf8ToUtf32 m input out)
  | .to16 input out => .written (convertUtf8ToUtf16 m input out)

/-- The answers a program can have been given after some calls. -/
inductive Alone (m : Machine) (p : Program) : List Res → Prop
  | start : Alone m p []
  | next (rs : List Res) (c : Call) : Alone m p rs → p rs = some c → Alone m p (rs ++ [answer m c])

end Verif.Spec.Threads
