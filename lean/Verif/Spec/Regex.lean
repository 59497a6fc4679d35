/-!
# Regular expressions of ECMAScript (ECMA-262, 15.10.2), as far as they are used

An expression and a text give the list of all ways to match a beginning of the text, in the order in which a backtracking matcher tries them: a
repetition is greedy, it first tries one more round.  The match is the first one.
-/

namespace Verif.Spec.Regex

inductive Rx where
  /-- one character of a class -/
  | cls (p : Char → Bool)
  | seq (a b : Rx)
  /-- `r*` -/
  | star (r : Rx)
  /-- `(r)`, group number `n` -/
  | group (n : Nat) (r : Rx)

/-- `r+` -/
def Rx.plus (r : Rx) : Rx := .seq r (.star r)

/-- `c` -/
def Rx.lit (c : Char) : Rx := .cls (· = c)

/-- A way to match: what is matched, what is left, what the groups hold (the latest first). -/
structure Match where
  text : List Char
  rest : List Char
  groups : List (Nat × List Char)
deriving DecidableEq

def Match.then (m k : Match) : Match := ⟨m.text ++ k.text, k.rest, k.groups ++ m.groups⟩

/-- At most `n` rounds, none of them empty. -/
def rounds (f : List Char → List Match) : Nat → List Char → List Match
  | 0, s => [⟨[], s, []⟩]
  | n + 1, s => ((f s).filter (fun m => m.text ≠ [])).flatMap (fun m => (rounds f n m.rest).map m.then) ++ [⟨[], s, []⟩]

/-- All ways to match, in order. -/
def Rx.ways : Rx → List Char → List Match
  | .cls _, [] => []
  | .cls p, c :: s => if p c then [⟨[c], s, []⟩] else []
  | .seq a b, s => (a.ways s).flatMap fun m => (b.ways m.rest).map m.then
  | .star r, s => rounds r.ways s.length s
  | .group n r, s => (r.ways s).map fun m => { m with groups := (n, m.text) :: m.groups }

/-- `std::regex_search(line, sm, regex("^…"))`: `sm`. -/
def searchAtBegin (r : Rx) (line : List Char) : Option Match := (r.ways line).head?

/-- `sm[n]` (empty, if the group has not taken part). -/
def Match.group (m : Match) (n : Nat) : List Char := ((m.groups.find? (fun g => g.1 = n)).map (·.2)).getD []

/-- `\s` in the "C" locale. -/
def isWhite (c : Char) : Bool := c = ' ' || c = '\t' || c = '\n' || c = '\x0b' || c = '\x0c' || c = '\r'

end Verif.Spec.Regex
