import Verif.Spec.CxxFn
import Verif.Spec.CxxExtern
/-!
# Independent specification: a whole source file

What a file declares, and in which namespaces: the block comment at its beginning, `#include` and `#pragma once` lines, namespaces, and
the declarations in them.  Nothing here mentions the generator.  Other directives and comments elsewhere with `/*` are outside the
relation (a text with them is never claimed to mean anything).
-/

namespace Verif.Spec.Cxx

/-- The text behind the next `*/`. -/
def afterComment : Str → Option Str
  | '*' :: '/' :: t => some t
  | _ :: t => afterComment t
  | [] => none

/-- The text without the block comment it begins with, if it does. -/
def behindLicence : Str → Option Str
  | '/' :: '*' :: t => afterComment t
  | t => some t

/-- A line that has no meaning of its own for the declarations of this file. -/
def isDirective (t : Str) : Bool := "#include <".toList.isPrefixOf t || "#include \"".toList.isPrefixOf t || "#pragma once\n".toList.isPrefixOf t

/-- The text without such lines.  `first`: at the beginning of a line; `skip`: inside a dropped line. -/
def dropDirectives (first skip : Bool) : Str → Str
  | [] => []
  | '\n' :: t => '\n' :: dropDirectives true false t
  | c :: t =>
    if skip then dropDirectives false true t
    else if first && isDirective (c :: t) then dropDirectives false true t
    else c :: dropDirectives false false t

/-- The tokens of a file. -/
def ReadsFile (text : Str) (ts : List Tok) : Prop :=
  ∃ code, behindLicence (splice text) = some code ∧ Lexes (dropDirectives true false code) ts

/-- The tokens of the first declaration or definition, and the rest: it ends with a semicolon outside braces, or with the brace that
closes the first outermost pair, including a semicolon directly behind that. -/
def cut : Nat → List Tok → Option (List Tok × List Tok)
  | _, [] => none
  | d, k :: t =>
    if k = .punct '{' then (cut (d + 1) t).map fun x => (k :: x.1, x.2)
    else if k = .punct '}' then
      match d with
      | 0 => none
      | 1 => if t.head? = some (.punct ';') then some ([k, .punct ';'], t.tail) else some ([k], t)
      | d + 2 => (cut (d + 1) t).map fun x => (k :: x.1, x.2)
    else if k = .punct ';' ∧ d = 0 then some ([k], t)
    else (cut d t).map fun x => (k :: x.1, x.2)

/-- `x::y {` -/
def nsPath : List Tok → Option (List Str × List Tok)
  | .word x :: .punct '{' :: r => some ([x], r)
  | .word x :: .punct ':' :: .punct ':' :: r => (nsPath r).map fun y => (x :: y.1, y.2)
  | _ => none

/-- `namespace x {` or `namespace x::y {` -/
def opens : List Tok → Option (List Str × List Tok)
  | .word w :: r => if w = "namespace".toList then nsPath r else none
  | _ => none

/-- A declaration or definition, and the namespaces around it, outermost first. -/
structure Piece where
  scope : List Str
  toks : List Tok
deriving DecidableEq

/-- The declarations and definitions of a file; `ns` are the namespace braces that are open, innermost first. -/
def pieces : Nat → List (List Str) → List Tok → Option (List Piece)
  | 0, _, _ => none
  | _ + 1, ns, [] => if ns = [] then some [] else none
  | n + 1, ns, k :: t =>
    match opens (k :: t) with
    | some (x, r) => pieces n (x :: ns) r
    | none =>
      if k = .punct '}' then
        match ns with
        | _ :: ns => pieces n ns t
        | [] => none
      else (cut 0 (k :: t)).bind fun y => (pieces n ns y.2).map (⟨ns.reverse.flatten, y.1⟩ :: ·)

/-- The file consists of these declarations and definitions. -/
def Consists (text : Str) (ps : List Piece) : Prop := ∃ ts, ReadsFile text ts ∧ pieces (ts.length + 1) [] ts = some ps

/-- How a function is called: its namespace, name, parameter types and result type. -/
structure Sig where
  scope : List Str
  name : Str
  params : List (List Tok)
  result : List Tok
  noexcept : Bool
deriving DecidableEq

/-- Attributes and `inline` do not belong to the type of a function. -/
def bare : List Tok → List Tok
  | .punct '[' :: .punct '[' :: .word _ :: .punct ']' :: .punct ']' :: t => bare t
  | .word w :: t => if w = "inline".toList then bare t else .word w :: t
  | t => t

/-- The declaration of a function, up to its semicolon or body. -/
def readSig (scope : List Str) (ts : List Tok) : Option Sig :=
  match upto (.punct '(') (bare ts) with
  | some (h, r) =>
    match readHead h, params r [] with
    | some (t, x), some (ps, .word w :: k :: _) =>
      if w = "noexcept".toList ∧ (k = .punct ';' ∨ k = .punct '{') then some ⟨scope, x, ps.map (·.1), t, true⟩ else none
    | some (t, x), some (ps, k :: _) =>
      if k = .punct ';' ∨ k = .punct '{' then some ⟨scope, x, ps.map (·.1), t, false⟩ else none
    | _, _ => none
  | none => none

/-- A function that is declared, and not defined. -/
def Piece.declares (q : Piece) : Option Sig := if q.toks.getLast? = some (.punct ';') then readSig q.scope q.toks else none

/-- A function with its body. -/
def Piece.defines (q : Piece) : Option Sig := if q.toks.getLast? = some (.punct '}') then readSig q.scope q.toks else none

/-- `x::y` -/
def pathToks : List Str → List Tok
  | [] => []
  | [x] => [.word x]
  | x :: y :: r => .word x :: .punct ':' :: .punct ':' :: pathToks (y :: r)

/-- `x::y` as text -/
def joinPath : List Str → Str
  | [] => []
  | [x] => x
  | x :: y :: r => x ++ ("::".toList ++ joinPath (y :: r))

/-- `using namespace x::y;` -/
def usingToks (path : List Str) : List Tok := .word "using".toList :: .word "namespace".toList :: (pathToks path ++ [p ';'])

/-- What a declaration or definition is. -/
inductive Part where
  /-- an array, structure or enumeration, in these namespaces -/
  | item (scope : List Str) (item : Item)
  /-- an array that is defined elsewhere -/
  | extern (scope : List Str) (array : Extern)
  | declared (sig : Sig)
  /-- a function with this text -/
  | defined (sig : Sig) (text : Str)
  /-- a specialisation of `std::formatter` for the type `unicode::enum`, with this text -/
  | formatter (scope : List Str) (enum text : Str)
  /-- `using namespace` -/
  | usingNs (scope path : List Str)

def Means (q : Piece) : Part → Prop
  | .item scope item => q.scope = scope ∧ Unit q.toks [item]
  | .extern scope array => q.scope = scope ∧ Externs q.toks [array]
  | .declared sig => q.declares = some sig
  | .defined sig text => q.defines = some sig ∧ Reads text q.toks
  | .formatter scope enum text => q.scope = scope ∧ Reads text q.toks ∧ ∃ f, DefinesFormatter text enum f
  | .usingNs scope path => q.scope = scope ∧ q.toks = usingToks path

/-- The arrays that are mentioned as `tables::x`. -/
def uses : List Tok → List Str
  | [] => []
  | .word a :: t =>
    match t with
    | .punct ':' :: .punct ':' :: .word b :: _ => if a = "tables".toList then b :: uses t else uses t
    | _ => uses t
  | _ :: t => uses t

/-- Names of the namespace `home` can be used without qualification in the `i`-th declaration of a file: it is in that namespace or in one
inside it, or it comes behind a `using namespace home;` that is outside every namespace. -/
def Visible (ps : List Piece) (i : Nat) (home : List Str) : Prop :=
  ∃ q, ps[i]? = some q ∧ (home <+: q.scope ∨ ∃ j < i, ps[j]? = some ⟨[], usingToks home⟩)

/-- The file has a line `#include <name>`. -/
def Includes (text name : Str) : Prop :=
  ∃ code pre post, behindLicence (splice text) = some code ∧ code = pre ++ ('\n' :: ("#include <".toList ++ (name ++ ('>' :: '\n' :: post))))

end Verif.Spec.Cxx
