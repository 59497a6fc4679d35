import Mathlib.Data.List.Forall2
import Verif.Spec.Cxx
import Verif.Model.Tables
/-!
# Independent specification: the C++ text of small functions

Just enough of C++ to say what a function definition made of `return`, `switch`, `if`, range-`for` and local constants computes: a
reader (from the tokens of Spec/Cxx to a syntax tree) and an evaluator.  Nothing here mentions the generator.  The functions call the
templates `contains` and `search` of `ucd_private.h`; these are the ones of Model/Tables.  What the reader or the evaluator does not
know is `none` or `stuck`, so nothing is ever claimed about it.
-/

namespace Verif.Spec.Cxx
open Verif.Utf8 (Mem)

/-! ## Syntax -/

inductive Expr where
  | name (path : List Str)
  | str (s : Str)
  /-- `f(a, b)` -/
  | call (f : List Str) (args : List Expr)
  /-- `e.m(a, b)` -/
  | method (e : Expr) (m : Str) (args : List Expr)
  /-- `e.m` -/
  | member (e : Expr) (m : Str)
  /-- `e->m` -/
  | arrow (e : Expr) (m : Str)
  /-- `t<…>(a, b)` -/
  | cast (t : List Str) (targs : List Tok) (args : List Expr)
  /-- `t<…>{ a, b }` or `t{ a, b }` -/
  | braced (t : List Str) (targs : List Tok) (args : List Expr)
  /-- `[](… x, … y) { return e; }` -/
  | lambda (params : List Str) (body : Expr)
  | not (e : Expr)
  | bin (op : Str) (a b : Expr)

/-- Statements under the labels of a `switch`. -/
inductive Simple where
  | ret (e : Expr)
  | assign (x : Str) (e : Expr)
  | brk

inductive Stmt where
  | ret (e : Expr)
  /-- `if (c) return e;` -/
  | retIf (c e : Expr)
  /-- `auto const x = e;` and the like -/
  | const (x : Str) (e : Expr)
  /-- `T x;` -/
  | declare (type : List Str) (x : Str)
  | switch (x : Str) (cases : List (List Str × List Simple))
  /-- `for (auto const& [k, v]: e) if (c) return r;` -/
  | forIf (k v : Str) (e c r : Expr)
  /-- `using namespace …;` -/
  | using

/-- `type name(type x, type y) … { body }` -/
structure Fn where
  result : List Tok
  name : Str
  params : List (List Tok × Str)
  body : List Stmt

/-! ## Reader -/

def pathGo : List Tok → Option (List Str × List Tok)
  | .word w :: .punct ':' :: .punct ':' :: r =>
    match pathGo r with
    | some (ws, r') => some (w :: ws, r')
    | none => none
  | .word w :: r => some ([w], r)
  | _ => none

/-- `a::b::c`, possibly with `::` in front -/
def readPath : List Tok → Option (List Str × List Tok)
  | .punct ':' :: .punct ':' :: r => pathGo r
  | ts => pathGo ts

/-- The tokens up to the `>` that matches an opened `<`. -/
def angle : Nat → List Tok → Option (List Tok × List Tok)
  | d, .punct '<' :: r => (angle (d + 1) r).map fun x => (.punct '<' :: x.1, x.2)
  | 0, .punct '>' :: r => some ([], r)
  | d + 1, .punct '>' :: r => (angle d r).map fun x => (.punct '>' :: x.1, x.2)
  | d, t :: r => (angle d r).map fun x => (t :: x.1, x.2)
  | _, [] => none

/-- the names in front of which `<` opens template arguments -/
def isTemplate (path : List Str) : Bool :=
  path == ["static_cast".toList] || path == ["std".toList, "span".toList] || path == ["std".toList, "array".toList] ||
    path == ["formatter".toList]

/-- The tokens before the first token `t`, and those behind it. -/
def upto (t : Tok) : List Tok → Option (List Tok × List Tok)
  | [] => none
  | u :: r => if u = t then some ([], r) else (upto t r).map fun x => (u :: x.1, x.2)

/-- `type x` -/
def param (ts : List Tok) : Option (List Tok × Str) :=
  match ts.reverse with
  | .word x :: r => some (r.reverse, x)
  | _ => none

/-- Parameters up to the closing parenthesis; parameter types here have no commas or parentheses.  The list before the first comma or
parenthesis is collected in `acc`. -/
def params : List Tok → List Tok → Option (List (List Tok × Str) × List Tok)
  | [], _ => none
  | .punct ')' :: r, acc => if acc = [] then some ([], r) else (param acc).map fun q => ([q], r)
  | .punct ',' :: r, acc =>
    match param acc, params r [] with
    | some q, some (qs, r') => some (q :: qs, r')
    | _, _ => none
  | t :: r, acc => params r (acc ++ [t])

mutual
/-- `a && b` -/
def readAnd : Nat → List Tok → Option (Expr × List Tok)
  | 0, _ => none
  | n + 1, ts =>
    match readEq n ts with
    | some (a, .punct '&' :: .punct '&' :: r) =>
      match readAnd n r with
      | some (b, r') => some (.bin "&&".toList a b, r')
      | none => none
    | x => x
/-- `a == b`, `a != b` -/
def readEq : Nat → List Tok → Option (Expr × List Tok)
  | 0, _ => none
  | n + 1, ts =>
    match readLess n ts with
    | some (a, .punct '=' :: .punct '=' :: r) =>
      match readLess n r with
      | some (b, r') => some (.bin "==".toList a b, r')
      | none => none
    | some (a, .punct '!' :: .punct '=' :: r) =>
      match readLess n r with
      | some (b, r') => some (.bin "!=".toList a b, r')
      | none => none
    | x => x
/-- `a < b` -/
def readLess : Nat → List Tok → Option (Expr × List Tok)
  | 0, _ => none
  | n + 1, ts =>
    match readShift n ts with
    | some (a, .punct '<' :: r) =>
      match readShift n r with
      | some (b, r') => some (.bin "<".toList a b, r')
      | none => none
    | x => x
/-- `a << b << c` -/
def readShift : Nat → List Tok → Option (Expr × List Tok)
  | 0, _ => none
  | n + 1, ts =>
    match readUnary n ts with
    | some (a, r) => shiftTail n a r
    | none => none
def shiftTail : Nat → Expr → List Tok → Option (Expr × List Tok)
  | 0, _, _ => none
  | n + 1, a, .punct '<' :: .punct '<' :: r =>
    match readUnary n r with
    | some (b, r') => shiftTail n (.bin "<<".toList a b) r'
    | none => none
  | _ + 1, a, ts => some (a, ts)
/-- `!a` -/
def readUnary : Nat → List Tok → Option (Expr × List Tok)
  | 0, _ => none
  | n + 1, .punct '!' :: r =>
    match readUnary n r with
    | some (a, r') => some (.not a, r')
    | none => none
  | n + 1, ts =>
    match readPrimary n ts with
    | some (a, r) => postTail n a r
    | none => none
/-- `.m(…)`, `.m`, `->m` -/
def postTail : Nat → Expr → List Tok → Option (Expr × List Tok)
  | 0, _, _ => none
  | n + 1, a, .punct '.' :: .word m :: .punct '(' :: r =>
    match readArgs n ')' r with
    | some (as, r') => postTail n (.method a m as) r'
    | none => none
  | n + 1, a, .punct '.' :: .word m :: r => postTail n (.member a m) r
  | n + 1, a, .punct '-' :: .punct '>' :: .word m :: r => postTail n (.arrow a m) r
  | _ + 1, a, ts => some (a, ts)
def readPrimary : Nat → List Tok → Option (Expr × List Tok)
  | 0, _ => none
  | _ + 1, .str s :: .word w :: r => if w = "sv".toList then some (.str s, r) else none
  | _ + 1, .str s :: r => some (.str s, r)
  | n + 1, .punct '[' :: .punct ']' :: .punct '(' :: r =>
    match params r [] with
    | some (ps, .punct '{' :: .word w :: r') =>
      match readAnd n r' with
      | some (e, .punct ';' :: .punct '}' :: r'') => if w = "return".toList then some (.lambda (ps.map (·.2)) e, r'') else none
      | _ => none
    | _ => none
  | n + 1, ts =>
    match readPath ts with
    | some (q, .punct '(' :: r) => (readArgs n ')' r).map fun x => (.call q x.1, x.2)
    | some (q, .punct '{' :: r) => (readArgs n '}' r).map fun x => (.braced q [] x.1, x.2)
    | some (q, .punct '<' :: .punct '<' :: r) => some (.name q, .punct '<' :: .punct '<' :: r)
    | some (q, .punct '<' :: r) =>
      if isTemplate q then
        match angle 0 r with
        | some (ta, .punct '(' :: r') => (readArgs n ')' r').map fun x => (.cast q ta x.1, x.2)
        | some (ta, .punct '{' :: r') => (readArgs n '}' r').map fun x => (.braced q ta x.1, x.2)
        | some (ta, .punct ':' :: .punct ':' :: .word m :: .punct '(' :: r') =>
          (readArgs n ')' r').map fun x => (.cast (q ++ [m]) ta x.1, x.2)
        | _ => none
      else some (.name q, .punct '<' :: r)
    | some (q, r) => some (.name q, r)
    | none => none
/-- Arguments up to the closing bracket; a comma behind the last is allowed. -/
def readArgs : Nat → Char → List Tok → Option (List Expr × List Tok)
  | 0, _, _ => none
  | n + 1, close, ts =>
    if ts.head? = some (.punct close) then some ([], ts.tail)
    else
      match readAnd n ts with
      | some (a, .punct c :: r) =>
        if c = ',' then (readArgs n close r).map fun x => (a :: x.1, x.2)
        else if c = close then some ([a], r)
        else none
      | _ => none
end

/-- An expression; every token costs at most a dozen levels. -/
def readExpr (ts : List Tok) : Option (Expr × List Tok) := readAnd (12 * ts.length + 12) ts

/-- `return e;` -/
def readReturn (ts : List Tok) : Option (Expr × List Tok) :=
  match ts with
  | .word w :: r =>
    if w = "return".toList then
      match readExpr r with
      | some (e, .punct ';' :: r') => some (e, r')
      | _ => none
    else none
  | _ => none

/-- The statements behind a label, up to the next label or the end of the `switch`. -/
def readSimple : Nat → List Tok → Option (List Simple × List Tok)
  | 0, _ => none
  | _ + 1, .punct '}' :: r => some ([], .punct '}' :: r)
  | n + 1, .word w :: r =>
    if w = "case".toList then some ([], .word w :: r)
    else if w = "return".toList then
      match readReturn (.word w :: r) with
      | some (e, r') => (readSimple n r').map fun x => (.ret e :: x.1, x.2)
      | none => none
    else if w = "break".toList then
      match r with
      | .punct ';' :: r' => (readSimple n r').map fun x => (.brk :: x.1, x.2)
      | _ => none
    else
      match r with
      | .punct '=' :: r' =>
        match readExpr r' with
        | some (e, .punct ';' :: r'') => (readSimple n r'').map fun x => (.assign w e :: x.1, x.2)
        | _ => none
      | _ => none
  | _, _ => none

/-- The labels of a `switch`, up to its closing brace. -/
def readCases : Nat → List Tok → Option (List (List Str × List Simple) × List Tok)
  | 0, _ => none
  | _ + 1, .punct '}' :: r => some ([], r)
  | n + 1, .word w :: r =>
    if w = "case".toList then
      match readPath r with
      | some (q, .punct ':' :: r') =>
        match readSimple n r' with
        | some (b, r'') => (readCases n r'').map fun x => ((q, b) :: x.1, x.2)
        | none => none
      | _ => none
    else none
  | _, _ => none

/-- One statement. -/
def readStmt (ts : List Tok) : Option (Stmt × List Tok) :=
  match ts with
  | .word w :: r =>
    if w = "return".toList then (readReturn ts).map fun x => (.ret x.1, x.2)
    else if w = "switch".toList then
      match r with
      | .punct '(' :: .word x :: .punct ')' :: .punct '{' :: r' => (readCases (r'.length + 1) r').map fun y => (.switch x y.1, y.2)
      | _ => none
    else if w = "if".toList then
      match r with
      | .punct '(' :: r' =>
        match readExpr r' with
        | some (c, .punct ')' :: r'') => (readReturn r'').map fun y => (.retIf c y.1, y.2)
        | _ => none
      | _ => none
    else if w = "for".toList then
      match r with
      | .punct '(' :: .word _ :: .word _ :: .punct '&' :: .punct '[' :: .word k :: .punct ',' :: .word v :: .punct ']' :: .punct ':' :: r' =>
        match readExpr r' with
        | some (e, .punct ')' :: .word i :: .punct '(' :: r'') =>
          match readExpr r'' with
          | some (c, .punct ')' :: r3) => if i = "if".toList then (readReturn r3).map fun y => (.forIf k v e c y.1, y.2) else none
          | _ => none
        | _ => none
      | _ => none
    else if w = "using".toList then (upto (.punct ';') r).map fun x => (.using, x.2)
    else if w = "auto".toList then
      match r with
      | .word _ :: .word x :: .punct '=' :: r' =>
        match readExpr r' with
        | some (e, .punct ';' :: r'') => some (.const x e, r'')
        | _ => none
      | _ => none
    else if w = "static".toList then
      match r with
      | .word _ :: .word _ :: .word x :: .punct '=' :: r' =>
        match readExpr r' with
        | some (e, .punct ';' :: r'') => some (.const x e, r'')
        | _ => none
      | _ => none
    else
      match readPath ts with
      | some (q, .word x :: .punct ';' :: r') => some (.declare q x, r')
      | _ => none
  | _ => none

/-- Statements up to the brace that closes the function, which is the last token. -/
def readBody : Nat → List Tok → Option (List Stmt)
  | 0, _ => none
  | _ + 1, [.punct '}'] => some []
  | n + 1, ts =>
    match readStmt ts with
    | some (s, r) => (readBody n r).map (s :: ·)
    | none => none

/-- The result type and the name in front of the parameters. -/
def readHead (ts : List Tok) : Option (List Tok × Str) :=
  match ts.reverse with
  | .word w :: r => some (r.reverse, w)
  | .punct '<' :: .punct '<' :: .word w :: r => if w = "operator".toList then some (r.reverse, "operator<<".toList) else none
  | _ => none

/-- A function definition. -/
def readFn (ts : List Tok) : Option Fn :=
  match upto (.punct '(') ts with
  | some (h, r) =>
    match readHead h, params r [] with
    | some (t, x), some (ps, r') =>
      match upto (.punct '{') r' with
      | some (_, b) => (readBody (b.length + 1) b).map fun body => ⟨t, x, ps, body⟩
      | none => none
    | _, _ => none
  | none => none

/-! ## Evaluation -/

inductive Value where
  /-- a number: `char32_t`, `unsigned`, or a value of an enumeration type -/
  | num (n : Nat)
  | bool (b : Bool)
  | enumerator (path : List Str)
  | text (s : Str)
  /-- an array -/
  | arr (rows : List Val)
  /-- position `i` in an array -/
  | iter (rows : List Val) (i : Nat)
  | opt (o : Option Value)
  /-- a row or a pair -/
  | row (v : Val)
  /-- an output stream, and what has been written to it -/
  | stream (s : Str)
  /-- the elements of a `std::span` -/
  | span (vs : List Val)

inductive Res (α : Type) where
  | val (a : α)
  /-- memory outside an object is read -/
  | oob
  /-- outside the language described here -/
  | stuck

def Res.bind {α β : Type} (x : Res α) (f : α → Res β) : Res β :=
  match x with
  | .val a => f a
  | .oob => .oob
  | .stuck => .stuck

def Res.ofMem {α β : Type} (f : α → β) : Mem α → Res β
  | .ok a => .val (f a)
  | .oob => .oob

/-- What the names of a translation unit stand for. -/
structure World where
  /-- the numbers of the enumerators, by qualified name without `unicode::` -/
  number : List Str → Option Nat
  /-- the arrays of namespace `tables` -/
  table : Str → Option (List Val)
  /-- the function `contains(General_Category, char32_t)` -/
  category : Nat → Nat → Res Value

/-- The names stand for what the item declares: an array for its elements, an enumerator for its number. -/
def World.Has (W : World) : Item → Prop
  | .table _ name vs => W.table name = some vs
  | .enum name _ es => ∀ e ∈ es, W.number [name, e.1] = some e.2
  | .struct _ _ => True

/-- Inside `namespace unicode`, `unicode::X` is `X`. -/
def canon : List Str → List Str
  | w :: r => if w = "unicode".toList then r else w :: r
  | [] => []

/-- `{ { first, last }, value }` -/
def entryOf : Val → Option (Tables.Entry Val)
  | .list [.list [.num a, .num b], v] => some ⟨a, b, v⟩
  | _ => none

/-- `{ first, last }` -/
def intervalOf : Val → Option (Tables.Entry _root_.Unit)
  | .list [.num a, .num b] => some ⟨a, b, ()⟩
  | _ => none

/-- all or nothing -/
def allOf {α β : Type} (f : α → Option β) : List α → Option (List β)
  | [] => some []
  | a :: l =>
    match f a, allOf f l with
    | some b, some m => some (b :: m)
    | _, _ => none

/-- The value of an initialiser. -/
def valueOf : Val → Value
  | .num n => .num n
  | .name q => .enumerator (canon q)
  | .str s => .text s
  | .list vs => .row (.list vs)

/-- `search(table, codepoint)` of ucd_private.h -/
def callSearch (rows : List Val) (c : Nat) : Res Value :=
  match allOf entryOf rows with
  | some es => Res.ofMem (fun o => .opt (o.map valueOf)) (Tables.search es c)
  | none => .stuck

/-- `contains(table, codepoint)` of ucd_private.h -/
def callContains (rows : List Val) (c : Nat) : Res Value :=
  match allOf intervalOf rows with
  | some es => Res.ofMem .bool (Tables.contains es c)
  | none => .stuck

/-- `.first` and `.second` of a pair -/
def field (v : Val) (m : Str) : Res Value :=
  match v with
  | .list [a, b] => if m = "first".toList then .val (valueOf a) else if m = "second".toList then .val (valueOf b) else .stuck
  | _ => .stuck

/-- Decimal digits, as `<<` of an `unsigned` writes them. -/
def decimal (n : Nat) : Str := Nat.toDigits 10 n

/-- `os << v` -/
def write (s : Str) : Value → Res Value
  | .text t => .val (.stream (s ++ t))
  | .num n => .val (.stream (s ++ decimal n))
  | _ => .stuck

/-- equality of values of one type -/
def same : Value → Value → Res Value
  | .num a, .num b => .val (.bool (a == b))
  | .text a, .text b => .val (.bool (a == b))
  | .iter _ i, .iter _ j => .val (.bool (i == j))
  | _, _ => .stuck

/-- Local variables. -/
abbrev Vars := List (Str × Value)

def Vars.get (σ : Vars) (x : Str) : Option Value :=
  match σ with
  | [] => none
  | (y, v) :: r => if y = x then some v else Vars.get r x

/-- A name: a variable, a table, `std::nullopt`, or an enumerator. -/
def evalName (W : World) (σ : Vars) (q : List Str) : Res Value :=
  match q with
  | [x] =>
    match σ.get x with
    | some v => .val v
    | none => if x = "false".toList then .val (.bool false) else if x = "true".toList then .val (.bool true) else .stuck
  | [a, b] =>
    if a = "tables".toList then match W.table b with | some rows => .val (.arr rows) | none => .stuck
    else if a = "std".toList then (if b = "nullopt".toList then .val (.opt none) else .stuck)
    else .val (.enumerator (canon q))
  | _ => .val (.enumerator (canon q))

/-- The pair of a pointer to the first element of an array, `k.data()`, and its size, `k.size()`. -/
def evalSpan (W : World) : Value → Value → Res Value
  | .enumerator [k, d], .enumerator [k', s] =>
    if d = "data".toList ∧ s = "size".toList ∧ k = k' then
      match W.table k with | some vs => .val (.span vs) | none => .stuck
    else .stuck
  | _, _ => .stuck

def evalCall (W : World) (f : List Str) (vs : List Value) : Res Value :=
  if f = ["search".toList] then
    match vs with
    | [.arr rows, .num c] => callSearch rows c
    | _ => .stuck
  else if f = ["contains".toList] then
    match vs with
    | [.arr rows, .num c] => callContains rows c
    | [.enumerator q, .num c] =>
      match W.number q with
      | some n => if q.head? = some "General_Category".toList then W.category n c else .stuck
      | none => .stuck
    | _ => .stuck
  else .stuck

def evalMethod (a : Value) (m : Str) (vs : List Value) : Res Value :=
  match a, vs with
  | .opt o, [d] => if m = "value_or".toList then .val (o.getD d) else .stuck
  | .opt o, [] => if m = "has_value".toList then .val (.bool o.isSome) else .stuck
  | .arr rows, [] => if m = "begin".toList then .val (.iter rows 0) else if m = "end".toList then .val (.iter rows rows.length) else .stuck
  | _, _ => .stuck

/-- `a->m`: of an optional or an iterator -/
def evalArrow (a : Value) (m : Str) : Res Value :=
  match a with
  | .opt (some (.row v)) => field v m
  | .iter rows i => match rows[i]? with | some v => field v m | none => .oob
  | _ => .stuck

def evalBin (op : Str) (a b : Value) : Res Value :=
  if op = "==".toList then same a b
  else if op = "!=".toList then (same a b).bind fun v => match v with | .bool x => .val (.bool !x) | _ => .stuck
  else if op = "<".toList then (match a, b with | .num x, .num y => .val (.bool (decide (x < y))) | _, _ => .stuck)
  else if op = "<<".toList then (match a with | .stream s => write s b | _ => .stuck)
  else .stuck

def evalCast (t : List Str) (ta : List Tok) (vs : List Value) : Res Value :=
  match vs with
  | [.num n] => if t = ["static_cast".toList] ∧ ta = [.word "unsigned".toList] then .val (.num n) else .stuck
  | [.text s, _] => if t = ["formatter".toList, "format".toList] ∧ ta = [.word "string_view".toList] then .val (.text s) else .stuck
  | _ => .stuck

/-- The rows of an array or a pair, as initialisers. -/
def initOf : Value → Option Val
  | .num n => some (.num n)
  | .text s => some (.str s)
  | .enumerator q => some (.name q)
  | .row v => some v
  | _ => none

/-- The number of elements of `std::array<T, n>`, written in decimal. -/
def sizeOf' (ta : List Tok) : Option Nat :=
  match ta.reverse with
  | .word w :: .punct ',' :: _ => if (w.head? = some '0' → w = ['0']) ∧ w ≠ [] ∧ w.all (fun c => decide (digit c < 10)) = true then some (value 10 w) else none
  | _ => none

def evalBraced (W : World) (t : List Str) (ta : List Tok) (vs : List Value) : Res Value :=
  if t = ["std".toList, "span".toList] then
    match vs with
    | [a, b] => evalSpan W a b
    | _ => .stuck
  else
    match allOf initOf vs with
    | none => .stuck
    | some is =>
      if t = ["std".toList, "array".toList] then (if sizeOf' ta = some is.length then .val (.arr is) else .stuck)
      else if t = ["std".toList, "pair".toList] then .val (.row (.list is))
      else .stuck

/-- `std::lower_bound` (Model/Tables) with the results of the comparison. -/
def lowerBoundOf (rows : List Val) (before : Val → Option Bool) : Res Value :=
  match allOf before rows with
  | some bs => Res.ofMem (fun i => .iter rows i) (Tables.lowerBound bs id)
  | none => .stuck

/-- The values of a list of expressions, from left to right. -/
def evalsWith (ev : Expr → Res Value) : List Expr → Res (List Value)
  | [] => .val []
  | e :: es => (ev e).bind fun v => (evalsWith ev es).bind fun vs => .val (v :: vs)

/-- The value of an expression.  The first number bounds the depth. -/
def eval : Nat → World → Vars → Expr → Res Value
  | 0, _, _, _ => .stuck
  | n + 1, W, σ, e =>
    match e with
    | .name q => evalName W σ q
    | .str s => .val (.text s)
    | .call f args =>
      match args with
      | [b, l, c, .lambda [x, y] body] =>
        if f = ["std".toList, "lower_bound".toList] then
          (eval n W σ b).bind fun vb => (eval n W σ l).bind fun vl => (eval n W σ c).bind fun vc =>
            match vb, vl with
            | .iter rows 0, .iter _ k =>
              if k = rows.length then
                lowerBoundOf rows fun v => match eval n W [(x, .row v), (y, vc)] body with | .val (.bool r) => some r | _ => none
              else .stuck
            | _, _ => .stuck
        else .stuck
      | args => (evalsWith (eval n W σ) args).bind (evalCall W f)
    | .method e m args => (eval n W σ e).bind fun a => (evalsWith (eval n W σ) args).bind (evalMethod a m)
    | .member e m => (eval n W σ e).bind fun a => match a with | .row v => field v m | _ => .stuck
    | .arrow e m => (eval n W σ e).bind fun a => evalArrow a m
    | .cast t ta args => (evalsWith (eval n W σ) args).bind (evalCast t ta)
    | .braced t ta args => (evalsWith (eval n W σ) args).bind (evalBraced W t ta)
    | .lambda _ _ => .stuck
    | .not e => (eval n W σ e).bind fun a => match a with | .bool b => .val (.bool !b) | _ => .stuck
    | .bin op a b =>
      if op = "&&".toList then
        (eval n W σ a).bind fun x => match x with | .bool false => .val (.bool false) | .bool true => eval n W σ b | _ => .stuck
      else (eval n W σ a).bind fun x => (eval n W σ b).bind (evalBin op x)

/-- What a statement list under a label does. -/
inductive Done where
  | ret (v : Value)
  | next (σ : Vars)

def runSimple (n : Nat) (W : World) : Vars → List Simple → Res Done
  | σ, [] => .val (.next σ)
  | σ, .ret e :: _ => (eval n W σ e).bind fun v => .val (.ret v)
  | σ, .assign x e :: r => (eval n W σ e).bind fun v => runSimple n W ((x, v) :: σ) r
  | σ, .brk :: _ => .val (.next σ)

/-- The number of a label. -/
def label (W : World) (q : List Str) : Option Nat := W.number (canon q)

/-- The statements from the label with the number `k` on; those under the following labels follow (a case without `break` or `return`
falls through). -/
def selected (W : World) (k : Nat) (cases : List (List Str × List Simple)) : List Simple :=
  (cases.dropWhile fun c => decide (label W c.1 ≠ some k)).flatMap (·.2)

/-- All labels are enumerators, and no two have the same number (otherwise the `switch` does not compile). -/
def labelsOk (W : World) (cases : List (List Str × List Simple)) : Bool :=
  match allOf (fun c => label W c.1) cases with
  | some ns => decide ns.Nodup
  | none => false

/-- `for (auto const& [k, v]: rows) if (c) return r;` -/
def runFor (n : Nat) (W : World) (σ : Vars) (k v : Str) (c r : Expr) : List Val → Res Done
  | [] => .val (.next σ)
  | .list [a, b] :: rest =>
    (eval n W ((k, valueOf a) :: (v, valueOf b) :: σ) c).bind fun x =>
      match x with
      | .bool true => (eval n W ((k, valueOf a) :: (v, valueOf b) :: σ) r).bind fun y => .val (.ret y)
      | .bool false => runFor n W σ k v c r rest
      | _ => .stuck
  | _ :: _ => .stuck

/-- What the body of a function returns. -/
def run (n : Nat) (W : World) : Vars → List Stmt → Res Value
  | _, [] => .stuck
  | σ, .ret e :: _ => eval n W σ e
  | σ, .retIf c e :: r =>
    (eval n W σ c).bind fun x => match x with | .bool true => eval n W σ e | .bool false => run n W σ r | _ => .stuck
  | σ, .const x e :: r => (eval n W σ e).bind fun v => run n W ((x, v) :: σ) r
  | σ, .declare t x :: r => if t = ["std".toList, "string_view".toList] then run n W ((x, .text []) :: σ) r else .stuck
  | σ, .switch x cases :: r =>
    match σ.get x with
    | some (.num k) =>
      if labelsOk W cases then
        (runSimple n W σ (selected W k cases)).bind fun d => match d with | .ret v => .val v | .next σ' => run n W σ' r
      else .stuck
    | _ => .stuck
  | σ, .forIf k v e c y :: r =>
    (eval n W σ e).bind fun a => match a with
      | .arr rows => (runFor n W σ k v c y rows).bind fun d => match d with | .ret z => .val z | .next σ' => run n W σ' r
      | _ => .stuck
  | σ, .using :: r => run n W σ r

/-- The conversion of the returned value to the result type: into an optional. -/
def convert (result : List Tok) (v : Value) : Value :=
  if .word "optional".toList ∈ result then match v with | .opt o => .opt o | v => .opt (some v) else v

/-- Calling a function with the given arguments. -/
def Fn.call (f : Fn) (W : World) (args : List Value) : Res Value :=
  if f.params.length = args.length then
    (run 20 W ((f.params.map (·.2)).zip args) f.body).bind fun v => .val (convert f.result v)
  else .stuck

/-- The text defines the function `f`. -/
def DefinesFn (text : Str) (f : Fn) : Prop := ∃ ts, Reads text ts ∧ readFn ts = some f

/-- The text specialises `std::formatter` for the type `unicode::e`, with `f` as its `format`; `parse` is inherited from the formatter
of string views. -/
def DefinesFormatter (text e : Str) (f : Fn) : Prop := ∃ ts,
  Reads text ([.word "template".toList, p '<', p '>', .word "struct".toList, .word "std".toList, p ':', p ':', .word "formatter".toList, p '<',
    .word "unicode".toList, p ':', p ':', .word e, p '>', p ':', .word "std".toList, p ':', p ':', .word "formatter".toList, p '<',
    .word "std".toList, p ':', p ':', .word "string_view".toList, p '>', p '{'] ++ ts ++ [p '}', p ';']) ∧ readFn ts = some f

/-- `result name(type, …)` -/
def Signature (f : Fn) (result : String) (name : Str) (types : List Str) : Prop :=
  Reads result.toList f.result ∧ f.name = name ∧ List.Forall₂ (fun p t => Reads t p.1) f.params types

/-- The names mean what the text declares. -/
def Agrees (W : World) (text : Str) : Prop := ∀ items, Says text items → ∀ i ∈ items, W.Has i

end Verif.Spec.Cxx
