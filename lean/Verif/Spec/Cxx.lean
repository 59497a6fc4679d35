/-!
# Independent specification: the C++ text of tables

Just enough of C++ to say which array a piece of generated source text declares: line splicing, comments, tokens, integer
literals, braced initialisers.  Nothing here mentions the generator.  Character literals, strings with escapes, block comments,
preprocessor directives and multi-character operators do not occur in tables and are outside the relations (which is
safe: a text outside them is never claimed to mean anything).
-/

namespace Verif.Spec.Cxx

abbrev Str := List Char

/-- Phase 2 of translation: a backslash directly before a line end joins the lines. -/
def splice : Str → Str
  | '\\' :: '\n' :: t => splice t
  | c :: t => c :: splice t
  | [] => []

def isDigit (c : Char) : Bool := '0' ≤ c && c ≤ '9'
/-- the characters of identifiers and numbers -/
def isWord (c : Char) : Bool := isDigit c || ('A' ≤ c && c ≤ 'Z') || ('a' ≤ c && c ≤ 'z') || c = '_'
def isSpace (c : Char) : Bool := c = ' ' || c = '\t' || c = '\n' || c = '\r'
/-- the punctuation of tables and small functions; multi-character operators such as `::` are seen as their characters -/
def isPunct (c : Char) : Bool := "{}<>(),;:=.*&[]!-".toList.contains c

inductive Tok where
  | word (w : Str)
  | str (s : Str)
  | punct (c : Char)
deriving DecidableEq, Repr

/-- The tokens of a text without line splices.  A word takes all word characters there are; a comment ends with its line. -/
inductive Lexes : Str → List Tok → Prop
  | nil : Lexes [] []
  | space {c t ts} : isSpace c = true → Lexes t ts → Lexes (c :: t) ts
  | comment {c t ts} : '\n' ∉ c → c.getLast? ≠ some '\\' → Lexes t ts → Lexes ('/' :: '/' :: c ++ '\n' :: t) ts
  | word {w t ts} : w ≠ [] → (∀ c ∈ w, isWord c = true) → (∀ c, t.head? = some c → isWord c = false) → Lexes t ts →
      Lexes (w ++ t) (.word w :: ts)
  | str {s t ts} : (∀ c ∈ s, c ≠ '"' ∧ c ≠ '\\' ∧ c ≠ '\n') → Lexes t ts → Lexes ('"' :: s ++ '"' :: t) (.str s :: ts)
  | punct {c t ts} : isPunct c = true → Lexes t ts → Lexes (c :: t) (.punct c :: ts)

/-- What a source text means to the compiler. -/
def Reads (text : Str) (ts : List Tok) : Prop := Lexes (splice text) ts

/-- the value of a digit in base 16 -/
def digit (c : Char) : Nat :=
  if '0' ≤ c ∧ c ≤ '9' then c.toNat - 48 else if 'A' ≤ c ∧ c ≤ 'F' then c.toNat - 55 else if 'a' ≤ c ∧ c ≤ 'f' then c.toNat - 87 else 16

/-- The value of a digit sequence in base `b`. -/
def value (b : Nat) (ds : Str) : Nat := ds.foldl (fun n c => n * b + digit c) 0

/-- Integer literals: `0b…` is binary, `0x…` hexadecimal, any other literal beginning with `0` octal, the rest decimal. -/
inductive IntLit : Str → Nat → Prop
  | dec {ds} : ds ≠ [] → (∀ c ∈ ds, digit c < 10) → ds.head? ≠ some '0' → IntLit ds (value 10 ds)
  | oct {ds} : (∀ c ∈ ds, digit c < 8) → IntLit ('0' :: ds) (value 8 ds)
  | hex {ds} : ds ≠ [] → (∀ c ∈ ds, digit c < 16) → IntLit ('0' :: 'x' :: ds) (value 16 ds)
  | bin {ds} : ds ≠ [] → (∀ c ∈ ds, digit c < 2) → IntLit ('0' :: 'b' :: ds) (value 2 ds)

/-- Values of initialisers: numbers, (qualified) names, strings, braced lists. -/
inductive Val where
  | num (n : Nat)
  | name (path : List Str)
  | str (s : Str)
  | list (vs : List Val)

/-- an identifier -/
def Ident (w : Str) : Prop := w ≠ [] ∧ (∀ c ∈ w, isWord c = true) ∧ ∀ c, w.head? = some c → isDigit c = false

def p (c : Char) : Tok := .punct c

/-- `a`, `a::b`, `::a::b` -/
inductive Path : List Tok → List Str → Prop
  | one {w} : Ident w → Path [.word w] [w]
  | cons {w ts ws} : Ident w → Path ts ws → Path (.word w :: p ':' :: p ':' :: ts) (w :: ws)

mutual
/-- An initialiser, in an array whose element type is written `elem`. -/
inductive Init (elem : List Tok) : List Tok → Val → Prop
  | num {w n} : IntLit w n → Init elem [.word w] (.num n)
  | name {ts ws} : Path ts ws → Init elem ts (.name ws)
  | global {ts ws} : Path ts ws → Init elem (p ':' :: p ':' :: ts) (.name ws)
  | call {a f} : Ident a → Ident f → Init elem [.word a, p '.', .word f, p '(', p ')'] (.name [a, f])
  | str {s} : Init elem [.str s] (.str s)
  | strView {s} : Init elem [.str s, .word "sv".toList] (.str s)
  | braces {ts vs} : Inits elem ts vs → Init elem (p '{' :: ts ++ [p '}']) (.list vs)
  | typed {ts vs} : Inits elem ts vs → Init elem (elem ++ p '{' :: ts ++ [p '}']) (.list vs)
  /-- the template arguments of the element type left to deduction -/
  | deduced {pt path rest ts vs} : Path pt path → elem = pt ++ p '<' :: rest → Inits elem ts vs →
      Init elem (pt ++ p '{' :: ts ++ [p '}']) (.list vs)
/-- Initialisers separated by commas; a comma after the last is allowed. -/
inductive Inits (elem : List Tok) : List Tok → List Val → Prop
  | nil : Inits elem [] []
  | one {ts v} : Init elem ts v → Inits elem ts [v]
  | cons {ts v us vs} : Init elem ts v → Inits elem us vs → Inits elem (ts ++ p ',' :: us) (v :: vs)
end

/-- Angle brackets match, and commas occur only inside them; apart from these only names, `::` and `*`. -/
def bracketed : Nat → List Tok → Bool
  | d, [] => d = 0
  | d, .word _ :: t => bracketed d t
  | _, .str _ :: _ => false
  | d, .punct c :: t =>
    if c = '<' then bracketed (d + 1) t
    else if c = '>' then d ≠ 0 && bracketed (d - 1) t
    else if c = ',' then d ≠ 0 && bracketed d t
    else (c = ':' || c = '*') && bracketed d t

/-- Element types are written as a name, possibly with template arguments. -/
def TypeName (elem : List Tok) : Prop :=
  bracketed 0 elem = true ∧ ∃ pt path rest, Path pt path ∧ elem = pt ++ rest ∧ (rest = [] ∨ rest.head? = some (p '<'))

/-- `std::array<elem, n>` -/
def arrayType (elem : List Tok) (n : Str) : List Tok :=
  [.word "std".toList, p ':', p ':', .word "array".toList, p '<'] ++ elem ++ [p ',', .word n, p '>']

/-- The braces around the elements of a `std::array`: one pair if the elements are not braced themselves, two in any case. -/
inductive ArrayInit (elem : List Tok) : List Tok → List Val → Prop
  | flat {ts vs} : Inits elem ts vs → ts.head? ≠ some (p '{') → ArrayInit elem (p '{' :: ts ++ [p '}']) vs
  | nested {ts vs} : Inits elem ts vs → ArrayInit elem (p '{' :: p '{' :: ts ++ [p '}', p '}']) vs

/-- A declaration of a constant `std::array` called `name` whose elements of type `elem` are given by the initialisers: as many
as the type says. -/
inductive Declares : List Tok → List Tok → Str → List Val → Prop
  | variable {elem n name init vs} (specifiers : List Tok) (cv : List Tok) :
      specifiers ∈ [[], [.word "inline".toList, .word "constexpr".toList], [.word "static".toList, .word "const".toList]] →
      cv ∈ [[], [.word "const".toList]] → IntLit n vs.length → Ident name → ArrayInit elem init vs →
      Declares (specifiers ++ arrayType elem n ++ cv ++ .word name :: init ++ [p ';']) elem name vs
  | auto {elem n name init vs} (specifiers : List Tok) :
      specifiers ∈ [[.word "auto".toList, .word "static".toList, .word "const".toList], [.word "auto".toList, .word "const".toList],
        [.word "static".toList, .word "constexpr".toList, .word "auto".toList]] →
      IntLit n vs.length → Ident name → ArrayInit elem init vs →
      Declares (specifiers ++ [.word name, p '='] ++ arrayType elem n ++ init ++ [p ';']) elem name vs

/-- `enum class name: type { a = n, … };` -/
inductive Enumerators : List Tok → List (Str × Nat) → Prop
  | nil : Enumerators [] []
  | cons {w lit n ts es} : Ident w → IntLit lit n → Enumerators ts es → Enumerators (.word w :: p '=' :: .word lit :: p ',' :: ts) ((w, n) :: es)

inductive DeclaresEnum : List Tok → Str → Str → List (Str × Nat) → Prop
  | mk {name type ts es} : Ident name → Ident type → Enumerators ts es →
      DeclaresEnum ([.word "enum".toList, .word "class".toList, .word name, p ':', .word type, p '{'] ++ ts ++ [p '}', p ';']) name type es

/-- The members of a `struct`: type, name, and the size if the member is an array. -/
inductive Members : List Tok → List (Str × Str × Option Nat) → Prop
  | nil : Members [] []
  | scalar {type name ts ms} : Ident type → Ident name → Members ts ms →
      Members (.word type :: .word name :: p ';' :: ts) ((type, name, none) :: ms)
  | array {type name lit n ts ms} : Ident type → Ident name → IntLit lit n → Members ts ms →
      Members (.word type :: .word name :: p '[' :: .word lit :: p ']' :: p ';' :: ts) ((type, name, some n) :: ms)

/-- What a source file without code declares. -/
inductive Item where
  | struct (name : Str) (members : List (Str × Str × Option Nat))
  | table (elementType : Str) (name : Str) (values : List Val)
  | enum (name type : Str) (members : List (Str × Nat))

/-- The declarations of a file, in order. -/
inductive Unit : List Tok → List Item → Prop
  | nil : Unit [] []
  | struct {name ts ms us items} : Ident name → Members ts ms → Unit us items →
      Unit ([.word "struct".toList, .word name, p '{'] ++ ts ++ [p '}', p ';'] ++ us) (.struct name ms :: items)
  | table {ts type elem name vs us items} : Reads type elem → TypeName elem → Declares ts elem name vs → Unit us items →
      Unit (ts ++ us) (.table type name vs :: items)
  | enum {ts name type es us items} : DeclaresEnum ts name type es → Unit us items → Unit (ts ++ us) (.enum name type es :: items)

/-- The text declares these items, in this order, and nothing else. -/
def Says (text : Str) (items : List Item) : Prop := ∃ ts, Reads text ts ∧ Unit ts items

/-- The same declaration, up to the spaces in the element type of a table. -/
inductive SameItem : Item → Item → Prop
  | struct {name ms} : SameItem (.struct name ms) (.struct name ms)
  | table {a b ts name vs} : Reads a ts → Reads b ts → SameItem (.table a name vs) (.table b name vs)
  | enum {name type es} : SameItem (.enum name type es) (.enum name type es)

/-- The largest value of an unsigned integer type. -/
def maxOf (type : Str) : Option Nat :=
  if type = "uint8_t".toList then some 0xFF
  else if type = "uint16_t".toList then some 0xFFFF
  else if type = "uint32_t".toList ∨ type = "char32_t".toList then some 0xFFFFFFFF
  else if type = "uint64_t".toList then some 0xFFFFFFFFFFFFFFFF
  else none

end Verif.Spec.Cxx
