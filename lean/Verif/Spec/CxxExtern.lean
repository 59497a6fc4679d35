import Verif.Spec.Cxx
/-!
# Declarations of tables in a header, and what they are used for

Independent of the generator: the grammar of `extern` declarations, and the rule of C++ by which the address of the first
element of an array initialises a pointer.
-/

namespace Verif.Spec.Cxx

/-- An `extern` declaration of a constant array: element type (as tokens), name, number of elements. -/
structure Extern where
  type : List Tok
  name : Str
  length : Nat

/-- `extern std::array<T, n> const name;` …, in order. -/
inductive Externs : List Tok → List Extern → Prop
  | nil : Externs [] []
  | cons {type n len name us es} : TypeName type → IntLit n len → Ident name → Externs us es →
      Externs (.word "extern".toList :: arrayType type n ++ [.word "const".toList, .word name, p ';'] ++ us) (⟨type, name, len⟩ :: es)

/-- The text consists of these declarations, in this order. -/
def Announces (text : Str) (es : List Extern) : Prop := ∃ ts, Reads text ts ∧ Externs ts es

/-- The definition and the declaration agree: same element type, same name, same length. -/
inductive Agree : Item → Extern → Prop
  | table {text type name vs} : Reads text type → Agree (.table text name vs) ⟨type, name, vs.length⟩

/-- `view { a.data(), b.data(), … }`, where the members of the view are pointers to constants of the given types: there is no
conversion between pointers to different types of numbers, so every name must be declared, with exactly that element type. -/
def Initialises (es : List Extern) (members : List (Str × Str)) : Prop :=
  ∀ m ∈ members, (∃ e ∈ es, e.name = m.1) ∧ ∀ e ∈ es, e.name = m.1 → Reads m.2 e.type

end Verif.Spec.Cxx
