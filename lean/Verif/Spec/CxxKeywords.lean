import Verif.Spec.UcdEnum
/-!
# Words that cannot be identifiers

The keywords of C++20 ([lex.key], table 5) and the alternative tokens (table 6).
-/

namespace Verif.Spec.Cxx

def keywords : List String :=
  ["alignas", "alignof", "asm", "auto", "bool", "break", "case", "catch", "char", "char8_t", "char16_t", "char32_t", "class", "concept", "const",
   "consteval", "constexpr", "constinit", "const_cast", "continue", "co_await", "co_return", "co_yield", "decltype", "default", "delete", "do", "double",
   "dynamic_cast", "else", "enum", "explicit", "export", "extern", "false", "float", "for", "friend", "goto", "if", "inline", "int", "long", "mutable",
   "namespace", "new", "noexcept", "nullptr", "operator", "private", "protected", "public", "register", "reinterpret_cast", "requires", "return", "short",
   "signed", "sizeof", "static", "static_assert", "static_cast", "struct", "switch", "template", "this", "thread_local", "throw", "true", "try", "typedef",
   "typeid", "typename", "union", "unsigned", "using", "virtual", "void", "volatile", "wchar_t", "while",
   "and", "and_eq", "bitand", "bitor", "compl", "not", "not_eq", "or", "or_eq", "xor", "xor_eq"]

/-- `w` is such a word. -/
def Keyword (w : List Char) : Prop := ∃ k ∈ keywords, k.toList = w

end Verif.Spec.Cxx

namespace Verif.Spec.Ucd
open Verif.Spec.UcdFile

def Capital (s : List Char) : Prop := ∃ c t, s = c :: t ∧ 'A' ≤ c ∧ c ≤ 'Z'

/-- The values that become enumerators, and the properties that become enumerations, are written with a capital letter in the files. -/
structure Capitals (U : Contents) (N : ValueNames) : Prop where
  ages : ∀ a f, (a, f) ∈ N.age → Capital f
  sections : ∀ prop es, ValueSection U prop es → Capital prop ∧ ∀ a f, (a, f) ∈ es → Capital f
  core : ∀ e ∈ U.core, Word e.2.2 → Capital e.2.2
  gc : ∀ a f, (a, f) ∈ N.gc → Capital f
  scripts : ∀ e ∈ U.scripts, Capital e.2.2
  blocks : ∀ e ∈ U.blocks, Capital e.2.2

end Verif.Spec.Ucd
