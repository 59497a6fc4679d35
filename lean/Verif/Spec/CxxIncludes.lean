import Verif.Spec.CxxFile
/-!
# Which headers a file includes

An include line counts if in front of it, behind the leading block comment, are only empty lines, lines that are comments to their end and other
preprocessor lines: such a line is outside every comment and string, and in front of every declaration.
-/

namespace Verif.Spec.Cxx

/-- An empty line, a directive, or a comment to the end of the line. -/
def Idle (l : Str) : Prop := l = [] ∨ "#".toList <+: l ∨ "//".toList <+: l

/-- The text has the line `#include <h>` in front of its declarations. -/
inductive HasInclude (h : Str) : Str → Prop
  | here (t : Str) : HasInclude h ("#include <".toList ++ h ++ ">".toList ++ '\n' :: t)
  | later (l t : Str) : Idle l → '\n' ∉ l → HasInclude h t → HasInclude h (l ++ '\n' :: t)

/-- The file includes `<h>`. -/
def FileIncludes (text h : Str) : Prop := ∃ code, behindLicence (splice text) = some code ∧ HasInclude h code

end Verif.Spec.Cxx
