/-!
# Independent specification of case mapping

What UnicodeData.txt / SpecialCasing.txt / CaseFolding.txt say about one codepoint, as association lists.
-/

namespace Verif.Spec.Case

/-- `d` is listed for `c`. -/
def Listed {β : Type} (tab : List (Nat × β)) (c : Nat) (d : β) : Prop := (c, d) ∈ tab

/-- `c` maps to the codepoints `ds`: by the full mapping if there is one, otherwise by the simple mapping `one` if there is one,
otherwise to itself.  `ascii c = some d`: the built-in simple mapping of an ASCII letter, which takes precedence over the
table of simple mappings. -/
inductive MapsTo (ascii : Nat → Option Nat) (full : List (Nat × List Nat)) (one : List (Nat × Nat)) (c : Nat) :
    List Nat → Prop
  | full {ds} : Listed full c ds → ds ≠ [] → MapsTo ascii full one c ds
  | ascii {d} : (∀ ds, Listed full c ds → ds = []) → ascii c = some d → MapsTo ascii full one c [d]
  | one {d} : (∀ ds, Listed full c ds → ds = []) → ascii c = none → Listed one c d → MapsTo ascii full one c [d]
  | same : (∀ ds, Listed full c ds → ds = []) → ascii c = none → (∀ d, ¬ Listed one c d) → MapsTo ascii full one c [c]

/-- a–z to A–Z -/
def asciiUp (c : Nat) : Option Nat := if 97 ≤ c ∧ c ≤ 122 then some (c - 32) else none
/-- A–Z to a–z -/
def asciiDown (c : Nat) : Option Nat := if 65 ≤ c ∧ c ≤ 90 then some (c + 32) else none

/-- A relation between codepoints and strings, applied to every codepoint of a text. -/
inductive MapsText (R : Nat → List Nat → Prop) : List Nat → List Nat → Prop
  | nil : MapsText R [] []
  | cons {c cs d ds} : R c d → MapsText R cs ds → MapsText R (c :: cs) (d ++ ds)

end Verif.Spec.Case
