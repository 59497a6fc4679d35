import Verif.Spec.UcdRecord

/-!
# Independent specification: the enumerations a program finds in `ucd_enums.h`
-/

namespace Verif.Spec.Ucd
open Verif.Spec.UcdFile

/-- A section of PropertyValueAliases.txt of a binary property: the two values are `Yes` and `No`. -/
def Binary (es : List (List Char × List Char)) : Prop :=
  ∃ a b, (a, "Yes".toList) ∈ es ∧ (b, "No".toList) ∈ es ∧ ∀ x ∈ es, x = (a, "Yes".toList) ∨ x = (b, "No".toList)

/-- The section of a property whose values become an enumeration of their own, named like the property. -/
def ValueSection (U : Contents) (prop : List Char) (es : List (List Char × List Char)) : Prop :=
  (prop, es) ∈ U.aliases ∧ es ≠ [] ∧ ¬ Binary es ∧
    prop ∉ ["Script", "General_Category", "EastAsianWidth", "Age", "Block"].map String.toList

/-- According to the data files, enumeration `E` has an enumerator called `id`. -/
inductive Enumerator (U : Contents) (N : ValueNames) : (E id : List Char) → Prop
  | plane {n : String} : n ∈ planeNames → Enumerator U N "Plane".toList n.toList
  | unassigned : N.age ≠ [] → Enumerator U N "Age".toList "Unassigned".toList
  | age {a f id} : (a, f) ∈ N.age → Identifier f id → Enumerator U N "Age".toList id
  | undefined {es} : ValueSection U "Grapheme_Cluster_Break".toList es →
      Enumerator U N "Grapheme_Cluster_Break".toList "Undefined".toList
  | value {prop es a f id} : ValueSection U prop es → (a, f) ∈ es → Identifier f id → Enumerator U N prop id
  | core {e id} : e ∈ U.core → Word e.2.2 → Identifier e.2.2 id → Enumerator U N "Core_Property".toList id
  | gcUnspecified : Enumerator U N "General_Category".toList "Unspecified".toList
  | gc {e f id} : e ∈ allOf U.gc → (e.2.2, f) ∈ N.gc → Identifier f id → Enumerator U N "General_Category".toList id
  | scriptFixed {s : String} : s ∈ ["Invalid", "Unknown", "Common"] → Enumerator U N "Script".toList s.toList
  | script {e id} : e ∈ U.scripts → Identifier e.2.2 id → Enumerator U N "Script".toList id
  | blockUnspecified : Enumerator U N "Block".toList "Unspecified".toList
  | block {e id} : e ∈ U.blocks → Identifier e.2.2 id → Enumerator U N "Block".toList id
  | width {w : String} : w ∈ ["Ambiguous", "FullWidth", "HalfWidth", "Neutral", "Narrow", "Wide", "Unspecified"] →
      Enumerator U N "EastAsianWidth".toList w.toList

/-- Two titles that become the same identifier. -/
def Clash (s t : List Char) : Prop := ∃ id, Identifier s id ∧ Identifier t id

/-- What the files must satisfy for the generated enumerations not to declare a name twice. -/
structure NoClash (U : Contents) (N : ValueNames) : Prop where
  /-- no section is called like one of the other enumerations -/
  titles : ∀ s ∈ U.aliases, s.1 ≠ "Plane".toList ∧ s.1 ≠ "Core_Property".toList
  /-- two abbreviations of a section stand for different names -/
  values : ∀ prop es, ValueSection U prop es → ∀ a f b g, (a, f) ∈ es → (b, g) ∈ es → Clash f g → a = b
  undefined : ∀ a f, (a, f) ∈ N.gcb → ¬ Clash f "Undefined".toList
  ages : ∀ a f b g, (a, f) ∈ N.age → (b, g) ∈ N.age → f ≠ "Unassigned".toList → Clash f g → a = b
  core : ∀ e ∈ U.core, ∀ e' ∈ U.core, Clash e.2.2 e'.2.2 → e.2.2 = e'.2.2
  gc : ∀ a f b g, (a, f) ∈ N.gc → (b, g) ∈ N.gc → Clash f g → f = g
  scripts : ∀ e ∈ U.scripts, ∀ e' ∈ U.scripts, Clash e.2.2 e'.2.2 → e.2.2 = e'.2.2
  scriptsReserved : ∀ e ∈ U.scripts, ¬ Clash e.2.2 "Invalid".toList ∧ ¬ Clash e.2.2 "Unknown".toList
  blocks : ∀ e ∈ U.blocks, ∀ e' ∈ U.blocks, Clash e.2.2 e'.2.2 → e.2.2 = e'.2.2
  blocksReserved : ∀ e ∈ U.blocks, ¬ Clash e.2.2 "Unspecified".toList

/-- The names that are written into the tables unchanged are identifiers already. -/
def Plainly (s : List Char) : Prop := ∀ c ∈ s, c ≠ ' ' ∧ c ≠ '-'

end Verif.Spec.Ucd
