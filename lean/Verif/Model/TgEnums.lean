import Verif.Model.TgApi
import Verif.Model.TgRow
/-!
# Model of the enum generator: tablegen/enum_generator.cpp

The text of `ucd_enums.h`, `ucd_ostream.h` and `ucd_fmt.h` is represented by what it declares: for every enum its name, the
width of its underlying type and its enumerators with their numbers, and what the printing functions print.
-/

namespace Verif.Tg

/-- `minimalUint`: enum_generator.cpp:32-41, as a number of bits. -/
def minimalUint (maxValue : Nat) : Nat :=
  if maxValue < 2 ^ 8 then 8
  else if maxValue < 2 ^ 16 then 16
  else if maxValue < 2 ^ 32 then 32
  else 64

/-- `EnumDef`: enum_generator.cpp:43-48. -/
structure EnumDef where
  name : Str
  members : List Str
deriving DecidableEq, Repr

/-- The enumerators of `writeEnumClass`, in order, number `i` being the number of the `i`-th: enum_generator.cpp:50-56. -/
def EnumDef.identifiers (d : EnumDef) : List Str := d.members.map sanitize

/-- The width of the underlying type: enum_generator.cpp:52. -/
def EnumDef.bits (d : EnumDef) : Nat := minimalUint d.members.length

/-- The number an enumerator is declared with (the first one, if an identifier is declared twice; such a header does not
compile): enum_generator.cpp:53-54. -/
def EnumDef.number (d : EnumDef) (id : Str) : Option Nat :=
  d.identifiers.findIdx? (fun x => decide (x = id))

/-- The text after the `case` of a value, in `writeEnumOstream` and `writeEnumFormatter`: the first member whose identifier
has this value: enum_generator.cpp:64-65, 83-85. -/
def EnumDef.caseOf (d : EnumDef) (v : Nat) : Option Str :=
  d.members.find? (fun m => decide (d.number (sanitize m) = some v))

/-- The emitted `operator<<`: enum_generator.cpp:58-70. -/
def EnumDef.stream (d : EnumDef) (v : Nat) : Str :=
  match d.caseOf v with
  | some m => m
  | none => "(".toList ++ (Nat.toDigits 10 v) ++ ")".toList

/-- The emitted formatter: enum_generator.cpp:72-91 (`name` stays empty without a case). -/
def EnumDef.format (d : EnumDef) (v : Nat) : Str := (d.caseOf v).getD []

/-- `values.size() == 2` and the set of the values contains "Yes" and "No": enum_generator.cpp:130-138. -/
def yesNo (values : List (Str × Str)) : Bool :=
  decide (values.length = 2) && decide ("Yes".toList ∈ values.map (·.2)) && decide ("No".toList ∈ values.map (·.2))

/-- enum_generator.cpp:140-142 -/
def elsewhere (prop : Str) : Bool :=
  decide (prop = "Script".toList) || decide (prop = "General_Category".toList) || decide (prop = "EastAsianWidth".toList) ||
    decide (prop = "Age".toList)

/-- The body of the loop over the sections of the alias file: enum_generator.cpp:125-160. -/
def pvaEnum (prop : Str) (values : List (Str × Str)) : Option EnumDef :=
  if values = [] then none
  else if yesNo values then none
  else if elsewhere prop then none
  else some
    { name := prop
      members := (if prop = "Grapheme_Cluster_Break".toList then ["Undefined".toList] else []) ++ sortStrs (values.map (·.2)) }

/-- enum_generator.cpp:98-108 -/
def planeEnum : EnumDef := ⟨"Plane".toList, (mkSet (planes.map (·.property))).map sanitize⟩

/-- enum_generator.cpp:110-120; the outer `none` is the exception of `std::stoi`. -/
def ageEnum (D : Db) : Option (List EnumDef) :=
  match amFind D.aliases "Age".toList with
  | none => some []
  | some al => if al = [] then some [] else (ageMembers al).map fun ms => [⟨"Age".toList, ms⟩]

/-- enum_generator.cpp:163-171 -/
def coreEnum (D : Db) : EnumDef := ⟨"Core_Property".toList, D.core.map (·.1)⟩

/-- enum_generator.cpp:173-184 -/
def gcEnum (D : Db) : EnumDef := ⟨"General_Category".toList, gcNames (D.gcats.map (·.property))⟩

/-- enum_generator.cpp:186-202 -/
def scriptEnum (D : Db) : EnumDef := ⟨"Script".toList, scriptNames (D.scripts.map (·.property))⟩

/-- enum_generator.cpp:204-215 -/
def blockEnum (D : Db) : EnumDef :=
  ⟨"Block".toList, "Unspecified".toList :: (mkSet (D.blocks.map (·.property))).map sanitize⟩

/-- enum_generator.cpp:217-224 -/
def widthEnum : EnumDef :=
  ⟨"EastAsianWidth".toList,
   ["Ambiguous".toList, "FullWidth".toList, "HalfWidth".toList, "Neutral".toList, "Narrow".toList, "Wide".toList,
    "Unspecified".toList]⟩

/-- `collectEnums`: enum_generator.cpp:93-227; `none` if `std::stoi` throws. -/
def collectEnums (D : Db) : Option (List EnumDef) :=
  (ageEnum D).map fun age =>
    planeEnum :: (age ++ (D.aliases.filterMap (fun e => pvaEnum e.1 e.2) ++
      [coreEnum D, gcEnum D, scriptEnum D, blockEnum D, widthEnum]))

end Verif.Tg
