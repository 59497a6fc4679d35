import Verif.Model.TgLoad
import Verif.Model.Tables
/-!
# Model of the query functions of the generated `ucd.cpp`: tablegen/ucd_api_generator.cpp

The generated tables and functions, as a function of the parsed data.  An enumerator is its identifier; that the
identifiers are declared in `ucd_enums.h` is a theorem (C55).  Comments and formatting of the generated text are not
modelled.
-/

namespace Verif.Tg
open Verif.Utf8 (Mem)
open Verif.Tables (contains search lookupSorted)

/-- `Prop<…> { { first, last }, Enum::property }`: ucd_api_generator.cpp:143-152, 207-217, 290-299, 360-371, 398-407. -/
def propTable (rs : List PRange) : List (Tables.Entry Str) := rs.map fun r => ⟨r.first, r.last, r.property⟩

/-- `Interval { first, last }`: ucd_api_generator.cpp:170-181, 229-240, 486-497. -/
def intervalTable (rs : List PRange) : List (Tables.Entry Unit) := rs.map fun r => ⟨r.first, r.last, ()⟩

/-- `….value_or(Enum::d)` -/
def orElse (d : Str) : Mem (Option Str) → Mem Str
  | .oob => .oob
  | .ok (some v) => .ok v
  | .ok none => .ok d

/-- `search(tables::T, codepoint).value_or(Enum::d)` -/
def valueOr (tab : List (Tables.Entry Str)) (d : Str) (c : Nat) : Mem Str := orElse d (search tab c)

/-- `sanitizeIdentifier`: enum_utils.h:56-63. -/
def sanitize (s : Str) : Str := s.map fun c => if c = ' ' ∨ c = '-' then '_' else c

/-- `plane`: ucd_api_generator.cpp:136-164. -/
def apiPlane (c : Nat) : Mem Str :=
  valueOr (propTable (planes.map fun p => { p with property := sanitize p.property })) "Unassigned".toList c

/-- `contains(Core_Property, char32_t)`: ucd_api_generator.cpp:184-192; a property without a `case` gives false. -/
def apiCore (D : Db) (p : Str) (c : Nat) : Mem Bool :=
  match amFind D.core p with
  | some rs => contains (intervalTable rs) c
  | none => .ok false

/-- `general_category::get`: ucd_api_generator.cpp:205-226. -/
def apiGc (D : Db) (c : Nat) : Mem Str := valueOr (propTable D.gcats) "Unspecified".toList c

/-- `contains(General_Category, char32_t)`, and the `is_…` functions of namespace `general_category`:
ucd_api_generator.cpp:228-253, 263-276. -/
def apiGcContains (D : Db) (g : Str) (c : Nat) : Mem Bool :=
  match amFind D.gcMap g with
  | some rs => contains (intervalTable rs) c
  | none => .ok false

/-- `script`: ucd_api_generator.cpp:284-307. -/
def apiScript (D : Db) (c : Nat) : Mem Str := valueOr (propTable D.scripts) "Unknown".toList c

/-- The name of the array of a list of scripts: ucd_api_generator.cpp:319-321, 341-343. -/
def sceKey (props : List Str) : Str := "sce".toList ++ props.flatMap fun s => '_' :: s

/-- `unicode::Script::{}`: ucd_api_generator.cpp:329-331. -/
def scriptName (al : List (Str × Str)) (ab : Str) : Str := (amFind al ab).getD ab

/-- The arrays that are written, with their names: ucd_api_generator.cpp:315-334. -/
def sceArrays (al : List (Str × Str)) : List MRange → List (Str × List Str) → List (Str × List Str)
  | [], done => done
  | r :: rs, done =>
    if (done.find? fun e => e.1 = sceKey r.props).isSome then sceArrays al rs done
    else sceArrays al rs (done ++ [(sceKey r.props, r.props.map (scriptName al))])

/-- `std::span<Script const>{ p->first, p->second }`: the scripts of the array with the name `key`:
ucd_api_generator.cpp:357-362. -/
def deref (arrays : List (Str × List Str)) : Mem (Option Str) → Mem (Option (List Str))
  | .oob => .oob
  | .ok none => .ok none
  | .ok (some key) => .ok (some ((arrays.find? fun e => e.1 = key).elim [] (·.2)))

/-- `script_extensions`: ucd_api_generator.cpp:336-363; an array is referred to by its name. -/
def apiScriptExtensions (D : Db) (al : List (Str × Str)) (c : Nat) : Mem (Option (List Str)) :=
  deref (sceArrays al D.sce []) (search (D.sce.map fun r => (⟨r.first, r.last, sceKey r.props⟩ : Tables.Entry Str)) c)

/-- `block`: ucd_api_generator.cpp:365-389. -/
def apiBlock (D : Db) (c : Nat) : Mem Str :=
  valueOr (propTable (D.blocks.map fun b => { b with property := sanitize b.property })) "Unspecified".toList c

/-- `grapheme_cluster_break` (one function per group of the file, named like the group): ucd_api_generator.cpp:391-431. -/
def apiBreak (D : Db) (group : Str) (c : Nat) : Option (Mem Str) :=
  (amFind D.gcb group).map fun rs => valueOr (propTable rs) "Undefined".toList c

/-- `widthName`: ucd_api_generator.cpp:84-99. -/
def widthName (a : Str) : Str :=
  if a = "A".toList then "Ambiguous".toList
  else if a = "F".toList then "FullWidth".toList
  else if a = "H".toList then "HalfWidth".toList
  else if a = "N".toList then "Neutral".toList
  else if a = "Na".toList then "Narrow".toList
  else if a = "W".toList then "Wide".toList
  else "Unspecified".toList

/-- `mergeRanges`: ucd_api_generator.cpp:44-81, `cur` being `current` with `count > 0`. -/
def mergeFrom (cur : PRange) : List PRange → List PRange
  | [] => [cur]
  | r :: rs =>
    if cur.last + 1 = r.first ∧ cur.property = r.property then mergeFrom { cur with last := r.last } rs
    else cur :: mergeFrom r rs

def mergeRanges : List PRange → List PRange
  | [] => []
  | r :: rs => mergeFrom r rs

/-- `east_asian_width`: ucd_api_generator.cpp:433-482. -/
def apiEaw (D : Db) (c : Nat) : Mem Str :=
  valueOr (propTable ((mergeRanges D.eaw).map fun r => { r with property := widthName r.property })) "Unspecified".toList c

/-- `is_emoji`, `is_emoji_presentation`, … (one function per property of the file): ucd_api_generator.cpp:484-518. -/
def apiEmoji (D : Db) (p : Str) (c : Nat) : Option (Mem Bool) :=
  (amFind D.emoji p).map fun rs => contains (intervalTable rs) c

/-- `is_mirrored`: ucd_api_generator.cpp:527-532, 547-549. -/
def apiMirrored (D : Db) (c : Nat) : Mem Bool :=
  contains (D.mirrored.map fun i => (⟨i.1, i.2, ()⟩ : Tables.Entry Unit)) c

/-- `bidi_mirroring_glyph`: ucd_api_generator.cpp:534-542, 551-560. -/
def apiGlyph (D : Db) (c : Nat) : Mem Nat :=
  match lookupSorted D.glyphs Prod.fst c with
  | .oob => .oob
  | .ok (some e) => .ok e.2
  | .ok none => .ok c

/-- `make_age`: ucd_api_generator.cpp:569-612.  The entries are sorted by abbreviation, which is the order of the map. -/
def apiMakeAge (al : List (Str × Str)) (s : Str) : Option Str :=
  amFind (al.filter fun e => decide (e.2 ≠ "Unassigned".toList)) s

end Verif.Tg
