import Verif.Model.TgApi
/-!
# The table of the codepoint names: tablegen/multistage_generator.cpp, multistage_table_generator.h

The generator compares blocks with `memcmp` and hashes their bytes.  For `std::string` elements the bytes are those of
the string *objects* (pointer, size, local buffer), not of the characters.  `same` and `hash` stand for the outcome of
`memcmp` and of the hash on the blocks that start at given indices: they are parameters.
-/

namespace Verif.Tables
open Verif.Utf8 (Mem)

variable {α : Type} [DecidableEq α]

/-- `find_same_block`: multistage_table_generator.h:139-158 (without the insertion). -/
def findSameBy (S : Shape) (same : Nat → Nat → Bool) (hash : Nat → Nat) (g : Gen α) (start : Nat) : Option Nat :=
  ((g.seen.filter (fun s => hash s = hash start)).find? (fun s => same s start)).map (· / S.B)

/-- `get_or_create_index_to_stage2_block`: multistage_table_generator.h:108-123. -/
def blockIndexBy (S : Shape) (same : Nat → Nat → Bool) (hash : Nat → Nat) (input : List α) (g : Gen α) (start : Nat) :
    Mem (Gen α × Nat) :=
  match findSameBy S same hash g start with
  | some other =>
    match at? g.stage1 other with
    | .oob => .oob
    | .ok i => .ok (g, i)
  | none => .ok (newBlock S input g start)

/-- The loop of `generate()`: multistage_table_generator.h:81-82, as in `generateLoop`. -/
def generateLoopBy (S : Shape) (same : Nat → Nat → Bool) (hash : Nat → Nat) (input : List α) : Nat → Gen α → Mem (Gen α)
  | 0, g => .ok g
  | n + 1, g =>
    match blockIndexBy S same hash input g (g.stage1.length * S.B) with
    | .oob => .oob
    | .ok (g', i) => generateLoopBy S same hash input n { g' with stage1 := g'.stage1 ++ [i] }

/-- `generate()`: multistage_table_generator.h:77-83. -/
def generateBy (S : Shape) (same : Nat → Nat → Bool) (hash : Nat → Nat) (input : List α) : Mem (Gen α) :=
  generateLoopBy S same hash input (input.length / S.B) {}

end Verif.Tables

namespace Verif.Tg
open Verif.Utf8 (Mem)

/-- `names[cp] = name` for every entry: multistage_generator.cpp:389, 490-492; `oob` if a write is outside the array. -/
def nameArray : List (Nat × Str) → List Str → Mem (List Str)
  | [], arr => .ok arr
  | (cp, name) :: es, arr => if cp < arr.length then nameArray es (arr.set cp name) else .oob

/-- Looking up in the generated table, or nothing if there is none. -/
def getIn (c : Nat) : Mem (Tables.Gen Str) → Mem Str
  | .oob => .oob
  | .ok g => Tables.get Tables.propertiesShape g c

/-- Generating the table from the array. -/
def tableOf (same : Nat → Nat → Bool) (hash : Nat → Nat) : Mem (List Str) → Mem (Tables.Gen Str)
  | .oob => .oob
  | .ok names => Tables.generateBy Tables.propertiesShape same hash names

/-- `codepoint_properties::name` on the generated tables: multistage_generator.cpp:643-647, 708-725,
codepoint_properties.h:88-94, 102.  The string literals denote the names (no name contains a quote or a backslash). -/
def apiName (same : Nat → Nat → Bool) (hash : Nat → Nat) (D : Db) (c : Nat) : Mem Str :=
  getIn c (tableOf same hash (nameArray D.names (List.replicate 0x110000 [])))

end Verif.Tg
