import Verif.Lemmas.TgUcd2
import Verif.Props.TgCode
import Mathlib.Tactic.Abel
import Mathlib.Algebra.Order.Group.Multiset
/-!
# C67: `ucd.h` and `ucd.cpp` as whole files

The two generated files, from the first character to the last, are read with the relation of Spec/CxxFile: a comment, include lines,
namespaces, and the declarations and definitions in them.  What the single tables and functions mean is the subject of C61 and C64; here it
is shown that the files consist of exactly these, in namespaces that fit together, that every function of the header has one definition, and
that it comes behind the tables it uses.
-/

namespace Verif.Props.Tg
open Verif.Tg
open Verif.Spec.Cxx (Val Item Says Reads Ident Tok Sig Part Piece Means Consists uses p)

/-! ## The data -/

/-- Names are identifiers and comments fit into one line; the groups of break properties are not called like a keyword or namespace they
would be confused with. -/
structure UcdOk (D : UcdData) : Prop where
  planes : ∀ r ∈ D.planes, Ident (sanitize r.1.property) ∧ OneLine r.2.2
  core : ∀ g ∈ D.core, Ident g.1 ∧ ∀ r ∈ g.2, OneLine r.2
  gcats : ∀ r ∈ D.gcats, Ident r.1.property ∧ OneLine r.2
  gcMap : ∀ g ∈ D.gcMap, Ident g.1 ∧ ∀ r ∈ g.2, OneLine r.2
  scripts : ∀ r ∈ D.scripts, Ident r.1.property ∧ OneLine r.2
  sce : ∀ r ∈ D.sce, Ident (sceKey r.1.props) ∧ (∀ s ∈ r.1.props, Ident (scriptName D.scriptAliases s)) ∧ OneLine r.2
  blocks : ∀ r ∈ D.blocks, Ident (sanitize r.property)
  breaks : ∀ g ∈ D.breaks, Ident g.1 ∧ g.1 ≠ "inline".toList ∧ g.1 ≠ "tables".toList ∧ ∀ r ∈ g.2, Ident r.1.property ∧ OneLine r.2
  eaw : ∀ r ∈ D.eaw, OneLine r.2
  emoji : ∀ g ∈ D.emoji, Ident g.1 ∧ ∀ r ∈ g.2, OneLine r.2
  ages : ∀ al, D.ages = some al → ∀ e ∈ al, (∀ c ∈ e.1, c ≠ '"' ∧ c ≠ '\\' ∧ c ≠ '\n') ∧ Ident e.2

/-! ## The contents -/

/-- inside `namespace unicode` -/
def inUnicode : List Str := ["unicode".toList]
/-- inside `namespace tables` in it -/
def inTables : List Str := ["unicode".toList, "tables".toList]
/-- inside `namespace general_category` in it -/
def inCategory : List Str := ["unicode".toList, "general_category".toList]

/-- `result name(char32_t) noexcept` -/
def ofCodepoint (scope : List Str) (result : List Tok) (name : Str) : Sig := ⟨scope, name, [[.word "char32_t".toList]], result, true⟩
/-- the same for a result type that is one name -/
def named (scope : List Str) (result name : Str) : Sig := ofCodepoint scope [.word result] name

/-- `bool contains(enum, char32_t) noexcept` -/
def containsOf (enum : Str) : Sig := ⟨inUnicode, "contains".toList, [[.word enum], [.word "char32_t".toList]], [.word "bool".toList], true⟩

/-- `std::optional<std::span<Script const>>` -/
def scriptsType : List Tok :=
  [.word "std".toList, p ':', p ':', .word "optional".toList, p '<', .word "std".toList, p ':', p ':', .word "span".toList, p '<',
   .word "Script".toList, .word "const".toList, p '>', p '>']

/-- `std::optional<Age> make_age(std::string_view) noexcept` -/
def makeAge : Sig := ⟨inUnicode, "make_age".toList, [[.word "std".toList, p ':', p ':', .word "string_view".toList]],
  [.word "std".toList, p ':', p ':', .word "optional".toList, p '<', .word "Age".toList, p '>'], true⟩

/-- `std::string to_string(EastAsianWidth)` -/
def widthToString : Sig := ⟨inUnicode, "to_string".toList, [[.word "EastAsianWidth".toList]], [.word "std".toList, p ':', p ':', .word "string".toList], false⟩

def isName (name : Str) : Str := "is_".toList ++ tolower name

def intervalsOf (g : Str × List (PRange × Str)) : Part :=
  .item inTables (.table "Interval".toList g.1 (g.2.map fun r => .list [.num r.1.first, .num r.1.last]))

def enumTable (type enum : Str) (rows : List (PRange × Str)) : Part :=
  .item inTables (.table type enum (rows.map fun r => .list [.list [.num r.1.first, .num r.1.last], .name ["unicode".toList, enum, r.1.property]]))

/-- The declarations and definitions of `ucd.cpp`, in order. -/
def sourceParts (D : UcdData) : List Part :=
  [enumTable "Prop<::unicode::Plane>".toList "Plane".toList (D.planes.map fun r => ({ r.1 with property := sanitize r.1.property }, [])),
   .defined (named inUnicode "Plane".toList "plane".toList) codePlane] ++
  D.core.map intervalsOf ++
  [.defined (containsOf "Core_Property".toList) (codeCore (D.core.map (·.1))),
   enumTable "Prop<::unicode::General_Category>".toList "General_Category".toList D.gcats,
   .defined (named inCategory "General_Category".toList "get".toList) codeGc] ++
  D.gcMap.map intervalsOf ++
  [.defined (containsOf "General_Category".toList) (codeGcContains (D.gcMap.map (·.1))),
   enumTable "Prop<unicode::Script>".toList "Script".toList D.scripts,
   .defined (named inUnicode "Script".toList "script".toList) codeScript] ++
  (sceArrays D.scriptAliases (D.sce.map (·.1)) []).map
    (fun a => .item inTables (.table "unicode::Script".toList a.1 (a.2.map fun s => .name ["unicode".toList, "Script".toList, s]))) ++
  [.item inTables (.table "Prop<std::pair<unicode::Script const*, std::size_t>>".toList "sce".toList (D.sce.map fun r =>
     .list [.list [.num r.1.first, .num r.1.last], .list [.name [sceKey r.1.props, "data".toList], .name [sceKey r.1.props, "size".toList]]])),
   .defined (ofCodepoint inUnicode scriptsType "script_extensions".toList) codeSce,
   enumTable "Prop<::unicode::Block>".toList "Block".toList (D.blocks.map fun r => ({ r with property := sanitize r.property }, [])),
   .defined (named inUnicode "Block".toList "block".toList) codeBlock] ++
  D.breaks.map (fun g => enumTable ("Prop<::unicode::".toList ++ (g.1 ++ ">".toList)) g.1 g.2) ++
  D.breaks.map (fun g => .defined (named inUnicode g.1 (tolower g.1)) (codeBreak g.1)) ++
  [enumTable "Prop<::unicode::EastAsianWidth>".toList "EastAsianWidth".toList
     ((mergeText D.eaw).map fun m => ({ m.range with property := widthName m.range.property }, [])),
   .defined (named inUnicode "EastAsianWidth".toList "east_asian_width".toList) codeEaw] ++
  D.emoji.map intervalsOf ++
  D.emoji.map (fun g => .defined (named inUnicode "bool".toList (isName g.1)) (codeEmoji g.1)) ++
  [.item inTables (.table "Interval".toList "Bidi_Mirrored".toList (D.mirrored.map fun r => .list [.num r.1, .num r.2])),
   .item inTables (.table "std::pair<char32_t, char32_t>".toList "Bidi_Mirroring_Glyph".toList (D.glyphs.map fun r => .list [.num r.1, .num r.2])),
   .defined (named inUnicode "bool".toList "is_mirrored".toList) codeMirrored,
   .defined (named inUnicode "char32_t".toList "bidi_mirroring_glyph".toList) codeGlyph] ++
  D.ages.toList.map (fun al => .defined makeAge (codeAge al))

/-- The declarations and definitions of `ucd.h`, in order. -/
def headerParts (D : UcdData) : List Part :=
  [.declared (named inUnicode "Plane".toList "plane".toList),
   .declared (containsOf "Core_Property".toList),
   .declared (containsOf "General_Category".toList),
   .declared (named inCategory "General_Category".toList "get".toList)] ++
  D.gcMap.map (fun g => .defined (named inCategory "bool".toList (isName g.1)) (codeGcIs g.1)) ++
  [.declared (named inUnicode "Script".toList "script".toList),
   .declared (ofCodepoint inUnicode scriptsType "script_extensions".toList),
   .declared (named inUnicode "Block".toList "block".toList)] ++
  D.breaks.map (fun g => .declared (named inUnicode g.1 (tolower g.1))) ++
  [.defined widthToString codeWidthString,
   .declared (named inUnicode "EastAsianWidth".toList "east_asian_width".toList)] ++
  D.emoji.map (fun g => .declared (named inUnicode "bool".toList (isName g.1))) ++
  [.declared (named inUnicode "bool".toList "is_mirrored".toList),
   .declared (named inUnicode "char32_t".toList "bidi_mirroring_glyph".toList)] ++
  D.ages.toList.map (fun _ => .declared makeAge)

/-! ## The proofs -/

def no (x : Part) : Part × List Str := (x, [])

def sourceL (D : UcdData) : List (Part × List Str) :=
  [no (enumTable "Prop<::unicode::Plane>".toList "Plane".toList (D.planes.map fun r => ({ r.1 with property := sanitize r.1.property }, []))),
   (.defined (named inUnicode "Plane".toList "plane".toList) codePlane, ["Plane".toList])] ++
  D.core.map (fun g => no (intervalsOf g)) ++
  [(.defined (containsOf "Core_Property".toList) (codeCore (D.core.map (·.1))), D.core.map (·.1)),
   no (enumTable "Prop<::unicode::General_Category>".toList "General_Category".toList D.gcats),
   (.defined (named inCategory "General_Category".toList "get".toList) codeGc, ["General_Category".toList])] ++
  D.gcMap.map (fun g => no (intervalsOf g)) ++
  [(.defined (containsOf "General_Category".toList) (codeGcContains (D.gcMap.map (·.1))), D.gcMap.map (·.1)),
   no (enumTable "Prop<unicode::Script>".toList "Script".toList D.scripts),
   (.defined (named inUnicode "Script".toList "script".toList) codeScript, ["Script".toList])] ++
  (sceArrays D.scriptAliases (D.sce.map (·.1)) []).map
    (fun a => no (.item inTables (.table "unicode::Script".toList a.1 (a.2.map fun s => .name ["unicode".toList, "Script".toList, s])))) ++
  [no (.item inTables (.table "Prop<std::pair<unicode::Script const*, std::size_t>>".toList "sce".toList (D.sce.map fun r =>
     .list [.list [.num r.1.first, .num r.1.last], .list [.name [sceKey r.1.props, "data".toList], .name [sceKey r.1.props, "size".toList]]]))),
   (.defined (ofCodepoint inUnicode scriptsType "script_extensions".toList) codeSce, ["sce".toList]),
   no (enumTable "Prop<::unicode::Block>".toList "Block".toList (D.blocks.map fun r => ({ r with property := sanitize r.property }, []))),
   (.defined (named inUnicode "Block".toList "block".toList) codeBlock, ["Block".toList])] ++
  D.breaks.map (fun g => no (enumTable ("Prop<::unicode::".toList ++ (g.1 ++ ">".toList)) g.1 g.2)) ++
  D.breaks.map (fun g => (.defined (named inUnicode g.1 (tolower g.1)) (codeBreak g.1), [g.1])) ++
  [no (enumTable "Prop<::unicode::EastAsianWidth>".toList "EastAsianWidth".toList
     ((mergeText D.eaw).map fun m => ({ m.range with property := widthName m.range.property }, []))),
   (.defined (named inUnicode "EastAsianWidth".toList "east_asian_width".toList) codeEaw, ["EastAsianWidth".toList])] ++
  D.emoji.map (fun g => no (intervalsOf g)) ++
  D.emoji.map (fun g => (.defined (named inUnicode "bool".toList (isName g.1)) (codeEmoji g.1), [g.1])) ++
  [no (.item inTables (.table "Interval".toList "Bidi_Mirrored".toList (D.mirrored.map fun r => .list [.num r.1, .num r.2]))),
   no (.item inTables (.table "std::pair<char32_t, char32_t>".toList "Bidi_Mirroring_Glyph".toList (D.glyphs.map fun r => .list [.num r.1, .num r.2]))),
   (.defined (named inUnicode "bool".toList "is_mirrored".toList) codeMirrored, ["Bidi_Mirrored".toList]),
   (.defined (named inUnicode "char32_t".toList "bidi_mirroring_glyph".toList) codeGlyph,
     ["Bidi_Mirroring_Glyph".toList, "Bidi_Mirroring_Glyph".toList, "Bidi_Mirroring_Glyph".toList])] ++
  D.ages.toList.map (fun al => (.defined makeAge (codeAge al), []))

theorem sourceL_parts (D : UcdData) : (sourceL D).map (·.1) = sourceParts D := by
  unfold sourceL sourceParts
  simp only [List.map_append, List.map_map, List.map_cons, List.map_nil]
  rfl

/-- innermost first -/
def nsU : List (List Str) := [["unicode".toList]]
def nsT : List (List Str) := [["tables".toList], ["unicode".toList]]
def nsG : List (List Str) := [["general_category".toList], ["unicode".toList]]

theorem open_unicode : Run [] openUnicode nsU [] := .enter [] (path := ["unicode".toList]) (by decide) (line_lit 40 (by decide +kernel))
theorem open_tables : Run nsU openTables nsT [] := .enter nsU (path := ["tables".toList]) (by decide) (line_lit 40 (by decide +kernel))
theorem close_tables : Run nsT closeTables nsU [] := .leave nsU _ (line_lit 40 (by decide +kernel))
theorem close_unicode : Run nsU closeUnicode [] [] := .leave [] _ (line_lit 40 (by decide +kernel))

theorem sceArrays_from {al : List (Str × Str)} {rs : List MRange} {done : List (Str × List Str)} (a : Str × List Str) (h : a ∈ sceArrays al rs done) :
    a ∈ done ∨ ∃ r ∈ rs, a = (sceKey r.props, r.props.map (scriptName al)) := by
  induction rs generalizing done with
  | nil => exact .inl h
  | cons r rs ih =>
    rw [sceArrays] at h
    split at h
    · rcases ih h with h | ⟨x, hx, e⟩
      · exact .inl h
      · exact .inr ⟨x, by simp [hx], e⟩
    · rcases ih h with h | ⟨x, hx, e⟩
      · rcases List.mem_append.1 h with h | h
        · exact .inl h
        · exact .inr ⟨r, by simp, by simpa using h⟩
      · exact .inr ⟨x, by simp [hx], e⟩

theorem source_runs (D : UcdData) (h : UcdOk D) : Runs [] (sourceTexts D) [] (sourceL D) := by
  have planes : Run nsT (writePlanes D.planes) nsT [no (enumTable "Prop<::unicode::Plane>".toList "Plane".toList
      (D.planes.map fun r => ({ r.1 with property := sanitize r.1.property }, [])))] := by
    have := Run.table nsT (planes_ok D.planes (fun r hr => (h.planes r hr).1) (fun r hr => (h.planes r hr).2))
    unfold enumTable
    rw [List.map_map]
    exact this
  have core : Runs nsT (D.core.map fun g => writeIntervals g.1 g.2) nsT (D.core.map fun g => no (intervalsOf g)) :=
    Runs.map nsT _ _ D.core fun g hg => Run.table nsT (intervals_ok g.1 g.2 (h.core g hg).1 (h.core g hg).2)
  have cats : Runs nsT (D.gcMap.map fun g => writeIntervals g.1 g.2) nsT (D.gcMap.map fun g => no (intervalsOf g)) :=
    Runs.map nsT _ _ D.gcMap fun g hg => Run.table nsT (intervals_ok g.1 g.2 (h.gcMap g hg).1 (h.gcMap g hg).2)
  have emoji : Runs nsT (D.emoji.map fun g => writeIntervals g.1 g.2) nsT (D.emoji.map fun g => no (intervalsOf g)) :=
    Runs.map nsT _ _ D.emoji fun g hg => Run.table nsT (intervals_ok g.1 g.2 (h.emoji g hg).1 (h.emoji g hg).2)
  have gcats := Run.table nsT (gcTable_ok D.gcats (fun r hr => (h.gcats r hr).1) (fun r hr => (h.gcats r hr).2))
  have scripts := Run.table nsT (scripts_ok D.scripts (fun r hr => (h.scripts r hr).1) (fun r hr => (h.scripts r hr).2))
  have arrays : Runs nsT ((sceArrays D.scriptAliases (D.sce.map (·.1)) []).map fun a => writeSceArray a.1 a.2) nsT
      ((sceArrays D.scriptAliases (D.sce.map (·.1)) []).map
        (fun a => no (.item inTables (.table "unicode::Script".toList a.1 (a.2.map fun s => .name ["unicode".toList, "Script".toList, s]))))) := by
    refine Runs.map nsT _ _ _ fun a ha => Run.table nsT (sceArray_ok a.1 a.2 ?_ ?_)
    all_goals
      rcases sceArrays_from a ha with h' | ⟨r, hr, rfl⟩
      · simp at h'
      · obtain ⟨r', hr', rfl⟩ := List.mem_map.1 hr
        have := h.sce r' hr'
        first
          | exact this.1
          | exact fun s hs => by
              obtain ⟨s', hs', rfl⟩ := List.mem_map.1 hs
              exact this.2.1 s' hs'
  have sce := Run.table nsT (sce_ok D.sce (fun r hr => (h.sce r hr).1) (fun r hr => (h.sce r hr).2.2))
  have blocks : Run nsT (writeBlocks D.blocks) nsT [no (enumTable "Prop<::unicode::Block>".toList "Block".toList
      (D.blocks.map fun r => ({ r with property := sanitize r.property }, [])))] := by
    have := Run.table nsT (blocks_ok D.blocks h.blocks)
    unfold enumTable
    rw [List.map_map]
    exact this
  have breaks : Runs nsT (D.breaks.map fun g => writeBreaks g.1 g.2) nsT
      (D.breaks.map (fun g => no (enumTable ("Prop<::unicode::".toList ++ (g.1 ++ ">".toList)) g.1 g.2))) :=
    Runs.map nsT _ _ D.breaks fun g hg => Run.table nsT (breaks_ok g.1 g.2 (h.breaks g hg).1 (fun r hr => ((h.breaks g hg).2.2.2 r hr).1)
      (fun r hr => ((h.breaks g hg).2.2.2 r hr).2))
  have breakFns : Runs nsU (D.breaks.map fun g => codeBreak g.1) nsU
      (D.breaks.map (fun g => (.defined (named inUnicode g.1 (tolower g.1)) (codeBreak g.1), [g.1]))) :=
    Runs.map nsU _ _ D.breaks fun g hg => Run.fn nsU (break_text (ident_word' (h.breaks g hg).1) (h.breaks g hg).2.1 (h.breaks g hg).2.2.1)
  have eaw : Run nsT (writeEaw D.eaw) nsT [no (enumTable "Prop<::unicode::EastAsianWidth>".toList "EastAsianWidth".toList
      ((mergeText D.eaw).map fun m => ({ m.range with property := widthName m.range.property }, [])))] := by
    have := Run.table nsT (eaw_ok D.eaw h.eaw)
    unfold enumTable
    rw [List.map_map]
    exact this
  have emojiFns : Runs nsU (D.emoji.map fun g => codeEmoji g.1) nsU
      (D.emoji.map (fun g => (.defined (named inUnicode "bool".toList (isName g.1)) (codeEmoji g.1), [g.1]))) :=
    Runs.map nsU _ _ D.emoji fun g hg => Run.fn nsU (emoji_text (ident_word' (h.emoji g hg).1))
  have ages : Runs nsU (D.ages.toList.map codeAge) nsU (D.ages.toList.map (fun al => (.defined makeAge (codeAge al), []))) := by
    refine Runs.map nsU _ _ _ fun al ha => Run.fn nsU (age_text al ?_ ?_)
    · exact fun e he => (h.ages al (by simpa using ha) e he).1
    · exact fun e he => ident_word' (h.ages al (by simpa using ha) e he).2
  have r1 := Runs.cons open_unicode (Runs.nil _)
  have r2 := Runs.cons (a := "namespace tables\n{\n".toList) (Run.enter nsU (path := ["tables".toList]) (by decide) (line_lit 40 (by decide +kernel)))
    (Runs.cons (a := "    // clang-format off\n".toList) (Run.blank nsT (line_lit 40 (by decide +kernel)))
    (Runs.cons planes (Runs.cons (a := "    // clang-format off\n".toList) (Run.blank nsT (line_lit 40 (by decide +kernel)))
    (Runs.cons (a := "} // namespace tables\n\n".toList) (Run.leave nsU _ (line_lit 40 (by decide +kernel)))
    (Runs.cons (Run.fn nsU plane_text) (Runs.nil _))))))
  have r3 := Runs.cons open_tables (Runs.nil _)
  have r4 := Runs.cons close_tables (Runs.cons (Run.fn nsU (core_text (names := D.core.map (·.1)) (by
    intro m hm
    obtain ⟨g, hg, rfl⟩ := List.mem_map.1 hm
    exact ident_word' (h.core g hg).1))) (Runs.nil _))
  have r5 := Runs.cons open_tables (Runs.cons gcats (Runs.cons close_tables
    (Runs.cons (a := "namespace general_category\n{\n".toList) (Run.enter nsU (path := ["general_category".toList]) (by decide) (line_lit 60 (by decide +kernel)))
    (Runs.cons (Run.fn nsG gc_text) (Runs.cons (a := "}\n\n".toList) (Run.leave nsU _ (line_lit 40 (by decide +kernel)))
    (Runs.cons open_tables (Runs.nil _)))))))
  have r6 := Runs.cons close_tables (Runs.cons (Run.fn nsU (gcContains_text (names := D.gcMap.map (·.1)) (by
    intro m hm
    obtain ⟨g, hg, rfl⟩ := List.mem_map.1 hm
    exact ident_word' (h.gcMap g hg).1))) (Runs.nil _))
  have r7 := Runs.cons open_tables (Runs.cons scripts (Runs.cons close_tables (Runs.cons (Run.fn nsU script_text) (Runs.nil _))))
  have r8 := Runs.cons (a := "namespace tables { // {{{ ScriptExtensions\n".toList) (Run.enter nsU (path := ["tables".toList]) (by decide) (line_lit 60 (by decide +kernel))) (Runs.nil _)
  have r9 := Runs.cons sce (Runs.cons (a := "} // }}}\n\n".toList) (Run.leave nsU _ (line_lit 40 (by decide +kernel))) (Runs.cons (Run.fn nsU sce_text) (Runs.nil _)))
  have r10 := Runs.cons open_tables (Runs.cons blocks (Runs.cons (a := "} // end namespace tables {}\n\n".toList)
    (Run.leave nsU _ (line_lit 40 (by decide +kernel))) (Runs.cons (Run.fn nsU block_text) (Runs.nil _))))
  have r11 := Runs.cons close_tables (Runs.nil _)
  have r12 := Runs.cons (a := "\n".toList) (Run.blank nsU clean_newline.line) (Runs.nil _)
  have r13 := Runs.cons open_tables (Runs.cons eaw (Runs.cons close_tables (Runs.cons (Run.fn nsU eaw_text) (Runs.nil _))))
  have r14 := Runs.cons open_tables (Runs.cons (Run.table nsT (mirrored_ok D.mirrored)) (Runs.cons (Run.table nsT (glyphs_ok D.glyphs))
    (Runs.cons close_tables (Runs.cons (Run.fn nsU mirrored_text) (Runs.cons (Run.fn nsU glyph_text) (Runs.nil _))))))
  have r15 := Runs.cons close_unicode (Runs.nil _)
  have all := (((((((((((((((((((((((r1.append r2).append r3).append core).append r4).append r5).append cats).append r6).append r7).append r8).append arrays).append
    r9).append r10).append r3).append breaks).append r11).append breakFns).append r12).append r13).append r3).append emoji).append r11).append emojiFns).append r14)
    |>.append ages |>.append r15
  have e : ∀ a b c d, a = b → c = d → Runs [] a [] c → Runs [] b [] d := by rintro a b c d rfl rfl h; exact h
  refine e _ _ _ _ ?_ ?_ all
  · rfl
  · unfold sourceL
    simp only [List.append_nil, List.nil_append, List.append_assoc, List.cons_append]
    rfl

theorem header_runs (D : UcdData) (h : UcdOk D) : Runs [] (headerTexts D) [] ((headerParts D).map no) := by
  have cats : Runs nsG (D.gcMap.map fun g => codeGcIs g.1) nsG
      (D.gcMap.map (fun g => no (.defined (named inCategory "bool".toList (isName g.1)) (codeGcIs g.1)))) :=
    Runs.map nsG _ _ D.gcMap fun g hg => Run.fn nsG (gcIs_text (ident_word' (h.gcMap g hg).1))
  have breaks : Runs nsU (D.breaks.map fun g => protoCp [] g.1 (tolower g.1) "codepoint".toList []) nsU
      (D.breaks.map (fun g => no (.declared (named inUnicode g.1 (tolower g.1))))) :=
    Runs.map nsU _ _ D.breaks fun g hg => Run.proto nsU (break_proto (ident_word' (h.breaks g hg).1) (h.breaks g hg).2.1)
  have emoji : Runs nsU (D.emoji.map fun g => protoCp [] "bool".toList ("is_".toList ++ tolower g.1) "codepoint".toList []) nsU
      (D.emoji.map (fun g => no (.declared (named inUnicode "bool".toList (isName g.1))))) :=
    Runs.map nsU _ _ D.emoji fun g hg => Run.proto nsU (emoji_proto (ident_word' (h.emoji g hg).1))
  have ages : Runs nsU (D.ages.toList.flatMap (fun _ =>
      ["/// Parses a Unicode version string (e.g., \"1.1\", \"17.0\") to an Age enum value.\n".toList,
       "/// @param value The version string from DerivedAge.txt.\n".toList,
       "/// @return The corresponding Age enum value, or std::nullopt if not recognized.\n".toList,
       "[[nodiscard]] std::optional<Age> make_age(std::string_view value) noexcept;\n\n".toList])) nsU
      (D.ages.toList.map (fun _ => no (.declared makeAge))) := by
    cases D.ages with
    | none => exact Runs.nil nsU
    | some al =>
      exact Runs.cons (Run.blank nsU (line_lit 100 (by decide +kernel))) (Runs.cons (Run.blank nsU (line_lit 100 (by decide +kernel)))
        (Runs.cons (Run.blank nsU (line_lit 100 (by decide +kernel))) (Runs.cons (Run.proto nsU age_proto) (Runs.nil _))))
  have r1 := Runs.cons open_unicode (Runs.cons (Run.proto nsU plane_proto) (Runs.cons (Run.proto nsU core_proto) (Runs.cons (Run.proto nsU gcContains_proto)
    (Runs.cons (a := "// Disabling clang-format to avoid single-line folding implementations.\n".toList) (Run.blank nsU (line_lit 100 (by decide +kernel)))
    (Runs.cons (a := "// clang-format off\n".toList) (Run.blank nsU (line_lit 40 (by decide +kernel)))
    (Runs.cons (a := "namespace general_category\n{\n".toList) (Run.enter nsU (path := ["general_category".toList]) (by decide) (line_lit 60 (by decide +kernel)))
    (Runs.cons (Run.proto nsG gc_proto) (Runs.nil _))))))))
  have r2 := Runs.cons (a := "} // namespace general_category\n".toList) (Run.leave nsU ["general_category".toList] (line_lit 60 (by decide +kernel)))
    (Runs.cons (a := "// clang-format on\n".toList) (Run.blank nsU (line_lit 40 (by decide +kernel)))
    (Runs.cons (a := "\n".toList) (Run.blank nsU clean_newline.line)
    (Runs.cons (Run.proto nsU script_proto) (Runs.cons (Run.proto nsU sce_proto) (Runs.cons (Run.proto nsU block_proto) (Runs.nil _))))))
  have r3 := Runs.cons (a := "\n".toList) (Run.blank nsU clean_newline.line) (Runs.cons (Run.fn nsU widthString_text)
    (Runs.cons (Run.proto nsU eaw_proto) (Runs.nil _)))
  have r4 := Runs.cons (a := "\n".toList) (Run.blank nsU clean_newline.line)
    (Runs.cons (a := "/// Returns true if the codepoint has the Bidi_Mirrored property.\n".toList) (Run.blank nsU (line_lit 100 (by decide +kernel)))
    (Runs.cons (Run.proto nsU mirrored_proto)
    (Runs.cons (a := "/// Returns the Bidi_Mirroring_Glyph for a codepoint.\n".toList) (Run.blank nsU (line_lit 100 (by decide +kernel)))
    (Runs.cons (a := "/// If no mirroring glyph exists, returns the input codepoint unchanged.\n".toList) (Run.blank nsU (line_lit 100 (by decide +kernel)))
    (Runs.cons (Run.proto nsU glyph_proto) (Runs.nil _))))))
  have r5 := Runs.cons close_unicode (Runs.nil _)
  have all := (((((((r1.append cats).append r2).append breaks).append r3).append emoji).append r4).append ages).append r5
  have e : ∀ a b c d, a = b → c = d → Runs [] a [] c → Runs [] b [] d := by rintro a b c d rfl rfl h; exact h
  refine e _ _ _ _ ?_ ?_ all
  · rfl
  · unfold headerParts
    simp only [List.append_nil, List.nil_append, List.append_assoc, List.cons_append, List.map_append, List.map_cons, List.map_map]
    rfl

theorem source_consists (D : UcdData) (h : UcdOk D) : ∃ ps, Consists (ucdSource D) ps ∧ List.Forall₂ LMeans ps (sourceL D) :=
  consists_of (blank := "\n\n\n\n\n\n\n\n\n".toList) (by decide +kernel) (clean_lit 20 (by decide)) source_directives (source_runs D h)

theorem header_consists (D : UcdData) (h : UcdOk D) : ∃ ps, Consists (ucdHeader D) ps ∧ List.Forall₂ LMeans ps ((headerParts D).map no) :=
  consists_of (blank := "\n\n\n\n\n\n\n\n\n\n".toList) (by decide +kernel) (clean_lit 20 (by decide)) header_directives (header_runs D h)

/-! ## The theorems -/

/-- A text consists of at most one list of declarations and definitions: what the theorems below say of one reading holds of every reading. -/
theorem C67_unambiguous (text : Str) (ps ps' : List Piece) (h : Consists text ps) (h' : Consists text ps') : ps = ps' := by
  obtain ⟨ts, ⟨c, e1, l1⟩, p1⟩ := h
  obtain ⟨us, ⟨d, e2, l2⟩, p2⟩ := h'
  rw [e1] at e2
  obtain rfl := Option.some.inj e2
  obtain rfl := Spec.Cxx.lexes_unique l1 l2
  rw [p1] at p2
  exact Option.some.inj p2

/-- `ucd.cpp` consists of exactly the tables (C61) and functions (C64), each in its namespace, for every database. -/
theorem C67_source (D : UcdData) (h : UcdOk D) : ∃ ps, Consists (ucdSource D) ps ∧ List.Forall₂ Means ps (sourceParts D) := by
  obtain ⟨ps, h1, h2⟩ := source_consists D h
  exact ⟨ps, h1, by rw [← sourceL_parts]; exact means_all h2⟩

/-- `ucd.h` consists of exactly these declarations and functions. -/
theorem C67_header (D : UcdData) (h : UcdOk D) : ∃ ps, Consists (ucdHeader D) ps ∧ List.Forall₂ Means ps (headerParts D) := by
  obtain ⟨ps, h1, h2⟩ := header_consists D h
  refine ⟨ps, h1, ?_⟩
  have := means_all h2
  rw [List.map_map] at this
  simpa [no, Function.comp_def] using this

theorem header_tables (D : UcdData) : ∀ x ∈ (headerParts D).map no, partTable x.1 = none := by
  unfold headerParts
  intro x hx
  simp only [List.map_append, List.map_cons, List.map_nil, List.map_map, List.mem_append, List.mem_cons, List.not_mem_nil, or_false, List.mem_map] at hx
  rcases hx with (((((((hx | hx) | hx) | hx) | hx) | hx) | hx) | hx)
  all_goals
    first
      | (rcases hx with rfl | rfl | rfl | rfl <;> rfl)
      | (rcases hx with rfl | rfl | rfl)
      | (rcases hx with rfl | rfl)
      | (obtain ⟨_, _, rfl⟩ := hx; rfl)

theorem source_defs (D : UcdData) : (sourceL D).filterMap (fun x => defOf x.1) =
    [named inUnicode "Plane".toList "plane".toList, containsOf "Core_Property".toList, named inCategory "General_Category".toList "get".toList,
     containsOf "General_Category".toList, named inUnicode "Script".toList "script".toList,
     ofCodepoint inUnicode scriptsType "script_extensions".toList, named inUnicode "Block".toList "block".toList] ++
    D.breaks.map (fun g => named inUnicode g.1 (tolower g.1)) ++
    [named inUnicode "EastAsianWidth".toList "east_asian_width".toList] ++
    D.emoji.map (fun g => named inUnicode "bool".toList (isName g.1)) ++
    [named inUnicode "bool".toList "is_mirrored".toList, named inUnicode "char32_t".toList "bidi_mirroring_glyph".toList] ++
    D.ages.toList.map (fun _ => makeAge) := by
  have tables : ∀ {α : Type} (l : List α) (f : α → Part × List Str), (∀ a, defOf (f a).1 = none) → (l.map f).filterMap (fun x => defOf x.1) = [] := by
    intro α l f hf
    rw [List.filterMap_map]
    exact List.filterMap_eq_nil_iff.2 fun a _ => hf a
  have fns : ∀ {α : Type} (l : List α) (f : α → Part × List Str) (g : α → Sig), (∀ a, defOf (f a).1 = some (g a)) →
      (l.map f).filterMap (fun x => defOf x.1) = l.map g := by
    intro α l f g hf
    rw [List.filterMap_map]
    induction l with
    | nil => rfl
    | cons a l ih => rw [List.filterMap_cons, Function.comp, hf, List.map_cons]; exact congrArg _ ih
  unfold sourceL
  simp only [List.filterMap_append]
  rw [tables D.core _ fun _ => rfl, tables D.gcMap _ fun _ => rfl, tables (sceArrays _ _ _) _ fun _ => rfl, tables D.breaks _ fun _ => rfl,
    tables D.emoji _ fun _ => rfl, fns D.breaks _ _ fun _ => rfl, fns D.emoji _ _ fun _ => rfl, fns D.ages.toList _ _ fun _ => rfl]
  simp only [List.append_nil]
  rfl

theorem header_decls (D : UcdData) : ((headerParts D).map no).filterMap (fun x => declOf x.1) =
    [named inUnicode "Plane".toList "plane".toList, containsOf "Core_Property".toList, containsOf "General_Category".toList,
     named inCategory "General_Category".toList "get".toList, named inUnicode "Script".toList "script".toList,
     ofCodepoint inUnicode scriptsType "script_extensions".toList, named inUnicode "Block".toList "block".toList] ++
    D.breaks.map (fun g => named inUnicode g.1 (tolower g.1)) ++
    [named inUnicode "EastAsianWidth".toList "east_asian_width".toList] ++
    D.emoji.map (fun g => named inUnicode "bool".toList (isName g.1)) ++
    [named inUnicode "bool".toList "is_mirrored".toList, named inUnicode "char32_t".toList "bidi_mirroring_glyph".toList] ++
    D.ages.toList.map (fun _ => makeAge) := by
  have others : ∀ {α : Type} (l : List α) (f : α → Part), (∀ a, declOf (f a) = none) → (l.map f).filterMap declOf = [] := by
    intro α l f hf
    rw [List.filterMap_map]
    exact List.filterMap_eq_nil_iff.2 fun a _ => hf a
  have fns : ∀ {α : Type} (l : List α) (f : α → Part) (g : α → Sig), (∀ a, declOf (f a) = some (g a)) → (l.map f).filterMap declOf = l.map g := by
    intro α l f g hf
    rw [List.filterMap_map]
    induction l with
    | nil => rfl
    | cons a l ih => rw [List.filterMap_cons, Function.comp, hf, List.map_cons]; exact congrArg _ ih
  rw [List.filterMap_map]
  show (headerParts D).filterMap declOf = _
  unfold headerParts
  simp only [List.filterMap_append]
  rw [others D.gcMap _ fun _ => rfl, fns D.breaks _ _ fun _ => rfl, fns D.emoji _ _ fun _ => rfl, fns D.ages.toList _ _ fun _ => rfl]
  simp only [List.append_nil]
  rfl

/-- Every function that `ucd.h` only declares is defined in `ucd.cpp`, in the same namespace with the same types, as often as it is
declared; and `ucd.cpp` defines no other function. -/
theorem C67_linked (D : UcdData) (h : UcdOk D) (H S : List Piece) (hH : Consists (ucdHeader D) H) (hS : Consists (ucdSource D) S) :
    (H.filterMap Piece.declares).Perm (S.filterMap Piece.defines) := by
  obtain ⟨H', h1, h2⟩ := header_consists D h
  obtain ⟨S', s1, s2⟩ := source_consists D h
  obtain rfl := C67_unambiguous _ _ _ h1 hH
  obtain rfl := C67_unambiguous _ _ _ s1 hS
  rw [declares_all h2 (header_tables D), defines_all s2, header_decls, source_defs]
  simp only [List.append_assoc, List.cons_append]
  exact List.Perm.cons _ (List.Perm.cons _ (List.Perm.swap _ _ _))

theorem ordered_fns {l : List (Part × List Str)} {s : List (List Str × Str)} (h : ∀ x ∈ l, ∀ n ∈ x.2, (inTables, n) ∈ s) : Ordered s l := by
  induction l generalizing s with
  | nil => trivial
  | cons x l ih =>
    exact ⟨h x (by simp), ih fun y hy n hn => List.mem_append.2 (.inl (h y (by simp [hy]) n hn))⟩

theorem ordered_no {α : Type} (l : List α) (f : α → Part) (s : List (List Str × Str)) : Ordered s (l.map fun a => no (f a)) :=
  ordered_fns fun x hx n hn => by
    obtain ⟨a, -, rfl⟩ := List.mem_map.1 hx
    cases hn

theorem tables_map {α : Type} {l : List α} {f : α → Part} {g : α → List Str × Str} (hf : ∀ a, partTable (f a) = some (g a)) :
    (l.map fun a => no (f a)).filterMap (fun y => partTable y.1) = l.map g := by
  rw [List.filterMap_map]
  induction l with
  | nil => rfl
  | cons a l ih =>
    rw [List.filterMap_cons, Function.comp, no, hf, List.map_cons]
    exact congrArg _ ih

theorem ordered_step {a b : List (Part × List Str)} (s : List (List Str × Str)) (ha : Ordered [] a) (hb : Ordered s b)
    (h : ∀ x ∈ s, x ∈ a.filterMap fun y => partTable y.1) : Ordered [] (a ++ b) := ordered_append ha hb fun x hx => .inr (h x hx)

theorem source_ordered (D : UcdData) : Ordered [] (sourceL D) := by
  have one : ∀ (n : Str) (s : List (List Str × Str)), ∀ x ∈ [n], (inTables, x) ∈ s ++ [(inTables, n)] := by
    intro n s x hx
    rw [List.mem_singleton.1 hx]
    simp
  have none' : ∀ (s : List (List Str × Str)), ∀ x ∈ ([] : List Str), (inTables, x) ∈ s := fun _ x hx => by cases hx
  have names : ∀ (l : List (Str × List (PRange × Str))), ∀ n ∈ l.map (·.1), (inTables, n) ∈ l.map fun g => (inTables, g.1) := by
    intro l n hn
    obtain ⟨g, hg, rfl⟩ := List.mem_map.1 hn
    exact List.mem_map.2 ⟨g, hg, rfl⟩
  have tabs : ∀ (a : List (Part × List Str)) (l : List (Str × List (PRange × Str))) (f : Str × List (PRange × Str) → Part),
      (∀ g, partTable (f g) = some (inTables, g.1)) → ∀ x ∈ l.map (fun g => (inTables, g.1)),
      x ∈ (a ++ l.map fun g => no (f g)).filterMap (fun y => partTable y.1) := by
    intro a l f hf x hx
    rw [List.filterMap_append, tables_map hf]
    exact List.mem_append.2 (.inr hx)
  have fns : ∀ (l : List (Str × List (PRange × Str))) (f : Str × List (PRange × Str) → Part), Ordered (l.map fun g => (inTables, g.1)) (l.map fun g => (f g, [g.1])) := by
    intro l f
    refine ordered_fns fun x hx n hn => ?_
    obtain ⟨g, hg, rfl⟩ := List.mem_map.1 hx
    rw [List.mem_singleton.1 hn]
    exact List.mem_map.2 ⟨g, hg, rfl⟩
  unfold sourceL
  refine ordered_step [] ?_ (ordered_no _ _ _) (by simp)
  refine ordered_step [] ?_ ⟨none' _, none' _, fun x hx => ?_, fun x hx => ?_, trivial⟩ (by simp)
  rotate_left
  · rw [List.mem_singleton.1 hx]
    exact List.mem_append.2 (.inl (List.mem_append.2 (.inr (List.mem_singleton.2 rfl))))
  · have : x = "Bidi_Mirroring_Glyph".toList := by
      simp only [List.mem_cons, List.not_mem_nil, or_false, or_self] at hx
      exact hx
    rw [this]
    exact List.mem_append.2 (.inl (List.mem_append.2 (.inr (List.mem_singleton.2 rfl))))
  refine ordered_step _ ?_ (fns D.emoji _) (tabs _ _ _ fun _ => rfl)
  refine ordered_step [] ?_ (ordered_no _ _ _) (by simp)
  refine ordered_step [] ?_ ⟨none' _, one _ _, trivial⟩ (by simp)
  refine ordered_step _ ?_ (fns D.breaks _) (tabs _ _ _ fun _ => rfl)
  refine ordered_step [] ?_ (ordered_no _ _ _) (by simp)
  refine ordered_step [] ?_ ⟨none' _, one _ _, none' _, one _ _, trivial⟩ (by simp)
  refine ordered_step [] ?_ (ordered_no _ _ _) (by simp)
  refine ordered_step _ ?_ ⟨names _, none' _, one _ _, trivial⟩ (tabs _ _ _ fun _ => rfl)
  refine ordered_step [] ?_ (ordered_no _ _ _) (by simp)
  refine ordered_step _ ?_ ⟨names _, none' _, one _ _, trivial⟩ (tabs _ _ _ fun _ => rfl)
  refine ordered_step [] ?_ (ordered_no _ _ _) (by simp)
  exact ⟨none' _, one _ _, trivial⟩

/-- In `ucd.cpp` every table a function mentions is declared above the function, in `unicode::tables`. -/
theorem C67_tables_first (D : UcdData) (h : UcdOk D) (S : List Piece) (hS : Consists (ucdSource D) S) (i : Nat) (q : Piece) (hq : S[i]? = some q)
    (hd : q.defines ≠ none) (n : Str) (hn : n ∈ uses q.toks) :
    ∃ j, j < i ∧ ∃ r, S[j]? = some r ∧ r.scope = inTables ∧ ∃ type vs, Spec.Cxx.Unit r.toks [.table type n vs] := by
  obtain ⟨S', s1, s2⟩ := source_consists D h
  obtain rfl := C67_unambiguous _ _ _ s1 hS
  rcases ordered_use s2 (source_ordered D) i q hq hd n hn with h | h
  · cases h
  · exact h

/-! ### No function is defined twice -/

/-- What distinguishes overloaded functions. -/
def key (g : Sig) : List Str × Str × List (List Tok) := (g.scope, g.name, g.params)

/-- The names of the functions of a codepoint in `unicode`. -/
def codepointNames (D : UcdData) : List Str :=
  ["plane", "script", "script_extensions", "block", "east_asian_width", "is_mirrored", "bidi_mirroring_glyph"].map String.toList ++
  D.breaks.map (fun g => tolower g.1) ++ D.emoji.map (fun g => isName g.1)

theorem shuffle {α : Type} (a b c d e B x E y A G w : List α) :
    (a ++ b ++ c ++ d ++ e ++ B ++ x ++ E ++ y ++ A ++ (G ++ w)).Perm ((a ++ e ++ x ++ y ++ B ++ E) ++ (c ++ G) ++ (b ++ d ++ A ++ w)) := by
  rw [← Multiset.coe_eq_coe]
  simp only [← Multiset.coe_add]
  abel

theorem header_defs (D : UcdData) : ((headerParts D).map no).filterMap (fun x => defOf x.1) =
    D.gcMap.map (fun g => named inCategory "bool".toList (isName g.1)) ++ [widthToString] := by
  have others : ∀ {α : Type} (l : List α) (f : α → Part), (∀ a, defOf (f a) = none) → (l.map f).filterMap defOf = [] := by
    intro α l f hf
    rw [List.filterMap_map]
    exact List.filterMap_eq_nil_iff.2 fun a _ => hf a
  have fns : ∀ {α : Type} (l : List α) (f : α → Part) (g : α → Sig), (∀ a, defOf (f a) = some (g a)) → (l.map f).filterMap defOf = l.map g := by
    intro α l f g hf
    rw [List.filterMap_map]
    induction l with
    | nil => rfl
    | cons a l ih => rw [List.filterMap_cons, Function.comp, hf, List.map_cons]; exact congrArg _ ih
  rw [List.filterMap_map]
  show (headerParts D).filterMap defOf = _
  unfold headerParts
  simp only [List.filterMap_append]
  rw [fns D.gcMap _ _ fun _ => rfl, others D.breaks _ fun _ => rfl, others D.emoji _ fun _ => rfl, others D.ages.toList _ fun _ => rfl]
  show [] ++ _ ++ [] ++ [] ++ [widthToString] ++ [] ++ [] ++ [] = _
  simp only [List.append_nil, List.nil_append]

/-- No function is defined twice in a program of `ucd.h` and `ucd.cpp`, if the names the files of the database give them are distinct
in lower case, and none is one of the fixed names. -/
theorem C67_once (D : UcdData) (h : UcdOk D) (hn : (codepointNames D).Nodup) (hc : (D.gcMap.map fun g => tolower g.1).Nodup) (H S : List Piece)
    (hH : Consists (ucdHeader D) H) (hS : Consists (ucdSource D) S) : ((S.filterMap Piece.defines ++ H.filterMap Piece.defines).map key).Nodup := by
  obtain ⟨H', h1, h2⟩ := header_consists D h
  obtain ⟨S', s1, s2⟩ := source_consists D h
  obtain rfl := C67_unambiguous _ _ _ h1 hH
  obtain rfl := C67_unambiguous _ _ _ s1 hS
  rw [defines_all h2, defines_all s2, header_defs, source_defs]
  let cp : List (List Tok) := [[.word "char32_t".toList]]
  let k (sc : List Str) (x : Str) : List Str × Str × List (List Tok) := (sc, x, cp)
  have kinj : ∀ sc, Function.Injective (k sc) := fun sc a b e => congrArg (fun x => x.2.1) e
  have e := shuffle [k inUnicode "plane".toList] [key (containsOf "Core_Property".toList)] [k inCategory "get".toList] [key (containsOf "General_Category".toList)]
    [k inUnicode "script".toList, k inUnicode "script_extensions".toList, k inUnicode "block".toList] (D.breaks.map fun g => k inUnicode (tolower g.1))
    [k inUnicode "east_asian_width".toList] (D.emoji.map fun g => k inUnicode (isName g.1)) [k inUnicode "is_mirrored".toList, k inUnicode "bidi_mirroring_glyph".toList]
    (D.ages.toList.map fun _ => key makeAge) (D.gcMap.map fun g => k inCategory (isName g.1)) [key widthToString]
  refine (List.Perm.nodup_iff (List.Perm.trans (List.Perm.of_eq ?_) e)).2 ?_
  · simp only [List.map_append, List.map_map, List.map_cons, List.map_nil]
    rfl
  have n1 : ((codepointNames D).map (k inUnicode)).Nodup := hn.map (kinj _)
  have n2 : ((("get".toList :: D.gcMap.map fun g => isName g.1)).map (k inCategory)).Nodup := by
    refine List.Nodup.map (kinj _) (List.nodup_cons.2 ⟨?_, ?_⟩)
    · intro hm
      obtain ⟨g, -, e⟩ := List.mem_map.1 hm
      exact absurd (congrArg List.head? e) (show some 'i' ≠ some 'g' by decide)
    · have : (D.gcMap.map fun g => isName g.1) = (D.gcMap.map fun g => tolower g.1).map ("is_".toList ++ ·) := by rw [List.map_map]; rfl
      rw [this]
      exact hc.map fun a b e => List.append_cancel_left e
  have n3 : ([key (containsOf "Core_Property".toList)] ++ [key (containsOf "General_Category".toList)] ++ D.ages.toList.map (fun _ => key makeAge) ++
      [key widthToString]).Nodup := by
    cases D.ages with
    | none => decide
    | some al => exact (by decide : [key (containsOf "Core_Property".toList), key (containsOf "General_Category".toList), key makeAge, key widthToString].Nodup)
  have s1 : ∀ x ∈ (codepointNames D).map (k inUnicode), x.1 = inUnicode ∧ x.2.2 = cp := by
    intro x hx
    obtain ⟨y, -, rfl⟩ := List.mem_map.1 hx
    exact ⟨rfl, rfl⟩
  have s2 : ∀ x ∈ ("get".toList :: D.gcMap.map fun g => isName g.1).map (k inCategory), x.1 = inCategory := by
    intro x hx
    obtain ⟨y, -, rfl⟩ := List.mem_map.1 hx
    rfl
  have s3 : ∀ x ∈ ([key (containsOf "Core_Property".toList)] ++ [key (containsOf "General_Category".toList)] ++ D.ages.toList.map (fun _ => key makeAge) ++
      [key widthToString]), x.1 = inUnicode ∧ x.2.2 ≠ cp := by
    intro x hx
    simp only [List.mem_append, List.mem_map, List.mem_singleton] at hx
    rcases hx with ((rfl | rfl) | ⟨_, _, rfl⟩) | rfl
    all_goals exact ⟨rfl, by decide⟩
  have a1 : [k inUnicode "plane".toList] ++ [k inUnicode "script".toList, k inUnicode "script_extensions".toList, k inUnicode "block".toList] ++
      [k inUnicode "east_asian_width".toList] ++ [k inUnicode "is_mirrored".toList, k inUnicode "bidi_mirroring_glyph".toList] ++
      D.breaks.map (fun g => k inUnicode (tolower g.1)) ++ D.emoji.map (fun g => k inUnicode (isName g.1)) = (codepointNames D).map (k inUnicode) := by
    unfold codepointNames
    simp only [List.map_append, List.map_map, List.map_cons, List.map_nil]
    rfl
  have a2 : [k inCategory "get".toList] ++ D.gcMap.map (fun g => k inCategory (isName g.1)) = ("get".toList :: D.gcMap.map fun g => isName g.1).map (k inCategory) := by
    simp only [List.map_map, List.map_cons]
    rfl
  rw [a1, a2]
  refine List.nodup_append.2 ⟨List.nodup_append.2 ⟨n1, n2, ?_⟩, n3, ?_⟩
  · rintro x hx y hy rfl
    exact absurd ((s1 x hx).1.symm.trans (s2 x hy)) (by decide)
  · rintro x hx y hy rfl
    rcases List.mem_append.1 hx with hx | hx
    · exact (s3 x hy).2 (s1 x hx).2
    · exact absurd ((s3 x hy).1.symm.trans (s2 x hx)) (by decide)

/-! ### The arrays of script extensions -/

theorem sceArrays_keeps {al : List (Str × Str)} {rs : List MRange} {done : List (Str × List Str)} {a : Str × List Str} (h : a ∈ done) : a ∈ sceArrays al rs done := by
  induction rs generalizing done with
  | nil => exact h
  | cons r rs ih =>
    rw [sceArrays]
    split
    · exact ih h
    · exact ih (List.mem_append.2 (.inl h))

theorem sceArrays_has {al : List (Str × Str)} {rs : List MRange} {done : List (Str × List Str)} (r : MRange) (h : r ∈ rs) :
    ∃ a ∈ sceArrays al rs done, a.1 = sceKey r.props := by
  induction rs generalizing done with
  | nil => cases h
  | cons r' rs ih =>
    rw [sceArrays]
    rcases List.mem_cons.1 h with rfl | h
    · split
      · rename_i hf
        obtain ⟨a, ha⟩ := Option.isSome_iff_exists.1 hf
        exact ⟨a, sceArrays_keeps (List.mem_of_find?_eq_some ha), by simpa using List.find?_some ha⟩
      · exact ⟨(sceKey r.props, r.props.map (scriptName al)), sceArrays_keeps (by simp), rfl⟩
    · split <;> exact ih h

def scriptArray (a : Str × List Str) : Part :=
  .item inTables (.table "unicode::Script".toList a.1 (a.2.map fun s => .name ["unicode".toList, "Script".toList, s]))

def sceTable (D : UcdData) : Part :=
  .item inTables (.table "Prop<std::pair<unicode::Script const*, std::size_t>>".toList "sce".toList (D.sce.map fun r =>
    .list [.list [.num r.1.first, .num r.1.last], .list [.name [sceKey r.1.props, "data".toList], .name [sceKey r.1.props, "size".toList]]]))

theorem sce_shape (D : UcdData) : ∃ pre post, sourceParts D = pre ++ (sceArrays D.scriptAliases (D.sce.map (·.1)) []).map scriptArray ++ (sceTable D :: post) := by
  have : ∀ (a b c d e f g h i j : List Part) (x : Part), ∃ pre post, a ++ b ++ (x :: c) ++ d ++ e ++ f ++ g ++ h ++ i ++ j = pre ++ b ++ (x :: post) :=
    fun a b c d e f g h i j x => ⟨a, c ++ d ++ e ++ f ++ g ++ h ++ i ++ j, by simp only [List.append_assoc, List.cons_append]⟩
  exact this _ _ _ _ _ _ _ _ _ _ _

theorem means_at {ps : List Piece} {xs : List Part} (h : List.Forall₂ Means ps xs) {i : Nat} {x : Part} (hx : xs[i]? = some x) : ∃ q, ps[i]? = some q ∧ Means q x := by
  induction h generalizing i with
  | nil => simp at hx
  | @cons q y ps xs h _ ih =>
    cases i with
    | zero =>
      simp only [List.getElem?_cons_zero, Option.some.injEq] at hx
      exact ⟨q, rfl, hx ▸ h⟩
    | succ i => exact ih (by simpa using hx)

/-- The table `sce` refers to an array of scripts for every range; the array is declared above the table, and holds the scripts of this
range or one whose list of scripts gives the same name. -/
theorem C67_extension_arrays_first (D : UcdData) (h : UcdOk D) (S : List Piece) (hS : Consists (ucdSource D) S) :
    ∃ (i : Nat) (q : Piece), S[i]? = some q ∧ q.scope = inTables ∧
      Spec.Cxx.Unit q.toks [.table "Prop<std::pair<unicode::Script const*, std::size_t>>".toList "sce".toList (D.sce.map fun r =>
        .list [.list [.num r.1.first, .num r.1.last], .list [.name [sceKey r.1.props, "data".toList], .name [sceKey r.1.props, "size".toList]]])] ∧
      ∀ r ∈ D.sce, ∃ j, j < i ∧ ∃ a : Piece, S[j]? = some a ∧ a.scope = inTables ∧ ∃ r' ∈ D.sce, sceKey r'.1.props = sceKey r.1.props ∧
        Spec.Cxx.Unit a.toks [.table "unicode::Script".toList (sceKey r.1.props)
          (r'.1.props.map fun s => .name ["unicode".toList, "Script".toList, scriptName D.scriptAliases s])] := by
  obtain ⟨S', s1, s2⟩ := C67_source D h
  obtain rfl := C67_unambiguous _ _ _ s1 hS
  obtain ⟨pre, post, e⟩ := sce_shape D
  rw [e] at s2
  generalize hA : sceArrays D.scriptAliases (D.sce.map (·.1)) [] = A at s2
  obtain ⟨q, hq, hm⟩ := means_at s2 (i := (pre ++ A.map scriptArray).length) (x := sceTable D) (by rw [List.getElem?_append_right (Nat.le_refl _), Nat.sub_self]; rfl)
  refine ⟨_, q, hq, hm.1, hm.2, fun r hr => ?_⟩
  obtain ⟨a, ha, hk⟩ := sceArrays_has (al := D.scriptAliases) (done := []) r.1 (List.mem_map.2 ⟨r, hr, rfl⟩)
  rw [hA] at ha
  obtain ⟨j, hj, he⟩ := List.mem_iff_getElem.1 ha
  obtain ⟨q', hq', hm'⟩ := means_at s2 (i := pre.length + j) (x := scriptArray a) (by
    rw [List.append_assoc, List.getElem?_append_right (by omega), Nat.add_sub_cancel_left, List.getElem?_append_left (by simpa using hj), List.getElem?_map,
      List.getElem?_eq_getElem hj, he]
    rfl)
  refine ⟨pre.length + j, by simpa using hj, q', hq', hm'.1, ?_⟩
  rcases sceArrays_from a (hA ▸ ha) with h' | ⟨r', hr', rfl⟩
  · simp at h'
  · obtain ⟨r'', hr'', rfl⟩ := List.mem_map.1 hr'
    refine ⟨r'', hr'', hk, ?_⟩
    have := hm'.2
    rw [List.map_map] at this
    rw [← hk]
    exact this

/-! ### A small database -/

def sampleUcd : UcdData where
  planes := [({ first := 0, last := 0xFFFF, property := "Basic Multilingual Plane".toList }, 0, "BMP".toList)]
  core := [("Alphabetic".toList, sampleRows), ("Math".toList, [])]
  gcats := sampleRows
  gcMap := [("Other_Letter".toList, []), ("Uppercase_Letter".toList, sampleRows)]
  scripts := sampleRows
  sce := sampleSce.map fun r => (r, "Mn COMBINING".toList)
  scriptAliases := [("Grek".toList, "Greek".toList)]
  blocks := [{ first := 0, last := 0x7F, property := "Basic Latin".toList }]
  breaks := [("Grapheme_Cluster_Break".toList, sampleRows), ("Word_Break".toList, [])]
  eaw := [({ first := 0, last := 0x1F, property := "N".toList }, "Cc <control-0000>".toList)]
  emoji := [("Emoji".toList, sampleRows), ("Emoji_Modifier".toList, [])]
  mirrored := [(0x28, 0x29)]
  glyphs := [(0x28, 0x29), (0x29, 0x28)]
  ages := some [("1.1".toList, "V1_1".toList), ("NA".toList, "Unassigned".toList)]

def lineB (c : Str) : Bool := c.all fun x => decide (x ≠ '\n') && decide (x ≠ '\\')

theorem line_of {c : Str} (h : lineB c = true) : OneLine c := oneLine_of fun x hx => by
  have := Bool.and_eq_true_iff.1 (List.all_eq_true.1 h x hx)
  exact ⟨of_decide_eq_true this.1, of_decide_eq_true this.2⟩

theorem sampleUcd_ok : UcdOk sampleUcd := by
  constructor
  · have h : ∀ r ∈ sampleUcd.planes, identB (sanitize r.1.property) = true ∧ lineB r.2.2 = true := by decide +kernel
    exact fun r hr => ⟨ident_of (h r hr).1, line_of (h r hr).2⟩
  · have h : ∀ g ∈ sampleUcd.core, identB g.1 = true ∧ ∀ r ∈ g.2, lineB r.2 = true := by decide +kernel
    exact fun g hg => ⟨ident_of (h g hg).1, fun r hr => line_of ((h g hg).2 r hr)⟩
  · have h : ∀ r ∈ sampleUcd.gcats, identB r.1.property = true ∧ lineB r.2 = true := by decide +kernel
    exact fun r hr => ⟨ident_of (h r hr).1, line_of (h r hr).2⟩
  · have h : ∀ g ∈ sampleUcd.gcMap, identB g.1 = true ∧ ∀ r ∈ g.2, lineB r.2 = true := by decide +kernel
    exact fun g hg => ⟨ident_of (h g hg).1, fun r hr => line_of ((h g hg).2 r hr)⟩
  · have h : ∀ r ∈ sampleUcd.scripts, identB r.1.property = true ∧ lineB r.2 = true := by decide +kernel
    exact fun r hr => ⟨ident_of (h r hr).1, line_of (h r hr).2⟩
  · have h : ∀ r ∈ sampleUcd.sce, identB (sceKey r.1.props) = true ∧ (∀ s ∈ r.1.props, identB (scriptName sampleUcd.scriptAliases s) = true) ∧ lineB r.2 = true := by
      decide +kernel
    exact fun r hr => ⟨ident_of (h r hr).1, fun s hs => ident_of ((h r hr).2.1 s hs), line_of (h r hr).2.2⟩
  · have h : ∀ r ∈ sampleUcd.blocks, identB (sanitize r.property) = true := by decide +kernel
    exact fun r hr => ident_of (h r hr)
  · have h : ∀ g ∈ sampleUcd.breaks, identB g.1 = true ∧ g.1 ≠ "inline".toList ∧ g.1 ≠ "tables".toList ∧ ∀ r ∈ g.2, identB r.1.property = true ∧ lineB r.2 = true := by
      decide +kernel
    exact fun g hg => ⟨ident_of (h g hg).1, (h g hg).2.1, (h g hg).2.2.1, fun r hr => ⟨ident_of ((h g hg).2.2.2 r hr).1, line_of ((h g hg).2.2.2 r hr).2⟩⟩
  · have h : ∀ r ∈ sampleUcd.eaw, lineB r.2 = true := by decide +kernel
    exact fun r hr => line_of (h r hr)
  · have h : ∀ g ∈ sampleUcd.emoji, identB g.1 = true ∧ ∀ r ∈ g.2, lineB r.2 = true := by decide +kernel
    exact fun g hg => ⟨ident_of (h g hg).1, fun r hr => line_of ((h g hg).2 r hr)⟩
  · intro al ha
    obtain rfl := Option.some.inj ha
    have h : ∀ e ∈ [("1.1".toList, "V1_1".toList), ("NA".toList, "Unassigned".toList)], (∀ c ∈ e.1, c ≠ '"' ∧ c ≠ '\\' ∧ c ≠ '\n') ∧ identB e.2 = true := by decide +kernel
    exact fun e he => ⟨(h e he).1, ident_of (h e he).2⟩

example : ∃ H S, Consists (ucdHeader sampleUcd) H ∧ Consists (ucdSource sampleUcd) S ∧ (H.filterMap Piece.declares).Perm (S.filterMap Piece.defines) ∧
    ((S.filterMap Piece.defines ++ H.filterMap Piece.defines).map key).Nodup ∧ S.length = 33 ∧ H.length = 18 := by
  obtain ⟨H, h1, h2⟩ := C67_header sampleUcd sampleUcd_ok
  obtain ⟨S, s1, s2⟩ := C67_source sampleUcd sampleUcd_ok
  refine ⟨H, S, h1, s1, C67_linked _ sampleUcd_ok H S h1 s1, C67_once _ sampleUcd_ok (by decide +kernel) (by decide +kernel) H S h1 s1, ?_, ?_⟩
  · rw [s2.length_eq]; decide +kernel
  · rw [h2.length_eq]; decide +kernel

/-- a function that uses a table: `is_emoji` behind the table `Emoji` -/
example : ∃ S, Consists (ucdSource sampleUcd) S ∧ ∃ (i : Nat) (q : Piece), S[i]? = some q ∧ q.defines = some (named inUnicode "bool".toList "is_emoji".toList) := by
  obtain ⟨S, s1, s2⟩ := C67_source sampleUcd sampleUcd_ok
  obtain ⟨q, hq, hm⟩ := means_at s2 (i := 26) (x := .defined (named inUnicode "bool".toList (isName "Emoji".toList)) (codeEmoji "Emoji".toList)) rfl
  exact ⟨S, s1, 26, q, hq, hm.1⟩

end Verif.Props.Tg
