import Verif.Lemmas.TgApiData
/-!
# C71: the functions of `ucd.cpp`, from the data files to the calls
-/

namespace Verif.Props.Tg

open Verif Verif.Tg
open Verif.Utf8 (Mem)
open Verif.Spec.Ucd
open Verif.Spec.UcdFile
open Verif.Spec.Cxx (Ident Item Piece Part Consists Means Sig Fn World Value Res DefinesFn Reads Agrees Val)

/-! ## What is said of a file -/

/-- The text of a file, split into its declarations and definitions, contains the definition of `f` with this signature. -/
def Defined (ps : List Piece) (g : Sig) (f : Fn) : Prop := ∃ q ∈ ps, q.defines = some g ∧ ∃ text, Reads text q.toks ∧ DefinesFn text f

/-- Names stand for what the declarations in this namespace say: arrays for their elements, enumerators for their numbers. -/
def Linked (W : World) (ps : List Piece) (scope : List Str) : Prop := ∀ q ∈ ps, q.scope = scope → ∀ item, Spec.Cxx.Unit q.toks [item] → W.Has item

/-- The functions defined in `ucd.cpp`, called in a program where names mean what the files declare, answer what the data files say: for every codepoint (and
every number beyond). -/
structure Answers (U : Contents) (N : ValueNames) (al : List (Str × Str)) (ps : List Piece) (W : World) : Prop where
  plane : ∃ f, Defined ps (named inUnicode "Plane".toList "plane".toList) f ∧ ∀ c v, f.call W [.num c] = .val (.enumerator ["Plane".toList, v]) ↔
    (c ≤ 0x10FFFF ∧ ∃ s, planeNames[c / 0x10000]? = some s ∧ v = s.toList) ∨ (0x10FFFF < c ∧ v = "Unassigned".toList)
  script : ∃ f, Defined ps (named inUnicode "Script".toList "script".toList) f ∧ ∀ c v, f.call W [.num c] = .val (.enumerator ["Script".toList, v]) ↔
    ValueOf U.scripts "Unknown".toList c v
  category : ∃ f, Defined ps (named inCategory "General_Category".toList "get".toList) f ∧
    ∀ c v, f.call W [.num c] = .val (.enumerator ["General_Category".toList, v]) ↔ CategoryOf (allOf U.gc) N.gc c v
  width : ∃ f, Defined ps (named inUnicode "EastAsianWidth".toList "east_asian_width".toList) f ∧
    ∀ c v, f.call W [.num c] = .val (.enumerator ["EastAsianWidth".toList, v]) ↔ WidthValue U.eaw c v
  block : ∃ f, Defined ps (named inUnicode "Block".toList "block".toList) f ∧
    ∀ c v, f.call W [.num c] = .val (.enumerator ["Block".toList, v]) ↔ BlockOf U.blocks c v
  breaks : ∀ s ∈ U.gcb, ∃ f, Defined ps (named inUnicode s.1 (lower s.1)) f ∧
    ∀ c v, f.call W [.num c] = .val (.enumerator [s.1, v]) ↔ ValueOf s.2 "Undefined".toList c v
  emoji : ∀ e ∈ U.emoji, ∃ f, Defined ps (named inUnicode "bool".toList ("is_".toList ++ lower e.2.2)) f ∧
    ∀ c, (f.call W [.num c] = .val (.bool true) ↔ Assigns U.emoji c e.2.2) ∧ (f.call W [.num c] = .val (.bool false) ↔ ¬ Assigns U.emoji c e.2.2)
  mirrored : ∃ f, Defined ps (named inUnicode "bool".toList "is_mirrored".toList) f ∧
    ∀ c, (f.call W [.num c] = .val (.bool true) ↔ (c, true) ∈ U.mirrored) ∧ (f.call W [.num c] = .val (.bool false) ↔ (c, true) ∉ U.mirrored)
  glyph : ∃ f, Defined ps (named inUnicode "char32_t".toList "bidi_mirroring_glyph".toList) f ∧
    ∀ c g, f.call W [.num c] = .val (.num g) ↔ (c, g) ∈ U.glyphs ∨ (∀ g', (c, g') ∉ U.glyphs) ∧ g = c
  age : ∃ f, Defined ps makeAge f ∧ ∀ s a, f.call W [.text s] = .val (.opt (some (.enumerator ["Age".toList, a]))) ↔ (s, a) ∈ N.age ∧ a ≠ "Unassigned".toList
  core : ∃ f, Defined ps (containsOf "Core_Property".toList) f ∧ ∀ e ∈ U.core, Spec.UcdFile.Word e.2.2 → ∃ k, W.number ["Core_Property".toList, e.2.2] = some k ∧
    ∀ c, (f.call W [.num k, .num c] = .val (.bool true) ↔ Assigns U.core c e.2.2) ∧ (f.call W [.num k, .num c] = .val (.bool false) ↔ ¬ Assigns U.core c e.2.2)
  contains : ∃ f, Defined ps (containsOf "General_Category".toList) f ∧ ∀ s ∈ U.gc, ∃ k, W.number ["General_Category".toList, s.1] = some k ∧
    ∀ c, (f.call W [.num k, .num c] = .val (.bool true) ↔ CategoryOf (allOf U.gc) N.gc c s.1) ∧
      (f.call W [.num k, .num c] = .val (.bool false) ↔ ¬ CategoryOf (allOf U.gc) N.gc c s.1)
  extensions : ∃ f, Defined ps (ofCodepoint inUnicode scriptsType "script_extensions".toList) f ∧ ∀ c,
    (f.call W [.num c] = .val (.opt none) ∧ ∀ v, ¬ Assigns U.sce c v) ∨
    ∃ (v : Str) (ws ns l : List Str), Assigns U.sce c v ∧ WordsOf v ws ∧ List.Forall₂ (fun w n => (w, n) ∈ al) ws ns ∧ l.Perm ns ∧
      f.call W [.num c] = .val (.opt (some (.span (l.map fun n => .name ["unicode".toList, "Script".toList, n]))))

/-- The tables of `ucd.cpp`: one for each of eight properties, and one for each core property, category, section of the break properties, emoji property and
list of scripts. -/
inductive TableKind where
  | fixed | core | category | breaks | emoji | scripts
deriving DecidableEq

inductive TableName (U : Contents) : TableKind → Str → Prop
  | fixed {n : String} : n ∈ ["Plane", "General_Category", "Script", "sce", "Block", "EastAsianWidth", "Bidi_Mirrored", "Bidi_Mirroring_Glyph"] → TableName U .fixed n.toList
  | core {e} : e ∈ U.core → Spec.UcdFile.Word e.2.2 → TableName U .core e.2.2
  | category {s} : s ∈ U.gc → TableName U .category s.1
  | breaks {s} : s ∈ U.gcb → TableName U .breaks s.1
  | emoji {e} : e ∈ U.emoji → TableName U .emoji e.2.2
  | scripts {s : Str} : TableName U .scripts ("sce_".toList ++ s)

/-- Tables of different kinds have different names. -/
def TablesApart (U : Contents) : Prop := ∀ k k' n, TableName U k n → TableName U k' n → k = k'

/-! ## The parts of the file -/

theorem mem14 {α : Type} {x : α} {a0 a1 a2 a3 a4 a5 a6 a7 a8 a9 a10 a11 a12 a13 : List α}
    (h : x ∈ a0 ∨ x ∈ a1 ∨ x ∈ a2 ∨ x ∈ a3 ∨ x ∈ a4 ∨ x ∈ a5 ∨ x ∈ a6 ∨ x ∈ a7 ∨ x ∈ a8 ∨ x ∈ a9 ∨ x ∈ a10 ∨ x ∈ a11 ∨ x ∈ a12 ∨ x ∈ a13) :
    x ∈ a0 ++ a1 ++ a2 ++ a3 ++ a4 ++ a5 ++ a6 ++ a7 ++ a8 ++ a9 ++ a10 ++ a11 ++ a12 ++ a13 := by
  simp only [List.mem_append, or_assoc]
  exact h

theorem means_mem {ps : List Piece} {xs : List Part} (h : List.Forall₂ Means ps xs) {x : Part} (hx : x ∈ xs) : ∃ q ∈ ps, Means q x := by
  induction h with
  | nil => cases hx
  | cons hab _ ih =>
    rcases List.mem_cons.1 hx with rfl | hx
    · exact ⟨_, List.mem_cons_self .., hab⟩
    · obtain ⟨q, h1, h2⟩ := ih hx
      exact ⟨q, List.mem_cons_of_mem _ h1, h2⟩

theorem defined_of {ps : List Piece} {xs : List Part} (h : List.Forall₂ Means ps xs) {g : Sig} {code : Str} (hx : .defined g code ∈ xs) {f : Fn} (hf : DefinesFn code f) :
    Defined ps g f := by
  obtain ⟨q, h1, h2, h3⟩ := means_mem h hx
  exact ⟨q, h1, h2, code, h3, hf⟩

theorem has_of {ps : List Piece} {xs : List Part} (h : List.Forall₂ Means ps xs) {scope : List Str} {item : Item} (hx : .item scope item ∈ xs) {W : World}
    (hW : Linked W ps scope) : W.Has item := by
  obtain ⟨q, h1, h2, h3⟩ := means_mem h hx
  exact hW q h1 h2 item h3

theorem one {W : World} {i : Item} (h : W.Has i) : ∀ x ∈ [i], W.Has x := fun _ hx => (List.mem_singleton.1 hx) ▸ h

section
variable {A : AllFiles} {P : ParsedUcd} {U : Contents} {N : ValueNames} {scripts al : List (Str × Str)} {ps : List Piece} {W : World}

theorem api_plane (hps : List.Forall₂ Means ps (sourceParts (apiData P al))) (hok : UcdOk (apiData P al)) (hW : Linked W ps inTables) :
    ∃ f, Defined ps (named inUnicode "Plane".toList "plane".toList) f ∧ ∀ c v, f.call W [.num c] = .val (.enumerator ["Plane".toList, v]) ↔
      (c ≤ 0x10FFFF ∧ ∃ s, planeNames[c / 0x10000]? = some s ∧ v = s.toList) ∨ (0x10FFFF < c ∧ v = "Unassigned".toList) := by
  obtain ⟨f, h1, h2⟩ := C64_plane_exact
  refine ⟨f, defined_of hps (mem14 (.inl (List.mem_cons_of_mem _ (List.mem_cons_self ..)))) h1, h2 W planeData rfl (fun r hr => (hok.planes r hr).2) ?_⟩
  have hT := has_of hps (mem14 (.inl (List.mem_cons_self ..))) hW
  refine agrees_of (planes_ok planeData (fun r hr => (hok.planes r hr).1) (fun r hr => (hok.planes r hr).2)).says (one ?_)
  rw [List.map_map] at hT
  exact hT

theorem api_script (hl : Loads A.toFiles P.db) (hd : Describes A.toFiles U) (hpa : ParsesAll A P) (hp : Plain U.scripts)
    (hps : List.Forall₂ Means ps (sourceParts (apiData P al))) (hok : UcdOk (apiData P al)) (hW : Linked W ps inTables) :
    ∃ f, Defined ps (named inUnicode "Script".toList "script".toList) f ∧
      ∀ c v, f.call W [.num c] = .val (.enumerator ["Script".toList, v]) ↔ ValueOf U.scripts "Unknown".toList c v := by
  obtain ⟨f, h1, h2⟩ := C64_script_of_files
  have hi := fun r hr => (hok.scripts r hr).1
  have hc := fun r hr => (hok.scripts r hr).2
  refine ⟨f, defined_of hps (mem14 (.inr (.inr (.inr (.inr (.inl (List.mem_cons_of_mem _ (List.mem_cons_of_mem _ (List.mem_cons_self ..)))))))))
    h1, h2 W P.scripts hl hd hp hpa.scripts.1 hi hc ?_⟩
  exact agrees_of (scripts_ok P.scripts hi hc).says (one (has_of hps (mem14 (.inr (.inr (.inr (.inr (.inl (List.mem_cons_of_mem _ (List.mem_cons_self ..)))))))) hW))

theorem api_category (hl : Loads A.toFiles P.db) (hd : Describes A.toFiles U) (hpa : ParsesAll A P) (hr : Release U N) (hp : Plain (allOf U.gc))
    (hps : List.Forall₂ Means ps (sourceParts (apiData P al))) (hok : UcdOk (apiData P al)) (hW : Linked W ps inTables) :
    ∃ f, Defined ps (named inCategory "General_Category".toList "get".toList) f ∧
      ∀ c v, f.call W [.num c] = .val (.enumerator ["General_Category".toList, v]) ↔ CategoryOf (allOf U.gc) N.gc c v := by
  obtain ⟨f, h1, h2⟩ := C64_general_category_of_files
  have hi := fun r hr => (hok.gcats r hr).1
  have hc := fun r hr => (hok.gcats r hr).2
  refine ⟨f, defined_of hps (mem14 (.inr (.inr (.inl (List.mem_cons_of_mem _ (List.mem_cons_of_mem _ (List.mem_cons_self ..)))))))
    h1, h2 W P.gcats hl hd hr.complete.titles N.gc hr.complete.gcIn hr.complete.gcOk hp hpa.gcats.1 hi hc ?_⟩
  exact agrees_of (gcTable_ok P.gcats hi hc).says (one (has_of hps (mem14 (.inr (.inr (.inl (List.mem_cons_of_mem _ (List.mem_cons_self ..)))))) hW))

theorem api_width (hl : Loads A.toFiles P.db) (hd : Describes A.toFiles U) (hpa : ParsesAll A P) (hp : Plain U.eaw) (hv : ∀ e ∈ U.eaw, ∃ p ∈ widths, e.2.2 = p.1.toList)
    (hps : List.Forall₂ Means ps (sourceParts (apiData P al))) (hok : UcdOk (apiData P al)) (hW : Linked W ps inTables) :
    ∃ f, Defined ps (named inUnicode "EastAsianWidth".toList "east_asian_width".toList) f ∧
      ∀ c v, f.call W [.num c] = .val (.enumerator ["EastAsianWidth".toList, v]) ↔ WidthValue U.eaw c v := by
  obtain ⟨f, h1, h2⟩ := C64_east_asian_width_of_files
  refine ⟨f, defined_of hps (mem14 (.inr (.inr (.inr (.inr (.inr (.inr (.inr (.inr (.inr (.inl (List.mem_cons_of_mem _ (List.mem_cons_self ..)))))))))))))
    h1, h2 W P.eaw hl hd hp hv hpa.eaw.1 hok.eaw ?_⟩
  have hT := has_of hps (mem14 (.inr (.inr (.inr (.inr (.inr (.inr (.inr (.inr (.inr (.inl (List.mem_cons_self ..)))))))))))) hW
  refine agrees_of (eaw_ok P.eaw hok.eaw).says (one ?_)
  rw [List.map_map] at hT
  exact hT

theorem api_block (hl : Loads A.toFiles P.db) (hd : Describes A.toFiles U) (ha : Ascending U.blocks) (hne : U.blocks ≠ []) (hs : U.blocks.length < 2 ^ 64)
    (hps : List.Forall₂ Means ps (sourceParts (apiData P al))) (hok : UcdOk (apiData P al)) (hW : Linked W ps inTables) :
    ∃ f, Defined ps (named inUnicode "Block".toList "block".toList) f ∧
      ∀ c v, f.call W [.num c] = .val (.enumerator ["Block".toList, v]) ↔ BlockOf U.blocks c v := by
  obtain ⟨f, h1, h2⟩ := C64_block_of_files
  refine ⟨f, defined_of hps (mem14 (.inr (.inr (.inr (.inr (.inr (.inr (.inl
    (List.mem_cons_of_mem _ (List.mem_cons_of_mem _ (List.mem_cons_of_mem _ (List.mem_cons_self ..))))))))))))
    h1, h2 W hl hd ha hne hs hok.blocks ?_⟩
  have hT := has_of hps (mem14 (.inr (.inr (.inr (.inr (.inr (.inr (.inl (List.mem_cons_of_mem _ (List.mem_cons_of_mem _ (List.mem_cons_self ..))))))))))) hW
  refine agrees_of (blocks_ok P.db.blocks hok.blocks).says (one ?_)
  rw [List.map_map] at hT
  exact hT

theorem api_breaks (hl : Loads A.toFiles P.db) (hd : Describes A.toFiles U) (hpa : ParsesAll A P) (hn : (U.gcb.map (·.1)).Nodup) {s : Str × List Entry} (hs : s ∈ U.gcb)
    (hp : Plain s.2) (hid : Ident s.1) (hu : Unreserved s.1)
    (hps : List.Forall₂ Means ps (sourceParts (apiData P al))) (hok : UcdOk (apiData P al)) (hW : Linked W ps inTables) :
    ∃ f, Defined ps (named inUnicode s.1 (lower s.1)) f ∧ ∀ c v, f.call W [.num c] = .val (.enumerator [s.1, v]) ↔ ValueOf s.2 "Undefined".toList c v := by
  have key : (String.ofList s.1).toList = s.1 := String.toList_ofList
  have hb := C64_break_of_files (String.ofList s.1)
  rw [key] at hb
  obtain ⟨f, h1, h2⟩ := hb hid hu
  obtain ⟨rs, r1, r2⟩ := (sortedGroups_find hl.gcb s.1).2 _ (by
    rw [grouped_eq hd.gcb]; exact sectionsMap_find wordRange U.gcb hn s.1 s.2 hs)
  have hm := amFind_mem _ _ _ r1
  rw [← hpa.gcb.1] at hm
  obtain ⟨g, hg, e⟩ := List.mem_map.1 hm
  obtain ⟨e1, e2⟩ := Prod.mk.inj e
  have hg' := hok.breaks g hg
  have hi := fun r hr => ((hg'.2.2.2) r hr).1
  have hc := fun r hr => ((hg'.2.2.2) r hr).2
  refine ⟨f, defined_of hps (code := codeBreak s.1) (mem14 (.inr (.inr (.inr (.inr (.inr (.inr (.inr (.inr (.inl (List.mem_map.2 ⟨g, hg, ?_⟩))))))))))) h1, h2 W g.2 hl hd hn s.2 hs hp
    (by rw [r1, ← e2]) hi hc ?_⟩
  · rw [← lower_eq, e1]
  · have hT := has_of hps (mem14 (.inr (.inr (.inr (.inr (.inr (.inr (.inr (.inl (List.mem_map.2 ⟨g, hg, rfl⟩)))))))))) hW
    rw [← e1]
    exact agrees_of (breaks_ok g.1 g.2 hg'.1 hi hc).says (one hT)

theorem api_emoji (hl : Loads A.toFiles P.db) (hd : Describes A.toFiles U) (hpa : ParsesAll A P) (hw : Words U.emoji) (hsz : U.emoji.length < 2 ^ 64) {e : Entry} (he : e ∈ U.emoji)
    (hsep : Separate (withValue U.emoji e.2.2)) (hid : Ident e.2.2)
    (hps : List.Forall₂ Means ps (sourceParts (apiData P al))) (hok : UcdOk (apiData P al)) (hW : Linked W ps inTables) :
    ∃ f, Defined ps (named inUnicode "bool".toList ("is_".toList ++ lower e.2.2)) f ∧
      ∀ c, (f.call W [.num c] = .val (.bool true) ↔ Assigns U.emoji c e.2.2) ∧ (f.call W [.num c] = .val (.bool false) ↔ ¬ Assigns U.emoji c e.2.2) := by
  obtain ⟨f, h1, h2⟩ := C64_emoji_of_files e.2.2 hid
  have hf := pushAll_find (U.emoji.map fun e => (e.2.2, (⟨e.1, e.2.1, e.2.2⟩ : PRange))) e.2.2
  rw [if_pos ⟨_, List.mem_map.2 ⟨e, he, rfl⟩, rfl⟩] at hf
  obtain ⟨rs, r1, r2⟩ := (sortedGroups_find hl.emoji e.2.2).2 _ (by
    show amFind (emojiEntries A.emoji) _ = _
    rw [emoji_loaded hd hw]; exact hf)
  have hm := amFind_mem _ _ _ r1
  rw [← hpa.emoji.1] at hm
  obtain ⟨g, hg, eg⟩ := List.mem_map.1 hm
  obtain ⟨e1, e2⟩ := Prod.mk.inj eg
  have hg' := hok.emoji g hg
  refine ⟨f, defined_of hps (code := codeEmoji e.2.2) (mem14 (.inr (.inr (.inr (.inr (.inr (.inr (.inr (.inr (.inr (.inr (.inr (.inl (List.mem_map.2 ⟨g, hg, ?_⟩)))))))))))))) h1,
    h2 W g.2 hl hd hw hsz hsep ⟨e, he, rfl⟩ (by rw [r1, ← e2]) hg'.2 ?_⟩
  · rw [← lower_eq, e1]; rfl
  · have hT := has_of hps (mem14 (.inr (.inr (.inr (.inr (.inr (.inr (.inr (.inr (.inr (.inr (.inl (List.mem_map.2 ⟨g, hg, rfl⟩))))))))))))) hW
    rw [← e1]
    exact agrees_of (intervals_ok g.1 g.2 hg'.1 hg'.2).says (one hT)

theorem api_mirrored (hl : Loads A.toFiles P.db) (hd : Describes A.toFiles U) (hn : (U.mirrored.map (·.1)).Nodup) (hne : ∃ c, (c, true) ∈ U.mirrored)
    (hs : U.mirrored.length < 2 ^ 64) (hps : List.Forall₂ Means ps (sourceParts (apiData P al))) (hW : Linked W ps inTables) :
    ∃ f, Defined ps (named inUnicode "bool".toList "is_mirrored".toList) f ∧
      ∀ c, (f.call W [.num c] = .val (.bool true) ↔ (c, true) ∈ U.mirrored) ∧ (f.call W [.num c] = .val (.bool false) ↔ (c, true) ∉ U.mirrored) := by
  obtain ⟨f, h1, h2⟩ := C64_is_mirrored_of_files
  refine ⟨f, defined_of hps (mem14 (.inr (.inr (.inr (.inr (.inr (.inr (.inr (.inr (.inr (.inr (.inr (.inr (.inl
    (List.mem_cons_of_mem _ (List.mem_cons_of_mem _ (List.mem_cons_self ..))))))))))))))))) h1, h2 W hl hd hn hne hs ?_⟩
  exact agrees_of (C61_mirrored P.db) (one (has_of hps (mem14 (.inr (.inr (.inr (.inr (.inr (.inr (.inr (.inr (.inr (.inr (.inr (.inr (.inl
    (List.mem_cons_self ..))))))))))))))) hW))

theorem api_glyph (hl : Loads A.toFiles P.db) (hd : Describes A.toFiles U) (hn : (U.glyphs.map (·.1)).Nodup)
    (hps : List.Forall₂ Means ps (sourceParts (apiData P al))) (hW : Linked W ps inTables) :
    ∃ f, Defined ps (named inUnicode "char32_t".toList "bidi_mirroring_glyph".toList) f ∧
      ∀ c g, f.call W [.num c] = .val (.num g) ↔ (c, g) ∈ U.glyphs ∨ (∀ g', (c, g') ∉ U.glyphs) ∧ g = c := by
  obtain ⟨f, h1, h2⟩ := C64_bidi_mirroring_glyph_of_files
  refine ⟨f, defined_of hps (mem14 (.inr (.inr (.inr (.inr (.inr (.inr (.inr (.inr (.inr (.inr (.inr (.inr (.inl
    (List.mem_cons_of_mem _ (List.mem_cons_of_mem _ (List.mem_cons_of_mem _ (List.mem_cons_self ..)))))))))))))))))) h1, h2 W hl hd hn ?_⟩
  exact agrees_of (C61_glyphs P.db) (one (has_of hps (mem14 (.inr (.inr (.inr (.inr (.inr (.inr (.inr (.inr (.inr (.inr (.inr (.inr (.inl
    (List.mem_cons_of_mem _ (List.mem_cons_self ..)))))))))))))))) hW))

theorem api_age (hl : Loads A.toFiles P.db) (hd : Describes A.toFiles U) (hr : Release U N)
    (hps : List.Forall₂ Means ps (sourceParts (apiData P al))) (hok : UcdOk (apiData P al)) :
    ∃ f, Defined ps makeAge f ∧ ∀ s a, f.call W [.text s] = .val (.opt (some (.enumerator ["Age".toList, a]))) ↔ (s, a) ∈ N.age ∧ a ≠ "Unassigned".toList := by
  obtain ⟨m, m1, m2⟩ := C64_make_age_of_files hl hd hr.complete.titles N.age hr.complete.ageIn (hr.functional _ hr.complete.ageIn)
  obtain ⟨f, h1, h2⟩ := m2 (fun e he => (hok.ages m m1 e he).1) (fun e he => (hok.ages m m1 e he).2)
  refine ⟨f, defined_of hps (code := codeAge m) (mem14 (.inr (.inr (.inr (.inr (.inr (.inr (.inr (.inr (.inr (.inr (.inr (.inr (.inr
    (List.mem_map.2 ⟨m, ?_, rfl⟩))))))))))))))) h1, fun s a => h2 W s a⟩
  show m ∈ (amFind P.db.aliases "Age".toList).toList
  rw [m1]
  exact List.mem_singleton.2 rfl

theorem api_extensions (hl : Loads A.toFiles P.db) (hd : Describes A.toFiles U) (hpa : ParsesAll A P) (hr : Release U N) (hq : Queryable U N scripts)
    (hal : amFind P.db.aliases "Script".toList = some al)
    (hps : List.Forall₂ Means ps (sourceParts (apiData P al))) (hok : UcdOk (apiData P al)) (hW : Linked W ps inTables) :
    ∃ f, Defined ps (ofCodepoint inUnicode scriptsType "script_extensions".toList) f ∧ ∀ c,
      (f.call W [.num c] = .val (.opt none) ∧ ∀ v, ¬ Assigns U.sce c v) ∨
      ∃ (v : Str) (ws ns l : List Str), Assigns U.sce c v ∧ WordsOf v ws ∧ List.Forall₂ (fun w n => (w, n) ∈ scripts) ws ns ∧ l.Perm ns ∧
        f.call W [.num c] = .val (.opt (some (.span (l.map fun n => .name ["unicode".toList, "Script".toList, n])))) := by
  obtain ⟨f, h1, -, h2⟩ := C64_script_extensions
  have e0 : (apiData P al).sce.map (·.1) = P.db.sce := hpa.sce.1
  have harr : ∀ a ∈ sceArrays al P.db.sce [], Ident a.1 ∧ ∀ s ∈ a.2, Ident s := by
    intro a ha
    rcases sceArrays_from a ha with h' | ⟨r, hr', rfl⟩
    · cases h'
    · rw [← e0] at hr'
      obtain ⟨r', hr2, rfl⟩ := List.mem_map.1 hr'
      obtain ⟨x1, x2, -⟩ := hok.sce r' hr2
      refine ⟨x1, fun s hs => ?_⟩
      obtain ⟨s', hs', rfl⟩ := List.mem_map.1 hs
      exact x2 s' hs'
  have hkey : ∀ r ∈ P.sce, Ident (sceKey r.1.props) := fun r h => (hok.sce r h).1
  have hone : ∀ r ∈ P.sce, OneLine r.2 := fun r h => (hok.sce r h).2.2
  refine ⟨f, defined_of hps (mem14 (.inr (.inr (.inr (.inr (.inr (.inr (.inl
    (List.mem_cons_of_mem _ (List.mem_cons_self ..)))))))))) h1, fun c => ?_⟩
  have hcall := h2 W P.db al P.sce hpa.sce.1 hone harr (fun r h => by
      rw [← e0] at h
      obtain ⟨r', h', rfl⟩ := List.mem_map.1 h
      exact hkey r' h') (agrees_of (C61_script_extension_arrays al P.db.sce harr) (fun i hi => by
        obtain ⟨a, ha, rfl⟩ := List.mem_map.1 hi
        rw [← e0] at ha
        exact has_of hps (mem14 (.inr (.inr (.inr (.inr (.inr (.inl (List.mem_map.2 ⟨a, ha, rfl⟩)))))))) hW))
      (agrees_of (sce_ok P.sce hkey hone).says (one (has_of hps (mem14 (.inr (.inr (.inr (.inr (.inr (.inr (.inl (List.mem_cons_self ..))))))))) hW))) c
  obtain ⟨m, r, m1, m2, m3, m4⟩ := C53_script_extensions hl hd hr.complete.titles scripts hq.scriptsIn (hr.functional _ hq.scriptsIn) hq.sce hq.sceNonempty hq.sceSize hq.sceWords c
  rw [hal] at m1
  obtain rfl := Option.some.inj m1
  rw [hcall, m2]
  cases r with
  | none => exact .inl ⟨rfl, m3.1 rfl⟩
  | some l =>
    obtain ⟨v, ws, ns, x1, x2, x3, x4⟩ := m4 l rfl
    exact .inr ⟨v, ws, ns, l, x1, x2, x3, x4, rfl⟩

theorem enum_agrees {enums : List EnumDef} {es : List Piece} (hes : List.Forall₂ Means es (enumParts (fun d => minimalUintText d.members.length) enums))
    (hok : EnumsOk enums) (hE : Linked W es inUnicode) {d : EnumDef} (hd : d ∈ enums) : Agrees W (writeEnumClass d) := by
  have h1 := (enum_ok d (hok d hd).1 (hok d hd).2.1).says
  rw [numbered_eq] at h1
  exact agrees_of h1 (one (has_of hes (item := .enum d.name (minimalUintText d.members.length) d.identifiers.zipIdx) (List.mem_map.2 ⟨d, hd, rfl⟩) hE))

theorem gc_in {enums : List EnumDef} {D : Db} (hce : collectEnums D = some enums) : coreEnum D ∈ enums ∧ gcEnum D ∈ enums := by
  unfold collectEnums at hce
  obtain ⟨age, -, rfl⟩ := Option.map_eq_some_iff.1 hce
  exact ⟨List.mem_cons_of_mem _ (List.mem_append_right _ (List.mem_append_right _ (List.mem_cons_self ..))),
    List.mem_cons_of_mem _ (List.mem_append_right _ (List.mem_append_right _ (List.mem_cons_of_mem _ (List.mem_cons_self ..))))⟩

theorem api_core (hl : Loads A.toFiles P.db) (hd : Describes A.toFiles U) (hpa : ParsesAll A P) (hr : Release U N) (hsz : U.core.length < 2 ^ 64)
    (hsep : ∀ p, Separate (withValue U.core p)) (hE : Agrees W (writeEnumClass (coreEnum P.db)))
    (hps : List.Forall₂ Means ps (sourceParts (apiData P al))) (hok : UcdOk (apiData P al)) (hW : Linked W ps inTables) :
    ∃ f, Defined ps (containsOf "Core_Property".toList) f ∧ ∀ e ∈ U.core, Spec.UcdFile.Word e.2.2 → ∃ k, W.number ["Core_Property".toList, e.2.2] = some k ∧
      ∀ c, (f.call W [.num k, .num c] = .val (.bool true) ↔ Assigns U.core c e.2.2) ∧ (f.call W [.num k, .num c] = .val (.bool false) ↔ ¬ Assigns U.core c e.2.2) := by
  obtain ⟨f, h1, h2⟩ := C64_core_of_files P.core (fun g hg => (hok.core g hg).1)
  refine ⟨f, defined_of hps (mem14 (.inr (.inr (.inl (List.mem_cons_self ..))))) h1, fun e he hw => ?_⟩
  refine h2 W hl hd (complete_core hr.complete) hsz hpa.core.1.symm (fun g hg => (hok.core g hg).2) hE (fun g hg => ?_) e.2.2 ?_ hw (hsep _)
  · exact agrees_of (intervals_ok g.1 g.2 (hok.core g hg).1 (hok.core g hg).2).says (one (has_of hps (mem14 (.inr (.inl (List.mem_map.2 ⟨g, hg, rfl⟩)))) hW))
  · have := (core_keys hl hd (complete_core hr.complete) e.2.2).2 ⟨e, he, hw, rfl⟩
    rw [← hpa.core.1, List.map_map] at this
    exact this

theorem api_contains (hl : Loads A.toFiles P.db) (hd : Describes A.toFiles U) (hpa : ParsesAll A P) (hr : Release U N) (hq : Queryable U N scripts)
    (hid : ∀ g ∈ (gcEnum P.db).members, Ident g) (hps : List.Forall₂ Means ps (sourceParts (apiData P al))) (hok : UcdOk (apiData P al)) :
    ∃ f, Defined ps (containsOf "General_Category".toList) f ∧ ∀ W, Agrees W (writeEnumClass (gcEnum P.db)) → Linked W ps inTables →
      (∀ s ∈ U.gc, ∃ k, W.number ["General_Category".toList, s.1] = some k ∧
        ∀ c, (f.call W [.num k, .num c] = .val (.bool true) ↔ CategoryOf (allOf U.gc) N.gc c s.1) ∧
          (f.call W [.num k, .num c] = .val (.bool false) ↔ ¬ CategoryOf (allOf U.gc) N.gc c s.1)) ∧
      ∀ k, (∀ s ∈ U.gc, W.number ["General_Category".toList, s.1] ≠ some k) → ∀ c, f.call W [.num k, .num c] = .val (.bool false) := by
  obtain ⟨f, h1, -, h2⟩ := C64_contains_category P.gcMap (fun g hg => (hok.gcMap g hg).1)
  obtain ⟨m, m1, m2, m3, m4⟩ := gc_loaded hl hd hr.complete.titles N.gc hr.complete.gcIn hr.complete.gcOk hq.gc.words
  have hkeys : P.gcMap.map (·.1) = P.db.gcMap.map (·.1) := by rw [← hpa.gcMap.1, List.map_map]; rfl
  have hsec : ∀ g ∈ P.gcMap.map (·.1), ∃ es, (g, es) ∈ U.gc := by
    intro g hg
    rw [hkeys, m3] at hg
    obtain ⟨x, hx, rfl⟩ := List.mem_map.1 hg
    obtain ⟨es, h, -⟩ := sections_mem hq.gcTitles hx
    exact ⟨es, h⟩
  have hlong : ∀ s ∈ U.gc, ∃ e ∈ allOf U.gc, (e.2.2, s.1) ∈ N.gc := by
    intro s hs
    obtain ⟨e, he⟩ := List.exists_mem_of_ne_nil _ (hq.gcSections s hs).1
    exact ⟨e, List.mem_flatMap.2 ⟨s, hs, he⟩, hq.gcTitled s hs e he⟩
  have hmem : ∀ g ∈ P.gcMap.map (·.1), g ∈ (gcEnum P.db).members := by
    intro g hg
    obtain ⟨es, h⟩ := hsec g hg
    obtain ⟨e, he, hn⟩ := hlong _ h
    have e1 : (gcRange m e).property = g := hr.complete.gcOk _ _ _ (m2 e he) hn
    refine List.mem_cons_of_mem _ ((mem_mkSet _ _).2 (List.mem_map.2 ⟨gcRange m e, m4.1.mem_iff.2 (List.mem_map_of_mem he), e1⟩))
  have hnd : (P.gcMap.map (·.1)).Nodup := by
    rw [hkeys, m3]
    exact amOk_keys (sectionsMap_spec _ U.gc [] List.Pairwise.nil).1
  have hun : "Unspecified".toList ∉ P.gcMap.map (·.1) := by
    intro h
    obtain ⟨es, h⟩ := hsec _ h
    obtain ⟨e, he, hn⟩ := hlong _ h
    exact hr.complete.gcReserved _ hn
  refine ⟨f, defined_of hps (mem14 (.inr (.inr (.inr (.inr (.inl (List.mem_cons_self ..))))))) h1, fun W hE hW => ?_⟩
  obtain ⟨h3, h4⟩ := h2 W P.db hpa.gcMap.1.symm (fun g hg => (hok.gcMap g hg).2) hmem hnd hun hid hE (fun g hg =>
    agrees_of (intervals_ok g.1 g.2 (hok.gcMap g hg).1 (hok.gcMap g hg).2).says (one (has_of hps (mem14 (.inr (.inr (.inr (.inl (List.mem_map.2 ⟨g, hg, rfl⟩)))))) hW)))
  refine ⟨fun s hs => ?_, fun k hk => h4 k fun g hg => ?_⟩
  rotate_left
  · obtain ⟨es, h⟩ := hsec g hg
    exact hk _ h
  obtain ⟨k, k1, k2⟩ := h3 s.1 (by
    rw [hkeys, m3]
    exact List.mem_map.2 ⟨_, amFind_mem _ _ _ (sectionsMap_find _ _ hq.gcTitles _ _ hs), rfl⟩)
  refine ⟨k, k1, fun c => ?_⟩
  obtain ⟨b, b1, b2⟩ := C53_contains_category hl hd hr.complete.titles N.gc hr.complete.gcIn hr.complete.gcOk hq.gc.words hq.gcTitles hq.gcTitled s.1 s.2 hs
    (hq.gcSections s hs).1 (hq.gcSections s hs).2.1 (hq.gcSections s hs).2.2 c
  rw [k2 c]
  refine ofMem_bool b1 (b2.trans ⟨fun h => .inl h, ?_⟩)
  rintro (h | ⟨-, h⟩)
  · exact h
  · obtain ⟨e, he, hn⟩ := hlong s hs
    rw [h] at hn
    exact absurd hn (hr.complete.gcReserved _)

end

/-! ## The theorem -/

theorem holds_clean {dir : Dir} {ucd : Str} {A : AllFiles} (hh : Holds dir ucd A) : ∀ ls ∈ [A.core, A.gc, A.scripts, A.sce, A.gcb, A.eaw, A.emoji], CleanLines ls := by
  have : ∀ ls ∈ (filesAndLines A).map (·.2), CleanLines ls := by
    intro ls h
    obtain ⟨x, hx, rfl⟩ := List.mem_map.1 h
    exact (hh x hx).1
  unfold filesAndLines at this
  simp only [List.map_cons, List.map_nil] at this
  intro ls h
  apply this
  simp only [List.mem_cons, List.not_mem_nil, or_false] at h ⊢
  tauto

theorem content_source (i : GenInput) (enums : List EnumDef) (D : UcdData) (ns : Str) : content i enums D ns "ucd.cpp".toList = some (ucdSource D) := by
  unfold content
  rw [if_pos rfl]

theorem content_enums (i : GenInput) (enums : List EnumDef) (D : UcdData) (ns : Str) : content i enums D ns "ucd_enums.h".toList = some (enumsFile enums) := by
  unfold content
  rw [if_neg (by decide), if_neg (by decide), if_pos rfl]

theorem gc_idents {A : AllFiles} {P : ParsedUcd} {al : List (Str × Str)} (hpa : ParsesAll A P) (hok : UcdOk (apiData P al)) : ∀ g ∈ (gcEnum P.db).members, Ident g := by
  intro g hg
  rcases List.mem_cons.1 hg with h | h
  · rw [h]
    exact ident_of (by decide)
  · obtain ⟨r, hr', e⟩ := List.mem_map.1 ((mem_mkSet _ _).1 h)
    rw [← hpa.gcats.1] at hr'
    obtain ⟨x, hx, e'⟩ := List.mem_map.1 hr'
    rw [← e, ← e']
    exact (hok.gcats x hx).1

theorem api_of (same : Nat → Nat → Bool) (dir : Dir) (ucd : Str) (A : AllFiles) (U : Contents) (N : ValueNames) (hh : Holds dir ucd A)
    (hd : Describes A.toFiles U) (hr : Release U N) (hi : Identifiers U N) (scripts : List (Str × Str)) (hq : Queryable U N scripts) (hn : Namable U N scripts)
    (hc : Comments A) (env : Os) (hw : Willing env) (a0 out : Str) (rest : List Str)
    (disk : Disk) (code : Nat) (disk' : Disk) (h : RunsOn same dir env (a0 :: ucd :: out :: rest) disk code disk') :
    ∃ text textE ps es, disk' (inDir out "ucd.cpp".toList) = some text ∧ Consists text ps ∧ disk' (inDir out "ucd_enums.h".toList) = some textE ∧ Consists textE es ∧
      (∀ W, Linked W ps inTables → Linked W es inUnicode → Answers U N scripts ps W) ∧
      ∃ P al enums, ParsesAll A P ∧ collectEnums P.db = some enums ∧ List.Forall₂ Means ps (sourceParts (apiData P al)) ∧
        List.Forall₂ Means es (enumParts (fun d => minimalUintText d.members.length) enums) := by
  obtain ⟨P, i, enums, al, hl, hpa, -, hce, hal, hf⟩ := files_of hh hd hr hw h
  obtain ⟨enums', h1, hdec⟩ := C55_exact hl hd hr.complete hr.functional
  rw [hce] at h1
  obtain rfl := Option.some.inj h1
  have hek := enumsOk_of hce hdec hi
  obtain ⟨es, p1, p2⟩ := enums_consists enums hek
  have hok := ucdOk_of hpa hd hr hq hn (holds_clean hh) hc hal
  obtain ⟨ps, q1, q2⟩ := C67_source _ hok
  refine ⟨ucdSource (apiData P al), enumsFile enums, ps, es, (hf _ (by decide)).trans (content_source _ _ _ _), q1,
    (hf _ (by decide)).trans (content_enums _ _ _ _), p1, fun W hW hE => ?_, P, al, enums, hpa, hce, q2, p2⟩
  obtain ⟨g1, g2⟩ := gc_in hce
  exact {
    plane := api_plane q2 hok hW
    script := api_script hl hd hpa hq.script q2 hok hW
    category := api_category hl hd hpa hr hq.gc q2 hok hW
    width := api_width hl hd hpa hq.eaw hq.eawValues q2 hok hW
    block := api_block hl hd hq.blocks hq.blocksNonempty hq.blocksSize q2 hok hW
    breaks := fun s hs => api_breaks hl hd hpa hq.gcbTitles hs (hq.gcb s hs) (hn.gcb s hs).1 (hn.gcb s hs).2.1 q2 hok hW
    emoji := fun e he => api_emoji hl hd hpa (fun e he => hr.complete.words e (.inr (.inr (.inr (.inr (.inr (.inl he))))))) hq.emojiSize he (hq.emoji _) (hn.emoji e he) q2 hok hW
    mirrored := api_mirrored hl hd hq.mirrored hq.mirroredSome hq.mirroredSize q2 hW
    glyph := api_glyph hl hd hq.glyphs q2 hW
    age := api_age hl hd hr q2 hok
    core := api_core hl hd hpa hr hq.coreSize hq.core (enum_agrees p2 hek hE g1) q2 hok hW
    contains := (api_contains hl hd hpa hr hq (gc_idents hpa hok) q2 hok).imp fun f h => ⟨h.1, (h.2 W (enum_agrees p2 hek hE g2) hW).1⟩
    extensions := api_extensions hl hd hpa hr hq hal q2 hok hW }

end Verif.Props.Tg
