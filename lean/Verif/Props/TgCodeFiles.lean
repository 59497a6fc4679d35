import Verif.Props.TgCode
import Verif.Props.TgApi
import Verif.Props.TgApi2
import Verif.Props.TgApi3
/-!
# C64 together with C53: from the Unicode files to the calls of the generated functions

The texts of the generated tables, read as C++ declarations, and the texts of the generated functions, read as C++ functions, give for
every code point what the files say.
-/

namespace Verif.Props.Tg

open Verif Verif.Tg
open Verif.Utf8 (Mem)
open Verif.Spec.Ucd
open Verif.Spec.UcdFile
open Verif.Spec.Cxx (Ident World Value Res Fn DefinesFn Agrees)

theorem ofMem_enum {path : Str} {r : Mem Str} {v : Str} :
    Res.ofMem (fun v => Value.enumerator [path, v]) r = .val (.enumerator [path, v]) ↔ r = .ok v := by
  cases r with
  | oob => exact ⟨fun h => (by cases h), fun h => by cases h⟩
  | ok w =>
    constructor
    · intro h
      have h : Res.val (Value.enumerator [path, w]) = .val (.enumerator [path, v]) := h
      injection h with h
      injection h with h
      injection h with _ h
      injection h with h
      rw [h]
    · intro h
      injection h with h
      rw [h]
      rfl

/-- `script` -/
theorem C64_script_of_files : ∃ f, DefinesFn codeScript f ∧
    ∀ {F D U} (W : World) (rows : List (PRange × Str)), Loads F D → Describes F U → Plain U.scripts →
      rows.map (·.1) = D.scripts → (∀ r ∈ rows, Ident r.1.property) → (∀ r ∈ rows, OneLine r.2) → Agrees W (writeScripts rows) →
      ∀ c v, f.call W [.num c] = .val (.enumerator ["Script".toList, v]) ↔ ValueOf U.scripts "Unknown".toList c v := by
  obtain ⟨f, h1, -, h3⟩ := C64_script
  refine ⟨f, h1, fun W rows hl hd hp hr hi hc hA c v => ?_⟩
  rw [h3 W _ rows hr hi hc hA c, ofMem_enum]
  exact C53_script hl hd hp c v

/-- `general_category::get` -/
theorem C64_general_category_of_files : ∃ f, DefinesFn codeGc f ∧
    ∀ {F D U} (W : World) (rows : List (PRange × Str)), Loads F D → Describes F U → (U.aliases.map (·.1)).Nodup →
      ∀ al, ("General_Category".toList, al) ∈ U.aliases → Functional al → Plain (allOf U.gc) →
      rows.map (·.1) = D.gcats → (∀ r ∈ rows, Ident r.1.property) → (∀ r ∈ rows, OneLine r.2) → Agrees W (writeGcTable rows) →
      ∀ c v, f.call W [.num c] = .val (.enumerator ["General_Category".toList, v]) ↔ CategoryOf (allOf U.gc) al c v := by
  obtain ⟨f, h1, -, h3⟩ := C64_general_category
  refine ⟨f, h1, fun W rows hl hd hn al hs hf hp hr hi hc hA c v => ?_⟩
  rw [h3 W _ rows hr hi hc hA c, ofMem_enum]
  exact C53_general_category hl hd hn al hs hf hp c v

/-- `east_asian_width` -/
theorem C64_east_asian_width_of_files : ∃ f, DefinesFn codeEaw f ∧
    ∀ {F D U} (W : World) (rows : List (PRange × Str)), Loads F D → Describes F U → Plain U.eaw → (∀ e ∈ U.eaw, ∃ p ∈ widths, e.2.2 = p.1.toList) →
      rows.map (·.1) = D.eaw → (∀ r ∈ rows, OneLine r.2) → Agrees W (writeEaw rows) →
      ∀ c v, f.call W [.num c] = .val (.enumerator ["EastAsianWidth".toList, v]) ↔ WidthValue U.eaw c v := by
  obtain ⟨f, h1, -, h3⟩ := C64_east_asian_width
  refine ⟨f, h1, fun W rows hl hd hp hw hr hc hA c v => ?_⟩
  rw [h3 W _ rows hr hc hA c, ofMem_enum]
  exact C53_east_asian_width hl hd hp hw c v

/-- `block` -/
theorem C64_block_of_files : ∃ f, DefinesFn codeBlock f ∧
    ∀ {F D U} (W : World), Loads F D → Describes F U → Ascending U.blocks → U.blocks ≠ [] → U.blocks.length < 2 ^ 64 →
      (∀ r ∈ D.blocks, Ident (sanitize r.property)) → Agrees W (writeBlocks D.blocks) →
      ∀ c v, f.call W [.num c] = .val (.enumerator ["Block".toList, v]) ↔ BlockOf U.blocks c v := by
  obtain ⟨f, h1, -, h3⟩ := C64_block
  refine ⟨f, h1, fun W hl hd ha hne hs hi hA c v => ?_⟩
  rw [h3 W _ hi hA c, ofMem_enum]
  exact C53_block hl hd ha hne hs c v

/-- `plane` -/
theorem C64_plane_exact : ∃ f, DefinesFn codePlane f ∧
    ∀ (W : World) (rows : List (PRange × Nat × Str)), rows.map (·.1) = planes → (∀ r ∈ rows, OneLine r.2.2) → Agrees W (writePlanes rows) →
      ∀ c v, f.call W [.num c] = .val (.enumerator ["Plane".toList, v]) ↔
        (c ≤ 0x10FFFF ∧ ∃ s, planeNames[c / 0x10000]? = some s ∧ v = s.toList) ∨ (0x10FFFF < c ∧ v = "Unassigned".toList) := by
  obtain ⟨f, h1, -, h3⟩ := C64_plane
  refine ⟨f, h1, fun W rows hr hc hA c v => ?_⟩
  rw [h3 W rows hr hc hA c, ofMem_enum]
  exact C53_plane c v

/-- `grapheme_cluster_break`, and the functions of further groups -/
theorem C64_break_of_files (group : String) (hg : Ident group.toList) (hu : Unreserved group.toList) : ∃ f, DefinesFn (codeBreak group.toList) f ∧
    ∀ {F D U} (W : World) (rows : List (PRange × Str)), Loads F D → Describes F U → (U.gcb.map (·.1)).Nodup →
      ∀ es, (group.toList, es) ∈ U.gcb → Plain es →
      amFind D.gcb group.toList = some (rows.map (·.1)) → (∀ r ∈ rows, Ident r.1.property) → (∀ r ∈ rows, OneLine r.2) →
      Agrees W (writeBreaks group.toList rows) →
      ∀ c v, f.call W [.num c] = .val (.enumerator [group.toList, v]) ↔ ValueOf es "Undefined".toList c v := by
  obtain ⟨f, h1, -, h3⟩ := C64_break group hg hu
  refine ⟨f, h1, fun W rows hl hd hn es hs hp hr hi hc hA c v => ?_⟩
  obtain ⟨r, r1, r2⟩ := h3 W _ rows hr hi hc hA c
  obtain ⟨g, g1, g2⟩ := C53_grapheme_cluster_break hl hd hn _ es hs hp c
  rw [r1] at g1
  injection g1 with g1
  rw [r2, ofMem_enum, g1]
  exact g2 v

theorem ofMem_bool {r : Mem Bool} {b : Bool} {P : Prop} (h : r = .ok b) (hb : b = true ↔ P) :
    (Res.ofMem Value.bool r = .val (.bool true) ↔ P) ∧ (Res.ofMem Value.bool r = .val (.bool false) ↔ ¬ P) := by
  subst h
  cases b with
  | false =>
    have : ¬ P := fun h => by have := hb.2 h; cases this
    exact ⟨⟨fun h => (by cases h), fun h => absurd h this⟩, ⟨fun _ => this, fun _ => rfl⟩⟩
  | true =>
    have : P := hb.1 rfl
    exact ⟨⟨fun _ => this, fun _ => rfl⟩, ⟨fun h => (by cases h), fun h => absurd this h⟩⟩

/-- `is_emoji`, … -/
theorem C64_emoji_of_files (p : Str) (hn : Ident p) : ∃ f, DefinesFn (codeEmoji p) f ∧
    ∀ {F D U} (W : World) (rows : List (PRange × Str)), Loads F D → Describes F U → Words U.emoji → U.emoji.length < 2 ^ 64 →
      Separate (withValue U.emoji p) → (∃ e ∈ U.emoji, e.2.2 = p) → amFind D.emoji p = some (rows.map (·.1)) → (∀ r ∈ rows, OneLine r.2) →
      Agrees W (writeIntervals p rows) →
      ∀ c, (f.call W [.num c] = .val (.bool true) ↔ Assigns U.emoji c p) ∧ (f.call W [.num c] = .val (.bool false) ↔ ¬ Assigns U.emoji c p) := by
  obtain ⟨f, h1, -, h3⟩ := C64_emoji p hn
  refine ⟨f, h1, fun W rows hl hd hw hs hsep he hr hc hA c => ?_⟩
  obtain ⟨r, r1, r2⟩ := h3 W _ rows hr hc hA c
  obtain ⟨b, b1, b2⟩ := C53_emoji hl hd hw hs p hsep c he
  rw [r1] at b1
  injection b1 with b1
  rw [r2]
  exact ofMem_bool b1 b2

/-- `is_mirrored` -/
theorem C64_is_mirrored_of_files : ∃ f, DefinesFn codeMirrored f ∧
    ∀ {F D U} (W : World), Loads F D → Describes F U → (U.mirrored.map (·.1)).Nodup → (∃ c, (c, true) ∈ U.mirrored) → U.mirrored.length < 2 ^ 64 →
      Agrees W (writeMirrored D.mirrored) →
      ∀ c, (f.call W [.num c] = .val (.bool true) ↔ (c, true) ∈ U.mirrored) ∧ (f.call W [.num c] = .val (.bool false) ↔ (c, true) ∉ U.mirrored) := by
  obtain ⟨f, h1, -, h3⟩ := C64_is_mirrored
  refine ⟨f, h1, fun W hl hd hn hne hs hA c => ?_⟩
  obtain ⟨b, b1, b2⟩ := C53_is_mirrored hl hd hn hne hs c
  rw [h3 W _ hA c]
  exact ofMem_bool b1 b2

/-- `contains(Core_Property, char32_t)` -/
theorem C64_core_of_files (core : List (Str × List (PRange × Str))) (hi : ∀ e ∈ core, Ident e.1) : ∃ f, DefinesFn (codeCore (core.map (·.1))) f ∧
    ∀ {F D U} (W : World), Loads F D → Describes F U → CoreValues U.core → U.core.length < 2 ^ 64 →
      D.core = core.map (fun e => (e.1, e.2.map (·.1))) → (∀ e ∈ core, ∀ r ∈ e.2, OneLine r.2) →
      Agrees W (writeEnumClass (coreEnum D)) → (∀ e ∈ core, Agrees W (writeIntervals e.1 e.2)) →
      ∀ p ∈ core.map (·.1), Spec.UcdFile.Word p → Separate (withValue U.core p) → ∃ k, W.number ["Core_Property".toList, p] = some k ∧
        ∀ c, (f.call W [.num k, .num c] = .val (.bool true) ↔ Assigns U.core c p) ∧ (f.call W [.num k, .num c] = .val (.bool false) ↔ ¬ Assigns U.core c p) := by
  obtain ⟨f, h1, -, h3⟩ := C64_core core hi
  refine ⟨f, h1, fun W hl hd hw hs hD hc hE hT p hp hwp hsep => ?_⟩
  obtain ⟨k, k1, k2⟩ := (h3 W _ hD hc hE hT).1 p hp
  refine ⟨k, k1, fun c => ?_⟩
  obtain ⟨b, b1, b2⟩ := C53_core hl hd hw hs p hwp hsep c
  rw [k2 c]
  exact ofMem_bool b1 b2

/-- `bidi_mirroring_glyph` -/
theorem C64_bidi_mirroring_glyph_of_files : ∃ f, DefinesFn codeGlyph f ∧
    ∀ {F D U} (W : World), Loads F D → Describes F U → (U.glyphs.map (·.1)).Nodup → Agrees W (writeGlyphs D.glyphs) →
      ∀ c g, f.call W [.num c] = .val (.num g) ↔ (c, g) ∈ U.glyphs ∨ (∀ g', (c, g') ∉ U.glyphs) ∧ g = c := by
  obtain ⟨f, h1, -, h3⟩ := C64_bidi_mirroring_glyph
  refine ⟨f, h1, fun W hl hd hn hA c g => ?_⟩
  rw [h3 W _ hA c, ← C53_bidi_mirroring_glyph hl hd hn c g]
  cases apiGlyph _ c with
  | oob => exact ⟨fun h => (by cases h), fun h => by cases h⟩
  | ok x =>
    constructor
    · intro h
      have h : Res.val (Value.num x) = .val (.num g) := h
      injection h with h
      injection h with h
      rw [h]
    · intro h
      injection h with h
      rw [h]
      rfl

/-- `make_age` -/
theorem C64_make_age_of_files {F D U} (hl : Loads F D) (hd : Describes F U) (hn : (U.aliases.map (·.1)).Nodup) (es : List (Str × Str))
    (hs : ("Age".toList, es) ∈ U.aliases) (hf : Functional es) :
    ∃ m, amFind D.aliases "Age".toList = some m ∧
      ((∀ e ∈ m, ∀ c ∈ e.1, c ≠ '"' ∧ c ≠ '\\' ∧ c ≠ '\n') → (∀ e ∈ m, Ident e.2) →
        ∃ f, DefinesFn (codeAge m) f ∧ ∀ W s a, f.call W [.text s] = .val (.opt (some (.enumerator ["Age".toList, a]))) ↔
          (s, a) ∈ es ∧ a ≠ "Unassigned".toList) := by
  obtain ⟨m, m1, -⟩ := C53_make_age hl hd hn es hs hf [] []
  refine ⟨m, m1, fun hk hv => ?_⟩
  obtain ⟨f, h1, -, h3⟩ := C64_make_age m hk hv
  refine ⟨f, h1, fun W s a => ?_⟩
  obtain ⟨m', m1', m2⟩ := C53_make_age hl hd hn es hs hf s a
  rw [m1] at m1'
  injection m1' with m1'
  subst m1'
  rw [h3 W s, ← m2]
  cases apiMakeAge m s with
  | none => exact ⟨fun h => (by cases h), fun h => by cases h⟩
  | some x =>
    constructor
    · intro h
      have h : Res.val (Value.opt (some (.enumerator ["Age".toList, x]))) = .val (.opt (some (.enumerator ["Age".toList, a]))) := h
      injection h with h
      injection h with h
      injection h with h
      injection h with h
      injection h with _ h
      injection h with h
      rw [h]
    · intro h
      injection h with h
      rw [h]
      rfl

end Verif.Props.Tg
