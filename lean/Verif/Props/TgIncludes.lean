import Verif.Spec.CxxIncludes
import Verif.Lemmas.TgFiles
/-!
# C68: what the generated files include

Every generated file includes, in front of its declarations, the generated headers whose enumerations and tables it names, and the headers of the
standard types it names.
-/

namespace Verif.Props.Tg
open Verif.Tg
open Verif.Spec.Cxx (Idle HasInclude FileIncludes behindLicence splice splice_append)

def unlines (ls : List Str) : Str := (ls.map (· ++ ['\n'])).flatten

def idleB (l : Str) : Bool := (l.isEmpty || "#".toList.isPrefixOf l || "//".toList.isPrefixOf l) && !(l.contains '\n')

theorem idleB_ok {l : Str} (h : idleB l = true) : Idle l ∧ '\n' ∉ l := by
  unfold idleB at h
  rw [Bool.and_eq_true, Bool.or_eq_true, Bool.or_eq_true, List.isEmpty_iff, List.isPrefixOf_iff_prefix, List.isPrefixOf_iff_prefix] at h
  refine ⟨?_, ?_⟩
  · rcases h.1 with (h | h) | h
    · exact .inl h
    · exact .inr (.inl h)
    · exact .inr (.inr h)
  · simpa using h.2

theorem has_lines (h t : Str) (ls : List Str) (hi : ls.all idleB = true) (hm : "#include <".toList ++ h ++ ">".toList ∈ ls) :
    HasInclude h (unlines ls ++ t) := by
  induction ls with
  | nil => cases hm
  | cons l r ih =>
    have e : unlines (l :: r) ++ t = l ++ '\n' :: (unlines r ++ t) := by
      unfold unlines
      rw [List.map_cons, List.flatten_cons, List.append_assoc, List.append_assoc]
      rfl
    rw [List.all_cons, Bool.and_eq_true] at hi
    rw [e]
    rcases List.mem_cons.1 hm with hm | hm
    · rw [← hm]
      exact .here _
    · exact .later _ _ (idleB_ok hi.1).1 (idleB_ok hi.1).2 (ih hi.2 hm)

theorem licence_includes {includes : Str} (ls : List Str) (text : Str) (e : includes = unlines ls) (hb : ∀ c ∈ includes, c ≠ '\\') (hi : ls.all idleB = true)
    {h : Str} (hm : "#include <".toList ++ h ++ ">".toList ∈ ls) : FileIncludes (licenseHeader ++ (includes ++ text)) h := by
  refine ⟨'\n' :: (includes ++ splice text), ?_, ?_⟩
  · rw [splice_append _ _ licence_plain, splice_append _ _ hb, licence_behind]
  · rw [e]
    exact .later [] _ (.inl rfl) (by decide) (has_lines h _ ls hi hm)

theorem disclaimer_includes {includes : Str} (ls : List Str) (text : Str) (e : includes = unlines ls) (hb : ∀ c ∈ includes, c ≠ '\\') (hi : ls.all idleB = true)
    {h : Str} (hm : "#include <".toList ++ h ++ ">".toList ∈ ls) : FileIncludes (disclaimer ++ (includes ++ text)) h := by
  refine ⟨disclaimer ++ (includes ++ splice text), ?_, ?_⟩
  · rw [splice_append _ _ (by decide +kernel), splice_append _ _ hb, disclaimer_behind]
  · rw [e]
    have d : disclaimer = "// This file was auto-generated by unicode_tablegen.".toList ++ ['\n'] := by decide +kernel
    rw [d, List.append_assoc]
    exact .later _ _ (.inr (.inr (by decide +kernel))) (by decide +kernel) (has_lines h _ ls hi hm)

def linesOf (ls : List String) : List Str := ls.map String.toList

/-- **C68, include lines.**  `ucd_ostream.h` sees the enumerations through `ucd.h`, which includes them; the two sources of the property tables see the
declarations of their tables; and everybody sees the types of the standard library that the declarations use. -/
theorem C68_includes (enums : List EnumDef) (D : UcdData) (u : Ud) (f : Folds) (s : Special) (q : Qc) (comp : List Tables.Comp) (ns : Str)
    (stage1 stage2 names1 names2 : List Nat) (rows : List Emitted) (names : List Str) :
    FileIncludes (enumsFile enums) "cstdint".toList ∧
    (∀ h ∈ ["libunicode/ucd.h", "ostream"], FileIncludes (ostreamFile enums) h.toList) ∧
    (∀ h ∈ ["libunicode/ucd_enums.h", "format"], FileIncludes (fmtFile enums) h.toList) ∧
    (∀ h ∈ ["libunicode/ucd_enums.h", "optional", "span", "string", "string_view", "utility"], FileIncludes (ucdHeader D) h.toList) ∧
    (∀ h ∈ ["libunicode/ucd.h", "libunicode/ucd_private.h", "algorithm", "array", "span", "string_view"], FileIncludes (ucdSource D) h.toList) ∧
    (∀ h ∈ ["array", "cstdint", "utility"], FileIncludes (caseNormFile u f s q comp) h.toList) ∧
    (∀ h ∈ ["libunicode/codepoint_properties.h", "array", "cstdint"], FileIncludes (propsHeader ns stage1 stage2 rows names1 names2 names) h.toList) ∧
    (∀ h ∈ ["libunicode/codepoint_properties.h", "libunicode/codepoint_properties_data.h", "libunicode/emoji_segmenter.h", "libunicode/ucd_enums.h", "array", "cstdint"],
      FileIncludes (propsSource ns stage1 stage2 rows) h.toList) ∧
    (∀ h ∈ ["libunicode/codepoint_properties_data.h", "array", "cstdint", "string_view"], FileIncludes (namesSource ns stage1 stage2 names) h.toList) := by
  refine ⟨?_, ?_, ?_, ?_, ?_, ?_, ?_, ?_, ?_⟩
  · exact licence_includes (linesOf ["#pragma once", "", "#include <cstdint>", ""]) _ (by decide +kernel) (by decide +kernel) (by decide +kernel) (by decide +kernel)
  all_goals intro h hh
  · refine licence_includes (linesOf ["#pragma once", "", "#include <libunicode/ucd.h>", "", "#include <ostream>", ""]) _ (by decide +kernel) (by decide +kernel) (by decide +kernel) ?_
    revert h; decide +kernel
  · refine licence_includes (linesOf ["#pragma once", "", "#include <libunicode/ucd_enums.h>", "", "#include <format>", ""]) _ (by decide +kernel) (by decide +kernel) (by decide +kernel) ?_
    revert h; decide +kernel
  · refine licence_includes (linesOf ["#pragma once", "", "#include <libunicode/ucd_enums.h>", "", "#include <optional>", "#include <span>", "#include <string>",
      "#include <string_view>", "#include <utility>", ""]) _ (by decide +kernel) (by decide +kernel) (by decide +kernel) ?_
    revert h; decide +kernel
  · refine licence_includes (linesOf ["", "#include <libunicode/ucd.h>", "#include <libunicode/ucd_private.h>", "", "#include <algorithm>", "#include <array>", "#include <span>",
      "#include <string_view>", ""]) _ (by decide +kernel) (by decide +kernel) (by decide +kernel) ?_
    revert h; decide +kernel
  · refine licence_includes (linesOf ["", "#pragma once", "", "#include <array>", "#include <cstdint>", "#include <utility>", ""]) _ (by decide +kernel) (by decide +kernel)
      (by decide +kernel) ?_
    revert h; decide +kernel
  · refine disclaimer_includes (linesOf ["#pragma once", "", "#include <libunicode/codepoint_properties.h>", "", "#include <array>", "#include <cstdint>", ""]) _ (by decide +kernel)
      (by decide +kernel) (by decide +kernel) ?_
    revert h; decide +kernel
  · refine disclaimer_includes (linesOf ["#include <libunicode/codepoint_properties.h>", "#include <libunicode/codepoint_properties_data.h>", "#include <libunicode/emoji_segmenter.h>",
      "#include <libunicode/ucd_enums.h>", "", "#include <array>", "#include <cstdint>", "#include <string_view>", ""]) _ (by decide +kernel) (by decide +kernel) (by decide +kernel) ?_
    revert h; decide +kernel
  · refine disclaimer_includes (linesOf ["#include <libunicode/codepoint_properties_data.h>", "", "#include <array>", "#include <string_view>", "#include <cstdint>", ""]) _ (by decide +kernel)
      (by decide +kernel) (by decide +kernel) ?_
    revert h; decide +kernel

end Verif.Props.Tg
