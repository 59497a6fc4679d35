import Verif.Lemmas.CxxFn
/-!
# Reading the generated functions
-/

namespace Verif.Tg
open Verif.Utf8 (Mem)
open Verif.Spec.Cxx

/-! ## Functions without data -/

/-- A text without variable parts. -/
theorem defines_lit {text : Str} {ts : List Tok} {f : Fn} (n : Nat) (h : lexFn n text = some ts) (h' : readFn ts = some f) : DefinesFn text f :=
  ⟨ts, (lexFn_ok h).reads, h'⟩

def toksOf (n : Nat) (text : Str) : List Tok := (lexFn n text).getD []

theorem plane_defines : DefinesFn codePlane (lookupFn "Plane".toList "plane".toList "codepoint".toList "Plane".toList ["Plane".toList, "Unassigned".toList]) :=
  defines_lit (ts := toksOf 200 codePlane) 200 (by decide +kernel) (by kernel_rfl)

theorem script_defines : DefinesFn codeScript (lookupFn "Script".toList "script".toList "codepoint".toList "Script".toList ["Script".toList, "Unknown".toList]) :=
  defines_lit (ts := toksOf 200 codeScript) 200 (by decide +kernel) (by kernel_rfl)

theorem gc_defines : DefinesFn codeGc (lookupFn "General_Category".toList "get".toList "value".toList "General_Category".toList
    ["General_Category".toList, "Unspecified".toList]) :=
  defines_lit (ts := toksOf 200 codeGc) 200 (by decide +kernel) (by kernel_rfl)

theorem block_defines : DefinesFn codeBlock (lookupFn "Block".toList "block".toList "codepoint".toList "Block".toList
    ["unicode".toList, "Block".toList, "Unspecified".toList]) :=
  defines_lit (ts := toksOf 200 codeBlock) 200 (by decide +kernel) (by kernel_rfl)

theorem eaw_defines : DefinesFn codeEaw (lookupFn "EastAsianWidth".toList "east_asian_width".toList "codepoint".toList "EastAsianWidth".toList
    ["EastAsianWidth".toList, "Unspecified".toList]) :=
  defines_lit (ts := toksOf 200 codeEaw) 200 (by decide +kernel) (by kernel_rfl)

/-- `bool name(char32_t codepoint) noexcept { return contains(tables::table, codepoint); }` -/
def containsFn (name table : Str) : Fn :=
  ⟨[.word "bool".toList], name, [([.word "char32_t".toList], "codepoint".toList)],
   [.ret (.call ["contains".toList] [.name ["tables".toList, table], .name ["codepoint".toList]])]⟩

theorem mirrored_defines : DefinesFn codeMirrored (containsFn "is_mirrored".toList "Bidi_Mirrored".toList) :=
  defines_lit (ts := toksOf 200 codeMirrored) 200 (by decide +kernel) (by kernel_rfl)

def sceFn : Fn :=
  ⟨[.word "std".toList, p ':', p ':', .word "optional".toList, p '<', .word "std".toList, p ':', p ':', .word "span".toList, p '<',
     .word "Script".toList, .word "const".toList, p '>', p '>'], "script_extensions".toList, [([.word "char32_t".toList], "codepoint".toList)],
   [.const "p".toList (.call ["search".toList] [.name ["tables".toList, "sce".toList], .name ["codepoint".toList]]),
    .retIf (.not (.method (.name ["p".toList]) "has_value".toList [])) (.name ["std".toList, "nullopt".toList]),
    .ret (.braced ["std".toList, "span".toList] [.word "Script".toList, .word "const".toList]
      [.arrow (.name ["p".toList]) "first".toList, .arrow (.name ["p".toList]) "second".toList])]⟩

theorem sce_defines : DefinesFn codeSce sceFn :=
  defines_lit (ts := toksOf 400 codeSce) 400 (by decide +kernel) (by kernel_rfl)

def glyphName : Expr := .name ["tables".toList, "Bidi_Mirroring_Glyph".toList]

def glyphFn : Fn :=
  ⟨[.word "char32_t".toList], "bidi_mirroring_glyph".toList, [([.word "char32_t".toList], "codepoint".toList)],
   [.const "it".toList (.call ["std".toList, "lower_bound".toList]
      [.method glyphName "begin".toList [], .method glyphName "end".toList [], .name ["codepoint".toList],
       .lambda ["pair".toList, "cp".toList] (.bin "<".toList (.member (.name ["pair".toList]) "first".toList) (.name ["cp".toList]))]),
    .retIf (.bin "&&".toList (.bin "!=".toList (.name ["it".toList]) (.method glyphName "end".toList []))
      (.bin "==".toList (.arrow (.name ["it".toList]) "first".toList) (.name ["codepoint".toList])))
      (.arrow (.name ["it".toList]) "second".toList),
    .ret (.name ["codepoint".toList])]⟩

theorem glyph_defines : DefinesFn codeGlyph glyphFn :=
  defines_lit (ts := toksOf 600 codeGlyph) 600 (by decide +kernel) (by kernel_rfl)

/-! ## Functions named after a property -/

theorem tolower_word {s : Str} (h : ∀ c ∈ s, isWord c = true) : ∀ c ∈ tolower s, isWord c = true := by
  intro c hc
  obtain ⟨d, hd, rfl⟩ := List.mem_map.1 hc
  have hw := h d hd
  by_cases hu : 'A' ≤ d ∧ d ≤ 'Z'
  · rw [if_pos hu]
    have h1 : (65 : Nat) ≤ d.toNat := hu.1
    have h2 : d.toNat ≤ 90 := hu.2
    have : ∀ k : Fin 26, isWord (Char.ofNat (65 + k.val + 32)) = true := by decide
    have h3 := this ⟨d.toNat - 65, by omega⟩
    rw [show d.toNat + 32 = 65 + (d.toNat - 65) + 32 by omega]
    exact h3
  · rw [if_neg hu]; exact hw

theorem is_word {name : Str} (h : ∀ c ∈ name, isWord c = true) : Word ("is_".toList ++ tolower name) :=
  ⟨by simp, fun c hc => by
    rcases List.mem_append.1 hc with h1 | h1
    · exact (by decide : ∀ c ∈ "is_".toList, isWord c = true) c h1
    · exact tolower_word h c h1⟩

theorem lower_word' {name : Str} (h : Word name) : Word (tolower name) :=
  ⟨by intro h'; exact h.1 (List.map_eq_nil_iff.1 h'), tolower_word h.2⟩

def emojiToks (name : Str) : List Tok :=
  [.word "bool".toList, .word ("is_".toList ++ tolower name), p '(', .word "char32_t".toList, .word "codepoint".toList, p ')', .word "noexcept".toList, p '{',
   .word "return".toList, .word "contains".toList, p '(', .word "tables".toList, p ':', p ':', .word name, p ',', .word "codepoint".toList, p ')', p ';', p '}']

theorem emoji_line {name : Str} (h : Word name) : Line (codeEmoji name) (emojiToks name) := by
  have k1 := Clean.word (a := "(char32_t codepoint) noexcept {\n    return contains(tables::".toList)
    (ts := [p '(', .word "char32_t".toList, .word "codepoint".toList, p ')', .word "noexcept".toList, p '{', .word "return".toList,
      .word "contains".toList, p '(', .word "tables".toList, p ':', p ':'])
    (clean_lit 80 (by decide +kernel)) h
    (clean_lit (t := ", codepoint);\n}\n\n".toList) (ts := [p ',', .word "codepoint".toList, p ')', p ';', p '}']) 30 (by decide +kernel)) (by decide) (by decide)
  have k2 := Line.mid (line_lit (t := "bool ".toList) (ts := [.word "bool".toList]) 10 (by decide)) (is_word h.2).lexes k1 (by simp)
  have e : codeEmoji name = "bool ".toList ++ (("is_".toList ++ tolower name) ++ ("(char32_t codepoint) noexcept {\n    return contains(tables::".toList ++
      (name ++ ", codepoint);\n}\n\n".toList))) := by
    unfold codeEmoji
    rw [show "bool is_".toList = "bool ".toList ++ "is_".toList from rfl]
    simp only [List.append_assoc]
  rw [e]
  exact k2

theorem emoji_defines {name : Str} (h : Word name) : DefinesFn (codeEmoji name) (containsFn ("is_".toList ++ tolower name) name) :=
  ⟨_, (emoji_line h).reads, by kernel_rfl⟩

/-- `result name(char32_t codepoint) noexcept { return search(tables::table, codepoint).value_or(table::Undefined); }` -/
def breakToks (name : Str) : List Tok :=
  [.word name, .word (tolower name), p '(', .word "char32_t".toList, .word "codepoint".toList, p ')', .word "noexcept".toList, p '{', .word "return".toList,
   .word "search".toList, p '(', .word "tables".toList, p ':', p ':', .word name, p ',', .word "codepoint".toList, p ')', p '.', .word "value_or".toList, p '(',
   .word name, p ':', p ':', .word "Undefined".toList, p ')', p ';', p '}']

theorem break_line {name : Str} (h : Word name) : Line (codeBreak name) (breakToks name) := by
  have k1 := Clean.word (a := ", codepoint).value_or(".toList) (ts := [p ',', .word "codepoint".toList, p ')', p '.', .word "value_or".toList, p '('])
    (clean_lit 80 (by decide +kernel)) h
    (clean_lit (t := "::Undefined);\n}\n\n".toList) (ts := [p ':', p ':', .word "Undefined".toList, p ')', p ';', p '}']) 30 (by decide +kernel)) (by decide) (by decide)
  have k2 := Clean.word (a := "(char32_t codepoint) noexcept {\n    return search(tables::".toList)
    (ts := [p '(', .word "char32_t".toList, .word "codepoint".toList, p ')', .word "noexcept".toList, p '{', .word "return".toList,
      .word "search".toList, p '(', .word "tables".toList, p ':', p ':']) (clean_lit 80 (by decide +kernel)) h k1 (by decide) (by simp)
  have k3 := Clean.word (a := " ".toList) (ts := []) (clean_lit 10 (by decide)) (lower_word' h) k2 (by decide) (by simp)
  exact ⟨lexes_append h.lexes k3.1 (apart_start k3.2.1), endsOpen_append k3.2.2 fun e => absurd e (by simp)⟩

theorem break_defines {name : Str} (h : Word name) : DefinesFn (codeBreak name) (lookupFn name (tolower name) "codepoint".toList name [name, "Undefined".toList]) :=
  ⟨_, (break_line h).reads, by kernel_rfl⟩

/-- `inline bool name(char32_t codepoint) noexcept { return contains(General_Category::category, codepoint); }` -/
def gcIsFn (name category : Str) : Fn :=
  ⟨[.word "inline".toList, .word "bool".toList], name, [([.word "char32_t".toList], "codepoint".toList)],
   [.ret (.call ["contains".toList] [.name ["General_Category".toList, category], .name ["codepoint".toList]])]⟩

def gcIsToks (name : Str) : List Tok :=
  [.word "inline".toList, .word "bool".toList, .word ("is_".toList ++ tolower name), p '(', .word "char32_t".toList, .word "codepoint".toList, p ')',
   .word "noexcept".toList, p '{', .word "return".toList, .word "contains".toList, p '(', .word "General_Category".toList, p ':', p ':', .word name, p ',',
   .word "codepoint".toList, p ')', p ';', p '}']

theorem gcIs_line {name : Str} (h : Word name) : Line (codeGcIs name) (gcIsToks name) := by
  have k1 := Clean.word (a := "(char32_t codepoint) noexcept\n    {\n        return contains(General_Category::".toList)
    (ts := [p '(', .word "char32_t".toList, .word "codepoint".toList, p ')', .word "noexcept".toList, p '{', .word "return".toList,
      .word "contains".toList, p '(', .word "General_Category".toList, p ':', p ':'])
    (clean_lit 80 (by decide +kernel)) h
    (clean_lit (t := ", codepoint);\n    }\n\n".toList) (ts := [p ',', .word "codepoint".toList, p ')', p ';', p '}']) 30 (by decide +kernel)) (by decide) (by decide)
  have k2 := Line.mid (line_lit (t := "    inline bool ".toList) (ts := [.word "inline".toList, .word "bool".toList]) 20 (by decide)) (is_word h.2).lexes k1 (by simp)
  have e : codeGcIs name = "    inline bool ".toList ++ (("is_".toList ++ tolower name) ++
      ("(char32_t codepoint) noexcept\n    {\n        return contains(General_Category::".toList ++ (name ++ ", codepoint);\n    }\n\n".toList))) := by
    unfold codeGcIs
    rw [show "    inline bool is_".toList = "    inline bool ".toList ++ "is_".toList from rfl]
    simp only [List.append_assoc]
  rw [e]
  exact k2

theorem gcIs_defines {name : Str} (h : Word name) : DefinesFn (codeGcIs name) (gcIsFn ("is_".toList ++ tolower name) name) :=
  ⟨_, (gcIs_line h).reads, by kernel_rfl⟩

end Verif.Tg
