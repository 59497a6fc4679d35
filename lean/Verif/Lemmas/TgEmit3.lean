import Verif.Lemmas.TgEmit2

/-!
# Lemmas: the multistage tables, the enums, the tables of the API
-/

namespace Verif.Tg
open Verif.Spec.Cxx (Tok Lexes IntLit Val Init Inits Ident Path p Reads ArrayInit Declares arrayType Unit Says Item Members DeclaresEnum Enumerators
  lexFn lexFn_ok isWord isDigit maxOf TypeName bracketed)

/-! ## multistage_generator.cpp -/

theorem clean_spaces (k : Nat) : Clean (List.replicate k ' ') [] := by
  induction k with
  | zero => exact .nil
  | succ k ih =>
    have := Clean.append (clean_lit (t := " ".toList) (ts := []) 2 (by decide)) ih
    simpa [List.replicate_succ] using this

/-- a number in a column, between pieces -/
theorem column_ok (a : Str) (ts : List Tok) (ha : Clean a ts) (hne : a ≠ []) (w v : Nat) :
    Clean (a ++ (fill ' ' w (dec v) ++ ",".toList)) (ts ++ [.word (dec v), p ',']) := by
  have h := Clean.word (a := a ++ List.replicate (w - (dec v).length) ' ') (ha.append (clean_spaces _)) (dec_word v)
    (clean_lit (t := ",".toList) (ts := [p ',']) 2 (by decide)) (by simp [hne]) (by decide)
  simpa [fill] using h

theorem cxxElement_ok (a : Str) (ts : List Tok) (ha : Clean a ts) (hne : a ≠ []) (c : Bool) (i v : Nat) :
    Clean (a ++ cxxElement c i v) (ts ++ [.word (dec v), p ',']) := by
  have h1 : Clean (if i % 16 = 0 then "\n    ".toList else []) [] := by
    split
    · exact clean_lit 8 (by decide)
    · exact .nil
  have h2 : Clean (if c = true ∧ i % 256 = 0 then "// block number: ".toList ++ dec (i / 256) ++ "\n    ".toList else []) [] := by
    split
    · have e : "// block number: ".toList ++ dec (i / 256) ++ "\n    ".toList = remarkLine ("block number: ".toList ++ dec (i / 256)) ++ "    ".toList := by
        simp [remarkLine]
      rw [e]
      exact (clean_remarkLine (commentOk_of (plain_append (by decide) (dec_plain _)))).append clean_indent
    · exact .nil
  have h3 := (ha.append h1).append h2
  have := column_ok _ _ h3 (fun e => hne (List.append_eq_nil_iff.1 (List.append_eq_nil_iff.1 e).1).1) 4 v
  unfold cxxElement
  simpa only [List.append_assoc, List.append_nil] using this

theorem cxxElements_ok (elem : List Tok) (c : Bool) (vs : List Nat) (i : Nat) (a : Str) (ta : List Tok) (ha : Clean a ta) (hne : a ≠ []) :
    ∃ ts, Clean (a ++ cxxElements c i vs) (ta ++ ts) ∧ Inits elem ts (vs.map .num) ∧ ts.head? ≠ some (p '{') := by
  induction vs generalizing i a ta with
  | nil => exact ⟨[], by simpa [cxxElements] using ha, .nil, by simp⟩
  | cons v vs ih =>
    obtain ⟨ts, h1, h2, _⟩ := ih (i + 1) _ _ (cxxElement_ok a ta ha hne c i v) (by simp [hne])
    refine ⟨[.word (dec v)] ++ p ',' :: ts, ?_, Inits.cons (.num (dec_lit v)) h2, by simp [p]⟩
    simpa [cxxElements] using h1

theorem minimum_ident (l : List Nat) : Ident (minimumUintType l) := by
  unfold minimumUintType
  dsimp only
  split
  · exact ident_of (by decide)
  · split
    · exact ident_of (by decide)
    · split
      · exact ident_of (by decide)
      · exact ident_of (by decide)

theorem le_foldl_max (l : List Nat) (a : Nat) : a ≤ l.foldl max a ∧ ∀ v ∈ l, v ≤ l.foldl max a := by
  induction l generalizing a with
  | nil => exact ⟨Nat.le_refl _, by simp⟩
  | cons x l ih =>
    obtain ⟨h1, h2⟩ := ih (max a x)
    refine ⟨Nat.le_trans (Nat.le_max_left a x) h1, ?_⟩
    intro v hv
    rcases List.mem_cons.1 hv with rfl | hv
    · exact Nat.le_trans (Nat.le_max_right a v) h1
    · exact h2 v hv

/-- The element type holds every element. -/
theorem minimum_fits (l : List Nat) (h : ∀ v ∈ l, v < 2 ^ 64) : ∃ m, maxOf (minimumUintType l) = some m ∧ ∀ v ∈ l, v ≤ m := by
  have hv := (le_foldl_max l 0).2
  unfold minimumUintType
  dsimp only
  by_cases h1 : l.foldl max 0 ≤ 0xFF
  · rw [if_pos h1]; exact ⟨0xFF, by decide, fun v m => Nat.le_trans (hv v m) h1⟩
  · rw [if_neg h1]
    by_cases h2 : l.foldl max 0 ≤ 0xFFFF
    · rw [if_pos h2]; exact ⟨0xFFFF, by decide, fun v m => Nat.le_trans (hv v m) h2⟩
    · rw [if_neg h2]
      by_cases h3 : l.foldl max 0 ≤ 0xFFFFFFFF
      · rw [if_pos h3]; exact ⟨0xFFFFFFFF, by decide, fun v m => Nat.le_trans (hv v m) h3⟩
      · rw [if_neg h3]
        refine ⟨0xFFFFFFFFFFFFFFFF, by decide, fun v m => ?_⟩
        have := h v m
        omega

theorem cxxTable_ok (table : List Nat) (name : Str) (c : Bool) (hn : Ident name) :
    SaysL (writeCxxTable table name c) [.table (minimumUintType table) name (table.map .num)] := by
  have hid := minimum_ident table
  obtain ⟨ts, h1, h2, h3⟩ := cxxElements_ok [.word (minimumUintType table)] c table 0 " {".toList [p '{'] (clean_lit 4 (by decide)) (by decide)
  have h4 := h1.append (clean_lit (t := "\n};\n\n".toList) (ts := [p '}', p ';']) 8 (by decide))
  rw [List.append_assoc] at h4
  have h5 := Clean.word (a := "> const ".toList) (ts := [p '>', .word "const".toList]) (clean_lit 10 (by decide)) (ident_word hn) h4 (by decide) (by simp)
  have h6 := Clean.word (a := ", ".toList) (ts := [p ',']) (clean_lit 4 (by decide)) (dec_word table.length) h5 (by decide) (by simp)
  have h7 := Line.mid (line_lit (t := "std::array<".toList) (ts := [.word "std".toList, p ':', p ':', .word "array".toList, p '<']) 20 (by decide))
    (ident_word hid).lexes h6 (by simp)
  refine saysL_table (ident_word hid).lexes (typeName_word hid) ⟨_, h7, ?_⟩
  · have hl : IntLit (dec table.length) (table.map Val.num).length := by rw [List.length_map]; exact dec_lit _
    have := Declares.variable (elem := [.word (minimumUintType table)]) [] [.word "const".toList] (by simp) (by simp) hl hn (ArrayInit.flat h2 h3)
    simpa [arrayType] using this

/-- the value of one line of the table of properties -/
def propertyVal (e : Emitted) : Val :=
  .list [.num e.width, .num e.flags, .num e.flags2, .name ["Script".toList, e.script], .name ["Grapheme_Cluster_Break".toList, e.gcb],
    .name ["East_Asian_Width".toList, e.eaw], .name ["General_Category".toList, e.gc], .name ["EmojiSegmentationCategory".toList, e.esc],
    .name ["Age".toList, e.age], .name ["Indic_Conjunct_Break".toList, e.incb], .name ["Word_Break".toList, e.wb]]

/-- names that can be written after `Enum::`, and flags of one byte -/
structure EmittedOk (e : Emitted) : Prop where
  flags : e.flags < 256
  flags2 : e.flags2 < 256
  script : Ident e.script
  gcb : Ident e.gcb
  eaw : Ident e.eaw
  gc : Ident e.gc
  esc : Ident e.esc
  age : Ident e.age
  incb : Ident e.incb
  wb : Ident e.wb

theorem flags_word (n : Nat) : Word (flagsText n) := by
  unfold flagsText
  split
  · exact ⟨by decide, by decide⟩
  · exact binstr_word n

theorem flags_lit {n : Nat} (h : n < 256) : IntLit (flagsText n) n := by
  unfold flagsText
  split
  · rename_i h; rw [h]; exact dec_lit 0
  · exact binstr_lit h

def propertyToks (e : Emitted) : List Tok :=
  [p '{', .word (dec e.width), p ',', .word (flagsText e.flags), p ',', .word (flagsText e.flags2), p ',',
   .word "Script".toList, p ':', p ':', .word e.script, p ',', .word "Grapheme_Cluster_Break".toList, p ':', p ':', .word e.gcb, p ',',
   .word "East_Asian_Width".toList, p ':', p ':', .word e.eaw, p ',', .word "General_Category".toList, p ':', p ':', .word e.gc, p ',',
   .word "EmojiSegmentationCategory".toList, p ':', p ':', .word e.esc, p ',', .word "Age".toList, p ':', p ':', .word e.age, p ',',
   .word "Indic_Conjunct_Break".toList, p ':', p ':', .word e.incb, p ',', .word "Word_Break".toList, p ':', p ':', .word e.wb, p '}']

/-- `, Enum::name` before the rest -/
theorem scoped_ok (lit enum v : Str) (rest : Str) (ts : List Tok) (hl : Clean lit [p ',', .word enum, p ':', p ':']) (hv : Ident v) (hr : Clean rest ts)
    (hne : lit ≠ []) (hne' : rest ≠ []) : Clean (lit ++ (v ++ rest)) (p ',' :: .word enum :: p ':' :: p ':' :: .word v :: ts) :=
  Clean.word hl (ident_word hv) hr hne hne'

theorem propertyRow_ok (e : Emitted) (he : EmittedOk e) : Clean (propertyRow e) (propertyToks e ++ [p ',']) := by
  have k1 := scoped_ok ", Word_Break::".toList "Word_Break".toList e.wb _ _ (clean_lit 20 (by decide)) he.wb
    (clean_lit (t := "},\n".toList) (ts := [p '}', p ',']) 5 (by decide)) (by decide) (by decide)
  have k2 := scoped_ok ", Indic_Conjunct_Break::".toList "Indic_Conjunct_Break".toList e.incb _ _ (clean_lit 40 (by decide)) he.incb k1 (by decide) (by simp)
  have k3 := scoped_ok ", Age::".toList "Age".toList e.age _ _ (clean_lit 20 (by decide)) he.age k2 (by decide) (by simp)
  have k4 := scoped_ok ", EmojiSegmentationCategory::".toList "EmojiSegmentationCategory".toList e.esc _ _ (clean_lit 40 (by decide)) he.esc k3 (by decide) (by simp)
  have k5 := scoped_ok ", General_Category::".toList "General_Category".toList e.gc _ _ (clean_lit 40 (by decide)) he.gc k4 (by decide) (by simp)
  have k6 := scoped_ok ", East_Asian_Width::".toList "East_Asian_Width".toList e.eaw _ _ (clean_lit 40 (by decide)) he.eaw k5 (by decide) (by simp)
  have k7 := scoped_ok ", Grapheme_Cluster_Break::".toList "Grapheme_Cluster_Break".toList e.gcb _ _ (clean_lit 40 (by decide)) he.gcb k6 (by decide) (by simp)
  have k8 := scoped_ok ", Script::".toList "Script".toList e.script _ _ (clean_lit 40 (by decide)) he.script k7 (by decide) (by simp)
  have k9 := Clean.word (a := ", ".toList) (ts := [p ',']) (clean_lit 4 (by decide)) (flags_word e.flags2) k8 (by decide) (by simp)
  have k10 := Clean.word (a := ", ".toList) (ts := [p ',']) (clean_lit 4 (by decide)) (flags_word e.flags) k9 (by decide) (by simp)
  have k11 := Clean.word (a := "    {".toList) (ts := [p '{']) (clean_lit 8 (by decide)) (dec_word e.width) k10 (by decide) (by simp)
  exact k11

theorem init_scoped (elem : List Tok) {enum v : Str} (he : Ident enum) (hv : Ident v) :
    Init elem [.word enum, p ':', p ':', .word v] (.name [enum, v]) := .name (.cons he (.one hv))

theorem property_init (elem : List Tok) (e : Emitted) (he : EmittedOk e) : Init elem (propertyToks e) (propertyVal e) := by
  have := Init.braces (elem := elem)
    (Inits.cons (Init.num (dec_lit e.width)) <| Inits.cons (Init.num (flags_lit he.flags)) <| Inits.cons (Init.num (flags_lit he.flags2)) <|
     Inits.cons (init_scoped elem (enum := "Script".toList) (ident_of (by decide)) he.script) <|
     Inits.cons (init_scoped elem (enum := "Grapheme_Cluster_Break".toList) (ident_of (by decide)) he.gcb) <|
     Inits.cons (init_scoped elem (enum := "East_Asian_Width".toList) (ident_of (by decide)) he.eaw) <|
     Inits.cons (init_scoped elem (enum := "General_Category".toList) (ident_of (by decide)) he.gc) <|
     Inits.cons (init_scoped elem (enum := "EmojiSegmentationCategory".toList) (ident_of (by decide)) he.esc) <|
     Inits.cons (init_scoped elem (enum := "Age".toList) (ident_of (by decide)) he.age) <|
     Inits.cons (init_scoped elem (enum := "Indic_Conjunct_Break".toList) (ident_of (by decide)) he.incb) <|
     Inits.one (init_scoped elem (enum := "Word_Break".toList) (ident_of (by decide)) he.wb))
  exact this

theorem properties_ok (rows : List Emitted) (h : ∀ e ∈ rows, EmittedOk e) :
    SaysL (writeProperties rows) [.table "codepoint_properties".toList "properties".toList (rows.map propertyVal)] := by
  have hid : Ident "codepoint_properties".toList := ident_of (by decide)
  obtain ⟨ts, h1, h2, _⟩ := rows_clean [.word "codepoint_properties".toList] propertyRow propertyToks propertyVal rows
    (fun e he => ⟨propertyRow_ok e (h e he), property_init _ e (h e he)⟩)
  have h4 := h1.append (clean_lit (t := "}};\n\n".toList) (ts := [p '}', p '}', p ';']) 8 (by decide))
  have h5 := Clean.append (clean_lit (t := "> const properties{{\n".toList) (ts := [p '>', .word "const".toList, .word "properties".toList, p '{', p '{']) 30
    (by decide)) h4
  have h7 := Line.mid (line_lit (t := "std::array<codepoint_properties, ".toList)
    (ts := [.word "std".toList, p ':', p ':', .word "array".toList, p '<', .word "codepoint_properties".toList, p ',']) 40 (by decide))
    (dec_word rows.length).lexes h5 (by simp)
  refine saysL_table (ident_word hid).lexes (typeName_word hid) ⟨_, h7, ?_⟩
  have hl : IntLit (dec rows.length) (rows.map propertyVal).length := by rw [List.length_map]; exact dec_lit _
  have := Declares.variable (elem := [.word "codepoint_properties".toList]) (name := "properties".toList) [] [.word "const".toList] (by simp) (by simp) hl
    (ident_of (by decide)) (ArrayInit.nested h2)
  simpa [arrayType] using this

/-- a string literal -/
theorem clean_str {s : Str} (h : ∀ c ∈ s, c ≠ '"' ∧ c ≠ '\\' ∧ c ≠ '\n') : Clean ("\"".toList ++ (s ++ "\"".toList)) [.str s] := by
  have := Lexes.str (s := s) (t := []) h .nil
  refine ⟨by simpa using this, rfl, ?_⟩
  exact endsOpen_append (endsOpen_append (by decide) fun e => absurd e (by decide)) fun e => absurd e (by simp)

theorem names_ok (names : List Str) (h : ∀ s ∈ names, ∀ c ∈ s, c ≠ '"' ∧ c ≠ '\\' ∧ c ≠ '\n') :
    SaysL (writeNames names) [.table "std::string_view".toList "names_stage3".toList (names.map .str)] := by
  have hty : Lexes "std::string_view".toList [.word "std".toList, p ':', p ':', .word "string_view".toList] := lexFn_ok (n := 30) (by decide)
  obtain ⟨ts, h1, h2, _⟩ := rows_clean [.word "std".toList, p ':', p ':', .word "string_view".toList]
    (fun n => "    ".toList ++ ("\"".toList ++ (n ++ ("\"".toList ++ ("sv".toList ++ ",\n".toList)))))
    (fun n => [.str n, .word "sv".toList]) .str names (by
      intro n hn
      refine ⟨?_, .strView⟩
      have k := Clean.word (clean_indent.append (clean_str (h n hn))) (w := "sv".toList) ⟨by decide, by decide⟩
        (clean_lit (t := ",\n".toList) (ts := [p ',']) 4 (by decide)) (by simp) (by decide)
      simpa only [List.append_assoc, List.nil_append, List.cons_append] using k)
  have h4 := h1.append (clean_lit (t := "}};\n\n".toList) (ts := [p '}', p '}', p ';']) 8 (by decide))
  have h5 := Clean.append (clean_lit (t := "> const names_stage3{{\n".toList) (ts := [p '>', .word "const".toList, .word "names_stage3".toList, p '{', p '{']) 30
    (by decide)) h4
  have h7 := Line.mid (line_lit (t := "std::array<std::string_view, ".toList)
    (ts := [.word "std".toList, p ':', p ':', .word "array".toList, p '<', .word "std".toList, p ':', p ':', .word "string_view".toList, p ',']) 40 (by decide))
    (dec_word names.length).lexes h5 (by simp)
  refine saysL_table hty (typeName_two (ident_of (by decide)) (ident_of (by decide)) (by decide) (.inl rfl)) ⟨_, h7, ?_⟩
  have hl : IntLit (dec names.length) (names.map Val.str).length := by rw [List.length_map]; exact dec_lit _
  have := Declares.variable (name := "names_stage3".toList) [] [.word "const".toList] (by simp) (by simp) hl (ident_of (by decide)) (ArrayInit.nested h2)
  simpa [arrayType] using this

/-! ## enum_generator.cpp -/

/-- the enumerators with their numbers, from `i` on -/
def numbered : Nat → List Str → List (Str × Nat)
  | _, [] => []
  | i, m :: ms => (sanitize m, i) :: numbered (i + 1) ms

theorem enumLines_ok (ms : List Str) (i : Nat) (h : ∀ m ∈ ms, Ident (sanitize m)) :
    ∃ ts, Clean (enumLines i ms) ts ∧ Enumerators ts (numbered i ms) := by
  induction ms generalizing i with
  | nil => exact ⟨[], .nil, .nil⟩
  | cons m ms ih =>
    obtain ⟨ts, h1, h2⟩ := ih (i + 1) fun x hx => h x (by simp [hx])
    have hm := h m (by simp)
    have k1 := Clean.append (clean_lit (t := ",\n".toList) (ts := [p ',']) 4 (by decide)) h1
    have k2 := Clean.word (a := " = ".toList) (ts := [p '=']) (clean_lit 6 (by decide)) (dec_word i) k1 (by decide) (by simp)
    have k3 := Clean.word clean_indent (ident_word hm) k2 (by decide) (by simp)
    exact ⟨_, k3, .cons hm (dec_lit i) h2⟩

theorem minimal_ident (n : Nat) : Ident (minimalUintText n) := by
  unfold minimalUintText
  split
  · exact ident_of (by decide)
  · split
    · exact ident_of (by decide)
    · split
      · exact ident_of (by decide)
      · exact ident_of (by decide)

theorem enum_ok (d : EnumDef) (hn : Ident d.name) (h : ∀ m ∈ d.members, Ident (sanitize m)) :
    SaysL (writeEnumClass d) [.enum d.name (minimalUintText d.members.length) (numbered 0 d.members)] := by
  have ht := minimal_ident d.members.length
  obtain ⟨ts, h1, h2⟩ := enumLines_ok d.members 0 h
  have k1 := h1.append (clean_lit (t := "};\n\n".toList) (ts := [p '}', p ';']) 8 (by decide))
  have k2 := Clean.append (clean_lit (t := "\n{\n".toList) (ts := [p '{']) 8 (by decide)) k1
  have k3 := Clean.word (a := ": ".toList) (ts := [p ':']) (clean_lit 4 (by decide)) (ident_word ht) k2 (by decide) (by simp)
  have k4 := Line.mid (line_lit (t := "enum class ".toList) (ts := [.word "enum".toList, .word "class".toList]) 20 (by decide)) (ident_word hn).lexes k3
    (by simp)
  refine ⟨_, k4, ?_⟩
  have := Unit.enum (DeclaresEnum.mk hn ht h2) .nil
  simpa using this

end Verif.Tg
