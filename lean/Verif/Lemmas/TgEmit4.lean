import Verif.Lemmas.TgEmit3

/-!
# Lemmas: the tables of ucd.cpp
-/

namespace Verif.Tg
open Verif.Spec.Cxx (Tok Lexes IntLit Val Init Inits Ident Path p Reads ArrayInit Declares arrayType Unit Says Item
  lexFn lexFn_ok lexes_append isWord isDigit TypeName bracketed)

/-- the three ways a constant is introduced -/
def specs : List (List Tok) := [[.word "auto".toList, .word "static".toList, .word "const".toList],
  [.word "auto".toList, .word "const".toList], [.word "static".toList, .word "constexpr".toList, .word "auto".toList]]

theorem apiTable_ok {α : Type} {indent spec name elemText open' close : Str} {specToks elem : List Tok} (f : α → Str) (toks : α → List Tok)
    (val : α → Val) (l : List α) (hin : Clean indent []) (hspec : Lexes spec specToks) (hmem : specToks ∈ specs) (htn : TypeName elem) (hel : Lexes elemText elem)
    (hname : Ident name) (ho : Clean open' []) (hcl : Clean close [])
    (hf : ∀ x ∈ l, Clean (f x) (toks x ++ [p ',']) ∧ Init elem (toks x) (val x))
    (hd : ∀ x ∈ l, toks x ≠ [] ∧ (toks x).head? ≠ some (p '{')) :
    SaysL (constArray indent spec name elemText l.length open' (l.flatMap f) close) [.table elemText name (l.map val)] := by
  obtain ⟨ts, h1, h2, h3⟩ := rows_clean elem f toks val l hf
  have hts : ts.head? ≠ some (p '{') := by
    cases l with
    | nil =>
      obtain ⟨h, _⟩ := h1
      have : ts = [] := Verif.Spec.Cxx.lexes_unique h .nil
      rw [this]; simp
    | cons x l =>
      obtain ⟨us, e⟩ := h3 x l rfl
      obtain ⟨d1, d2⟩ := hd x (by simp)
      rw [e, List.head?_append_of_ne_nil _ d1]
      exact d2
  have := constArray_ok hin hspec hmem hel hname ho hcl h1 h2 hts
  rw [List.length_map] at this
  exact saysL_table hel htn this

theorem autoStatic_lexes : Lexes autoStatic [.word "auto".toList, .word "static".toList, .word "const".toList] := lexFn_ok (n := 30) (by decide)

theorem foldOpen_clean : Clean foldOpen [] := clean_remark (commentOk_of (by decide))
theorem foldClose_clean : Clean foldClose [] := clean_remark (commentOk_of (by decide))

def intervalToks (a b : Nat) : List Tok := [.word "Interval".toList, p '{', .word (cp a), p ',', .word (cp b), p '}']

theorem interval_init (a b : Nat) : Init [.word "Interval".toList] (intervalToks a b) (.list [.num a, .num b]) := by
  have := Init.typed (elem := [.word "Interval".toList]) (Inits.cons (Init.num (cp_lit a)) (Inits.one (Init.num (cp_lit b))))
  simpa [intervalToks] using this

theorem interval_clean (a b : Nat) (tail : Str) (ht : Clean tail []) :
    Clean ("    Interval{ ".toList ++ (cp a ++ (", ".toList ++ (cp b ++ (" },".toList ++ tail))))) (intervalToks a b ++ [p ',']) := by
  have k1 := Clean.append (clean_lit (t := " },".toList) (ts := [p '}', p ',']) 5 (by decide)) ht
  rw [List.append_nil] at k1
  have k2 := Clean.word (a := ", ".toList) (ts := [p ',']) (clean_lit 4 (by decide)) (cp_word b) k1 (by decide) (by simp)
  exact Clean.word (a := "    Interval{ ".toList) (ts := [.word "Interval".toList, p '{']) (clean_lit 20 (by decide)) (cp_word a) k2 (by decide) (by simp)

theorem intervals_ok (name : Str) (rows : List (PRange × Str)) (hn : Ident name) (hc : ∀ r ∈ rows, CommentOk r.2) :
    SaysL (writeIntervals name rows) [.table "Interval".toList name (rows.map fun r => .list [.num r.1.first, .num r.1.last])] := by
  refine apiTable_ok _ (fun r => intervalToks r.1.first r.1.last) _ rows .nil autoStatic_lexes (by simp [specs]) (typeName_word (w := "Interval".toList) (ident_of (by decide)))
    (ident_word (w := "Interval".toList) (ident_of (by decide))).lexes hn foldOpen_clean foldClose_clean ?_ ?_
  · intro r hr
    exact ⟨interval_clean _ _ _ (clean_remark (hc r hr)), interval_init _ _⟩
  · intro r _; exact ⟨by simp [intervalToks], by simp [intervalToks, p]⟩

theorem mirrored_ok (rows : List (Nat × Nat)) :
    SaysL (writeMirrored rows) [.table "Interval".toList "Bidi_Mirrored".toList (rows.map fun r => .list [.num r.1, .num r.2])] := by
  refine apiTable_ok _ (fun r => intervalToks r.1 r.2) _ rows .nil autoStatic_lexes (by simp [specs]) (typeName_word (w := "Interval".toList) (ident_of (by decide)))
    (ident_word (w := "Interval".toList) (ident_of (by decide))).lexes (ident_of (by decide)) foldOpen_clean foldClose_clean ?_ ?_
  · intro r _
    exact ⟨interval_clean r.1 r.2 "\n".toList clean_newline, interval_init _ _⟩
  · intro r _; exact ⟨by simp [intervalToks], by simp [intervalToks, p]⟩

theorem glyphs_ok (rows : List (Nat × Nat)) :
    SaysL (writeGlyphs rows) [.table "std::pair<char32_t, char32_t>".toList "Bidi_Mirroring_Glyph".toList
      (rows.map fun r => .list [.num r.1, .num r.2])] := by
  refine apiTable_ok _ (fun r => pairToks ++ p '{' :: [.word (cp r.1), p ',', .word (cp r.2)] ++ [p '}']) _ rows .nil autoStatic_lexes (by simp [specs]) pair_type
    pairText_lexes (ident_of (by decide)) foldOpen_clean foldClose_clean ?_ ?_
  · intro r _
    refine ⟨?_, Init.typed (Inits.cons (Init.num (cp_lit r.1)) (Inits.one (Init.num (cp_lit r.2))))⟩
    have k1 := Clean.word (a := ", ".toList) (ts := [p ',']) (clean_lit 4 (by decide)) (cp_word r.2)
      (clean_lit (t := " },\n".toList) (ts := [p '}', p ',']) 6 (by decide)) (by decide) (by decide)
    have k2 := Clean.word (a := "{ ".toList) (ts := [p '{']) (clean_lit 4 (by decide)) (cp_word r.1) k1 (by decide) (by simp)
    have k3 := Clean.mid clean_indent pairText_lexes k2 (by decide) (by simp)
    simpa using k3
  · intro r _; exact ⟨by simp [pairToks], by simp [pairToks, p]⟩

/-- the value of an element of a table of ranges -/
def rangeVal (path : List Str) (first last : Nat) (v : Str) : Val := .list [.list [.num first, .num last], .name (path ++ [v])]

def rangeToks (elem scope : List Tok) (first last : Nat) (v : Str) : List Tok :=
  elem ++ p '{' :: ([p '{', .word (cp first), p ',', .word (cp last), p '}'] ++ p ',' :: (scope ++ [.word v])) ++ [p '}']

theorem propRow_ok {indent elemText scope tail v : Str} {elem sc : List Tok} {path : List Str} {first last : Nat}
    (hin : Clean indent []) (hne : indent ≠ []) (hel : Lexes elemText elem) (hsc : Line scope sc) (hv : Ident v) (ht : Clean tail [])
    (hpath : Init elem (sc ++ [.word v]) (.name (path ++ [v]))) :
    Clean (propRow indent elemText scope first last v tail) (rangeToks elem sc first last v ++ [p ',']) ∧
    Init elem (rangeToks elem sc first last v) (rangeVal path first last v) := by
  refine ⟨?_, ?_⟩
  · have k1 := Clean.append (clean_lit (t := " },".toList) (ts := [p '}', p ',']) 5 (by decide)) ht
    have kv : Lexes (scope ++ v) (sc ++ [.word v]) := lexes_append hsc.1 (ident_word hv).lexes (apart_end hsc.2)
    have k2 := Clean.mid (a := " }, ".toList) (ts := [p '}', p ',']) (clean_lit 6 (by decide)) kv k1 (by decide) (by simp)
    have k3 := Clean.word (a := ", ".toList) (ts := [p ',']) (clean_lit 6 (by decide)) (cp_word last) k2 (by decide) (by simp)
    have k4 := Clean.word (a := " { { ".toList) (ts := [p '{', p '{']) (clean_lit 8 (by decide)) (cp_word first) k3 (by decide) (by simp)
    have k5 := Clean.mid hin hel k4 hne (by simp)
    unfold propRow rangeToks
    simpa only [List.append_assoc, List.nil_append, List.append_nil, List.cons_append] using k5
  · exact Init.typed (Inits.cons (init_pair (cp_lit first) (cp_lit last)) (Inits.one hpath))

theorem rangeToks_head {elem sc : List Tok} {a b : Nat} {v : Str} (h : elem ≠ []) (h' : elem.head? ≠ some (p '{')) :
    rangeToks elem sc a b v ≠ [] ∧ (rangeToks elem sc a b v).head? ≠ some (p '{') := by
  unfold rangeToks
  refine ⟨by simp, ?_⟩
  rw [List.append_assoc, List.head?_append_of_ne_nil _ h]
  exact h'

/-- `Prop<::unicode::Enum>` -/
def propElem (enum : Str) : List Tok := [.word "Prop".toList, p '<', p ':', p ':', .word "unicode".toList, p ':', p ':', .word enum, p '>']

theorem propElem_type (enum : Str) : TypeName (propElem enum) := typeName_one (ident_of (by decide)) rfl (.inr rfl)

theorem propElem_head (enum : Str) : propElem enum ≠ [] ∧ (propElem enum).head? ≠ some (p '{') := ⟨by simp [propElem], by simp [propElem, p]⟩

/-- `unicode::Enum::v` -/
theorem init_in (elem : List Tok) {enum v : Str} (he : Ident enum) (hv : Ident v) :
    Init elem ([.word "unicode".toList, p ':', p ':', .word enum, p ':', p ':'] ++ [.word v]) (.name (["unicode".toList, enum] ++ [v])) :=
  .name (.cons (ident_of (by decide)) (.cons he (.one hv)))

/-- `::unicode::Enum::v` -/
theorem init_global (elem : List Tok) {enum v : Str} (he : Ident enum) (hv : Ident v) :
    Init elem ([p ':', p ':', .word "unicode".toList, p ':', p ':', .word enum, p ':', p ':'] ++ [.word v]) (.name (["unicode".toList, enum] ++ [v])) :=
  .global (.cons (ident_of (by decide)) (.cons he (.one hv)))

theorem planeRemark_ok (n : Nat) (s : Str) (h : CommentOk s) : Clean (planeRemark n s) [] := by
  unfold planeRemark
  split
  · exact clean_remark (commentOk_of (plain_append (by decide) (dec_plain n)))
  · rename_i hs
    refine clean_remark ⟨?_, ?_⟩
    · intro hm
      rcases List.mem_append.1 hm with hm | hm
      · exact (plain_append (plain_append (by decide : ∀ c ∈ "Plane ".toList, c ≠ '\n' ∧ c ≠ '\\') (dec_plain n)) (by decide : ∀ c ∈ " ".toList, c ≠ '\n' ∧ c ≠ '\\') _ hm).1 rfl
      · exact h.1 hm
    · rw [List.getLast?_append_of_ne_nil _ hs]; exact h.2

theorem planes_ok (rows : List (PRange × Nat × Str)) (hv : ∀ r ∈ rows, Ident (sanitize r.1.property)) (hc : ∀ r ∈ rows, CommentOk r.2.2) :
    SaysL (writePlanes rows) [.table "Prop<::unicode::Plane>".toList "Plane".toList
      (rows.map fun r => rangeVal ["unicode".toList, "Plane".toList] r.1.first r.1.last (sanitize r.1.property))] := by
  refine apiTable_ok _ (fun r => rangeToks (propElem "Plane".toList) [.word "unicode".toList, p ':', p ':', .word "Plane".toList, p ':', p ':'] r.1.first
    r.1.last (sanitize r.1.property)) _ rows clean_indent autoStatic_lexes (by simp [specs]) (propElem_type _) (elem := propElem "Plane".toList) (lexFn_ok (n := 40) (by decide))
    (ident_of (by decide)) foldOpen_clean foldClose_clean ?_ (fun r _ => rangeToks_head (propElem_head _).1 (propElem_head _).2)
  intro r hr
  exact propRow_ok (clean_lit 20 (by decide)) (by decide) (lexFn_ok (n := 40) (by decide)) (line_lit 40 (by decide)) (hv r hr)
    (planeRemark_ok _ _ (hc r hr)) (init_in _ (ident_of (by decide)) (hv r hr))

theorem gcTable_ok (rows : List (PRange × Str)) (hv : ∀ r ∈ rows, Ident r.1.property) (hc : ∀ r ∈ rows, CommentOk r.2) :
    SaysL (writeGcTable rows) [.table "Prop<::unicode::General_Category>".toList "General_Category".toList
      (rows.map fun r => rangeVal ["unicode".toList, "General_Category".toList] r.1.first r.1.last r.1.property)] := by
  refine apiTable_ok _ (fun r => rangeToks (propElem "General_Category".toList) [p ':', p ':', .word "unicode".toList, p ':', p ':',
    .word "General_Category".toList, p ':', p ':'] r.1.first r.1.last r.1.property) _ rows .nil
    (lexFn_ok (n := 20) (ts := [.word "auto".toList, .word "const".toList]) (by decide)) (by simp [specs]) (propElem_type _) (elem := propElem "General_Category".toList)
    (lexFn_ok (n := 60) (by decide)) (ident_of (by decide)) clean_newline clean_newline ?_ (fun r _ => rangeToks_head (propElem_head _).1 (propElem_head _).2)
  intro r hr
  exact propRow_ok clean_indent (by decide) (lexFn_ok (n := 60) (by decide)) (line_lit 60 (by decide)) (hv r hr) (clean_remark (hc r hr))
    (init_global _ (ident_of (by decide)) (hv r hr))

def scriptElem : List Tok := [.word "Prop".toList, p '<', .word "unicode".toList, p ':', p ':', .word "Script".toList, p '>']

theorem scripts_ok (rows : List (PRange × Str)) (hv : ∀ r ∈ rows, Ident r.1.property) (hc : ∀ r ∈ rows, CommentOk r.2) :
    SaysL (writeScripts rows) [.table "Prop<unicode::Script>".toList "Script".toList
      (rows.map fun r => rangeVal ["unicode".toList, "Script".toList] r.1.first r.1.last r.1.property)] := by
  refine apiTable_ok _ (fun r => rangeToks scriptElem [.word "unicode".toList, p ':', p ':', .word "Script".toList, p ':', p ':'] r.1.first
    r.1.last r.1.property) _ rows .nil autoStatic_lexes (by simp [specs]) (typeName_one (ident_of (by decide)) (by decide) (.inr rfl)) (elem := scriptElem) (lexFn_ok (n := 40) (by decide))
    (ident_of (by decide)) foldOpen_clean foldClose_clean ?_ (fun r _ => rangeToks_head (by simp [scriptElem]) (by simp [scriptElem, p]))
  intro r hr
  exact propRow_ok clean_indent (by decide) (lexFn_ok (n := 40) (by decide)) (line_lit 40 (by decide)) (hv r hr)
    (clean_remark (hc r hr)) (init_in _ (ident_of (by decide)) (hv r hr))

theorem blocks_ok (rows : List PRange) (hv : ∀ r ∈ rows, Ident (sanitize r.property)) :
    SaysL (writeBlocks rows) [.table "Prop<::unicode::Block>".toList "Block".toList
      (rows.map fun r => rangeVal ["unicode".toList, "Block".toList] r.first r.last (sanitize r.property))] := by
  refine apiTable_ok _ (fun r => rangeToks (propElem "Block".toList) [p ':', p ':', .word "unicode".toList, p ':', p ':',
    .word "Block".toList, p ':', p ':'] r.first r.last (sanitize r.property)) _ rows .nil autoStatic_lexes (by simp [specs]) (propElem_type _) (elem := propElem "Block".toList)
    (lexFn_ok (n := 60) (by decide)) (ident_of (by decide)) foldOpen_clean clean_newline ?_ (fun r _ => rangeToks_head (propElem_head _).1 (propElem_head _).2)
  intro r hr
  exact propRow_ok clean_indent (by decide) (lexFn_ok (n := 60) (by decide)) (line_lit 60 (by decide)) (hv r hr) clean_newline
    (init_global _ (ident_of (by decide)) (hv r hr))

theorem breakElem_lexes {group : Str} (hg : Ident group) : Lexes (breakElem group) (propElem group) :=
  (Line.mid (line_lit (t := "Prop<::unicode::".toList) (ts := [.word "Prop".toList, p '<', p ':', p ':', .word "unicode".toList, p ':', p ':']) 30 (by decide))
    (ident_word hg).lexes (clean_lit (t := ">".toList) (ts := [p '>']) 3 (by decide)) (by decide)).1

theorem breakScope_line {group : Str} (hg : Ident group) :
    Line (breakScope group) [p ':', p ':', .word "unicode".toList, p ':', p ':', .word group, p ':', p ':'] :=
  Line.mid (line_lit (t := "::unicode::".toList) (ts := [p ':', p ':', .word "unicode".toList, p ':', p ':']) 30 (by decide))
    (ident_word hg).lexes (clean_lit (t := "::".toList) (ts := [p ':', p ':']) 4 (by decide)) (by decide)

theorem breaks_ok (group : Str) (rows : List (PRange × Str)) (hg : Ident group) (hv : ∀ r ∈ rows, Ident r.1.property) (hc : ∀ r ∈ rows, CommentOk r.2) :
    SaysL (writeBreaks group rows) [.table (breakElem group) group
      (rows.map fun r => rangeVal ["unicode".toList, group] r.1.first r.1.last r.1.property)] := by
  refine apiTable_ok _ (fun r => rangeToks (propElem group) [p ':', p ':', .word "unicode".toList, p ':', p ':', .word group, p ':', p ':']
    r.1.first r.1.last r.1.property) _ rows .nil autoStatic_lexes (by simp [specs]) (propElem_type _) (elem := propElem group) (breakElem_lexes hg) hg foldOpen_clean
    foldClose_clean ?_ (fun r _ => rangeToks_head (propElem_head _).1 (propElem_head _).2)
  intro r hr
  exact propRow_ok clean_indent (by decide) (breakElem_lexes hg) (breakScope_line hg) (hv r hr) (clean_remark (hc r hr)) (init_global _ hg (hv r hr))

/-! ### script extensions -/

def uScript : List Tok := [.word "unicode".toList, p ':', p ':', .word "Script".toList]

theorem sceArray_ok (key : Str) (scripts : List Str) (hk : Ident key) (hs : ∀ s ∈ scripts, Ident s) :
    SaysL (writeSceArray key scripts) [.table "unicode::Script".toList key (scripts.map fun s => .name ["unicode".toList, "Script".toList, s])] := by
  refine apiTable_ok _ (fun s => [.word "unicode".toList, p ':', p ':', .word "Script".toList, p ':', p ':'] ++ [.word s]) _ scripts .nil autoStatic_lexes
    (by simp [specs]) (typeName_two (ident_of (by decide)) (ident_of (by decide)) (by decide) (.inl rfl)) (elem := uScript) (lexFn_ok (n := 40) (by decide)) hk clean_newline (clean_lit 4 (by decide)) ?_ (fun s _ => ⟨by simp, by simp [p]⟩)
  intro s hs'
  refine ⟨?_, init_in uScript (enum := "Script".toList) (ident_of (by decide)) (hs s hs')⟩
  exact Clean.word (a := "    unicode::Script::".toList) (ts := [.word "unicode".toList, p ':', p ':', .word "Script".toList, p ':', p ':'])
    (clean_lit 40 (by decide)) (ident_word (hs s hs')) (clean_lit (t := ",\n".toList) (ts := [p ',']) 4 (by decide)) (by decide) (by decide)

def sceElemToks : List Tok :=
  [.word "Prop".toList, p '<', .word "std".toList, p ':', p ':', .word "pair".toList, p '<', .word "unicode".toList, p ':', p ':', .word "Script".toList,
   .word "const".toList, p '*', p ',', .word "std".toList, p ':', p ':', .word "size_t".toList, p '>', p '>']

/-- the value of a row of the table of script extensions: the range, and the first element and the size of an array -/
def sceVal (r : MRange) : Val :=
  .list [.list [.num r.first, .num r.last], .list [.name [sceKey r.props, "data".toList], .name [sceKey r.props, "size".toList]]]

theorem sceRow_ok (r : MRange × Str) (hk : Ident (sceKey r.1.props)) (hc : CommentOk r.2) :
    ∃ toks, Clean (sceRow r) (toks ++ [p ',']) ∧ Init sceElemToks toks (sceVal r.1) := by
  have k1 := Clean.append (clean_lit (t := ".size() } },".toList) (ts := [p '.', .word "size".toList, p '(', p ')', p '}', p '}', p ',']) 20 (by decide))
    (clean_remark hc)
  have k2 := Clean.word (a := ".data(), ".toList) (ts := [p '.', .word "data".toList, p '(', p ')', p ',']) (clean_lit 12 (by decide)) (ident_word hk) k1
    (by decide) (by simp)
  have k3 := Clean.word (a := " }, { ".toList) (ts := [p '}', p ',', p '{']) (clean_lit 8 (by decide)) (ident_word hk) k2 (by decide) (by simp)
  have k4 := Clean.word (a := ", ".toList) (ts := [p ',']) (clean_lit 6 (by decide)) (cp_word r.1.last) k3 (by decide) (by simp)
  have k5 := Clean.word (a := " { { ".toList) (ts := [p '{', p '{']) (clean_lit 8 (by decide)) (cp_word r.1.first) k4 (by decide) (by simp)
  have k6 := Clean.mid clean_indent (w := sceElem) (ws := sceElemToks) (lexFn_ok (n := 80) (by decide)) k5 (by decide) (by simp)
  have hi := Init.typed (elem := sceElemToks) (Inits.cons (init_pair (cp_lit r.1.first) (cp_lit r.1.last)) (Inits.one (Init.braces
    (Inits.cons (Init.call hk (f := "data".toList) (ident_of (by decide))) (Inits.one (Init.call hk (f := "size".toList) (ident_of (by decide))))))))
  refine ⟨_, ?_, hi⟩
  unfold sceRow
  simpa only [List.append_assoc, List.nil_append, List.append_nil, List.cons_append] using k6

/-- As `rows_clean`, the tokens being anything. -/
theorem rows_ex {α : Type} (elem : List Tok) (f : α → Str) (val : α → Val) (l : List α)
    (hf : ∀ x ∈ l, ∃ toks, Clean (f x) (toks ++ [p ',']) ∧ Init elem toks (val x)) :
    ∃ ts, Clean (l.flatMap f) ts ∧ Inits elem ts (l.map val) := by
  induction l with
  | nil => exact ⟨[], .nil, .nil⟩
  | cons x l ih =>
    obtain ⟨toks, h1, h2⟩ := hf x (by simp)
    obtain ⟨ts, i1, i2⟩ := ih fun y hy => hf y (by simp [hy])
    refine ⟨toks ++ [p ','] ++ ts, ?_, ?_⟩
    · rw [List.flatMap_cons]; exact h1.append i1
    · have := Inits.cons h2 i2
      simpa using this

theorem sce_ok (rows : List (MRange × Str)) (hk : ∀ r ∈ rows, Ident (sceKey r.1.props)) (hc : ∀ r ∈ rows, CommentOk r.2) :
    SaysL (writeSce rows) [.table sceElem "sce".toList (rows.map fun r => sceVal r.1)] := by
  obtain ⟨ts, h1, h2⟩ := rows_ex sceElemToks sceRow (fun r => sceVal r.1) rows (fun r hr => sceRow_ok r (hk r hr) (hc r hr))
  have hty : Lexes sceElem sceElemToks := lexFn_ok (n := 80) (by decide)
  have h4 := h1.append (clean_lit (t := "} };\n".toList) (ts := [p '}', p '}', p ';']) 8 (by decide))
  have h5 := Clean.append (clean_lit (t := "> sce { {\n".toList) (ts := [p '>', .word "sce".toList, p '{', p '{']) 30 (by decide)) h4
  have h6 := Clean.word (a := ", ".toList) (ts := [p ',']) (clean_lit 6 (by decide)) (dec_word rows.length) h5 (by decide) (by simp)
  have h7 := Line.mid (line_lit (t := "static const std::array<".toList)
    (ts := [.word "static".toList, .word "const".toList, .word "std".toList, p ':', p ':', .word "array".toList, p '<']) 40 (by decide))
    hty h6 (by simp)
  refine saysL_table hty (typeName_one (ident_of (by decide)) (by decide) (.inr rfl)) ⟨_, h7, ?_⟩
  have hl : IntLit (dec rows.length) (rows.map fun r => sceVal r.1).length := by rw [List.length_map]; exact dec_lit _
  have := Declares.variable (name := "sce".toList) [.word "static".toList, .word "const".toList] [] (by simp) (by simp) hl (ident_of (by decide))
    (ArrayInit.nested h2)
  simpa [arrayType] using this

/-! ### East Asian width -/

theorem mergeTextFrom_range (cur : Merged) (rows : List (PRange × Str)) :
    (mergeTextFrom cur rows).map (·.range) = mergeFrom cur.range (rows.map (·.1)) := by
  induction rows generalizing cur with
  | nil => rfl
  | cons r rs ih =>
    unfold mergeTextFrom
    rw [List.map_cons]
    unfold mergeFrom
    by_cases h : cur.range.last + 1 = r.1.first ∧ cur.range.property = r.1.property
    · rw [if_pos h, if_pos h]; exact ih _
    · rw [if_neg h, if_neg h, List.map_cons, ih]

theorem mergeText_range (rows : List (PRange × Str)) : (mergeText rows).map (·.range) = mergeRanges (rows.map (·.1)) := by
  cases rows with
  | nil => rfl
  | cons r rs => exact mergeTextFrom_range _ _

theorem commentOk_prefix {a c : Str} (ha : ∀ x ∈ a, x ≠ '\n' ∧ x ≠ '\\') (hc : CommentOk c) : CommentOk (a ++ c) := by
  refine ⟨fun h => (List.mem_append.1 h).elim (fun h => (ha _ h).1 rfl) hc.1, ?_⟩
  cases c with
  | nil => rw [List.append_nil]; exact (commentOk_of ha).2
  | cons x c => rw [List.getLast?_append_of_ne_nil _ (by simp)]; exact hc.2

theorem rangeComment_ok (a b : Nat) {c : Str} (hc : CommentOk c) : CommentOk (rangeComment a b c) :=
  commentOk_prefix (plain_append (plain_append (plain_append (cp_plain a) (by decide)) (cp_plain b)) (by decide)) hc

theorem mergeTextFrom_comments (cur : Merged) (rows : List (PRange × Str)) (h : ∀ c ∈ cur.comments, CommentOk c) (hr : ∀ r ∈ rows, CommentOk r.2) :
    ∀ m ∈ mergeTextFrom cur rows, ∀ c ∈ m.comments, CommentOk c := by
  induction rows generalizing cur with
  | nil => intro m hm; simp only [mergeTextFrom, List.mem_singleton] at hm; rw [hm]; exact h
  | cons r rs ih =>
    intro m hm
    unfold mergeTextFrom at hm
    by_cases hk : cur.range.last + 1 = r.1.first ∧ cur.range.property = r.1.property
    · rw [if_pos hk] at hm
      refine ih _ ?_ (fun x hx => hr x (by simp [hx])) m hm
      intro c hc
      rcases List.mem_append.1 hc with hc | hc
      · by_cases h1 : cur.comments.length = 1
        · rw [if_pos h1] at hc
          obtain ⟨d, hd, rfl⟩ := List.mem_map.1 hc
          exact rangeComment_ok _ _ (h d hd)
        · rw [if_neg h1] at hc; exact h c hc
      · by_cases h1 : cur.comments ≠ []
        · rw [if_pos h1] at hc
          simp only [List.mem_singleton] at hc
          rw [hc]; exact rangeComment_ok _ _ (hr r (by simp))
        · rw [if_neg h1] at hc; simp at hc
    · rw [if_neg hk] at hm
      rcases List.mem_cons.1 hm with rfl | hm
      · exact h
      · refine ih _ ?_ (fun x hx => hr x (by simp [hx])) m hm
        intro c hc
        simp only [List.mem_singleton] at hc
        rw [hc]; exact hr r (by simp)

theorem mergeText_comments (rows : List (PRange × Str)) (hr : ∀ r ∈ rows, CommentOk r.2) :
    ∀ m ∈ mergeText rows, ∀ c ∈ m.comments, CommentOk c := by
  cases rows with
  | nil => intro m hm; simp [mergeText] at hm
  | cons r rs =>
    refine mergeTextFrom_comments _ rs ?_ (fun x hx => hr x (by simp [hx]))
    intro c hc
    simp only [List.mem_singleton] at hc
    rw [hc]; exact hr r (by simp)

theorem eawBefore_ok (m : Merged) (h : ∀ c ∈ m.comments, CommentOk c) : Clean (eawBefore m) [] := by
  unfold eawBefore
  split
  · have : ∀ l : List Str, (∀ c ∈ l, CommentOk c) → Clean (l.flatMap fun c => "    ".toList ++ remarkLine c) [] := by
      intro l hl
      induction l with
      | nil => exact .nil
      | cons c l ih =>
        rw [List.flatMap_cons]
        exact Clean.append (ts := []) (us := []) (clean_indent.append (clean_remarkLine (hl c (by simp)))) (ih fun x hx => hl x (by simp [hx]))
    exact this _ h
  · exact .nil

theorem eawAfter_ok (m : Merged) (h : ∀ c ∈ m.comments, CommentOk c) : Clean (eawAfter m) [] := by
  unfold eawAfter
  split
  · rename_i hm
    cases hc : m.comments with
    | nil => rw [hc] at hm; simp at hm
    | cons c l => exact clean_remark (h c (by rw [hc]; simp))
  · split
    · exact clean_remark (commentOk_of (plain_append (by decide) (dec_plain _)))
    · exact clean_newline

theorem widthName_ident (a : Str) : Ident (widthName a) := by
  unfold widthName
  repeat' split
  all_goals exact ident_of (by decide)

theorem eaw_ok (rows : List (PRange × Str)) (hc : ∀ r ∈ rows, CommentOk r.2) :
    SaysL (writeEaw rows) [.table "Prop<::unicode::EastAsianWidth>".toList "EastAsianWidth".toList
      ((mergeText rows).map fun m => rangeVal ["unicode".toList, "EastAsianWidth".toList] m.range.first m.range.last (widthName m.range.property))] := by
  refine apiTable_ok _ (fun m => rangeToks (propElem "EastAsianWidth".toList) [p ':', p ':', .word "unicode".toList, p ':', p ':',
    .word "EastAsianWidth".toList, p ':', p ':'] m.range.first m.range.last (widthName m.range.property)) _ (mergeText rows) .nil autoStatic_lexes
    (by simp [specs]) (propElem_type _) (elem := propElem "EastAsianWidth".toList)
    (lexFn_ok (n := 60) (by decide)) (ident_of (by decide)) foldOpen_clean foldClose_clean ?_ (fun r _ => rangeToks_head (propElem_head _).1 (propElem_head _).2)
  intro m hm
  have hcm := mergeText_comments rows hc m hm
  obtain ⟨h1, h2⟩ := propRow_ok (first := m.range.first) (last := m.range.last) (v := widthName m.range.property) (elem := propElem "EastAsianWidth".toList)
    (elemText := "Prop<::unicode::EastAsianWidth>".toList) (scope := "::unicode::EastAsianWidth::".toList) clean_indent (by decide)
    (lexFn_ok (n := 60) (by decide)) (line_lit 60 (by decide)) (widthName_ident _)
    (eawAfter_ok m hcm) (init_global _ (ident_of (w := "EastAsianWidth".toList) (by decide)) (widthName_ident _))
  exact ⟨(eawBefore_ok m hcm).append h1, h2⟩

/-! ### make_age -/

def ageElem : List Tok := [.word "std".toList, p ':', p ':', .word "pair".toList, p '<', .word "std".toList, p ':', p ':', .word "string_view".toList, p ',',
  .word "Age".toList, p '>']

theorem ages_ok (al : List (Str × Str)) (hk : ∀ e ∈ al, ∀ c ∈ e.1, c ≠ '"' ∧ c ≠ '\\' ∧ c ≠ '\n') (hv : ∀ e ∈ al, Ident e.2) :
    SaysL (writeAges al) [.table "std::pair<std::string_view, Age>".toList "mappings".toList
      ((al.filter fun e => decide (e.2 ≠ "Unassigned".toList)).map fun e => .list [.str e.1, .name ["Age".toList, e.2]])] := by
  have hk' : ∀ e ∈ al.filter (fun e => decide (e.2 ≠ "Unassigned".toList)), ∀ c ∈ e.1, c ≠ '"' ∧ c ≠ '\\' ∧ c ≠ '\n' :=
    fun e he => hk e (List.mem_filter.1 he).1
  have hv' : ∀ e ∈ al.filter (fun e => decide (e.2 ≠ "Unassigned".toList)), Ident e.2 := fun e he => hv e (List.mem_filter.1 he).1
  unfold writeAges
  generalize al.filter (fun e => decide (e.2 ≠ "Unassigned".toList)) = l at hk' hv' ⊢
  clear hk hv
  refine apiTable_ok _ (fun e => [.word "std".toList, p ':', p ':', .word "pair".toList] ++ p '{' :: ([.str e.1, .word "sv".toList] ++ p ',' ::
    [.word "Age".toList, p ':', p ':', .word e.2]) ++ [p '}']) _ l clean_indent
    (lexFn_ok (n := 40) (ts := [.word "static".toList, .word "constexpr".toList, .word "auto".toList]) (by decide))
    (List.mem_cons_of_mem _ (List.mem_cons_of_mem _ (List.mem_cons_self ..))) (typeName_two (ident_of (by decide)) (ident_of (by decide)) (by decide) (.inr rfl)) (elem := ageElem)
    (lexFn_ok (n := 60) (by decide)) (ident_of (by decide)) clean_newline clean_newline ?_
    (fun e _ => ⟨(fun h => by cases h), (fun h => by cases h)⟩)
  intro e hm
  refine ⟨?_, ?_⟩
  · have k1 := Clean.word (a := ", Age::".toList) (ts := [p ',', .word "Age".toList, p ':', p ':']) (clean_lit 20 (by decide)) (ident_word (hv' e hm))
      (clean_lit (t := " },\n".toList) (ts := [p '}', p ',']) 6 (by decide)) (by decide) (by decide)
    have k2 := Clean.word (clean_str (hk' e hm)) (w := "sv".toList) ⟨by decide, by decide⟩ k1 (by simp) (by simp)
    have k3 := Clean.append (clean_lit (t := "        std::pair{ ".toList) (ts := [.word "std".toList, p ':', p ':', .word "pair".toList, p '{']) 40 (by decide)) k2
    simpa only [List.append_assoc, List.nil_append, List.append_nil, List.cons_append] using k3
  · exact Init.deduced (rest := [.word "std".toList, p ':', p ':', .word "string_view".toList, p ',', .word "Age".toList, p '>'])
      (.cons (ident_of (w := "std".toList) (by decide)) (.one (ident_of (w := "pair".toList) (by decide)))) rfl
      (Inits.cons .strView (Inits.one (init_scoped _ (enum := "Age".toList) (ident_of (by decide)) (hv' e hm))))

end Verif.Tg
