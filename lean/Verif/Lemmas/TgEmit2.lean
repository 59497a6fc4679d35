import Verif.Lemmas.TgEmit

/-!
# Lemmas: the rows and tables of the generated files
-/

namespace Verif.Tg
open Verif.Spec.Cxx (Tok Lexes IntLit Val Init Inits Ident Path p Reads ArrayInit Declares arrayType Unit Says Item Members DeclaresEnum Enumerators
  lexFn lexFn_ok isWord isDigit TypeName bracketed)

theorem unit_append {a b : List Tok} {xs ys : List Item} (h : Unit a xs) (h' : Unit b ys) : Unit (a ++ b) (xs ++ ys) := by
  induction h with
  | nil => exact h'
  | struct h1 h2 _ ih => have := Unit.struct h1 h2 ih; simpa using this
  | table h1 h0 h2 _ ih => have := Unit.table h1 h0 h2 ih; simpa using this
  | enum h1 _ ih => have := Unit.enum h1 ih; simpa using this

/-- as `Says`, for texts that other lines may follow -/
def SaysL (text : Str) (items : List Item) : Prop := ∃ ts, Line text ts ∧ Unit ts items

theorem SaysL.says {t : Str} {items : List Item} (h : SaysL t items) : Says t items := by
  obtain ⟨ts, h1, h2⟩ := h
  exact ⟨ts, h1.reads, h2⟩

theorem SaysL.append {a b : Str} {xs ys : List Item} (ha : SaysL a xs) (hb : SaysL b ys) : SaysL (a ++ b) (xs ++ ys) := by
  obtain ⟨ts, h1, h2⟩ := ha
  obtain ⟨us, h3, h4⟩ := hb
  exact ⟨ts ++ us, h1.append h3, unit_append h2 h4⟩

theorem SaysL.skip {a b : Str} {ys : List Item} (ha : Clean a []) (hb : SaysL b ys) : SaysL (a ++ b) ys := by
  obtain ⟨us, h3, h4⟩ := hb
  exact ⟨[] ++ us, ha.line.append h3, h4⟩

theorem SaysL.nil : SaysL [] [] := ⟨[], Clean.nil.line, .nil⟩

theorem SaysL.flat {l : List (Str × List Item)} (h : ∀ e ∈ l, SaysL e.1 e.2) : SaysL (l.flatMap (·.1)) (l.flatMap (·.2)) := by
  induction l with
  | nil => exact .nil
  | cons x l ih =>
    rw [List.flatMap_cons, List.flatMap_cons]
    exact (h x (by simp)).append (ih fun e he => h e (by simp [he]))

theorem typeName_one {w : Str} {rest : List Tok} (hw : Ident w) (hb : bracketed 0 (.word w :: rest) = true) (hr : rest = [] ∨ rest.head? = some (p '<')) :
    TypeName (.word w :: rest) := ⟨hb, _, _, rest, .one hw, rfl, hr⟩

theorem typeName_word {w : Str} (hw : Ident w) : TypeName [.word w] := typeName_one hw rfl (.inl rfl)

theorem typeName_two {a b : Str} {rest : List Tok} (ha : Ident a) (hw : Ident b) (hb : bracketed 0 (.word a :: p ':' :: p ':' :: .word b :: rest) = true)
    (hr : rest = [] ∨ rest.head? = some (p '<')) :
    TypeName (.word a :: p ':' :: p ':' :: .word b :: rest) := ⟨hb, _, _, rest, .cons ha (.one hw), rfl, hr⟩

theorem saysL_table {t type name : Str} {elem : List Tok} {vs : List Val} (htype : Lexes type elem) (htn : TypeName elem)
    (h : ∃ us, Line t us ∧ Declares us elem name vs) : SaysL t [.table type name vs] := by
  obtain ⟨us, h1, h2⟩ := h
  refine ⟨us, h1, ?_⟩
  have := Unit.table htype.reads htn h2 .nil
  simpa using this

/-- `{ a, b }` -/
theorem init_pair {elem : List Tok} {a b : Str} {m n : Nat} (ha : IntLit a m) (hb : IntLit b n) :
    Init elem [p '{', .word a, p ',', .word b, p '}'] (.list [.num m, .num n]) := by
  have := Init.braces (elem := elem) (Inits.cons (Init.num ha) (Inits.one (Init.num hb)))
  simpa using this

theorem ident_word {w : Str} (h : Ident w) : Word w := ⟨h.1, h.2.1⟩

/-- decidable form for fixed names -/
def identB (w : Str) : Bool := !w.isEmpty && w.all isWord && (w.head?.elim true fun c => !isDigit c)

theorem ident_of {w : Str} (h : identB w = true) : Ident w := by
  unfold identB at h
  simp only [Bool.and_eq_true, Bool.not_eq_true', List.all_eq_true] at h
  refine ⟨?_, h.1.2, ?_⟩
  · intro e; rw [e] at h; simp at h
  · intro c hc
    have := h.2
    rw [hc] at this
    simpa using this

theorem ident_glue {a b : Str} (ha : Ident a) (hb : ∀ c ∈ b, isWord c = true) : Ident (a ++ b) := by
  refine ⟨by simp [ha.1], fun c hc => (List.mem_append.1 hc).elim (ha.2.1 c) (hb c), ?_⟩
  intro c hc
  rw [List.head?_append_of_ne_nil _ ha.1] at hc
  exact ha.2.2 c hc

theorem clean_newline : Clean "\n".toList [] := clean_lit 2 (by decide)
theorem clean_indent : Clean "    ".toList [] := clean_lit 6 (by decide)

/-- what a word and numbers make of a comment -/
theorem commentOk_of {c : Str} (h : ∀ x ∈ c, x ≠ '\n' ∧ x ≠ '\\') : CommentOk c := by
  refine ⟨fun hn => (h _ hn).1 rfl, ?_⟩
  intro e
  exact (h '\\' (List.mem_of_getLast? e)).2 rfl

theorem word_plain {c : Char} (h : isWord c = true) : c ≠ '\n' ∧ c ≠ '\\' := by
  refine ⟨?_, ?_⟩ <;> · intro e; rw [e] at h; revert h; decide

theorem dec_plain (n : Nat) : ∀ c ∈ dec n, c ≠ '\n' ∧ c ≠ '\\' := fun c hc => word_plain ((dec_word n).2 c hc)
theorem cp_plain (n : Nat) : ∀ c ∈ cp n, c ≠ '\n' ∧ c ≠ '\\' := fun c hc => word_plain ((cp_word n).2 c hc)

theorem plain_append {a b : Str} (ha : ∀ c ∈ a, c ≠ '\n' ∧ c ≠ '\\') (hb : ∀ c ∈ b, c ≠ '\n' ∧ c ≠ '\\') :
    ∀ c ∈ a ++ b, c ≠ '\n' ∧ c ≠ '\\' := fun c hc => (List.mem_append.1 hc).elim (ha c) (hb c)

theorem clean_total (n : Nat) : Clean (remarkLine ("Total entries: ".toList ++ dec n)) [] :=
  clean_remarkLine (commentOk_of (plain_append (by decide) (dec_plain n)))

theorem clean_total2 (n m : Nat) : Clean (remarkLine ("Total entries: ".toList ++ dec n ++ ", max length: ".toList ++ dec m)) [] :=
  clean_remarkLine (commentOk_of (plain_append (plain_append (plain_append (by decide) (dec_plain n)) (by decide)) (dec_plain m)))

/-! ## case_norm_generator.cpp -/

def pairToks : List Tok := [.word "std".toList, p ':', p ':', .word "pair".toList, p '<', .word "char32_t".toList, p ',', .word "char32_t".toList, p '>']

theorem pairText_lexes : Lexes pairText pairToks := lexFn_ok (n := 40) (by decide)

theorem pair_type : TypeName pairToks := typeName_two (ident_of (by decide)) (ident_of (by decide)) (by decide) (.inr rfl)

theorem printable_ok {s : Nat} (h : s ≠ 0x5C) : CommentOk (printable s) := by
  unfold printable
  by_cases hs : 0x20 ≤ s ∧ s < 0x7F
  · rw [if_pos hs]
    refine commentOk_of ?_
    intro c hc
    simp only [List.mem_singleton] at hc
    rw [hc]
    have hv : (Char.ofNat s).toNat = s := by
      have : s.isValidChar := by left; omega
      simp [Char.ofNat, this, Char.ofNatAux, Char.toNat]
    refine ⟨?_, ?_⟩
    · intro e; rw [e] at hv; simp at hv; omega
    · intro e; rw [e] at hv; simp at hv; omega
  · rw [if_neg hs]; exact commentOk_of (by simp)

theorem simple_ok (m : List (Nat × Nat)) (name : Str) (hn : ∀ c ∈ name, isWord c = true) (hm : ∀ e ∈ m, e.1 ≠ 0x5C) :
    SaysL (writeSimpleCaseTable m name)
      [.table "std::pair<char32_t, char32_t>".toList ("simple_".toList ++ name ++ "_table".toList) (m.map fun e => .list [.num e.1, .num e.2])] := by
  unfold writeSimpleCaseTable
  refine SaysL.skip (clean_remarkLine (commentOk_of (plain_append (plain_append (by decide) fun c hc => word_plain (hn c hc)) (by decide)))) ?_
  refine SaysL.skip (clean_total _) ?_
  obtain ⟨ts, h1, h2⟩ := commaRows_clean pairToks (fun e : Nat × Nat => "    { ".toList ++ (cp e.1 ++ (", ".toList ++ (cp e.2 ++ " }".toList))))
    (fun e => remark (printable e.1)) (fun e => [p '{', .word (cp e.1), p ',', .word (cp e.2), p '}']) (fun e => .list [.num e.1, .num e.2]) m (by
      intro e he
      refine ⟨?_, clean_remark (printable_ok (hm e he)), init_pair (cp_lit _) (cp_lit _)⟩
      have := Clean.word (a := "    { ".toList) (ts := [p '{']) (clean_lit 10 (by decide)) (cp_word e.1)
        (Clean.word (a := ", ".toList) (ts := [p ',']) (clean_lit 4 (by decide)) (cp_word e.2)
          (clean_lit (t := " }".toList) (ts := [p '}']) 4 (by decide)) (by decide) (by decide)) (by decide) (by simp)
      exact this)
  refine saysL_table pairText_lexes pair_type ?_
  have := constexprArray_ok (name := simpleName name) pairText_lexes
    (ident_glue (ident_glue (ident_of (by decide)) hn) (by decide)) h1 h2
  rw [List.length_map] at this
  exact this

def fullToks (e : FullEntry) : List Tok :=
  [p '{', .word (cp e.source), p ',', p '{', .word (cp (e.targets.getD 0 0)), p ',', .word (cp (e.targets.getD 1 0)), p ',',
   .word (cp (e.targets.getD 2 0)), p '}', p ',', .word (dec e.length), p '}']

theorem fullRow_ok (elem : List Tok) (e : FullEntry) : Clean (fullRow e) (fullToks e) ∧
    Init elem (fullToks e) (.list [.num e.source, .list [.num (e.targets.getD 0 0), .num (e.targets.getD 1 0), .num (e.targets.getD 2 0)], .num e.length]) := by
  refine ⟨?_, ?_⟩
  · exact Clean.word (ts := [p '{']) (clean_lit 10 (by decide)) (cp_word _)
      (Clean.word (ts := [p ',', p '{']) (clean_lit 6 (by decide)) (cp_word _)
        (Clean.word (ts := [p ',']) (clean_lit 4 (by decide)) (cp_word _)
          (Clean.word (ts := [p ',']) (clean_lit 4 (by decide)) (cp_word _)
            (Clean.word (ts := [p '}', p ',']) (clean_lit 6 (by decide)) (dec_word _)
              (clean_lit (t := " }".toList) (ts := [p '}']) 4 (by decide)) (by decide) (by decide)) (by decide) (by simp))
          (by decide) (by simp)) (by decide) (by simp)) (by decide) (by simp)
  · have := Init.braces (elem := elem) (Inits.cons (Init.num (cp_lit e.source)) (Inits.cons
      (Init.braces (Inits.cons (Init.num (cp_lit (e.targets.getD 0 0))) (Inits.cons (Init.num (cp_lit (e.targets.getD 1 0)))
        (Inits.one (Init.num (cp_lit (e.targets.getD 2 0))))))) (Inits.one (Init.num (dec_lit e.length)))))
    simpa [fullToks] using this

theorem full_ok (m : List (Nat × List Nat)) (name : Str) (hn : ∀ c ∈ name, isWord c = true) :
    SaysL (writeFullCaseTable m name)
      [.struct ("full_".toList ++ name ++ "_entry".toList) [("char32_t".toList, "source".toList, none), ("char32_t".toList, "targets".toList, some 3),
        ("uint8_t".toList, "length".toList, none)],
       .table ("full_".toList ++ name ++ "_entry".toList) ("full_".toList ++ name ++ "_table".toList)
        ((writeFull m).map fun e => .list [.num e.source, .list [.num (e.targets.getD 0 0), .num (e.targets.getD 1 0), .num (e.targets.getD 2 0)],
          .num e.length])] := by
  have hid : Ident (fullEntryName name) := ident_glue (ident_glue (ident_of (by decide)) hn) (by decide)
  unfold writeFullCaseTable
  refine SaysL.skip (clean_remarkLine (commentOk_of (plain_append (plain_append (by decide) fun c hc => word_plain (hn c hc)) (by decide)))) ?_
  refine SaysL.skip (clean_total _) ?_
  have htab : SaysL (constexprArray (fullEntryName name) (fullName name) (writeFull m).length (commaRows fullRow (fun _ => "\n".toList) (writeFull m)))
      [.table (fullEntryName name) (fullName name) ((writeFull m).map fun e => .list [.num e.source, .list [.num (e.targets.getD 0 0),
        .num (e.targets.getD 1 0), .num (e.targets.getD 2 0)], .num e.length])] := by
    obtain ⟨ts, h1, h2⟩ := commaRows_clean [.word (fullEntryName name)] fullRow (fun _ => "\n".toList) fullToks (fun e => .list [.num e.source,
      .list [.num (e.targets.getD 0 0), .num (e.targets.getD 1 0), .num (e.targets.getD 2 0)], .num e.length]) (writeFull m)
      (fun e _ => ⟨(fullRow_ok [.word (fullEntryName name)] e).1, clean_newline, (fullRow_ok _ e).2⟩)
    have := constexprArray_ok (name := fullName name) (ident_word hid).lexes (ident_glue (ident_glue (ident_of (by decide)) hn) (by decide)) h1 h2
    rw [List.length_map] at this
    exact saysL_table (ident_word hid).lexes (typeName_word hid) this
  have hstruct : SaysL ("struct ".toList ++ (fullEntryName name ++ (" {\n".toList ++ ("    char32_t source;\n".toList ++
      ("    char32_t targets[3];\n".toList ++ ("    uint8_t length;\n".toList ++ "};\n\n".toList))))))
      [.struct (fullEntryName name) [("char32_t".toList, "source".toList, none), ("char32_t".toList, "targets".toList, some 3),
        ("uint8_t".toList, "length".toList, none)]] := by
    have h1 := Clean.append (clean_lit (t := "    char32_t source;\n".toList) (ts := [.word "char32_t".toList, .word "source".toList, p ';']) 30 (by decide))
      (Clean.append (clean_lit (t := "    char32_t targets[3];\n".toList) (ts := [.word "char32_t".toList, .word "targets".toList, p '[', .word "3".toList, p ']', p ';']) 30 (by decide))
      (Clean.append (clean_lit (t := "    uint8_t length;\n".toList) (ts := [.word "uint8_t".toList, .word "length".toList, p ';']) 30 (by decide))
        (clean_lit (t := "};\n\n".toList) (ts := [p '}', p ';']) 10 (by decide))))
    have h2 := Clean.append (clean_lit (t := " {\n".toList) (ts := [p '{']) 10 (by decide)) h1
    have h3 := Line.mid (line_lit (t := "struct ".toList) (ts := [.word "struct".toList]) 10 (by decide)) (ident_word hid).lexes h2 (by simp)
    refine ⟨_, h3, ?_⟩
    have hm : Members [.word "char32_t".toList, .word "source".toList, p ';', .word "char32_t".toList, .word "targets".toList, p '[', .word "3".toList,
        p ']', p ';', .word "uint8_t".toList, .word "length".toList, p ';'] [("char32_t".toList, "source".toList, none),
        ("char32_t".toList, "targets".toList, some 3), ("uint8_t".toList, "length".toList, none)] :=
      .scalar (ident_of (by decide)) (ident_of (by decide)) (.array (ident_of (by decide)) (ident_of (by decide)) (dec_lit 3)
        (.scalar (ident_of (by decide)) (ident_of (by decide)) .nil))
    have := Unit.struct hid hm .nil
    simpa using this
  have := hstruct.append htab
  simpa [fullEntryName, fullName] using this

theorem struct_ok {head name tail : Str} {ms : List (Str × Str × Option Nat)} {us : List Tok}
    (h : Line (head ++ (name ++ tail)) us) (hu : Unit us [.struct name ms]) : SaysL (head ++ (name ++ tail)) [.struct name ms] := ⟨us, h, hu⟩

/-- a table of any row type whose type is one word -/
theorem wordTable_ok {α : Type} (type name : Str) (f g : α → Str) (val : α → Val) (l : List α) (ht : Ident type) (hn : Ident name)
    (hf : ∀ x ∈ l, ∃ toks, Clean (f x) toks ∧ Clean (g x) [] ∧ Init [.word type] toks (val x)) :
    SaysL (constexprArray type name l.length (commaRows f g l)) [.table type name (l.map val)] := by
  obtain ⟨ts, h1, h2⟩ := commaRows_ex [.word type] f g val l hf
  have := constexprArray_ok (name := name) (ident_word ht).lexes hn h1 h2
  rw [List.length_map] at this
  exact saysL_table (ident_word ht).lexes (typeName_word ht) this

def cccToks : List Tok := [.word "std".toList, p ':', p ':', .word "pair".toList, p '<', .word "char32_t".toList, p ',', .word "uint8_t".toList, p '>']

theorem ccc_ok (m : List (Nat × Nat)) : SaysL (writeCccTable m)
    [.table "std::pair<char32_t, uint8_t>".toList "ccc_table".toList (m.map fun e => .list [.num e.1, .num e.2])] := by
  unfold writeCccTable
  refine SaysL.skip (clean_remarkLine (commentOk_of (by decide))) (SaysL.skip (clean_total _) ?_)
  have hty : Lexes "std::pair<char32_t, uint8_t>".toList cccToks := lexFn_ok (n := 40) (by decide)
  obtain ⟨ts, h1, h2⟩ := commaRows_clean cccToks (fun e : Nat × Nat => "    { ".toList ++ (cp e.1 ++ (", ".toList ++ (dec e.2 ++ " }".toList))))
    (fun _ => "\n".toList) (fun e => [p '{', .word (cp e.1), p ',', .word (dec e.2), p '}']) (fun e => .list [.num e.1, .num e.2]) m (by
      intro e he
      refine ⟨?_, clean_newline, init_pair (cp_lit _) (dec_lit _)⟩
      exact Clean.word (a := "    { ".toList) (ts := [p '{']) (clean_lit 10 (by decide)) (cp_word e.1)
        (Clean.word (a := ", ".toList) (ts := [p ',']) (clean_lit 4 (by decide)) (dec_word e.2)
          (clean_lit (t := " }".toList) (ts := [p '}']) 4 (by decide)) (by decide) (by decide)) (by decide) (by simp))
  have := constexprArray_ok (name := "ccc_table".toList) hty (ident_of (by decide)) h1 h2
  rw [List.length_map] at this
  exact saysL_table hty (typeName_two (ident_of (by decide)) (ident_of (by decide)) (by decide) (.inr rfl)) this

/-- the members of an entry of a decomposition table -/
def decompMembers (w : Nat) : List (Str × Str × Option Nat) :=
  [("char32_t".toList, "source".toList, none), ("char32_t".toList, "targets".toList, some w), ("uint8_t".toList, "length".toList, none)]

theorem decompStruct_ok (w : Nat) :
    SaysL ("struct canonical_decomposition_entry {\n    char32_t source;\n    char32_t targets[".toList ++ (dec w ++
      "];\n    uint8_t length;\n};\n\n".toList)) [.struct "canonical_decomposition_entry".toList (decompMembers w)] := by
  have h1 := Line.mid (a := "struct canonical_decomposition_entry {\n    char32_t source;\n    char32_t targets[".toList)
    (ts := [.word "struct".toList, .word "canonical_decomposition_entry".toList, p '{', .word "char32_t".toList, .word "source".toList, p ';',
      .word "char32_t".toList, .word "targets".toList, p '[']) (line_lit 100 (by decide)) (dec_word w).lexes
    (clean_lit (t := "];\n    uint8_t length;\n};\n\n".toList) (ts := [p ']', p ';', .word "uint8_t".toList, .word "length".toList, p ';', p '}', p ';']) 60
      (by decide)) (by decide)
  refine ⟨_, h1, ?_⟩
  have hm : Members [.word "char32_t".toList, .word "source".toList, p ';', .word "char32_t".toList, .word "targets".toList, p '[', .word (dec w),
      p ']', p ';', .word "uint8_t".toList, .word "length".toList, p ';'] (decompMembers w) :=
    .scalar (ident_of (by decide)) (ident_of (by decide)) (.array (ident_of (by decide)) (ident_of (by decide)) (dec_lit w)
      (.scalar (ident_of (by decide)) (ident_of (by decide)) .nil))
  exact Unit.struct (name := "canonical_decomposition_entry".toList) (ident_of (by decide)) hm .nil

theorem decompRow_ok (elem : List Tok) (w : Nat) (e : Nat × Decomp) : ∃ toks, Clean (decompRow w e) toks ∧ Clean "\n".toList [] ∧
    Init elem toks (.list [.num e.1, .list ((pad w e.2.targets).map .num), .num e.2.targets.length]) := by
  have h1 := Clean.word (a := " }, ".toList) (ts := [p '}', p ',']) (clean_lit 6 (by decide)) (dec_word e.2.targets.length)
    (clean_lit (t := " }".toList) (ts := [p '}']) 4 (by decide)) (by decide) (by decide)
  obtain ⟨ts, h2, h3, _⟩ := cpList_clean elem (pad w e.2.targets) ", { ".toList _ [p ',', p '{'] _ (clean_lit 6 (by decide)) h1 (by decide) (by simp)
  have h4 := Clean.word (a := "    { ".toList) (ts := [p '{']) (clean_lit 10 (by decide)) (cp_word e.1) h2 (by decide) (by simp)
  refine ⟨_, h4, clean_newline, ?_⟩
  have := Init.braces (elem := elem) (Inits.cons (Init.num (cp_lit e.1)) (Inits.cons (Init.braces h3) (Inits.one (Init.num (dec_lit e.2.targets.length)))))
  simpa using this

theorem decomp_ok (m : List (Nat × Decomp)) : SaysL (writeDecompositionTable m)
    [.struct "canonical_decomposition_entry".toList (decompMembers (maxLen (ofKind true m))),
     .table "canonical_decomposition_entry".toList "canonical_decomposition_table".toList
      ((ofKind true m).map fun e => .list [.num e.1, .list ((pad (maxLen (ofKind true m)) e.2.targets).map .num), .num e.2.targets.length])] := by
  unfold writeDecompositionTable
  refine SaysL.skip (clean_remarkLine (commentOk_of (by decide))) (SaysL.skip (clean_total2 _ _) ?_)
  have := (decompStruct_ok (maxLen (ofKind true m))).append (wordTable_ok "canonical_decomposition_entry".toList "canonical_decomposition_table".toList
    (decompRow (maxLen (ofKind true m))) (fun _ => "\n".toList) _ (ofKind true m) (ident_of (by decide)) (ident_of (by decide))
    fun e _ => decompRow_ok _ _ e)
  simpa only [List.append_assoc, List.cons_append, List.nil_append] using this

/-- the members of an entry of the compatibility table -/
def compatMembers (w : Nat) : List (Str × Str × Option Nat) :=
  [("char32_t".toList, "source".toList, none), ("char32_t".toList, "targets".toList, some w), ("uint8_t".toList, "length".toList, none),
   ("uint8_t".toList, "decomp_type".toList, none)]

theorem compatStruct_ok (w : Nat) :
    SaysL ("struct compatibility_decomposition_entry {\n    char32_t source;\n    char32_t targets[".toList ++ (dec w ++
      "];\n    uint8_t length;\n    uint8_t decomp_type; // maps to Decomposition_Type enum ordinal\n};\n\n".toList))
      [.struct "compatibility_decomposition_entry".toList (compatMembers w)] := by
  have h1 := Line.mid (a := "struct compatibility_decomposition_entry {\n    char32_t source;\n    char32_t targets[".toList)
    (ts := [.word "struct".toList, .word "compatibility_decomposition_entry".toList, p '{', .word "char32_t".toList, .word "source".toList, p ';',
      .word "char32_t".toList, .word "targets".toList, p '[']) (line_lit 100 (by decide)) (dec_word w).lexes
    (clean_lit (t := "];\n    uint8_t length;\n    uint8_t decomp_type; // maps to Decomposition_Type enum ordinal\n};\n\n".toList)
      (ts := [p ']', p ';', .word "uint8_t".toList, .word "length".toList, p ';', .word "uint8_t".toList, .word "decomp_type".toList, p ';', p '}', p ';'])
      100 (by decide)) (by decide)
  refine ⟨_, h1, ?_⟩
  have hm : Members [.word "char32_t".toList, .word "source".toList, p ';', .word "char32_t".toList, .word "targets".toList, p '[', .word (dec w),
      p ']', p ';', .word "uint8_t".toList, .word "length".toList, p ';', .word "uint8_t".toList, .word "decomp_type".toList, p ';'] (compatMembers w) :=
    .scalar (ident_of (by decide)) (ident_of (by decide)) (.array (ident_of (by decide)) (ident_of (by decide)) (dec_lit w)
      (.scalar (ident_of (by decide)) (ident_of (by decide)) (.scalar (ident_of (by decide)) (ident_of (by decide)) .nil)))
  exact Unit.struct (name := "compatibility_decomposition_entry".toList) (ident_of (by decide)) hm .nil

theorem compatRow_ok (elem : List Tok) (w : Nat) (e : Nat × Decomp) : ∃ toks, Clean (compatRow w e) toks ∧ Clean "\n".toList [] ∧
    Init elem toks (.list [.num e.1, .list ((pad w e.2.targets).map .num), .num e.2.targets.length, .num (decompositionTypeOrdinal e.2.type)]) := by
  have h0 := Clean.word (a := ", ".toList) (ts := [p ',']) (clean_lit 6 (by decide)) (dec_word (decompositionTypeOrdinal e.2.type))
    (clean_lit (t := " }".toList) (ts := [p '}']) 4 (by decide)) (by decide) (by decide)
  have h1 := Clean.word (a := " }, ".toList) (ts := [p '}', p ',']) (clean_lit 6 (by decide)) (dec_word e.2.targets.length) h0 (by decide) (by simp)
  obtain ⟨ts, h2, h3, _⟩ := cpList_clean elem (pad w e.2.targets) ", { ".toList _ [p ',', p '{'] _ (clean_lit 6 (by decide)) h1 (by decide) (by simp)
  have h4 := Clean.word (a := "    { ".toList) (ts := [p '{']) (clean_lit 10 (by decide)) (cp_word e.1) h2 (by decide) (by simp)
  refine ⟨_, h4, clean_newline, ?_⟩
  have := Init.braces (elem := elem) (Inits.cons (Init.num (cp_lit e.1)) (Inits.cons (Init.braces h3) (Inits.cons
    (Init.num (dec_lit e.2.targets.length)) (Inits.one (Init.num (dec_lit (decompositionTypeOrdinal e.2.type)))))))
  simpa using this

theorem compat_ok (m : List (Nat × Decomp)) : SaysL (writeCompatibilityTable m)
    [.struct "compatibility_decomposition_entry".toList (compatMembers (maxLen (ofKind false m))),
     .table "compatibility_decomposition_entry".toList "compatibility_decomposition_table".toList
      ((ofKind false m).map fun e => .list [.num e.1, .list ((pad (maxLen (ofKind false m)) e.2.targets).map .num), .num e.2.targets.length,
        .num (decompositionTypeOrdinal e.2.type)])] := by
  unfold writeCompatibilityTable
  refine SaysL.skip (clean_remarkLine (commentOk_of (by decide))) (SaysL.skip (clean_total2 _ _) ?_)
  have := (compatStruct_ok (maxLen (ofKind false m))).append (wordTable_ok "compatibility_decomposition_entry".toList
    "compatibility_decomposition_table".toList (compatRow (maxLen (ofKind false m))) (fun _ => "\n".toList) _ (ofKind false m) (ident_of (by decide))
    (ident_of (by decide)) fun e _ => compatRow_ok _ _ e)
  simpa only [List.append_assoc, List.cons_append, List.nil_append] using this

theorem composition_ok (tab : List Tables.Comp) : SaysL (writeCompositionTable tab)
    [.struct "composition_pair".toList [("char32_t".toList, "first".toList, none), ("char32_t".toList, "second".toList, none),
      ("char32_t".toList, "composed".toList, none)],
     .table "composition_pair".toList "composition_table".toList (tab.map fun c => .list [.num c.first, .num c.second, .num c.composed])] := by
  unfold writeCompositionTable
  refine SaysL.skip (clean_remarkLine (commentOk_of (by decide))) (SaysL.skip (clean_total _) ?_)
  refine SaysL.append (xs := [_]) ?_ (wordTable_ok "composition_pair".toList "composition_table".toList _ _ _ tab (ident_of (by decide)) (ident_of (by decide)) ?_)
  · refine ⟨_, line_lit (ts := [.word "struct".toList, .word "composition_pair".toList, p '{', .word "char32_t".toList, .word "first".toList, p ';',
      .word "char32_t".toList, .word "second".toList, p ';', .word "char32_t".toList, .word "composed".toList, p ';', p '}', p ';']) 120 (by decide), ?_⟩
    have hm : Members [.word "char32_t".toList, .word "first".toList, p ';', .word "char32_t".toList, .word "second".toList, p ';',
        .word "char32_t".toList, .word "composed".toList, p ';'] [("char32_t".toList, "first".toList, none), ("char32_t".toList, "second".toList, none),
        ("char32_t".toList, "composed".toList, none)] :=
      .scalar (ident_of (by decide)) (ident_of (by decide)) (.scalar (ident_of (by decide)) (ident_of (by decide))
        (.scalar (ident_of (by decide)) (ident_of (by decide)) .nil))
    exact Unit.struct (name := "composition_pair".toList) (ident_of (by decide)) hm .nil
  · intro c _
    refine ⟨_, Clean.word (a := "    { ".toList) (ts := [p '{']) (clean_lit 10 (by decide)) (cp_word c.first)
      (Clean.word (a := ", ".toList) (ts := [p ',']) (clean_lit 4 (by decide)) (cp_word c.second)
        (Clean.word (a := ", ".toList) (ts := [p ',']) (clean_lit 4 (by decide)) (cp_word c.composed)
          (clean_lit (t := " }".toList) (ts := [p '}']) 4 (by decide)) (by decide) (by decide)) (by decide) (by simp)) (by decide) (by simp),
      clean_newline, ?_⟩
    have := Init.braces (elem := [.word "composition_pair".toList]) (Inits.cons (Init.num (cp_lit c.first)) (Inits.cons (Init.num (cp_lit c.second))
      (Inits.one (Init.num (cp_lit c.composed)))))
    simpa using this

theorem qcLines_ok (elem : List Tok) (fuel : Nat) (l : List Nat) (h : l.length ≤ fuel) :
    ∃ ts, Clean (qcLines fuel l) ts ∧ Inits elem ts (l.map .num) := by
  induction fuel generalizing l with
  | zero =>
    have : l = [] := List.length_eq_zero_iff.1 (by omega)
    subst this
    exact ⟨[], .nil, .nil⟩
  | succ fuel ih =>
    cases l with
    | nil => exact ⟨[], .nil, .nil⟩
    | cons x l =>
      obtain ⟨us, i1, i2⟩ := ih ((x :: l).drop 8) (by simp only [List.length_drop, List.length_cons] at h ⊢; omega)
      have hq : qcLines (fuel + 1) (x :: l) = "    ".toList ++ (cpList ((x :: l).take 8) ++ ((if 8 < (x :: l).length then ",".toList else []) ++
        ("\n".toList ++ qcLines fuel ((x :: l).drop 8)))) := rfl
      rw [hq]
      by_cases h8 : 8 < (x :: l).length
      · rw [if_pos h8]
        obtain ⟨ts, h1, _, h3⟩ := cpList_clean elem ((x :: l).take 8) "    ".toList _ [] _ clean_indent
          (Clean.append (clean_lit (t := ",".toList) (ts := [p ',']) 4 (by decide)) (clean_newline.append i1)) (by decide) (by simp)
        refine ⟨_, h1, ?_⟩
        have := h3 us _ (by simp) i2
        rw [← List.map_append, List.take_append_drop] at this
        simpa using this
      · rw [if_neg h8]
        have hd : (x :: l).drop 8 = [] := List.drop_eq_nil_of_le (by omega)
        have ht : (x :: l).take 8 = x :: l := List.take_of_length_le (by omega)
        rw [hd] at i1 i2 ⊢
        rw [ht]
        have hq0 : qcLines fuel [] = [] := by cases fuel <;> rfl
        rw [hq0]
        obtain ⟨ts, h1, h2, _⟩ := cpList_clean elem (x :: l) "    ".toList _ [] [] clean_indent
          (Clean.append (a := []) (ts := []) .nil (Clean.append (us := []) clean_newline .nil)) (by decide) (by simp)
        refine ⟨ts, ?_, h2⟩
        simpa only [List.append_nil, List.nil_append] using h1

theorem qc_ok (cps : List Nat) (name : Str) (hn : Ident name) : SaysL (writeQuickCheckTable cps name)
    [.table "char32_t".toList (name ++ "_table".toList) (cps.map .num)] := by
  unfold writeQuickCheckTable
  refine SaysL.skip (clean_remarkLine (commentOk_of (plain_append (fun c hc => word_plain (hn.2.1 c hc)) (by decide)))) (SaysL.skip (clean_total _) ?_)
  have ht : Ident "char32_t".toList := ident_of (by decide)
  obtain ⟨ts, h1, h2⟩ := qcLines_ok [.word "char32_t".toList] cps.length cps (Nat.le_refl _)
  have := constexprArray_ok (name := qcName name) (ident_word ht).lexes (ident_glue hn (by decide)) h1 h2
  rw [List.length_map] at this
  exact saysL_table (ident_word ht).lexes (typeName_word ht) this

end Verif.Tg
