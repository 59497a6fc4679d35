import Verif.Model.TgHeader
import Verif.Spec.CxxExtern
import Verif.Lemmas.TablesFill
import Verif.Props.TgEmitFiles
import Verif.Props.TgNames
import Verif.Props.TablesExact
/-!
# C65: the generated header declares what the generated sources define, with the types the library needs
-/

namespace Verif.Props.Tg
open Verif.Tg
open Verif.Spec.Ucd (Row Complete Separate ValueOf)
open Verif.Tables (Gen generate generateBy propertiesShape block)
open Verif.Spec.Cxx (Tok Lexes IntLit Ident p Reads arrayType Says Item TypeName Extern Externs Announces Agree Initialises lexFn_ok)

/-! ## The header and the sources -/

theorem externs_append {a b : List Tok} {xs ys : List Extern} (h : Externs a xs) (h' : Externs b ys) : Externs (a ++ b) (xs ++ ys) := by
  induction h with
  | nil => exact h'
  | cons h1 h2 h3 _ ih => have := Externs.cons h1 h2 h3 ih; simpa [arrayType] using this

/-- as `Announces`, for texts that other lines may follow -/
def AnnouncesL (text : Str) (es : List Extern) : Prop := ∃ ts, Line text ts ∧ Externs ts es

theorem AnnouncesL.append {a b : Str} {xs ys : List Extern} (ha : AnnouncesL a xs) (hb : AnnouncesL b ys) : AnnouncesL (a ++ b) (xs ++ ys) := by
  obtain ⟨ts, h1, h2⟩ := ha
  obtain ⟨us, h3, h4⟩ := hb
  exact ⟨ts ++ us, h1.append h3, externs_append h2 h4⟩

theorem extern_one {type : List Tok} {n name : Str} {len : Nat} (h1 : TypeName type) (h2 : IntLit n len) (h3 : Ident name) :
    Externs (.word "extern".toList :: arrayType type n ++ [.word "const".toList, .word name, p ';']) [⟨type, name, len⟩] := by
  have := Externs.cons h1 h2 h3 .nil
  rwa [List.append_nil] at this

theorem externTable_ok (table : List Nat) (name : Str) (hn : Ident name) :
    AnnouncesL (externTable table name) [⟨[.word (minimumUintType table)], name, table.length⟩] := by
  have hid := minimum_ident table
  have h4 := clean_lit (t := ";\n".toList) (ts := [p ';']) 4 (by decide)
  have h5 := Clean.word (a := "> const ".toList) (ts := [p '>', .word "const".toList]) (clean_lit 10 (by decide)) (ident_word hn) h4 (by decide) (by decide)
  have h6 := Clean.word (a := ", ".toList) (ts := [p ',']) (clean_lit 4 (by decide)) (dec_word table.length) h5 (by decide) (by simp)
  have h7 := Line.mid (line_lit (t := "extern std::array<".toList)
    (ts := [.word "extern".toList, .word "std".toList, p ':', p ':', .word "array".toList, p '<']) 20 (by decide)) (ident_word hid).lexes h6 (by simp)
  refine ⟨_, h7, ?_⟩
  have := extern_one (typeName_word hid) (dec_lit table.length) hn
  simpa [arrayType] using this

theorem externProperties_ok (n : Nat) :
    AnnouncesL (externProperties n) [⟨[.word "codepoint_properties".toList], "properties".toList, n⟩] := by
  have h7 := Line.mid (line_lit (t := "extern std::array<codepoint_properties, ".toList)
    (ts := [.word "extern".toList, .word "std".toList, p ':', p ':', .word "array".toList, p '<', .word "codepoint_properties".toList, p ',']) 42 (by decide))
    (dec_word n).lexes (clean_lit (t := "> const properties;\n".toList) (ts := [p '>', .word "const".toList, .word "properties".toList, p ';']) 24 (by decide))
    (by decide)
  refine ⟨_, h7, ?_⟩
  have := extern_one (typeName_word (w := "codepoint_properties".toList) (ident_of (by decide))) (dec_lit n) (ident_of (w := "properties".toList) (by decide))
  simpa [arrayType] using this

def svToks : List Tok := [.word "std".toList, p ':', p ':', .word "string_view".toList]

theorem externNames_ok (n : Nat) : AnnouncesL (externNames n) [⟨svToks, "names_stage3".toList, n⟩] := by
  have h7 := Line.mid (line_lit (t := "extern std::array<std::string_view, ".toList)
    (ts := [.word "extern".toList, .word "std".toList, p ':', p ':', .word "array".toList, p '<', .word "std".toList, p ':', p ':', .word "string_view".toList,
      p ',']) 42 (by decide))
    (dec_word n).lexes (clean_lit (t := "> const names_stage3;\n".toList) (ts := [p '>', .word "const".toList, .word "names_stage3".toList, p ';']) 24 (by decide))
    (by decide)
  refine ⟨_, h7, ?_⟩
  have := extern_one (type := svToks) (typeName_two (ident_of (by decide)) (ident_of (by decide)) (by decide) (.inl rfl)) (dec_lit n)
    (ident_of (w := "names_stage3".toList) (by decide))
  simpa [arrayType, svToks] using this

/-- what the header says -/
def headerExterns (stage1 stage2 : List Nat) (rows : Nat) (names1 names2 : List Nat) (names : Nat) : List Extern :=
  [⟨[.word (minimumUintType stage1)], "stage1".toList, stage1.length⟩, ⟨[.word (minimumUintType stage2)], "stage2".toList, stage2.length⟩,
   ⟨[.word "codepoint_properties".toList], "properties".toList, rows⟩,
   ⟨[.word (minimumUintType names1)], "names_stage1".toList, names1.length⟩, ⟨[.word (minimumUintType names2)], "names_stage2".toList, names2.length⟩,
   ⟨svToks, "names_stage3".toList, names⟩]

theorem header_ok (stage1 stage2 : List Nat) (rows : List Emitted) (names1 names2 : List Nat) (names : List Str) :
    Announces (headerBody stage1 stage2 rows names1 names2 names) (headerExterns stage1 stage2 rows.length names1 names2 names.length) := by
  have h := (externTable_ok stage1 "stage1".toList (ident_of (by decide))).append
    ((externTable_ok stage2 "stage2".toList (ident_of (by decide))).append
    ((externProperties_ok rows.length).append ((externTable_ok names1 "names_stage1".toList (ident_of (by decide))).append
    ((externTable_ok names2 "names_stage2".toList (ident_of (by decide))).append (externNames_ok names.length)))))
  obtain ⟨ts, h1, h2⟩ := h
  exact ⟨ts, h1.reads, h2⟩

/-- **C65.** The header consists of one declaration for each table the two source files define, in the same order, with the same
element type, name and length. -/
theorem C65_header (stage1 stage2 : List Nat) (rows : List Emitted) (names1 names2 : List Nat) (names : List Str)
    (hr : ∀ e ∈ rows, EmittedOk e) (hn : ∀ s ∈ names, ∀ c ∈ s, c ≠ '"' ∧ c ≠ '\\' ∧ c ≠ '\n') :
    ∃ (defs defs' : List Item) (es : List Extern),
      Says (propertiesBody stage1 stage2 rows) defs ∧ Says (namesBody names1 names2 names) defs' ∧
      Announces (headerBody stage1 stage2 rows names1 names2 names) es ∧ List.Forall₂ Agree (defs ++ defs') es := by
  refine ⟨_, _, _, ((cxxTable_ok stage1 "stage1".toList false (ident_of (by decide))).append
    ((cxxTable_ok stage2 "stage2".toList true (ident_of (by decide))).append (properties_ok rows hr))).says,
    ((cxxTable_ok names1 "names_stage1".toList false (ident_of (by decide))).append
    ((cxxTable_ok names2 "names_stage2".toList true (ident_of (by decide))).append (names_ok names hn))).says,
    header_ok stage1 stage2 rows names1 names2 names, ?_⟩
  have hm := fun t => (ident_word (minimum_ident t)).lexes.reads
  have a1 : ∀ t nm, Agree (.table (minimumUintType t) nm (t.map .num)) ⟨[.word (minimumUintType t)], nm, t.length⟩ := by
    intro t nm
    have := Agree.table (name := nm) (vs := t.map .num) (hm t)
    rwa [List.length_map] at this
  refine .cons (a1 _ _) (.cons (a1 _ _) (.cons ?_ (.cons (a1 _ _) (.cons (a1 _ _) (.cons ?_ .nil)))))
  · have := Agree.table (text := "codepoint_properties".toList) (type := [.word "codepoint_properties".toList]) (name := "properties".toList)
      (vs := rows.map propertyVal) (ident_word (ident_of (by decide))).lexes.reads
    rwa [List.length_map] at this
  · have := Agree.table (text := "std::string_view".toList) (type := svToks) (name := "names_stage3".toList) (vs := names.map .str)
      (lexFn_ok (n := 30) (by decide)).reads
    rwa [List.length_map] at this

/-- The declarations are determined by the text. -/
theorem C65_unambiguous {text : Str} {es es' : List Extern} (h : Announces text es) (h' : Announces text es') : es = es' := by
  obtain ⟨ts, h1, h2⟩ := h
  obtain ⟨us, h3, h4⟩ := h'
  have e : ts = us := Verif.Spec.Cxx.lexes_unique h1 h3
  subst e
  clear h1 h3
  induction h2 generalizing es' with
  | nil => generalize e : ([] : List Tok) = t at h4; cases h4 with
    | nil => rfl
    | cons _ _ _ _ => simp at e
  | @cons type n len name us es t1 t2 t3 _ ih =>
    generalize e : (.word "extern".toList :: arrayType type n ++ [.word "const".toList, .word name, p ';'] ++ us : List Tok) = t at h4
    cases h4 with
    | nil => simp at e
    | cons t1' t2' t3' h4' =>
      simp only [List.cons_append, List.append_assoc, List.cons.injEq, true_and] at e
      obtain ⟨e1, e2, e3⟩ := Verif.Spec.Cxx.arrayType_prefix t1 t1' e
      simp only [List.nil_append, List.cons.injEq, Tok.word.injEq, true_and] at e3
      obtain ⟨e3, e4⟩ := e3
      subst e1 e2 e3 e4
      rw [ih h4', Verif.Spec.Cxx.intLit_unique t2 t2']

/-! ## The types -/

theorem minimum_uint8 (l : List Nat) : minimumUintType l = "uint8_t".toList ↔ ∀ v ∈ l, v < 256 := by
  have h := le_foldl_max l 0
  constructor
  · intro he v hv
    have hle := h.2 v hv
    unfold minimumUintType at he
    by_cases h1 : l.foldl max 0 ≤ 0xFF
    · omega
    · simp only [h1, if_false] at he
      split at he
      · exact absurd he (by decide)
      · split at he <;> exact absurd he (by decide)
  · intro hv
    have : l.foldl max 0 ≤ 0xFF := by
      have : ∀ (l : List Nat) a, a ≤ 0xFF → (∀ v ∈ l, v < 256) → l.foldl max a ≤ 0xFF := by
        intro l
        induction l with
        | nil => intro a ha _; exact ha
        | cons x l ih =>
          intro a ha hl
          rw [List.foldl_cons]
          exact ih _ (Nat.max_le.2 ⟨ha, Nat.le_of_lt_succ (hl x (List.mem_cons_self ..))⟩) fun v hv => hl v (List.mem_cons_of_mem _ hv)
      exact this l 0 (by decide) hv
    unfold minimumUintType
    exact if_pos this

theorem minimum_uint16 (l : List Nat) (hl : ∀ v ∈ l, v < 65536) : minimumUintType l = "uint16_t".toList ↔ ∃ v ∈ l, 256 ≤ v := by
  constructor
  · intro he
    by_contra hc
    have := (minimum_uint8 l).2 fun v hv => by
      by_contra h
      exact hc ⟨v, hv, by omega⟩
    rw [this] at he
    exact absurd he (by decide)
  · rintro ⟨v, hv, hge⟩
    have h := le_foldl_max l 0
    have h1 : ¬ l.foldl max 0 ≤ 0xFF := by have := h.2 v hv; omega
    have h2 : l.foldl max 0 ≤ 0xFFFF := by
      have : ∀ (l : List Nat) a, a ≤ 0xFFFF → (∀ v ∈ l, v < 65536) → l.foldl max a ≤ 0xFFFF := by
        intro l
        induction l with
        | nil => intro a ha _; exact ha
        | cons x l ih =>
          intro a ha hl
          rw [List.foldl_cons]
          exact ih _ (Nat.max_le.2 ⟨ha, Nat.le_of_lt_succ (hl x (List.mem_cons_self ..))⟩) fun v hv => hl v (List.mem_cons_of_mem _ hv)
      exact this l 0 (by decide) hl
    unfold minimumUintType
    simp only [h1, if_false, h2, if_true]

section
variable {α : Type} [DecidableEq α]

/-- The third stage lists every distinct value of the array once, in some order. -/
theorem C65_third_stage (S : Verif.Tables.Shape) (hB : 0 < S.B) (h1 : 0 < S.w1) (h2 : 0 < S.w2) (hash : List α → Nat) (input : List α) (n : Nat)
    (hlen : input.length = n * S.B) (g : Gen α) (hg : generate S hash input = .ok g) :
    g.stage3.Nodup ∧ ∀ v, v ∈ g.stage3 ↔ v ∈ input := by
  have hr := Verif.Tables.generate_range S h1 h2 hash input g hg
  rw [← Verif.Tables.generateBy_value] at hg
  obtain ⟨f1, f2⟩ := Verif.Tables.generateBy_covers S _ _ input n hB hlen (fun i j _ _ h => of_decide_eq_true h) g hg
  exact ⟨f1.nodup, fun v => ⟨hr.three v, f2 v⟩⟩

theorem stage2_large {S : Verif.Tables.Shape} (hw : S.w2 = 65536) {input : List α} {g : Gen α} (f1 : Verif.Tables.Fill S g)
    (f2 : ∀ v ∈ input, v ∈ g.stage3) (f3 : ∀ v ∈ g.stage3, v ∈ input) : (∃ v ∈ g.stage2, 256 ≤ v) ↔ 256 < input.dedup.length := by
  have hp : g.stage3.length = input.dedup.length := by
    refine Nat.le_antisymm (Verif.Tables.nodup_length_le _ _ f1.nodup fun v hv => List.mem_dedup.2 (f3 v hv)) ?_
    exact Verif.Tables.nodup_length_le _ _ (List.nodup_dedup _) fun v hv => f2 v (List.mem_dedup.1 hv)
  rw [← hp]
  constructor
  · rintro ⟨v, hv, hge⟩
    obtain ⟨k, hk, e⟩ := f1.back v hv
    have := Nat.mod_le k S.w2
    omega
  · intro h
    refine ⟨256 % S.w2, f1.used 256 h, ?_⟩
    rw [hw]

theorem generateBy_range (S : Verif.Tables.Shape) (h1 : 0 < S.w1) (h2 : 0 < S.w2) (same : Nat → Nat → Bool) (hash : Nat → Nat) (input : List α)
    (g : Gen α) (hg : generateBy S same hash input = .ok g) : Verif.Tables.InRange S input g := by
  unfold generateBy at hg
  suffices h : ∀ n (g0 g' : Gen α), Verif.Tables.InRange S input g0 → Verif.Tables.generateLoopBy S same hash input n g0 = .ok g' →
      Verif.Tables.InRange S input g' by
    refine h _ {} g ⟨?_, ?_, ?_, ?_⟩ hg <;> (intro x hx; cases hx)
  intro n
  induction n with
  | zero => intro g0 g' h hg; rw [Verif.Tables.generateLoopBy] at hg; cases hg; exact h
  | succ n ih =>
    intro g0 g' h hg
    rw [Verif.Tables.generateLoopBy] at hg
    cases hb : Verif.Tables.blockIndexBy S same hash input g0 (g0.stage1.length * S.B) with
    | oob => rw [hb] at hg; cases hg
    | ok p =>
      obtain ⟨g1, i⟩ := p
      rw [hb] at hg
      refine ih _ _ ?_ hg
      have key : Verif.Tables.InRange S input g1 ∧ i < S.w1 := by
        unfold Verif.Tables.blockIndexBy at hb
        cases hf : Verif.Tables.findSameBy S same hash g0 (g0.stage1.length * S.B) with
        | some o =>
          rw [hf] at hb
          simp only at hb
          cases ha : Verif.Tables.at? g0.stage1 o with
          | oob => rw [ha] at hb; cases hb
          | ok j =>
            rw [ha] at hb
            cases hb
            refine ⟨h, h.one i ?_⟩
            unfold Verif.Tables.at? at ha
            cases hi : g0.stage1[o]? with
            | none => rw [hi] at ha; cases ha
            | some k => rw [hi] at ha; cases ha; exact List.mem_of_getElem? hi
        | none =>
          rw [hf] at hb
          cases hb
          refine ⟨Verif.Tables.pushBlock_range S h2 input _ (fun v hv => ?_) _ ⟨h.one, h.two, h.three, h.index⟩, Nat.mod_lt _ h1⟩
          exact List.mem_of_mem_drop (List.mem_of_mem_take hv)
      refine ⟨fun x hx => ?_, key.1.two, key.1.three, key.1.index⟩
      rcases List.mem_append.1 hx with hx | hx
      · exact key.1.one x hx
      · rw [List.mem_singleton.1 hx]; exact key.2

/-- What the generator declares the two stages with. -/
theorem typesBy_of (same : Nat → Nat → Bool) (hash : Nat → Nat) (input : List α) (hlen : input.length = 0x110000)
    (hsame : ∀ i j, i < j → j < 0x1100 → same (i * 256) (j * 256) = true → block propertiesShape input (i * 256) = block propertiesShape input (j * 256))
    (g : Gen α) (hg : generateBy propertiesShape same hash input = .ok g) :
    minimumUintType g.stage1 = "uint8_t".toList ∧ (minimumUintType g.stage2 = "uint16_t".toList ↔ 256 < input.dedup.length) := by
  have hr := generateBy_range propertiesShape (by decide) (by decide) same hash input g hg
  refine ⟨(minimum_uint8 _).2 hr.one, ?_⟩
  rw [minimum_uint16 _ hr.two]
  obtain ⟨f1, f2⟩ := Verif.Tables.generateBy_covers propertiesShape same hash input 0x1100 (by decide) hlen hsame g hg
  exact stage2_large rfl f1 f2 hr.three

end

/-- The members of `codepoint_properties::tables_view` as configured: codepoint_properties.h:80-86, multistage_table_view.h:35-37,
codepoint_properties.cpp:20-22. -/
def tablesMembers : List (Str × Str) :=
  [("stage1".toList, "uint8_t".toList), ("stage2".toList, "uint16_t".toList), ("properties".toList, "codepoint_properties".toList)]

/-- The members of `codepoint_properties::names_view` as configured: codepoint_properties.h:88-94, codepoint_properties.cpp:24-28. -/
def namesMembers : List (Str × Str) :=
  [("names_stage1".toList, "uint8_t".toList), ("names_stage2".toList, "uint16_t".toList), ("names_stage3".toList, "std::string_view".toList)]

theorem reads_word {a w : Str} (ha : Ident a) : Reads a [.word w] ↔ w = a := by
  constructor
  · intro h
    have := Verif.Spec.Cxx.lexes_unique h (ident_word ha).lexes.reads
    simpa using this
  · rintro rfl
    exact (ident_word ha).lexes.reads

theorem externs_tables (stage1 stage2 : List Nat) (rows : Nat) (names1 names2 : List Nat) (names : Nat) :
    (Initialises (headerExterns stage1 stage2 rows names1 names2 names) tablesMembers ↔
      minimumUintType stage1 = "uint8_t".toList ∧ minimumUintType stage2 = "uint16_t".toList) ∧
    (Initialises (headerExterns stage1 stage2 rows names1 names2 names) namesMembers ↔
      minimumUintType names1 = "uint8_t".toList ∧ minimumUintType names2 = "uint16_t".toList) := by
  have h8 : ∀ w, Reads "uint8_t".toList [.word w] ↔ w = "uint8_t".toList := fun w => reads_word (ident_of (by decide))
  have h16 : ∀ w, Reads "uint16_t".toList [.word w] ↔ w = "uint16_t".toList := fun w => reads_word (ident_of (by decide))
  generalize hm1 : minimumUintType stage1 = m1
  generalize hm2 : minimumUintType stage2 = m2
  generalize hm3 : minimumUintType names1 = m3
  generalize hm4 : minimumUintType names2 = m4
  have he : ∀ e, e ∈ headerExterns stage1 stage2 rows names1 names2 names ↔
      e = ⟨[.word m1], "stage1".toList, stage1.length⟩ ∨ e = ⟨[.word m2], "stage2".toList, stage2.length⟩ ∨
      e = ⟨[.word "codepoint_properties".toList], "properties".toList, rows⟩ ∨
      e = ⟨[.word m3], "names_stage1".toList, names1.length⟩ ∨ e = ⟨[.word m4], "names_stage2".toList, names2.length⟩ ∨
      e = ⟨svToks, "names_stage3".toList, names⟩ := by
    intro e
    unfold headerExterns
    rw [hm1, hm2, hm3, hm4]
    simp only [List.mem_cons, List.not_mem_nil, or_false]
  constructor
  · constructor
    · intro h
      refine ⟨(h8 m1).1 ?_, (h16 m2).1 ?_⟩
      · exact (h _ (List.mem_cons_self ..)).2 ⟨[.word m1], "stage1".toList, stage1.length⟩ ((he _).2 (.inl rfl)) rfl
      · exact (h _ (List.mem_cons_of_mem _ (List.mem_cons_self ..))).2 ⟨[.word m2], "stage2".toList, stage2.length⟩ ((he _).2 (.inr (.inl rfl))) rfl
    · rintro ⟨e1, e2⟩ m hm
      unfold tablesMembers at hm
      simp only [List.mem_cons, List.not_mem_nil, or_false] at hm
      rcases hm with rfl | rfl | rfl
      · refine ⟨⟨_, (he _).2 (.inl rfl), rfl⟩, ?_⟩
        intro e hme hn
        rcases (he e).1 hme with rfl | rfl | rfl | rfl | rfl | rfl
        · exact (h8 _).2 e1
        all_goals (dsimp only at hn; exact absurd hn (by decide))
      · refine ⟨⟨_, (he _).2 (.inr (.inl rfl)), rfl⟩, ?_⟩
        intro e hme hn
        rcases (he e).1 hme with rfl | rfl | rfl | rfl | rfl | rfl
        rotate_left
        · exact (h16 _).2 e2
        all_goals (dsimp only at hn; exact absurd hn (by decide))
      · refine ⟨⟨_, (he _).2 (.inr (.inr (.inl rfl))), rfl⟩, ?_⟩
        intro e hme hn
        rcases (he e).1 hme with rfl | rfl | rfl | rfl | rfl | rfl
        rotate_left 2
        · exact (ident_word (ident_of (w := "codepoint_properties".toList) (by decide))).lexes.reads
        all_goals (dsimp only at hn; exact absurd hn (by decide))
  · constructor
    · intro h
      refine ⟨(h8 m3).1 ?_, (h16 m4).1 ?_⟩
      · exact (h _ (List.mem_cons_self ..)).2 ⟨[.word m3], "names_stage1".toList, names1.length⟩ ((he _).2 (.inr (.inr (.inr (.inl rfl))))) rfl
      · exact (h _ (List.mem_cons_of_mem _ (List.mem_cons_self ..))).2 ⟨[.word m4], "names_stage2".toList, names2.length⟩
          ((he _).2 (.inr (.inr (.inr (.inr (.inl rfl)))))) rfl
    · rintro ⟨e1, e2⟩ m hm
      unfold namesMembers at hm
      simp only [List.mem_cons, List.not_mem_nil, or_false] at hm
      rcases hm with rfl | rfl | rfl
      · refine ⟨⟨_, (he _).2 (.inr (.inr (.inr (.inl rfl)))), rfl⟩, ?_⟩
        intro e hme hn
        rcases (he e).1 hme with rfl | rfl | rfl | rfl | rfl | rfl
        rotate_left 3
        · exact (h8 _).2 e1
        all_goals (dsimp only at hn; exact absurd hn (by decide))
      · refine ⟨⟨_, (he _).2 (.inr (.inr (.inr (.inr (.inl rfl))))), rfl⟩, ?_⟩
        intro e hme hn
        rcases (he e).1 hme with rfl | rfl | rfl | rfl | rfl | rfl
        rotate_left 4
        · exact (h16 _).2 e2
        all_goals (dsimp only at hn; exact absurd hn (by decide))
      · refine ⟨⟨_, (he _).2 (.inr (.inr (.inr (.inr (.inr rfl))))), rfl⟩, ?_⟩
        intro e hme hn
        rcases (he e).1 hme with rfl | rfl | rfl | rfl | rfl | rfl
        rotate_left 5
        · exact (lexFn_ok (t := "std::string_view".toList) (ts := svToks) (n := 30) (by decide)).reads
        all_goals (dsimp only at hn; exact absurd hn (by decide))

/-- **C65.** The library's views can be initialised with the declared tables exactly if there are more than 256 different rows of
properties, and more than 256 different names. -/
theorem C65_views (records : List Rec) (hlen : records.length = 0x110000) (row : Rec → Emitted) (hash : List Rec → Nat) (g : Gen Rec)
    (hg : generate propertiesShape hash records = .ok g)
    (names : List Str) (hlen' : names.length = 0x110000) (same : Nat → Nat → Bool) (hash' : Nat → Nat) (g' : Gen Str)
    (hsame : ∀ i j, i < j → j < 0x1100 → same (i * 256) (j * 256) = true → (names.drop (i * 256)).take 256 = (names.drop (j * 256)).take 256)
    (hg' : generateBy propertiesShape same hash' names = .ok g')
    (es : List Extern) (hes : Announces (headerBody g.stage1 g.stage2 (g.stage3.map row) g'.stage1 g'.stage2 g'.stage3) es) :
    (Initialises es tablesMembers ↔ 256 < records.dedup.length) ∧ (Initialises es namesMembers ↔ 256 < names.dedup.length) := by
  have e := C65_unambiguous hes (header_ok _ _ _ _ _ _)
  subst e
  rw [← Verif.Tables.generateBy_value] at hg
  have t := typesBy_of _ _ records hlen (fun i j _ _ h => of_decide_eq_true h) g hg
  have t' := typesBy_of same hash' names hlen' hsame g' hg'
  have x := externs_tables g.stage1 g.stage2 (g.stage3.map row).length g'.stage1 g'.stage2 g'.stage3.length
  exact ⟨x.1.trans ⟨fun h => t.2.1 h.2, fun h => ⟨t.1, t.2.2 h⟩⟩, x.2.trans ⟨fun h => t'.2.1 h.2, fun h => ⟨t'.1, t'.2.2 h⟩⟩⟩

theorem length_eq_of {α : Type} [DecidableEq α] {a b : List α} (ha : a.Nodup) (hb : b.Nodup) (h : ∀ v, v ∈ a ↔ v ∈ b) : a.length = b.length :=
  Nat.le_antisymm (Verif.Tables.nodup_length_le _ _ ha fun v hv => (h v).1 hv) (Verif.Tables.nodup_length_le _ _ hb fun v hv => (h v).2 hv)

/-- **C65 with C53 and C54.** From the files of the character database: the header written for them agrees with the two source files,
and the views can be initialised with the tables exactly if the files give more than 256 different rows of properties and more than
256 different names.  `values` and `names` list the different rows and names (without repetition). -/
theorem C65_from_files {F D U N} (hl : Loads F D) (hd : Describes F U) (hc : Complete U N) (hn : LongNames U N)
    (blocks : List (List Row)) (hb : blocks.length ≤ 256) (hcover : ∀ j < 0x1100, ∃ b ∈ blocks, BlockSays U N (j * 256) b)
    (values : List Row) (hv : values.length ≤ 65536) (hvn : values.Nodup) (hvc : ∀ r, r ∈ values ↔ ∃ c ≤ 0x10FFFF, Row.Says U N c r)
    (hash : List Rec → Nat)
    (hs : Separate U.names) (hq : ∀ e ∈ U.names, ∀ c ∈ e.2.2, c ≠ '"' ∧ c ≠ '\\' ∧ c ≠ '\n')
    (names : List Str) (hm : names.length ≤ 65536) (hmn : names.Nodup) (hmc : ∀ v, v ∈ names ↔ ∃ c ≤ 0x10FFFF, ValueOf U.names [] c v)
    (same : Nat → Nat → Bool) (hash' : Nat → Nat) (hsame : SameNames U same) :
    ∃ X ages R g arr g', Built (inputOf D) X ages R ∧ generate propertiesShape hash ((List.range 0x110000).map R) = .ok g ∧
      nameArray D.names (List.replicate 0x110000 []) = .ok arr ∧ generateBy propertiesShape same hash' arr = .ok g' ∧
      ∃ defs defs' es, Says (propertiesBody g.stage1 g.stage2 (g.stage3.map (emit X (inputOf D) ages))) defs ∧
        Says (namesBody g'.stage1 g'.stage2 g'.stage3) defs' ∧
        Announces (headerBody g.stage1 g.stage2 (g.stage3.map (emit X (inputOf D) ages)) g'.stage1 g'.stage2 g'.stage3) es ∧
        List.Forall₂ Agree (defs ++ defs') es ∧
        (Initialises es tablesMembers ↔ 256 < values.length) ∧ (Initialises es namesMembers ↔ 256 < names.length) := by
  obtain ⟨X, ages, R, g, h1, h2, -⟩ := C54_lookup hl hd hc blocks hb hcover values hv (fun c hcp => by
    obtain ⟨X, ages, R, -, hsay⟩ := C54_row hl hd hc
    exact ⟨_, (hvc _).2 ⟨c, hcp, hsay c hcp⟩, hsay c hcp⟩) hash
  obtain ⟨X', ages', R', h1', hsay⟩ := C54_row hl hd hc
  have eX : X' = X := by have := h1'.indices; rw [h1.indices] at this; injection this with this; exact this.symm
  have ea : ages' = ages := by have := h1'.ages; rw [h1.ages] at this; injection this with this; exact this.symm
  subst eX ea
  have eR : R' = R := by have := h1'.build; rw [h1.build] at this; injection this with this; exact this.symm
  subst eR
  have hmem : ∀ arr : List Str, arr.length = 0x110000 → (∀ c (h : c < arr.length) v, arr[c] = v ↔ ValueOf U.names [] c v) →
      ∀ v, v ∈ arr.dedup ↔ v ∈ names := by
    intro arr ha h3 v
    rw [List.mem_dedup, hmc]
    constructor
    · intro hv
      obtain ⟨c, hc', e⟩ := List.getElem_of_mem hv
      exact ⟨c, by omega, (h3 c hc' v).1 e⟩
    · rintro ⟨c, hc', e⟩
      rw [← (h3 c (by omega) v).2 e]
      exact List.getElem_mem _
  obtain ⟨arr, a1, a2, a3⟩ := nameArray_exact hl hd hs
  have hB : propertiesShape.B = 256 := rfl
  have hblock : ∀ i j, i < j → j < 0x1100 → same (i * 256) (j * 256) = true →
      block propertiesShape arr (i * 256) = block propertiesShape arr (j * 256) := by
    intro i j hij hj he
    apply List.ext_getElem?
    intro o
    by_cases ho : o < 256
    · have hbl := fun s => Verif.Tables.block_getElem? propertiesShape arr s o ho
      rw [hbl, hbl, List.getElem?_eq_getElem (by omega), List.getElem?_eq_getElem (by omega)]
      have hb : arr[i * 256 + o]'(by omega) = arr[j * 256 + o]'(by omega) := by
        rw [a3 _ _ _, hsame i j hij hj he o ho, ← a3 _ (by omega)]
      exact congrArg some hb
    · have hlen : ∀ s, (block propertiesShape arr s).length ≤ 256 := by
        intro s; unfold block; rw [List.length_take]; exact Nat.min_le_left _ _
      rw [List.getElem?_eq_none (by have := hlen (i * 256); omega), List.getElem?_eq_none (by have := hlen (j * 256); omega)]
  have hnl := length_eq_of (List.nodup_dedup arr) hmn (hmem arr a2 a3)
  obtain ⟨g', g1, -⟩ := Verif.Tables.generateBy_spec propertiesShape same hash' arr (by decide) (by rw [hnl]; exact hm) 0x1100 (by rw [a2, hB])
    (by intro i j hij hj he; rw [hB] at he ⊢; exact hblock i j hij hj he) False (fun h => h.elim)
  refine ⟨X', ages', R', g, arr, g', h1, h2, a1, g1, ?_⟩
  have hr := Verif.Tables.generate_range propertiesShape (by decide) (by decide) hash _ g h2
  have hok : ∀ e ∈ g.stage3.map (emit X' (inputOf D) ages'), EmittedOk e := by
    intro e he
    obtain ⟨r, hr3, rfl⟩ := List.mem_map.1 he
    obtain ⟨c, hc', rfl⟩ := List.mem_map.1 (hr.three r hr3)
    rw [List.mem_range] at hc'
    have hs := buildRecords_small X' (inputOf D) R' h1.build c
    exact says_emittedOk hn hs.1 hs.2 (escName_ident _) (hsay c (by omega))
  have hr' := generateBy_range propertiesShape (by decide) (by decide) same hash' arr g' g1
  have hqq : ∀ s ∈ g'.stage3, ∀ c ∈ s, c ≠ '"' ∧ c ≠ '\\' ∧ c ≠ '\n' := by
    intro s hs' ch hch
    obtain ⟨c, hc', e⟩ := List.getElem_of_mem (hr'.three s hs')
    rcases (a3 c hc' s).1 e with ⟨e, he, -, -, e3⟩ | ⟨-, h⟩
    · rw [← e3] at hch; exact hq e he ch hch
    · rw [h] at hch; cases hch
  obtain ⟨defs, defs', es, d1, d2, d3, d4⟩ := C65_header g.stage1 g.stage2 _ g'.stage1 g'.stage2 g'.stage3 hok hqq
  refine ⟨defs, defs', es, d1, d2, d3, d4, ?_⟩
  have hv' := C65_views _ (by rw [List.length_map, List.length_range]) _ hash g h2 arr a2 same hash' g' hblock g1 es d3
  rw [hnl] at hv'
  refine ⟨hv'.1.trans ?_, hv'.2⟩
  have hinj : ∀ c c', c ≤ 0x10FFFF → c' ≤ 0x10FFFF →
      rowOf (emit X' (inputOf D) ages' (R' c)) = rowOf (emit X' (inputOf D) ages' (R' c')) → R' c = R' c' := by
    intro c c' hc1 hc2 he
    exact rec_inj hl hd hc h1 c c' hc1 hc2 (by rw [he])
  classical
  have hle : (((List.range 0x110000).map R').dedup.map fun r => rowOf (emit X' (inputOf D) ages' r)).length = values.length := by
    refine length_eq_of ?_ hvn ?_
    · refine List.Nodup.map_on ?_ (List.nodup_dedup _)
      intro r hr r' hr' he
      obtain ⟨c, hc1, rfl⟩ := List.mem_map.1 (List.mem_dedup.1 hr)
      obtain ⟨c', hc2, rfl⟩ := List.mem_map.1 (List.mem_dedup.1 hr')
      rw [List.mem_range] at hc1 hc2
      exact hinj c c' (by omega) (by omega) he
    · intro r
      rw [hvc]
      constructor
      · intro h
        obtain ⟨x, hx, rfl⟩ := List.mem_map.1 h
        obtain ⟨c, hc1, rfl⟩ := List.mem_map.1 (List.mem_dedup.1 hx)
        rw [List.mem_range] at hc1
        exact ⟨c, by omega, hsay c (by omega)⟩
      · rintro ⟨c, hc1, hr⟩
        refine List.mem_map.2 ⟨R' c, List.mem_dedup.2 (List.mem_map.2 ⟨c, List.mem_range.2 (by omega), rfl⟩), ?_⟩
        exact C54_unique hc (hsay c hc1) hr
  rw [← hle, List.length_map]

theorem valueOf_nil (c : Nat) (v : Str) : ValueOf [] [] c v ↔ v = [] := by
  unfold ValueOf
  constructor
  · rintro (⟨e, he, -⟩ | ⟨-, h⟩)
    · cases he
    · exact h
  · intro h
    exact .inr ⟨fun v ⟨e, he, _⟩ => (by cases he), h⟩

/-- The small database of C54 meets the conditions of `C65_from_files`.  As it has no names, **C65 fails** for it: the library does not
compile with the generated header, because the second stage of the names is declared as `uint8_t`. -/
theorem C65_fails_small {D : Db} (hl : Loads (filesOf rU) D) (hash : List Rec → Nat) (same : Nat → Nat → Bool) (hash' : Nat → Nat) :
    ∃ X ages R g arr g', Built (inputOf D) X ages R ∧ generate propertiesShape hash ((List.range 0x110000).map R) = .ok g ∧
      nameArray D.names (List.replicate 0x110000 []) = .ok arr ∧ generateBy propertiesShape same hash' arr = .ok g' ∧
      ∃ es, Announces (headerBody g.stage1 g.stage2 (g.stage3.map (emit X (inputOf D) ages)) g'.stage1 g'.stage2 g'.stage3) es ∧
        ¬ Initialises es namesMembers := by
  classical
  obtain ⟨blocks, cover, h1, h2, h3, h4⟩ := rU_cover hl
  obtain ⟨X, ages, R, -, hsay⟩ := C54_row hl rU_describes rU_complete
  have hmem : ∀ r, r ∈ ((List.range 0x110000).map fun c => rowOf (emit X (inputOf D) ages (R c))).dedup ↔ ∃ c ≤ 0x10FFFF, Row.Says rU rN c r := by
    intro r
    rw [List.mem_dedup, List.mem_map]
    constructor
    · rintro ⟨c, hc, rfl⟩
      rw [List.mem_range] at hc
      exact ⟨c, by omega, hsay c (by omega)⟩
    · rintro ⟨c, hc, hr⟩
      exact ⟨c, List.mem_range.2 (by omega), C54_unique rU_complete (hsay c hc) hr⟩
  have hle : ((List.range 0x110000).map fun c => rowOf (emit X (inputOf D) ages (R c))).dedup.length ≤ 65536 := by
    refine Nat.le_trans (Verif.Tables.nodup_length_le _ cover (List.nodup_dedup _) ?_) h3
    intro r hr
    obtain ⟨c, hc, hr⟩ := (hmem r).1 hr
    obtain ⟨r', hr', hs⟩ := h4 c hc
    rw [C54_unique rU_complete hr hs]
    exact hr'
  have hnames : rU.names = [] := rfl
  obtain ⟨X, ages, R, g, arr, g', a1, a2, a3, a4, _, _, es, -, -, a5, -, -, a6⟩ := C65_from_files hl rU_describes rU_complete rU_longNames blocks h1 h2
    _ hle (List.nodup_dedup _) hmem hash (by rw [hnames]; exact List.Pairwise.nil) (by rw [hnames]; intro e he; cases he)
    [[]] (by decide) (by decide) (by
      intro v
      rw [hnames, List.mem_singleton]
      exact ⟨fun h => ⟨0, by decide, (valueOf_nil 0 v).2 h⟩, fun ⟨c, _, h⟩ => (valueOf_nil c v).1 h⟩)
    same hash' (by
      intro i j _ _ _ o _ v
      rw [hnames, valueOf_nil, valueOf_nil])
  exact ⟨X, ages, R, g, arr, g', a1, a2, a3, a4, es, a5, fun h => absurd (a6.1 h) (by decide)⟩

def wide (r0 : Rec) (w : Nat) : Rec := { r0 with width := w }

/-- With 512 different rows the views can be initialised (`C65_views` applies, and its condition can be met). -/
example (hash : List Rec → Nat) (r0 : Rec) :
    ∃ g, generate propertiesShape hash ((List.range 0x110000).map fun c => wide r0 (c % 512)) = .ok g ∧
      minimumUintType g.stage1 = "uint8_t".toList ∧ minimumUintType g.stage2 = "uint16_t".toList := by
  have hlen : ((List.range 0x110000).map fun c => wide r0 (c % 512)).length = 0x110000 := by rw [List.length_map, List.length_range]
  have hget : ∀ i < 0x110000, ((List.range 0x110000).map fun c => wide r0 (c % 512))[i]? = some (wide r0 (i % 512)) := by
    intro i hi
    rw [List.getElem?_map, List.getElem?_range hi]
    rfl
  generalize hin : ((List.range 0x110000).map fun c => wide r0 (c % 512)) = input at *
  obtain ⟨g, hg, -⟩ := (Verif.Props.Tables.C38_iff propertiesShape hash input 0x1100 (by decide) (by decide) (by decide) hlen
    (by rw [hlen]; decide)).2 ⟨⟨[(List.range 256).map fun k => wide r0 (k), (List.range 256).map fun k => wide r0 (256 + k)], (by show 2 ≤ 256; decide), by
      intro j hj
      have hB : propertiesShape.B = 256 := rfl
      rw [hB]
      have : (input.drop (j * 256)).take 256 = (List.range 256).map fun k => wide r0 (j % 2 * 256 + k) := by
        apply List.ext_getElem?
        intro k
        rw [List.getElem?_take]
        by_cases hk : k < 256
        · rw [if_pos hk, List.getElem?_drop, hget _ (by omega), List.getElem?_map, List.getElem?_range hk]
          exact congrArg some (congrArg (wide r0) (by omega))
        · rw [if_neg hk, List.getElem?_eq_none (by simpa using hk)]
      rw [this]
      rcases Nat.mod_two_eq_zero_or_one j with h | h
      · rw [h]; simp only [Nat.zero_mul, Nat.zero_add]; exact List.mem_cons_self ..
      · rw [h]; simp only [Nat.one_mul]; exact List.mem_cons_of_mem _ (List.mem_cons_self ..)⟩,
    ⟨(List.range 512).map fun k => wide r0 (k), by rw [List.length_map, List.length_range]; decide, by
      intro v hv
      obtain ⟨i, hi, rfl⟩ := List.getElem_of_mem hv
      have := hget i (by omega)
      rw [List.getElem?_eq_getElem hi] at this
      rw [Option.some.inj this]
      exact List.mem_map.2 ⟨i % 512, List.mem_range.2 (by omega), rfl⟩⟩⟩
  refine ⟨g, hg, ?_⟩
  rw [← Verif.Tables.generateBy_value] at hg
  have t := typesBy_of _ _ input hlen (fun i j _ _ h => of_decide_eq_true h) g hg
  refine ⟨t.1, t.2.2 ?_⟩
  have hnd : ((List.range 257).map fun k => wide r0 (k)).Nodup := by
    refine List.Nodup.map_on ?_ List.nodup_range
    intro a _ b _ e
    exact congrArg Rec.width e
  have := Verif.Tables.nodup_length_le _ input.dedup hnd (by
    intro v hv
    obtain ⟨k, hk, rfl⟩ := List.mem_map.1 hv
    rw [List.mem_range] at hk
    have := hget k (by omega)
    rw [Nat.mod_eq_of_lt (by omega)] at this
    exact List.mem_dedup.2 (List.mem_of_getElem? this))
  rw [List.length_map, List.length_range] at this
  omega

end Verif.Props.Tg
