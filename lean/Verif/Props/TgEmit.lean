import Verif.Lemmas.TgEmit4
import Verif.Lemmas.CxxUnique
import Verif.Lemmas.TgMap
/-!
# C61: the generated source text denotes the tables

The generator's data reach the library as C++ text.  The specification `Verif.Spec.Cxx` says what such a text declares; the
theorems say that each piece of text the generator writes declares exactly the data it was given: the same number of
elements, in the same order, with the same values, in a type that can hold them.
-/

namespace Verif.Props.Tg

open Verif Verif.Tg
open Verif.Spec.Cxx (Val Item Says SameItem Ident isWord maxOf)

/-- `{ a, b }` -/
def pairVal (e : Nat × Nat) : Val := .list [.num e.1, .num e.2]

/-- `{ a, { b, … }, n }`: a code point, its targets filled up with zeros to `w` of them, their number -/
def mapVal (w : Nat) (e : Nat × List Nat) : Val :=
  .list [.num e.1, .list ((e.2 ++ List.replicate (w - e.2.length) 0).map .num), .num e.2.length]

/-- the same with the ordinal of the type of the decomposition -/
def typedVal (w : Nat) (e : Nat × Decomp) : Val :=
  .list [.num e.1, .list ((e.2.targets ++ List.replicate (w - e.2.targets.length) 0).map .num), .num e.2.targets.length,
    .num (decompositionTypeOrdinal e.2.type)]

/-- `char32_t source; char32_t targets[w]; uint8_t length;` -/
def mapMembers (w : Nat) : List (Spec.Cxx.Str × Spec.Cxx.Str × Option Nat) :=
  [("char32_t".toList, "source".toList, none), ("char32_t".toList, "targets".toList, some w), ("uint8_t".toList, "length".toList, none)]

/-- The two declarations of a table of full case mappings. -/
def fullItems (name : String) (m : List (Nat × List Nat)) : List Item :=
  [.struct ("full_" ++ name ++ "_entry").toList (mapMembers 3),
   .table ("full_" ++ name ++ "_entry").toList ("full_" ++ name ++ "_table").toList (m.map (mapVal 3))]

def simpleItem (name : String) (m : List (Nat × Nat)) : Item :=
  .table "std::pair<char32_t, char32_t>".toList ("simple_" ++ name ++ "_table").toList (m.map pairVal)

def setItem (name : String) (s : List Nat) : Item := .table "char32_t".toList (name ++ "_table").toList (s.map .num)

/-! ## A text has one meaning -/

/-- No text declares two different things. -/
theorem C61_unambiguous {text : Str} {items items' : List Item} (h : Says text items) (h' : Says text items') :
    List.Forall₂ SameItem items items' := Spec.Cxx.says_unique h h'

/-! ## case_normalization_data.h -/

theorem pad_take (e : Nat × List Nat) (h : e.2.length ≤ 3) :
    Val.list [.num e.1, .list [.num (((pad 3 e.2).take 3).getD 0 0), .num (((pad 3 e.2).take 3).getD 1 0), .num (((pad 3 e.2).take 3).getD 2 0)],
      .num e.2.length] = mapVal 3 e := by
  obtain ⟨c, l⟩ := e
  match l, h with
  | [], _ => rfl
  | [a], _ => rfl
  | [a, b], _ => rfl
  | [a, b, d], _ => rfl

theorem fullItems_ok (name : String) (m : List (Nat × List Nat)) (hn : name.toList.all isWord = true) (hm : ∀ e ∈ m, e.2.length ≤ 3) :
    SaysL (writeFullCaseTable m name.toList) (fullItems name m) := by
  have := full_ok m name.toList (List.all_eq_true.1 hn)
  have e : (writeFull m).map (fun e : FullEntry => Val.list [.num e.source, .list [.num (e.targets.getD 0 0), .num (e.targets.getD 1 0),
      .num (e.targets.getD 2 0)], .num e.length]) = m.map (mapVal 3) := by
    rw [writeFull, List.map_map]
    refine List.map_congr_left fun e he => ?_
    exact pad_take e (hm e he)
  rw [e] at this
  unfold fullItems mapMembers
  simpa only [String.toList_append] using this

theorem simpleItem_ok (name : String) (m : List (Nat × Nat)) (hn : name.toList.all isWord = true) (hm : ∀ e ∈ m, e.1 ≠ 0x5C) :
    SaysL (writeSimpleCaseTable m name.toList) [simpleItem name m] := by
  have := simple_ok m name.toList (List.all_eq_true.1 hn) hm
  unfold simpleItem
  simp only [String.toList_append]
  exact this

theorem setItem_ok (name : String) (s : List Nat) (hn : identB name.toList = true) : SaysL (writeQuickCheckTable s name.toList) [setItem name s] := by
  have := qc_ok s name.toList (ident_of hn)
  unfold setItem
  simpa only [String.toList_append] using this

theorem maxLen_le (l : List (Nat × Decomp)) : ∀ e ∈ l, e.2.targets.length ≤ maxLen l := by
  have : ∀ (l : List (Nat × Decomp)) a, a ≤ l.foldl (fun a e => max a e.2.targets.length) a ∧
      ∀ e ∈ l, e.2.targets.length ≤ l.foldl (fun a e => max a e.2.targets.length) a := by
    intro l
    induction l with
    | nil => intro a; exact ⟨Nat.le_refl _, fun e he => by cases he⟩
    | cons x l ih =>
      intro a
      obtain ⟨h1, h2⟩ := ih (max a x.2.targets.length)
      rw [List.foldl_cons]
      refine ⟨Nat.le_trans (Nat.le_max_left _ _) h1, fun e he => ?_⟩
      rcases List.mem_cons.1 he with rfl | he
      · exact Nat.le_trans (Nat.le_max_right _ _) h1
      · exact h2 e he
  exact (this l 4).2

theorem ofKind_writeDecomps (k : Bool) (m : List (Nat × Decomp)) : (ofKind k m).map (fun e => (e.1, e.2.targets)) = writeDecomps k m := by
  unfold ofKind writeDecomps
  congr 1

/-- the same about the text as a sequence of lines -/
theorem case_tables_line (u : Ud) (f : Folds) (s : Special) (q : Qc) (comp : List Tables.Comp)
    (hsimple : ∀ m ∈ [u.upper, u.lower, u.title, f.simple], ∀ e ∈ m, e.1 ≠ 0x5C)
    (hfull : ∀ m ∈ [s.upper, s.lower, s.title, f.full], ∀ e ∈ m, e.2.length ≤ 3) :
    ∃ w w', (∀ e ∈ writeDecomps true u.decomps, e.2.length ≤ w) ∧ (∀ e ∈ u.decomps, isCanonical e.2 = false → e.2.targets.length ≤ w') ∧
    SaysL (caseNormBody u f s q comp) (
      [simpleItem "uppercase" u.upper, simpleItem "lowercase" u.lower, simpleItem "titlecase" u.title, simpleItem "casefold" f.simple] ++
      fullItems "uppercase" s.upper ++ fullItems "lowercase" s.lower ++ fullItems "titlecase" s.title ++ fullItems "casefold" f.full ++
      [.table "std::pair<char32_t, uint8_t>".toList "ccc_table".toList (u.ccc.map pairVal),
       .struct "canonical_decomposition_entry".toList (mapMembers w),
       .table "canonical_decomposition_entry".toList "canonical_decomposition_table".toList ((writeDecomps true u.decomps).map (mapVal w)),
       .struct "compatibility_decomposition_entry".toList (mapMembers w' ++ [("uint8_t".toList, "decomp_type".toList, none)]),
       .table "compatibility_decomposition_entry".toList "compatibility_decomposition_table".toList
        ((u.decomps.filter fun e => isCanonical e.2 = false).map (typedVal w')),
       .struct "composition_pair".toList [("char32_t".toList, "first".toList, none), ("char32_t".toList, "second".toList, none),
        ("char32_t".toList, "composed".toList, none)],
       .table "composition_pair".toList "composition_table".toList (comp.map fun c => .list [.num c.first, .num c.second, .num c.composed]),
       setItem "nfc_qc_no" q.nfcNo, setItem "nfc_qc_maybe" q.nfcMaybe, setItem "nfkc_qc_no" q.nfkcNo, setItem "nfkc_qc_maybe" q.nfkcMaybe,
       setItem "nfd_qc_no" q.nfdNo, setItem "nfkd_qc_no" q.nfkdNo, setItem "composition_exclusions" q.excl]) := by
  refine ⟨maxLen (ofKind true u.decomps), maxLen (ofKind false u.decomps), ?_, ?_, ?_⟩
  · intro e he
    rw [← ofKind_writeDecomps] at he
    obtain ⟨d, hd, rfl⟩ := List.mem_map.1 he
    exact maxLen_le _ d hd
  · intro e he hk
    exact maxLen_le _ e (List.mem_filter.2 ⟨he, decide_eq_true hk⟩)
  · have hs := fun (n : String) m (hm : m ∈ [u.upper, u.lower, u.title, f.simple]) (hn : n.toList.all isWord = true) => simpleItem_ok n m hn (hsimple m hm)
    have hf := fun (n : String) m (hm : m ∈ [s.upper, s.lower, s.title, f.full]) (hn : n.toList.all isWord = true) => fullItems_ok n m hn (hfull m hm)
    have hd := decomp_ok u.decomps
    have hc := compat_ok u.decomps
    have nl := fun {t : Str} {items : List Item} (h : SaysL t items) =>
      (h.append (SaysL.skip clean_newline SaysL.nil) : SaysL (t ++ ("\n".toList ++ [])) (items ++ []))
    have key := SaysL.flat (l := [
      (_, _), (_, _), (_, _), (_, _), (_, _), (_, _), (_, _), (_, _), (_, _), (_, _), (_, _), (_, _), (_, _), (_, _), (_, _), (_, _), (_, _), (_, _), (_, _)])
      (List.forall_mem_cons.2 ⟨nl (hs "uppercase" u.upper (.head _) (by decide)),
       List.forall_mem_cons.2 ⟨nl (hs "lowercase" u.lower (.tail _ (.head _)) (by decide)),
       List.forall_mem_cons.2 ⟨nl (hs "titlecase" u.title (.tail _ (.tail _ (.head _))) (by decide)),
       List.forall_mem_cons.2 ⟨nl (hs "casefold" f.simple (.tail _ (.tail _ (.tail _ (.head _)))) (by decide)),
       List.forall_mem_cons.2 ⟨nl (hf "uppercase" s.upper (.head _) (by decide)),
       List.forall_mem_cons.2 ⟨nl (hf "lowercase" s.lower (.tail _ (.head _)) (by decide)),
       List.forall_mem_cons.2 ⟨nl (hf "titlecase" s.title (.tail _ (.tail _ (.head _))) (by decide)),
       List.forall_mem_cons.2 ⟨nl (hf "casefold" f.full (.tail _ (.tail _ (.tail _ (.head _)))) (by decide)),
       List.forall_mem_cons.2 ⟨nl (ccc_ok u.ccc), List.forall_mem_cons.2 ⟨nl hd, List.forall_mem_cons.2 ⟨nl hc,
       List.forall_mem_cons.2 ⟨nl (composition_ok comp),
       List.forall_mem_cons.2 ⟨nl (setItem_ok "nfc_qc_no" q.nfcNo (by decide)),
       List.forall_mem_cons.2 ⟨nl (setItem_ok "nfc_qc_maybe" q.nfcMaybe (by decide)),
       List.forall_mem_cons.2 ⟨nl (setItem_ok "nfkc_qc_no" q.nfkcNo (by decide)),
       List.forall_mem_cons.2 ⟨nl (setItem_ok "nfkc_qc_maybe" q.nfkcMaybe (by decide)),
       List.forall_mem_cons.2 ⟨nl (setItem_ok "nfd_qc_no" q.nfdNo (by decide)),
       List.forall_mem_cons.2 ⟨nl (setItem_ok "nfkd_qc_no" q.nfkdNo (by decide)),
       List.forall_mem_cons.2 ⟨nl (setItem_ok "composition_exclusions" q.excl (by decide)), fun _ h => nomatch h⟩⟩⟩⟩⟩⟩⟩⟩⟩⟩⟩⟩⟩⟩⟩⟩⟩⟩⟩)
    have hw : (writeDecomps true u.decomps).map (mapVal (maxLen (ofKind true u.decomps))) =
        (ofKind true u.decomps).map fun e => .list [.num e.1, .list ((pad (maxLen (ofKind true u.decomps)) e.2.targets).map .num), .num e.2.targets.length] := by
      rw [← ofKind_writeDecomps, List.map_map]; rfl
    rw [hw]
    exact key

/-- The header with the tables of case mapping and normalisation declares the data of the loaders: the four simple case maps, the
four full ones, the combining classes, the two kinds of decompositions (with room for the longest), the compositions, the sets
of the quick checks.  (Hypotheses: full case mappings have at most three code points, as in Unicode's data; the backslash has no
simple case mapping, see `C61_fails_backslash`.) -/
theorem C61_case_tables_partial (u : Ud) (f : Folds) (s : Special) (q : Qc) (comp : List Tables.Comp)
    (hsimple : ∀ m ∈ [u.upper, u.lower, u.title, f.simple], ∀ e ∈ m, e.1 ≠ 0x5C)
    (hfull : ∀ m ∈ [s.upper, s.lower, s.title, f.full], ∀ e ∈ m, e.2.length ≤ 3) :
    ∃ w w', (∀ e ∈ writeDecomps true u.decomps, e.2.length ≤ w) ∧ (∀ e ∈ u.decomps, isCanonical e.2 = false → e.2.targets.length ≤ w') ∧
    Says (caseNormBody u f s q comp) (
      [simpleItem "uppercase" u.upper, simpleItem "lowercase" u.lower, simpleItem "titlecase" u.title, simpleItem "casefold" f.simple] ++
      fullItems "uppercase" s.upper ++ fullItems "lowercase" s.lower ++ fullItems "titlecase" s.title ++ fullItems "casefold" f.full ++
      [.table "std::pair<char32_t, uint8_t>".toList "ccc_table".toList (u.ccc.map pairVal),
       .struct "canonical_decomposition_entry".toList (mapMembers w),
       .table "canonical_decomposition_entry".toList "canonical_decomposition_table".toList ((writeDecomps true u.decomps).map (mapVal w)),
       .struct "compatibility_decomposition_entry".toList (mapMembers w' ++ [("uint8_t".toList, "decomp_type".toList, none)]),
       .table "compatibility_decomposition_entry".toList "compatibility_decomposition_table".toList
        ((u.decomps.filter fun e => isCanonical e.2 = false).map (typedVal w')),
       .struct "composition_pair".toList [("char32_t".toList, "first".toList, none), ("char32_t".toList, "second".toList, none),
        ("char32_t".toList, "composed".toList, none)],
       .table "composition_pair".toList "composition_table".toList (comp.map fun c => .list [.num c.first, .num c.second, .num c.composed]),
       setItem "nfc_qc_no" q.nfcNo, setItem "nfc_qc_maybe" q.nfcMaybe, setItem "nfkc_qc_no" q.nfkcNo, setItem "nfkc_qc_maybe" q.nfkcMaybe,
       setItem "nfd_qc_no" q.nfdNo, setItem "nfkd_qc_no" q.nfkdNo, setItem "composition_exclusions" q.excl]) := by
  obtain ⟨w, w', h1, h2, h3⟩ := case_tables_line u f s q comp hsimple hfull
  exact ⟨w, w', h1, h2, h3.says⟩

/-! ### The backslash -/

/-- Full statement of the property for simple case tables. -/
def C61_Simple : Prop := ∀ (m : List (Nat × Nat)), Says (writeSimpleCaseTable m "uppercase".toList) [simpleItem "uppercase" m]

/-- The comment after an entry is its source character.  For the backslash the comment ends with a backslash, which joins it to the
next line: the next entry disappears in the comment, and the text declares fewer elements than its type says. -/
theorem C61_fails_backslash : ¬ C61_Simple := by
  intro h
  obtain ⟨ts, h1, h2⟩ := h [(0x5C, 0x5D), (0x61, 0x41)]
  have e : ts = [.word "inline".toList, .word "constexpr".toList, .word "std".toList, Spec.Cxx.p ':', Spec.Cxx.p ':', .word "array".toList,
      Spec.Cxx.p '<', .word "std".toList, Spec.Cxx.p ':', Spec.Cxx.p ':', .word "pair".toList, Spec.Cxx.p '<', .word "char32_t".toList, Spec.Cxx.p ',',
      .word "char32_t".toList, Spec.Cxx.p '>', Spec.Cxx.p ',', .word "2".toList, Spec.Cxx.p '>', .word "simple_uppercase_table".toList,
      Spec.Cxx.p '{', Spec.Cxx.p '{', Spec.Cxx.p '{', .word "0x005C".toList, Spec.Cxx.p ',', .word "0x005D".toList, Spec.Cxx.p '}', Spec.Cxx.p ',',
      Spec.Cxx.p '}', Spec.Cxx.p '}', Spec.Cxx.p ';'] := by
    refine Spec.Cxx.lexes_unique h1 (Spec.Cxx.lexFn_ok (n := 300) ?_)
    decide +kernel
  subst e
  have hp : Spec.Cxx.Lexes "std::pair<char32_t, char32_t>".toList pairToks := pairText_lexes
  generalize hi : [simpleItem "uppercase" [(0x5C, 0x5D), (0x61, 0x41)]] = items at h2
  generalize hx : Spec.Cxx.Tok.word "inline".toList :: _ = toks at h2
  cases h2 with
  | nil => cases hi
  | struct _ _ _ => cases hi
  | enum _ _ => cases hi
  | @table ts type elem name vs us items hr htn hd hu =>
    simp only [simpleItem, List.cons.injEq, Item.table.injEq] at hi
    obtain ⟨⟨rfl, rfl, rfl⟩, rfl⟩ := hi
    have he : elem = pairToks := Spec.Cxx.lexes_unique hr hp.reads
    subst he
    have good : Spec.Cxx.Inits pairToks ([Spec.Cxx.p '{', .word "0x005C".toList, Spec.Cxx.p ',', .word "0x005D".toList, Spec.Cxx.p '}'] ++ Spec.Cxx.p ',' :: [])
        [.list [.num 0x5C, .num 0x5D]] :=
      .cons (init_pair (cp_lit 0x5C) (cp_lit 0x5D)) .nil
    obtain ⟨s, b, u, m1, m2, rfl⟩ := Spec.Cxx.declares_tail hd
    have t2 : Spec.Cxx.Tail true _ pairToks "simple_uppercase_table".toList [.list [.num 0x5C, .num 0x5D]] :=
      .«variable» (n := "2".toList) [] (.head _) (ident_of (by decide)) (.nested good)
    obtain ⟨rfl, e⟩ := Spec.Cxx.specifiers_unique (s := [.word "inline".toList, .word "constexpr".toList]) (.tail _ (.head _)) m1 t2 m2
      (x := []) (y := us) (by rw [← hx]; rfl)
    have := (Spec.Cxx.tail_prefix pair_type pair_type t2 m2 e).2.2.1
    cases this

/-! ## codepoint_properties_data.cpp and codepoint_properties_names.cpp -/

/-- The numbers in a table fit the element type it is declared with. -/
def Fits (type : Str) (values : List Nat) : Prop := ∃ m, maxOf type = some m ∧ ∀ v ∈ values, v ≤ m

/-- The source file with the properties declares the two stages and the rows, nothing else. -/
theorem C61_properties (stage1 stage2 : List Nat) (rows : List Emitted) (h1 : ∀ v ∈ stage1, v < 2 ^ 64) (h2 : ∀ v ∈ stage2, v < 2 ^ 64)
    (hr : ∀ e ∈ rows, EmittedOk e) :
    ∃ t1 t2, Fits t1 stage1 ∧ Fits t2 stage2 ∧
    Says (propertiesBody stage1 stage2 rows)
      [.table t1 "stage1".toList (stage1.map .num), .table t2 "stage2".toList (stage2.map .num),
       .table "codepoint_properties".toList "properties".toList (rows.map fun e =>
        .list [.num e.width, .num e.flags, .num e.flags2, .name ["Script".toList, e.script], .name ["Grapheme_Cluster_Break".toList, e.gcb],
          .name ["East_Asian_Width".toList, e.eaw], .name ["General_Category".toList, e.gc], .name ["EmojiSegmentationCategory".toList, e.esc],
          .name ["Age".toList, e.age], .name ["Indic_Conjunct_Break".toList, e.incb], .name ["Word_Break".toList, e.wb]])] := by
  refine ⟨minimumUintType stage1, minimumUintType stage2, minimum_fits _ h1, minimum_fits _ h2, ?_⟩
  exact ((cxxTable_ok stage1 "stage1".toList false (ident_of (by decide))).append
    ((cxxTable_ok stage2 "stage2".toList true (ident_of (by decide))).append (properties_ok rows hr))).says

/-- The source file with the names declares its two stages and the names. -/
theorem C61_names (stage1 stage2 : List Nat) (names : List Str) (h1 : ∀ v ∈ stage1, v < 2 ^ 64) (h2 : ∀ v ∈ stage2, v < 2 ^ 64)
    (hn : ∀ s ∈ names, ∀ c ∈ s, c ≠ '"' ∧ c ≠ '\\' ∧ c ≠ '\n') :
    ∃ t1 t2, Fits t1 stage1 ∧ Fits t2 stage2 ∧
    Says (namesBody stage1 stage2 names)
      [.table t1 "names_stage1".toList (stage1.map .num), .table t2 "names_stage2".toList (stage2.map .num),
       .table "std::string_view".toList "names_stage3".toList (names.map .str)] := by
  refine ⟨minimumUintType stage1, minimumUintType stage2, minimum_fits _ h1, minimum_fits _ h2, ?_⟩
  exact ((cxxTable_ok stage1 "names_stage1".toList false (ident_of (by decide))).append
    ((cxxTable_ok stage2 "names_stage2".toList true (ident_of (by decide))).append (names_ok names hn))).says

/-! ## ucd_enums.h -/

theorem numbered_eq (l : List Str) (i : Nat) : numbered i l = (l.map sanitize).zipIdx i := by
  induction l generalizing i with
  | nil => rfl
  | cons a l ih => rw [numbered, ih, List.map_cons, List.zipIdx_cons]

theorem enumsBody_ok (enums : List EnumDef) (h : ∀ d ∈ enums, Ident d.name ∧ ∀ m ∈ d.members, Ident (sanitize m)) :
    SaysL (enumsBody enums) (enums.map fun d => .enum d.name (minimalUintText d.members.length) (d.identifiers.zipIdx)) := by
  induction enums with
  | nil => exact .nil
  | cons d l ih =>
    have h1 := enum_ok d (h d (List.mem_cons_self ..)).1 (h d (List.mem_cons_self ..)).2
    rw [numbered_eq] at h1
    exact h1.append (ih fun x hx => h x (List.mem_cons_of_mem _ hx))

theorem minimalUint_fits (n : Nat) (hlen : n < 2 ^ 64) : Fits (minimalUintText n) (List.range n) := by
  simp only [Fits, List.mem_range]
  unfold minimalUintText
  by_cases h8 : n < 2 ^ 8
  · rw [if_pos h8]; exact ⟨0xFF, rfl, fun v hv => by omega⟩
  · rw [if_neg h8]
    by_cases h16 : n < 2 ^ 16
    · rw [if_pos h16]; exact ⟨0xFFFF, rfl, fun v hv => by omega⟩
    · rw [if_neg h16]
      by_cases h32 : n < 2 ^ 32
      · rw [if_pos h32]; exact ⟨0xFFFFFFFF, rfl, fun v hv => by omega⟩
      · rw [if_neg h32]; exact ⟨0xFFFFFFFFFFFFFFFF, rfl, fun v hv => by omega⟩

/-- The header of enumerations declares each enumeration with its members in order, numbered from 0, in a type that holds
every number, and nothing else. -/
theorem C61_enums (enums : List EnumDef) (h : ∀ d ∈ enums, Ident d.name ∧ (∀ m ∈ d.members, Ident (sanitize m)) ∧ d.members.length < 2 ^ 64) :
    ∃ type : EnumDef → Str, (∀ d ∈ enums, Fits (type d) (List.range d.members.length)) ∧
    Says (enumsBody enums) (enums.map fun d => .enum d.name (type d) (d.identifiers.zipIdx)) := by
  refine ⟨fun d => minimalUintText d.members.length, ?_, (enumsBody_ok enums fun d hd => ⟨(h d hd).1, (h d hd).2.1⟩).says⟩
  intro d hd
  exact minimalUint_fits _ (h d hd).2.2

/-! ## ucd.cpp -/

/-- A comment that stays in its line. -/
def OneLine (c : Str) : Prop := '\n' ∉ c ∧ c.getLast? ≠ some '\\'

/-- An interval. -/
def intervalVal (e : Tables.Entry Unit) : Val := .list [.num e.lo, .num e.hi]

/-- A range with a value: `{ { first, last }, scope::value }`. -/
def entryVal (path : List String) (e : Tables.Entry Str) : Val :=
  .list [.list [.num e.lo, .num e.hi], .name (path.map String.toList ++ [e.val])]

/-- The tables of core properties, general categories and emoji properties hold the intervals their queries search. -/
theorem C61_intervals (name : Str) (rows : List (PRange × Str)) (hn : Ident name) (hc : ∀ r ∈ rows, OneLine r.2) :
    Says (writeIntervals name rows) [.table "Interval".toList name ((intervalTable (rows.map (·.1))).map intervalVal)] := by
  have := intervals_ok name rows hn hc
  unfold intervalTable
  rw [List.map_map, List.map_map]
  exact this.says

theorem C61_mirrored (D : Db) :
    Says (writeMirrored D.mirrored) [.table "Interval".toList "Bidi_Mirrored".toList (D.mirrored.map pairVal)] := (mirrored_ok D.mirrored).says

theorem C61_glyphs (D : Db) :
    Says (writeGlyphs D.glyphs) [.table "std::pair<char32_t, char32_t>".toList "Bidi_Mirroring_Glyph".toList (D.glyphs.map pairVal)] :=
  (glyphs_ok D.glyphs).says

theorem C61_general_category (rows : List (PRange × Str)) (hv : ∀ r ∈ rows, Ident r.1.property) (hc : ∀ r ∈ rows, OneLine r.2) :
    Says (writeGcTable rows) [.table "Prop<::unicode::General_Category>".toList "General_Category".toList
      ((propTable (rows.map (·.1))).map (entryVal ["unicode", "General_Category"]))] := by
  have := gcTable_ok rows hv hc
  unfold propTable
  rw [List.map_map, List.map_map]
  exact this.says

theorem C61_script (rows : List (PRange × Str)) (hv : ∀ r ∈ rows, Ident r.1.property) (hc : ∀ r ∈ rows, OneLine r.2) :
    Says (writeScripts rows) [.table "Prop<unicode::Script>".toList "Script".toList
      ((propTable (rows.map (·.1))).map (entryVal ["unicode", "Script"]))] := by
  have := scripts_ok rows hv hc
  unfold propTable
  rw [List.map_map, List.map_map]
  exact this.says

/-- A row of the generator's list of planes is the range, the number and the short name. -/
theorem C61_plane (rows : List (PRange × Nat × Str)) (hr : rows.map (·.1) = planes) (hc : ∀ r ∈ rows, OneLine r.2.2) :
    Says (writePlanes rows) [.table "Prop<::unicode::Plane>".toList "Plane".toList
      ((propTable (planes.map fun p => { p with property := sanitize p.property })).map (entryVal ["unicode", "Plane"]))] := by
  have hp : ∀ r ∈ planes, identB (sanitize r.property) = true := by decide +kernel
  have := planes_ok rows (fun r hr' => ident_of (hp _ (by rw [← hr]; exact List.mem_map_of_mem hr'))) hc
  unfold propTable
  rw [← hr]
  rw [List.map_map, List.map_map, List.map_map]
  exact this.says

theorem C61_block (rows : List PRange) (hv : ∀ r ∈ rows, Ident (sanitize r.property)) :
    Says (writeBlocks rows) [.table "Prop<::unicode::Block>".toList "Block".toList
      ((propTable (rows.map fun r => { r with property := sanitize r.property })).map (entryVal ["unicode", "Block"]))] := by
  have := blocks_ok rows hv
  unfold propTable
  rw [List.map_map, List.map_map]
  exact this.says

/-- The tables of grapheme cluster breaks. -/
theorem C61_breaks (group : String) (rows : List (PRange × Str)) (hg : Ident group.toList) (hv : ∀ r ∈ rows, Ident r.1.property) (hc : ∀ r ∈ rows, OneLine r.2) :
    Says (writeBreaks group.toList rows) [.table ("Prop<::unicode::".toList ++ (group.toList ++ ">".toList)) group.toList
      ((propTable (rows.map (·.1))).map (entryVal ["unicode", group]))] := by
  have := breaks_ok group.toList rows hg hv hc
  unfold propTable
  rw [List.map_map, List.map_map]
  exact this.says

/-- The table of East Asian widths: the merged ranges, whatever the comments. -/
theorem C61_east_asian_width (rows : List (PRange × Str)) (hc : ∀ r ∈ rows, OneLine r.2) :
    Says (writeEaw rows) [.table "Prop<::unicode::EastAsianWidth>".toList "EastAsianWidth".toList
      ((propTable ((mergeRanges (rows.map (·.1))).map fun r => { r with property := widthName r.property })).map
        (entryVal ["unicode", "EastAsianWidth"]))] := by
  have := eaw_ok rows hc
  rw [← mergeText_range]
  unfold propTable
  rw [List.map_map, List.map_map, List.map_map]
  exact this.says

/-- The arrays of script extensions. -/
theorem C61_script_extension_arrays (al : List (Str × Str)) (sce : List MRange)
    (h : ∀ a ∈ sceArrays al sce [], Ident a.1 ∧ ∀ s ∈ a.2, Ident s) :
    Says (writeSceArrays al sce)
      ((sceArrays al sce []).map fun a => .table "unicode::Script".toList a.1 (a.2.map fun s => .name ["unicode".toList, "Script".toList, s])) := by
  unfold writeSceArrays
  generalize sceArrays al sce [] = arrays at h ⊢
  have : SaysL (arrays.flatMap fun a => writeSceArray a.1 a.2)
      (arrays.map fun a => .table "unicode::Script".toList a.1 (a.2.map fun s => .name ["unicode".toList, "Script".toList, s])) := by
    induction arrays with
    | nil => exact .nil
    | cons a l ih =>
      exact (sceArray_ok a.1 a.2 (h a (List.mem_cons_self ..)).1 (h a (List.mem_cons_self ..)).2).append
        (ih fun x hx => h x (List.mem_cons_of_mem _ hx))
  exact this.says

/-- The table of script extensions: every range with the beginning and the size of its array. -/
theorem C61_script_extensions (rows : List (MRange × Str)) (hk : ∀ r ∈ rows, Ident (sceKey r.1.props)) (hc : ∀ r ∈ rows, OneLine r.2) :
    Says (writeSce rows) [.table "Prop<std::pair<unicode::Script const*, std::size_t>>".toList "sce".toList
      (rows.map fun r => .list [.list [.num r.1.first, .num r.1.last],
        .list [.name [sceKey r.1.props, "data".toList], .name [sceKey r.1.props, "size".toList]]])] := (sce_ok rows hk hc).says

/-- The table of ages in `make_age`: all aliases but the one of unassigned code points. -/
theorem C61_ages (al : List (Str × Str)) (hk : ∀ e ∈ al, ∀ c ∈ e.1, c ≠ '"' ∧ c ≠ '\\' ∧ c ≠ '\n') (hv : ∀ e ∈ al, Ident e.2) :
    Says (writeAges al) [.table "std::pair<std::string_view, Age>".toList "mappings".toList
      ((al.filter fun e => decide (e.2 ≠ "Unassigned".toList)).map fun e => .list [.str e.1, .name ["Age".toList, e.2]])] :=
  (ages_ok al hk hv).says

/-! ## The types of decompositions -/

theorem strLt_asymm' {a b : Str} (h : strLt a b = true) : strLt b a = false := by
  cases h' : strLt b a with
  | false => rfl
  | true => have := strLt_trans a b a h h'; rw [strLt_irrefl] at this; cases this

theorem sortInsert_comm (a b : Str) (l : List Str) : sortInsert a (sortInsert b l) = sortInsert b (sortInsert a l) := by
  induction l with
  | nil =>
    simp only [sortInsert]
    cases h1 : strLt b a with
    | true => rw [strLt_asymm' h1]; simp
    | false =>
      cases h2 : strLt a b with
      | true => simp
      | false => rw [strLt_tri a b h2 h1]
  | cons c l ih =>
    simp only [sortInsert]
    cases h1 : strLt c b with
    | true =>
      cases h2 : strLt c a with
      | true => simp only [if_true, sortInsert, h1, h2, ih]
      | false =>
        have hab : strLt a b = true := by
          cases h3 : strLt a c with
          | true => exact strLt_trans a c b h3 h1
          | false => rw [strLt_tri a c h3 h2]; exact h1
        simp [sortInsert, h1, h2, hab]
    | false =>
      cases h2 : strLt c a with
      | true =>
        have hba : strLt b a = true := by
          cases h3 : strLt b c with
          | true => exact strLt_trans b c a h3 h2
          | false => rw [strLt_tri b c h3 h1]; exact h2
        simp [sortInsert, h1, h2, hba]
      | false =>
        simp only [Bool.false_eq_true, if_false, sortInsert, h1, h2]
        cases h3 : strLt b a with
        | true => rw [strLt_asymm' h3]; simp
        | false =>
          cases h4 : strLt a b with
          | true => simp
          | false => rw [strLt_tri a b h4 h3]

theorem sortStrs_congr {xs ys : List Str} (h : xs.Perm ys) : sortStrs xs = sortStrs ys := by
  unfold sortStrs
  induction h with
  | nil => rfl
  | cons _ _ ih => rw [List.foldr_cons, ih, List.foldr_cons]
  | swap x y l => rw [List.foldr_cons, List.foldr_cons, List.foldr_cons, List.foldr_cons]; exact sortInsert_comm _ _ _
  | trans _ _ h1 h2 => exact h1.trans h2

/-- the values of the property Decomposition_Type (UAX #44, table 14) -/
def decompositionTypes : List Str :=
  ["Canonical", "Compat", "Circle", "Final", "Font", "Fraction", "Initial", "Isolated", "Medial", "Narrow", "Nobreak", "None", "Small", "Square", "Sub",
   "Super", "Vertical", "Wide"].map String.toList

/-- the tags of compatibility decompositions in `UnicodeData.txt` -/
def decompositionTags : List Str :=
  ["font", "noBreak", "initial", "medial", "final", "isolated", "circle", "super", "sub", "vertical", "wide", "narrow", "small", "square", "fraction",
   "compat"].map String.toList

/-- The number written for a compatibility decomposition is the number of the enumerator with the name of its tag (up to case), in
the enumeration generated from the aliases, in whatever order the file lists them. -/
theorem C61_decomposition_type (values : List (Str × Str)) (hv : (values.map (·.2)).Perm decompositionTypes) (tag : Str) (ht : tag ∈ decompositionTags) :
    ∃ d name, pvaEnum "Decomposition_Type".toList values = some d ∧ name.map Char.toLower = tag.map Char.toLower ∧
      d.number name = some (decompositionTypeOrdinal tag) := by
  have hl : values.length = 18 := by
    have := hv.length_eq
    rw [List.length_map] at this
    rw [this]; decide
  have hs : sortStrs (values.map (·.2)) = sortStrs decompositionTypes := sortStrs_congr hv
  have hp : pvaEnum "Decomposition_Type".toList values = some ⟨"Decomposition_Type".toList, sortStrs decompositionTypes⟩ := by
    unfold pvaEnum
    rw [if_neg (by intro e; rw [e] at hl; cases hl)]
    rw [if_neg (by unfold yesNo; simp [hl])]
    rw [if_neg (by decide +kernel), if_neg (by decide +kernel), hs]
    rfl
  have hx : ∀ tag ∈ decompositionTags, ∃ name ∈ decompositionTypes, name.map Char.toLower = tag.map Char.toLower ∧
      (EnumDef.mk "Decomposition_Type".toList (sortStrs decompositionTypes)).number name = some (decompositionTypeOrdinal tag) := by
    decide +kernel
  obtain ⟨name, _, h1, h2⟩ := hx tag ht
  exact ⟨_, name, hp, h1, h2⟩

/-! ## The hypotheses are met -/

def emitUd : Ud where
  upper := [(0x61, 0x41), (0xB5, 0x39C)]
  lower := [(0x41, 0x61)]
  title := [(0x61, 0x41)]
  ccc := [(0x300, 230)]
  decomps := [(0xC0, ⟨[0x41, 0x300], "canonical".toList⟩), (0xFDFA, ⟨List.replicate 18 0x644, "isolated".toList⟩)]

def sampleFolds : Folds := { simple := [(0x41, 0x61)], full := [(0xDF, [0x73, 0x73])] }
def sampleSpecial : Special := { upper := [(0xDF, [0x53, 0x53]), (0xFB03, [0x46, 0x46, 0x49])], lower := [(0x130, [0x69, 0x307])], title := [(0xDF, [0x53, 0x73])] }

example : ∃ items, Says (caseNormBody emitUd sampleFolds sampleSpecial { nfcNo := [0x340, 0x341] } [⟨0x41, 0x300, 0xC0⟩]) items := by
  obtain ⟨w, w', _, _, h⟩ := C61_case_tables_partial emitUd sampleFolds sampleSpecial { nfcNo := [0x340, 0x341] } [⟨0x41, 0x300, 0xC0⟩] (by decide) (by decide)
  exact ⟨_, h⟩

def sampleEmitted : Emitted :=
  ⟨2, 0x81, 3, "Hiragana".toList, "Other".toList, "Wide".toList, "Other_Letter".toList, "Invalid".toList, "V1_1".toList, "None".toList, "ALetter".toList⟩

theorem sampleEmitted_ok : EmittedOk sampleEmitted where
  flags := by decide
  flags2 := by decide
  script := ident_of (by decide)
  gcb := ident_of (by decide)
  eaw := ident_of (by decide)
  gc := ident_of (by decide)
  esc := ident_of (by decide)
  age := ident_of (by decide)
  incb := ident_of (by decide)
  wb := ident_of (by decide)

example : ∃ items, Says (propertiesBody [0, 1, 300] [0, 1, 1, 70000] [sampleEmitted, sampleEmitted]) items := by
  obtain ⟨_, _, _, _, h⟩ := C61_properties [0, 1, 300] [0, 1, 1, 70000] [sampleEmitted, sampleEmitted] (by decide) (by decide)
    (by intro e he; simp only [List.mem_cons, List.not_mem_nil, or_false, or_self] at he; rw [he]; exact sampleEmitted_ok)
  exact ⟨_, h⟩

example : ∃ items, Says (namesBody [0, 1] [0, 2] ["".toList, "LATIN SMALL LETTER A".toList, "<control>".toList]) items := by
  obtain ⟨_, _, _, _, h⟩ := C61_names [0, 1] [0, 2] ["".toList, "LATIN SMALL LETTER A".toList, "<control>".toList] (by decide) (by decide) (by decide +kernel)
  exact ⟨_, h⟩

example : ∃ items, Says (enumsBody [planeEnum, widthEnum]) items := by
  have hi : ∀ d ∈ [planeEnum, widthEnum], identB d.name = true ∧ (∀ m ∈ d.members, identB (sanitize m) = true) ∧ d.members.length < 2 ^ 64 := by
    decide +kernel
  obtain ⟨_, _, h⟩ := C61_enums [planeEnum, widthEnum]
    (fun d hd => ⟨ident_of (hi d hd).1, fun m hm => ident_of ((hi d hd).2.1 m hm), (hi d hd).2.2⟩)
  exact ⟨_, h⟩

theorem oneLine_of {c : Str} (h : ∀ x ∈ c, x ≠ '\n' ∧ x ≠ '\\') : OneLine c := commentOk_of h

def sampleRows : List (PRange × Str) :=
  [({ first := 0x41, last := 0x5A, property := "Uppercase_Letter".toList }, "L& [26] LATIN CAPITAL LETTER A..LATIN CAPITAL LETTER Z".toList),
   ({ first := 0xAA, last := 0xAA, property := "Other_Letter".toList }, "Lo FEMININE ORDINAL INDICATOR".toList)]

theorem sampleRows_ok : (∀ r ∈ sampleRows, Ident r.1.property) ∧ ∀ r ∈ sampleRows, OneLine r.2 := by
  have h1 : ∀ r ∈ sampleRows, identB r.1.property = true := by decide +kernel
  have h2 : ∀ r ∈ sampleRows, ∀ x ∈ r.2, x ≠ '\n' ∧ x ≠ '\\' := by decide +kernel
  exact ⟨fun r hr => ident_of (h1 r hr), fun r hr => oneLine_of (h2 r hr)⟩

example := C61_general_category sampleRows sampleRows_ok.1 sampleRows_ok.2
example := C61_script sampleRows sampleRows_ok.1 sampleRows_ok.2
example := C61_breaks "Grapheme_Cluster_Break" sampleRows (ident_of (by decide +kernel)) sampleRows_ok.1 sampleRows_ok.2
example := C61_intervals "Alphabetic".toList sampleRows (ident_of (by decide +kernel)) sampleRows_ok.2
example := C61_east_asian_width sampleRows sampleRows_ok.2

example := C61_plane (planes.map fun p => (p, 0, "BMP".toList)) (by rw [List.map_map]; exact List.map_id _)
  (fun r hr => by obtain ⟨p, _, rfl⟩ := List.mem_map.1 hr; exact oneLine_of (c := "BMP".toList) (by decide +kernel))

example := C61_block [{ first := 0, last := 0x7F, property := "Basic Latin".toList }] (fun r hr => by
  rw [List.mem_singleton.1 hr]; exact ident_of (by decide +kernel))

def sampleSce : List MRange := [{ first := 0x342, last := 0x342, props := ["Grek".toList] }, { first := 0x3099, last := 0x309C, props := ["Hira".toList, "Kana".toList] }]

example := C61_script_extension_arrays [("Grek".toList, "Greek".toList)] sampleSce (fun a ha => by
  have h : ∀ a ∈ sceArrays [("Grek".toList, "Greek".toList)] sampleSce [], identB a.1 = true ∧ ∀ s ∈ a.2, identB s = true := by decide +kernel
  exact ⟨ident_of (h a ha).1, fun s hs => ident_of ((h a ha).2 s hs)⟩)

example := C61_script_extensions (sampleSce.map fun r => (r, "Mn COMBINING GREEK PERISPOMENI".toList))
  (fun r hr => by
    obtain ⟨m, hm, rfl⟩ := List.mem_map.1 hr
    have h : ∀ m ∈ sampleSce, identB (sceKey m.props) = true := by decide +kernel
    exact ident_of (h m hm))
  (fun r hr => by obtain ⟨m, _, rfl⟩ := List.mem_map.1 hr; exact oneLine_of (c := "Mn COMBINING GREEK PERISPOMENI".toList) (by decide +kernel))

example := C61_ages [("1.1".toList, "V1_1".toList), ("NA".toList, "Unassigned".toList)] (by decide +kernel) (fun e he => by
  have h : ∀ e ∈ [("1.1".toList, "V1_1".toList), ("NA".toList, "Unassigned".toList)], identB e.2 = true := by decide +kernel
  exact ident_of (h e he))

example := C61_decomposition_type (decompositionTypes.reverse.map fun n => (n.take 3, n)) (by
  rw [List.map_map]
  exact (List.Perm.of_eq (List.map_id _)).trans (List.reverse_perm _)) "noBreak".toList (by decide +kernel)

end Verif.Props.Tg
