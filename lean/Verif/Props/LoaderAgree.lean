import Verif.Props.Loader
import Verif.Props.TgProgram
/-!
# C75: the run-time loader and the generated tables
-/

namespace Verif.Load
open Verif.Tg Verif.Props.Tg Verif.Spec.UcdFile Verif.Spec.Ucd
open Verif.Tables (Gen get generate propertiesShape)
open Verif.Spec.Cxx (Ident Consists Means joinPath)

/-- Two records of codepoint `c` – `r` from the tables, `l` from the loader – agree in the columns both fill, except for the width of Hangul vowels and
final consonants, of the soft hyphen and of prepended format characters. -/
structure Agree (U : Contents) (c : Nat) (r l : Row) : Prop where
  script : l.script = r.script
  gc : l.gc = r.gc
  eaw : l.eaw = r.eaw
  age : l.age = r.age
  gcb : l.gcb = r.gcb
  esc : l.esc = r.esc
  flags : l.flags = r.flags % 128
  width : ¬ Assigns U.hst c "V".toList → ¬ Assigns U.hst c "T".toList → c ≠ 0xAD → ¬ (r.gc = "Format".toList ∧ Assigns (allOf U.gcb) c "Prepend".toList) →
    l.width = r.width

/-- **C75, records.**  What the files say and what the loader makes of them agree. -/
theorem C75_records_partial {U : Contents} {N : ValueNames} (hc : Complete U N) {c : Nat} {r l : Row} (hr : Row.Says U N c r) (hl : Row.Loaded U N c l) :
    Agree U c r l := by
  have e1 := value_unique hc.scriptsOne hl.script hr.script
  have e2 := named_unique hc.eawOne hc.eawOk hl.eaw hr.eaw
  have e3 := named_unique hc.agesOne hc.ageOk hl.age hr.age
  have e4 := named_unique hc.gcbOne hc.gcbOk hl.gcb hr.gcb
  have e6 : l.gc = r.gc := by
    rcases hl.gc with ⟨a, h1, n1⟩ | ⟨h1, e⟩ <;> rcases hr.gc with ⟨b, h2, n2⟩ | ⟨h2, e'⟩
    · rw [hc.gcOne c _ _ h1 h2] at n1; exact hc.gcOk _ _ _ n1 n2
    · exact absurd h1 (h2 _)
    · exact absurd h2 (h1 _)
    · rw [e, e']
  refine ⟨e1, e6, e2, e3, e4, ?_, ?_, ?_⟩
  · rw [hl.esc, hr.esc, e4]
  · apply Nat.eq_of_testBit_eq
    intro i
    rw [show (128 : Nat) = 2 ^ 7 from rfl, Nat.testBit_mod_two_pow]
    by_cases hi : i < 7
    · rw [decide_eq_true hi, Bool.true_and]
      have : i = 0 ∨ i = 1 ∨ i = 2 ∨ i = 3 ∨ i = 4 ∨ i = 5 ∨ i = 6 := by omega
      apply Bool.eq_iff_iff.2
      rcases this with rfl | rfl | rfl | rfl | rfl | rfl | rfl
      · exact hl.emoji.trans hr.emoji.symm
      · exact hl.presentation.trans hr.presentation.symm
      · exact hl.component.trans hr.component.symm
      · exact hl.modifier.trans hr.modifier.symm
      · exact hl.modifierBase.trans hr.modifierBase.symm
      · exact hl.pictographic.trans hr.pictographic.symm
      · exact hl.graphemeExtend.trans hr.graphemeExtend.symm
    · rw [decide_eq_false hi, Bool.false_and]
      exact Nat.testBit_lt_two_pow (Nat.lt_of_lt_of_le hl.byte (by rw [show (128 : Nat) = 2 ^ 7 from rfl]; exact Nat.pow_le_pow_right (by omega) (by omega)))
  · intro h1 h2 h3 h4
    rw [hl.width, hr.width, e6, e2, if_neg (c := Assigns U.hst c "V".toList ∨ Assigns U.hst c "T".toList) (fun h => h.elim h1 h2), if_neg h3, if_neg h4]

/-- The soft hyphen: one column in the tables, none by the loader. -/
theorem C75_fails_width {U : Contents} {N : ValueNames} (hc : Complete U N) {r l : Row} (hr : Row.Says U N 0xAD r) (hl : Row.Loaded U N 0xAD l)
    (hg : r.gc = "Format".toList) (h1 : ¬ Assigns U.hst 0xAD "V".toList) (h2 : ¬ Assigns U.hst 0xAD "T".toList) : r.width = 1 ∧ l.width = 0 := by
  have e := (C75_records_partial hc hr hl).gc
  constructor
  · rw [hr.width, if_neg (fun h => h.elim h1 h2), if_pos rfl]
  · rw [hl.width, e, hg, if_pos ((zero_iff _).1 (Or.inr (Or.inr (Or.inl rfl))))]

/-- Hangul vowels and final consonants (letters): no column in the tables, one or two by the loader. -/
theorem C75_fails_jamo {U : Contents} {N : ValueNames} (hc : Complete U N) {c : Nat} {r l : Row} (hr : Row.Says U N c r) (hl : Row.Loaded U N c l)
    (hg : r.gc = "Other_Letter".toList) (h : Assigns U.hst c "V".toList ∨ Assigns U.hst c "T".toList) : r.width = 0 ∧ l.width ≠ 0 := by
  have e := (C75_records_partial hc hr hl).gc
  constructor
  · rw [hr.width, if_pos h]
  · rw [hl.width, e, hg, if_neg (fun h => absurd ((zero_iff _).2 h) (by decide))]
    split
    · omega
    · split <;> omega

/-- The columns the loader does not fill. -/
theorem C75_fails_columns {U : Contents} {N : ValueNames} {c : Nat} {r l : Row} (hr : Row.Says U N c r) (hl : Row.Loaded U N c l) :
    (Assigns U.isc c "Virama".toList → l.flags ≠ r.flags) ∧ (c ∈ U.evs → l.flags2 ≠ r.flags2) ∧
    (r.wb ≠ "Other".toList → l.wb ≠ r.wb) ∧ (r.incb ≠ "None".toList → l.incb ≠ r.incb) := by
  refine ⟨fun h e => ?_, fun h e => ?_, fun h e => h (e.symm.trans hl.wb), fun h e => h (e.symm.trans hl.incb)⟩
  · have h7 := hr.virama.2 (Or.inl h)
    rw [← e, Nat.testBit_lt_two_pow (x := l.flags) (i := 7) hl.byte] at h7
    cases h7
  · rw [hl.variationBase, hr.variationBase, if_pos h] at e
    cases e

/-! ## The same directory -/

theorem tidy_cr {l : Str} (h : Tidy l) : Tidy (l ++ ['\r']) := by
  constructor
  · intro c hc
    cases l with
    | nil => obtain rfl := Option.some.inj hc; decide
    | cons x y => exact h.head c hc
  · intro h1 h2 p q e hp
    rcases List.eq_nil_or_concat q with rfl | ⟨q', x, rfl⟩
    · have : l ++ ['\r'] = p ++ [';'] := e
      have := (List.append_inj' this rfl).2
      exact absurd (List.cons.inj this).1 (by decide)
    · have e' : l ++ ['\r'] = (p ++ ';' :: q') ++ [x] := by rw [e]; simp [List.append_assoc]
      exact h.upper (fun t e => h1 _ (by rw [e]; rfl)) (fun t e => h2 _ (by rw [e]; rfl)) p q' (List.append_inj' e' rfl).1 hp

theorem stored_of {line stored l' : Str} (h : '\r' ∉ stored) (hs : Stored line stored) (he : LineEnd stored l') : Stored line l' := by
  rcases hs with rfl | rfl
  · exact he
  · exact absurd (by simp) h

theorem fileOf_ends {ls ls' : List Str} {es : List Entry} (h : FileOf ls es) : LineEnds ls ls' → FileOf ls' es := by
  intro he
  induction h generalizing ls' with
  | nil => cases he; exact .nil
  | skip hn hs _ ih =>
    cases he with
    | cons h1 h2 => exact .skip hn (stored_of h1.1 hs h1.2) (ih h2)
  | data hd hs h3 h4 _ ih =>
    cases he with
    | cons h1 h2 => exact .data hd (stored_of h1.1 hs h1.2) h3 h4 (ih h2)

theorem tidy_ends {ls ls' : List Str} (h : ∀ l ∈ ls, Tidy l) (he : LineEnds ls ls') : ∀ l ∈ ls', Tidy l := by
  induction he with
  | nil => intro l hl; cases hl
  | cons h1 _ ih =>
    intro l hl
    rcases List.mem_cons.1 hl with rfl | hl
    · rcases h1.2 with e | e
      · rw [e]; exact h _ (List.mem_cons_self ..)
      · rw [e]; exact tidy_cr (h _ (List.mem_cons_self ..))
    · exact ih (fun l hl => h l (List.mem_cons_of_mem _ hl)) l hl

theorem tidyFile_of {dir : Dir} {ucd : Str} {name : String} {ls : List Str} {es : List Entry}
    (h : CleanLines ls ∧ ∃ s, dir (inDir ucd name.toList) = some s ∧ TextOf ls s) (hf : FileOf ls es) (ht : ∀ l ∈ ls, Tidy l) :
    TidyFile dir (ucd ++ '/' :: name.toList) es := by
  obtain ⟨hc, s, h1, h2⟩ := h
  exact ⟨s, h1, fileOf_ends hf (lineEnds_of hc h2), tidy_ends ht (lineEnds_of hc h2)⟩

/-- A file in sections, read as a whole. -/
theorem sections_file {P : Str → Prop} {H : Str → Str → Prop} {ls : List Str} {pre : List Entry} {secs : List (Str × List Entry)}
    (h : Sections P H RangeLine ls pre secs) (hP : ∀ l, P l → NoData l) (hH : ∀ l n, H l n → NoData l) : FileOf ls (pre ++ allOf secs) := by
  induction h with
  | nil => exact .nil
  | skip h1 h2 _ ih => exact .skip (hP _ h1) h2 ih
  | header h1 h2 _ ih => exact .skip (hH _ _ h1) h2 ih
  | data h1 h2 _ ih => exact .data h1.1 h2 h1.2.1 h1.2.2 ih

/-- The lines of the files the loader reads are tidy. -/
def AllTidy (A : AllFiles) : Prop :=
  ∀ ls ∈ [A.scripts, A.core, A.age, A.gc, A.names, A.gcb, A.eaw, A.emoji], ∀ l ∈ ls, Tidy l

theorem loaderFiles_of {dir : Dir} {ucd : Str} {A : AllFiles} {U : Contents} (hh : Holds dir ucd A) (hd : Describes A.toFiles U) (ht : AllTidy A) :
    LoaderFiles dir ucd U := by
  unfold Holds filesAndLines at hh
  unfold AllTidy at ht
  obtain ⟨-, hh⟩ := List.forall_mem_cons.1 hh
  obtain ⟨hgc, hh⟩ := List.forall_mem_cons.1 hh
  obtain ⟨hcore, hh⟩ := List.forall_mem_cons.1 hh
  obtain ⟨hscripts, hh⟩ := List.forall_mem_cons.1 hh
  obtain ⟨-, hh⟩ := List.forall_mem_cons.1 hh
  obtain ⟨-, hh⟩ := List.forall_mem_cons.1 hh
  obtain ⟨-, hh⟩ := List.forall_mem_cons.1 hh
  obtain ⟨hgcb, hh⟩ := List.forall_mem_cons.1 hh
  obtain ⟨-, hh⟩ := List.forall_mem_cons.1 hh
  obtain ⟨heaw, hh⟩ := List.forall_mem_cons.1 hh
  obtain ⟨-, hh⟩ := List.forall_mem_cons.1 hh
  obtain ⟨hemoji, hh⟩ := List.forall_mem_cons.1 hh
  obtain ⟨-, hh⟩ := List.forall_mem_cons.1 hh
  obtain ⟨-, hh⟩ := List.forall_mem_cons.1 hh
  obtain ⟨-, hh⟩ := List.forall_mem_cons.1 hh
  obtain ⟨-, hh⟩ := List.forall_mem_cons.1 hh
  obtain ⟨-, hh⟩ := List.forall_mem_cons.1 hh
  obtain ⟨-, hh⟩ := List.forall_mem_cons.1 hh
  obtain ⟨-, hh⟩ := List.forall_mem_cons.1 hh
  obtain ⟨hage, hh⟩ := List.forall_mem_cons.1 hh
  obtain ⟨hnames, -⟩ := List.forall_mem_cons.1 hh
  obtain ⟨t1, ht⟩ := List.forall_mem_cons.1 ht
  obtain ⟨t2, ht⟩ := List.forall_mem_cons.1 ht
  obtain ⟨t3, ht⟩ := List.forall_mem_cons.1 ht
  obtain ⟨t4, ht⟩ := List.forall_mem_cons.1 ht
  obtain ⟨t5, ht⟩ := List.forall_mem_cons.1 ht
  obtain ⟨t6, ht⟩ := List.forall_mem_cons.1 ht
  obtain ⟨t7, ht⟩ := List.forall_mem_cons.1 ht
  obtain ⟨t8, -⟩ := List.forall_mem_cons.1 ht
  refine ⟨tidyFile_of hscripts hd.scripts t1, tidyFile_of hcore hd.core t2, tidyFile_of hage hd.ages t3, tidyFile_of hgc ?_ t4,
    tidyFile_of hnames hd.names t5, tidyFile_of hgcb ?_ t6, tidyFile_of heaw hd.eaw t7, tidyFile_of hemoji hd.emoji t8⟩
  · exact sections_file hd.gc (fun l h => h.1) (fun l n h => by obtain ⟨w, -, -, rfl⟩ := h; exact Or.inl ⟨_, rfl⟩)
  · refine sections_file hd.gcb (fun l h => ?_) (fun l n h => by obtain ⟨w, w', -, -, -, rfl⟩ := h; exact Or.inl ⟨_, rfl⟩)
    rcases h with h | ⟨h, -⟩
    · exact Or.inr (Or.inr h)
    · exact Or.inl h

/-- **C75.**  One directory of data files, given to `unicode_tablegen` and to the run-time loader: the loader returns, and looking up a codepoint in the
tables the program has written gives a record that agrees with the loader's. -/
theorem C75_directory_partial (same : Nat → Nat → Bool) (dir : Dir) (ucd : Str) (A : AllFiles) (U : Contents) (N : ValueNames) (hh : Holds dir ucd A)
    (hd : Describes A.toFiles U) (hr : Release U N) (hfew : FewRows U N) (htidy : AllTidy A) (hplain : PlainValues U) (hknow : LoaderKnows U N)
    (env : Os) (hw : Willing env) (a0 out : Str) (rest : List Str) (path : List Str)
    (hp : PathOk path) (hns : namespaceArg (a0 :: ucd :: out :: rest) = joinPath path) (disk : Disk) (code : Nat) (disk' : Disk)
    (h : RunsOn same dir env (a0 :: ucd :: out :: rest) disk code disk') :
    ∃ s, load dir ucd = .ok s ∧
    ∃ text stage1 stage2 rows t1 t2 ps, disk' (inDir out "codepoint_properties_data.cpp".toList) = some text ∧
      Consists text ps ∧ List.Forall₂ Means ps [.usingNs [] inUnicode,
        .item path (.table t1 "stage1".toList (stage1.map .num)), .item path (.table t2 "stage2".toList (stage2.map .num)),
        .item path (.table "codepoint_properties".toList "properties".toList (rows.map rowVal))] ∧
      ∀ c ≤ 0x10FFFF, ∃ e, get propertiesShape ({ stage1 := stage1, stage2 := stage2, stage3 := rows } : Gen Emitted) c = .ok e ∧
        Agree U c (rowOf e) (rowOf (s.props c)) := by
  obtain ⟨s, h1, h2⟩ := C74_loads_partial (loaderFiles_of hh hd htidy) hplain hknow
  obtain ⟨text, stage1, stage2, rows, t1, t2, ps, g1, -, -, g2, g3, g4⟩ :=
    C71_properties same dir ucd A U N hh hd hr hfew env hw a0 out rest path hp hns disk code disk' h
  refine ⟨s, h1, text, stage1, stage2, rows, t1, t2, ps, g1, g2, g3, fun c hc => ?_⟩
  obtain ⟨e, k1, k2⟩ := g4 c
  rw [if_pos hc] at k2
  exact ⟨e, k1, C75_records_partial hr.complete k2 (h2 c)⟩

end Verif.Load
