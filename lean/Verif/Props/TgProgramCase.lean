import Verif.Props.TgProgram
import Verif.Props.TgNormSample
/-!
# C71: `case_normalization_data.h`, from the data files to the disk and back through the functions of the library
-/

namespace Verif.Props.Tg

open Verif Verif.Tg
open Verif.Spec.Ucd
open Verif.Spec.UcdFile
open Verif.Spec.Case (MapsText Listed)
open Verif.Props.Case (upperOf lowerOf titleOf foldOf)
open Verif.Norm (Form normalize quickCheck isNormalized canonEquiv compatEquiv)
open Verif.Case (CaseTables toUppercase toLowercase casefold simpleUppercase simpleLowercase simpleTitlecase simpleCasefold)
open Verif.Spec.Cxx (Val Item Piece Consists Means)

/-- Among the pieces of a file, in `namespace unicode::detail`, is an array of this name with these values. -/
def HasTable (ps : List Piece) (name : String) (values : List Val) : Prop :=
  ∃ q ∈ ps, ∃ type, Means q (.item inDetail (.table type name.toList values))

/-- The tables for case mapping are in the file: `{ source, target }`, and `{ source, { targets, 0, … }, length }` with three cells. -/
structure CaseIn (ps : List Piece) (T : CaseTables) : Prop where
  simpleUpper : HasTable ps "simple_uppercase_table" (T.simpleUpper.map pairVal)
  simpleLower : HasTable ps "simple_lowercase_table" (T.simpleLower.map pairVal)
  simpleTitle : HasTable ps "simple_titlecase_table" (T.simpleTitle.map pairVal)
  simpleFold : HasTable ps "simple_casefold_table" (T.simpleFold.map pairVal)
  fullUpper : HasTable ps "full_uppercase_table" (T.fullUpper.map (mapVal 3))
  fullLower : HasTable ps "full_lowercase_table" (T.fullLower.map (mapVal 3))
  fullTitle : HasTable ps "full_titlecase_table" (T.fullTitle.map (mapVal 3))
  fullFold : HasTable ps "full_casefold_table" (T.fullFold.map (mapVal 3))

/-- The tables for normalization are in the file, and `T` looks up in them as normalization.cpp does. -/
structure NormIn (ps : List Piece) (T : Norm.Tables) : Prop where
  ccc : ∃ t : List (Nat × Nat), HasTable ps "ccc_table" (t.map pairVal) ∧ T.ccc = fun c => Case.value 0 (Tables.lookupCcc t c)
  canon : ∃ (w : Nat) (t : List (Nat × List Nat)), (∀ e ∈ t, e.2.length ≤ w) ∧ HasTable ps "canonical_decomposition_table" (t.map (mapVal w)) ∧
    T.canon = fun c => Case.value [] (Tables.lookupList t c)
  compat : ∃ (w : Nat) (t : List (Nat × Decomp)), (∀ e ∈ t, e.2.targets.length ≤ w) ∧
    HasTable ps "compatibility_decomposition_table" (t.map (typedVal w)) ∧
    T.compat = fun c => Case.value [] (Tables.lookupList (t.map fun e => (e.1, e.2.targets)) c)
  comp : ∃ t : List Tables.Comp, HasTable ps "composition_table" (t.map fun c => .list [.num c.first, .num c.second, .num c.composed]) ∧
    T.comp = fun a b => Case.value 0 (Tables.composeLookup t a b)
  excl : ∃ t : List Nat, HasTable ps "composition_exclusions_table" (t.map .num) ∧ T.excl = fun c => holds (Tables.containsCodepoint t c)
  nfcNo : ∃ t : List Nat, HasTable ps "nfc_qc_no_table" (t.map .num) ∧ T.nfcNo = fun c => holds (Tables.containsCodepoint t c)
  nfcMaybe : ∃ t : List Nat, HasTable ps "nfc_qc_maybe_table" (t.map .num) ∧ T.nfcMaybe = fun c => holds (Tables.containsCodepoint t c)
  nfkcNo : ∃ t : List Nat, HasTable ps "nfkc_qc_no_table" (t.map .num) ∧ T.nfkcNo = fun c => holds (Tables.containsCodepoint t c)
  nfkcMaybe : ∃ t : List Nat, HasTable ps "nfkc_qc_maybe_table" (t.map .num) ∧ T.nfkcMaybe = fun c => holds (Tables.containsCodepoint t c)
  nfdNo : ∃ t : List Nat, HasTable ps "nfd_qc_no_table" (t.map .num) ∧ T.nfdNo = fun c => holds (Tables.containsCodepoint t c)
  nfkdNo : ∃ t : List Nat, HasTable ps "nfkd_qc_no_table" (t.map .num) ∧ T.nfkdNo = fun c => holds (Tables.containsCodepoint t c)

/-- No mapping of U+005C (it would end a comment with a backslash, see `C61_fails_backslash`). -/
def NoBackslash (ud : List UdEntry) (cf : List FoldEntry) : Prop :=
  (∀ e ∈ ud, e.cp = 0x5C → e.upper = none ∧ e.lower = none ∧ e.title = none) ∧ ∀ e ∈ cf, e.cp ≠ 0x5C

/-- No mapping is longer than three codepoints. -/
def Short (sp : List SpecialEntry) (cf : List FoldEntry) : Prop :=
  (∀ e ∈ sp, e.conditional = false → e.lower.length ≤ 3 ∧ e.title.length ≤ 3 ∧ e.upper.length ≤ 3) ∧ ∀ e ∈ cf, e.mapping.length ≤ 3

theorem hasTable {ps : List Piece} {items : List Item} (h : List.Forall₂ Means ps (items.map (.item inDetail))) (i : Nat) {type : Spec.Cxx.Str} {name : String} {vs : List Val}
    (hi : items[i]? = some (.table type name.toList vs)) : HasTable ps name vs := by
  obtain ⟨q, h1, h2⟩ := means_at h (i := i) (x := .item inDetail (.table type name.toList vs)) (by rw [List.getElem?_map, hi]; rfl)
  exact ⟨q, List.mem_of_getElem? h1, type, h2⟩

theorem case_short {A : AllFiles} {sp : List SpecialEntry} {cf : List FoldEntry}
    (h2 : FileWith SpecialLine A.casing sp) (h3 : FileWith FoldLine A.folding cf) (hc : Short sp cf) (u : Ud) :
    ∀ m ∈ [(loadSpecialCasing u A.casing).upper, (loadSpecialCasing u A.casing).lower, (loadSpecialCasing u A.casing).title, (loadCaseFolding A.folding).full],
      ∀ e ∈ m, e.2.length ≤ 3 := by
  obtain ⟨s1, s2, s3⟩ := scFold_fields u sp {}
  obtain ⟨_, f2⟩ := cfFold_fields cf {}
  rw [loadSpecialCasing_eq _ h2, loadCaseFolding_eq h3, s1, s2, s3, f2]
  refine List.forall_mem_cons.2 ⟨special_short sp _ _ (fun e he hcc => (hc.1 e he hcc).2.2), List.forall_mem_cons.2 ⟨
    special_short sp _ _ (fun e he hcc => (hc.1 e he hcc).1), List.forall_mem_cons.2 ⟨special_short sp _ _ (fun e he hcc => (hc.1 e he hcc).2.1),
    List.forall_mem_cons.2 ⟨?_, fun _ h => nomatch h⟩⟩⟩⟩
  rintro ⟨c, ds⟩ hx
  rw [mem_iff_nFind _ (sorted_build _ _ _ _ .nil)] at hx
  rcases (nFind_build (fun e : FoldEntry => e.cp) foldFull cf [] c).1 ds hx with ⟨e, he, _, hv⟩ | h
  · unfold foldFull at hv
    split at hv
    · injection hv with hv; rw [← hv]; exact hc.2 e he
    · simp at hv
  · simp [nFind_nil] at h

theorem case_simple {A : AllFiles} {ud : List UdEntry} {cf : List FoldEntry} (h1 : FileWith UdLine A.unicodeData ud) (h3 : FileWith FoldLine A.folding cf)
    (hb : NoBackslash ud cf) :
    ∀ m ∈ [(loadUnicodeData A.unicodeData).upper, (loadUnicodeData A.unicodeData).lower, (loadUnicodeData A.unicodeData).title, (loadCaseFolding A.folding).simple],
      ∀ e ∈ m, e.1 ≠ 0x5C := by
  obtain ⟨_, _, u1, u2, u3⟩ := udFold_fields ud {}
  obtain ⟨f1, _⟩ := cfFold_fields cf {}
  rw [loadCaseFolding_eq h3, loadUnicodeData_eq h1, f1, u1, u2, u3]
  have key : ∀ get : UdEntry → Option Nat, (∀ e ∈ ud, e.cp = 0x5C → get e = none) →
      ∀ e ∈ ud.foldl (fun m e => nSetOpt e.cp (get e) m) [], e.1 ≠ 0x5C := by
    rintro get hg ⟨c, d⟩ hx hc
    rw [mem_iff_nFind _ (sorted_build _ _ _ _ .nil)] at hx
    rcases (nFind_build (fun e : UdEntry => e.cp) get ud [] c).1 d hx with ⟨e, he, hk, hv⟩ | h
    · rw [hg e he (hk.trans hc)] at hv; cases hv
    · simp [nFind_nil] at h
  refine List.forall_mem_cons.2 ⟨key _ fun e he h => (hb.1 e he h).1, List.forall_mem_cons.2 ⟨key _ fun e he h => (hb.1 e he h).2.1,
    List.forall_mem_cons.2 ⟨key _ fun e he h => (hb.1 e he h).2.2, List.forall_mem_cons.2 ⟨?_, fun _ h => nomatch h⟩⟩⟩⟩
  rintro ⟨c, d⟩ hx hc
  rw [mem_iff_nFind _ (sorted_build _ _ _ _ .nil)] at hx
  rcases (nFind_build (fun e : FoldEntry => e.cp) foldSimple cf [] c).1 d hx with ⟨e, he, hk, -⟩ | h
  · exact hb.2 e he (hk.trans hc)
  · simp [nFind_nil] at h

/-- What the file consists of. -/
theorem case_file {same : Nat → Nat → Bool} {dir : Dir} {ucd : Str} {A : AllFiles} {U : Contents} {N : ValueNames} (hh : Holds dir ucd A)
    (hd : Describes A.toFiles U) (hr : Release U N) {ud : List UdEntry} {sp : List SpecialEntry} {cf : List FoldEntry}
    (h1 : FileWith UdLine A.unicodeData ud) (h2 : FileWith SpecialLine A.casing sp) (h3 : FileWith FoldLine A.folding cf) (hc : Short sp cf)
    (hb : NoBackslash ud cf) {env : Os} (hw : Willing env) {a0 out : Str} {rest : List Str} {disk : Disk} {code : Nat} {disk' : Disk}
    (h : RunsOn same dir env (a0 :: ucd :: out :: rest) disk code disk') :
    ∃ text ps comp, disk' (inDir out "case_normalization_data.h".toList) = some text ∧ Consists text ps ∧
      WrittenCompositions (loadUnicodeData A.unicodeData).decomps (loadNormProps A.exclusions A.normProps).excl comp ∧
      CaseIn ps (caseTablesOf A.unicodeData A.casing A.folding) ∧
      ∀ depth, NormIn ps (normTablesOf A.unicodeData A.exclusions A.normProps comp depth) := by
  obtain ⟨P, i, enums, al, -, hp, hg, -, -, hf⟩ := files_of hh hd hr hw h
  have eu : i.ud = loadUnicodeData A.unicodeData := hg.ud.trans hp.ud
  have ef : i.folds = loadCaseFolding A.folding := hg.folds.trans hp.folds
  have es : i.special = loadSpecialCasing (loadUnicodeData A.unicodeData) A.casing := (hg.special.trans hp.special).trans (by rw [hp.ud])
  have eq : i.qc = loadNormProps A.exclusions A.normProps := hg.qc.trans hp.qc
  have hcomp := hg.comp
  rw [hp.ud, hp.qc] at hcomp
  have short := case_short h2 h3 hc (loadUnicodeData A.unicodeData)
  obtain ⟨w, w', c1, c2, ps, p1, p2⟩ := C68_case_tables_partial i.ud i.folds i.special i.qc i.comp
    (by rw [eu, ef]; exact case_simple h1 h3 hb) (by rw [es, ef]; exact short)
  refine ⟨_, ps, i.comp, (hf _ (by decide)).trans rfl, p1, hcomp, ?_, ?_⟩
  · rw [eu, ef, es, eq] at p2
    have v : ∀ m ∈ [(loadSpecialCasing (loadUnicodeData A.unicodeData) A.casing).upper, (loadSpecialCasing (loadUnicodeData A.unicodeData) A.casing).lower,
      (loadSpecialCasing (loadUnicodeData A.unicodeData) A.casing).title, (loadCaseFolding A.folding).full], visible (writeFull m) = m := fun m hm => visible_writeFull m (short m hm)
    obtain ⟨v1, v⟩ := List.forall_mem_cons.1 v
    obtain ⟨v2, v⟩ := List.forall_mem_cons.1 v
    obtain ⟨v3, v⟩ := List.forall_mem_cons.1 v
    obtain ⟨v4, -⟩ := List.forall_mem_cons.1 v
    exact {
      simpleUpper := hasTable p2 0 rfl, simpleLower := hasTable p2 1 rfl, simpleTitle := hasTable p2 2 rfl, simpleFold := hasTable p2 3 rfl
      fullUpper := by
        show HasTable ps _ ((visible (writeFull _)).map _)
        rw [v1]; exact hasTable p2 5 rfl
      fullLower := by
        show HasTable ps _ ((visible (writeFull _)).map _)
        rw [v2]; exact hasTable p2 7 rfl
      fullTitle := by
        show HasTable ps _ ((visible (writeFull _)).map _)
        rw [v3]; exact hasTable p2 9 rfl
      fullFold := by
        show HasTable ps _ ((visible (writeFull _)).map _)
        rw [v4]; exact hasTable p2 11 rfl }
  · intro depth
    rw [eu, ef, es, eq] at p2
    rw [eu] at c1 c2
    exact {
      ccc := ⟨_, hasTable p2 12 rfl, rfl⟩
      canon := ⟨w, _, c1, hasTable p2 14 rfl, rfl⟩
      compat := ⟨w', _, fun e he => c2 e (List.mem_filter.1 he).1 (of_decide_eq_true (List.mem_filter.1 he).2), hasTable p2 16 rfl, rfl⟩
      comp := ⟨_, hasTable p2 18 rfl, rfl⟩
      nfcNo := ⟨_, hasTable p2 19 rfl, rfl⟩
      nfcMaybe := ⟨_, hasTable p2 20 rfl, rfl⟩
      nfkcNo := ⟨_, hasTable p2 21 rfl, rfl⟩
      nfkcMaybe := ⟨_, hasTable p2 22 rfl, rfl⟩
      nfdNo := ⟨_, hasTable p2 23 rfl, rfl⟩
      nfkdNo := ⟨_, hasTable p2 24 rfl, rfl⟩
      excl := ⟨_, hasTable p2 25 rfl, rfl⟩ }

/-! ## The theorems -/

/-- **C71, case, partial.** After a run with enough room on the disk, `case_normalization_data.h` in the output directory is a C++ file with the tables
for case mapping, and with these tables the functions for one codepoint and for a text map case as UnicodeData.txt, SpecialCasing.txt and CaseFolding.txt
say.  Missing: files that map U+005C (`NoBackslash`) or map to more than three codepoints (part of `CaseFiles`). -/
theorem C71_case_partial (same : Nat → Nat → Bool) (dir : Dir) (ucd : Str) (A : AllFiles) (U : Contents) (N : ValueNames) (hh : Holds dir ucd A)
    (hd : Describes A.toFiles U) (hr : Release U N) (ud : List UdEntry) (sp : List SpecialEntry) (cf : List FoldEntry)
    (h1 : FileWith UdLine A.unicodeData ud) (h2 : FileWith SpecialLine A.casing sp) (h3 : FileWith FoldLine A.folding cf) (hc : CaseFiles ud sp cf)
    (hb : NoBackslash ud cf) (env : Os) (hw : Willing env) (a0 out : Str) (rest : List Str) (disk : Disk) (code : Nat) (disk' : Disk)
    (h : RunsOn same dir env (a0 :: ucd :: out :: rest) disk code disk') :
    ∃ text ps T, disk' (inDir out "case_normalization_data.h".toList) = some text ∧ Consists text ps ∧ CaseIn ps T ∧
      (∀ c x, (SimpleMaps (UdSays ud (·.upper)) c x ↔ x = simpleUppercase T c) ∧ (SimpleMaps (UdSays ud (·.lower)) c x ↔ x = simpleLowercase T c) ∧
        (SimpleMaps (UdSays ud (·.title)) c x ↔ x = simpleTitlecase T c) ∧
        (SimpleMaps (fun c d => FoldSays cf ['C', 'S'] c [d]) c x ↔ x = simpleCasefold T c)) ∧
      (∀ c x, CaseMaps (SpecialSays sp (·.title)) (UdSays ud (·.title)) c x ↔ x = titleOf T c) ∧
      ∀ s t, (MapsText (CaseMaps (SpecialSays sp (·.upper)) (UdSays ud (·.upper))) s t ↔ t = toUppercase T s) ∧
        (MapsText (CaseMaps (SpecialSays sp (·.lower)) (UdSays ud (·.lower))) s t ↔ t = toLowercase T s) ∧
        (MapsText (CaseMaps (FoldSays cf ['C', 'F']) (fun c d => FoldSays cf ['C', 'S'] c [d])) s t ↔ t = casefold T s) := by
  obtain ⟨text, ps, comp, e1, e2, -, e3, -⟩ := case_file hh hd hr h1 h2 h3 ⟨hc.spShort, hc.cfShort⟩ hb hw h
  exact ⟨text, ps, _, e1, e2, e3, C51_simple h1 h2 h3 hc, fun c x => (C51_codepoint h1 h2 h3 hc c x).2.2.1, C51_text h1 h2 h3 hc⟩

/-- **C71, normalization, partial.** After such a run the file also has the tables for normalization; with them NFD and NFKD of every text are the
decompositions that UnicodeData.txt gives, their quick checks are exact, and equivalence is equality of the decompositions.  Missing: `NoBackslash`,
`Short`; for NFC and NFKC what C52 says about the tables applies (`C52_nfc_partial`, with `Generated`). -/
theorem C71_norm_partial (same : Nat → Nat → Bool) (dir : Dir) (ucd : Str) (A : AllFiles) (U : Contents) (N : ValueNames) (hh : Holds dir ucd A)
    (hd : Describes A.toFiles U) (hr : Release U N) (ud : List UdEntry) (sp : List SpecialEntry) (cf : List FoldEntry)
    (ex : List (Nat × Nat)) (qc : List PropEntry) (depth : Nat)
    (h1 : FileWith UdLine A.unicodeData ud) (h2 : FileWith SpecialLine A.casing sp) (h3 : FileWith FoldLine A.folding cf) (hc : Short sp cf)
    (hb : NoBackslash ud cf) (h4 : FileWith ExclLine A.exclusions ex) (h5 : FileWith PropLine A.normProps qc) (hn : NormFiles ud ex qc depth)
    (env : Os) (hw : Willing env) (a0 out : Str) (rest : List Str) (disk : Disk) (code : Nat) (disk' : Disk)
    (h : RunsOn same dir env (a0 :: ucd :: out :: rest) disk code disk') :
    ∃ text ps T, disk' (inDir out "case_normalization_data.h".toList) = some text ∧ Consists text ps ∧ NormIn ps T ∧
      (∃ comp, Generated A.unicodeData A.exclusions A.normProps ud ex qc comp depth ∧ T = normTablesOf A.unicodeData A.exclusions A.normProps comp depth) ∧
      (∀ f, f = .NFD ∨ f = .NFKD → ∀ s t, normalize T f s = t ↔ Decomposed ud f.k s t) ∧
      (∀ f, f = .NFD ∨ f = .NFKD → ∀ s, (quickCheck T f s = .Yes ↔ Decomposed ud f.k s s) ∧ (quickCheck T f s = .No ↔ ¬ Decomposed ud f.k s s) ∧
        (isNormalized T f s = true ↔ Decomposed ud f.k s s)) ∧
      ∀ a b, (canonEquiv T a b = true ↔ ∃ d, Decomposed ud false a d ∧ Decomposed ud false b d) ∧
        (compatEquiv T a b = true ↔ ∃ d, Decomposed ud true a d ∧ Decomposed ud true b d) := by
  obtain ⟨text, ps, comp, e1, e2, e3, -, e4⟩ := case_file hh hd hr h1 h2 h3 hc hb hw h
  have G : Generated A.unicodeData A.exclusions A.normProps ud ex qc comp depth := ⟨h1, h4, h5, hn, e3⟩
  exact ⟨text, ps, _, e1, e2, e4 depth, ⟨comp, G, rfl⟩, fun f hf s t => C52_nfd G f hf s t, fun f hf s => C52_quick_check_exact G f hf s, C52_equivalence G⟩

/-! ## Examples -/

/-- A line of UnicodeData.txt without `Y` in field 9. -/
theorem udRender_mirror (e : UdEntry) (h : (e.cp < 0x10000 ∧ e.ccc ≤ 254) ∧ Decomposition.ok e.decomp = true ∧ small e.upper = true ∧ small e.lower = true ∧
    small e.title = true) : MirrorLine (udRender e) (e.cp, false) := by
  obtain ⟨⟨h1, h2⟩, h3, h4, h5, h6⟩ := h
  have no : ∀ s : String, decide (';' ∉ s.toList) = true → ';' ∉ s.toList := fun s h => of_decide_eq_true h
  refine ⟨_, rfl, rfl, ?_, hex4_ok _ h1, by show e.cp ≤ _; omega, rfl⟩
  refine List.forall_mem_cons.2 ⟨hex4_semi _ h1, List.forall_mem_cons.2 ⟨no _ (by decide), List.forall_mem_cons.2 ⟨no _ (by decide), List.forall_mem_cons.2 ⟨dec3_semi _ (by omega),
    List.forall_mem_cons.2 ⟨no _ (by decide), List.forall_mem_cons.2 ⟨(decompRender_ok _ h3).2, List.forall_mem_cons.2 ⟨List.not_mem_nil, List.forall_mem_cons.2 ⟨List.not_mem_nil,
    List.forall_mem_cons.2 ⟨List.not_mem_nil, List.forall_mem_cons.2 ⟨no _ (by decide), List.forall_mem_cons.2 ⟨List.not_mem_nil, List.forall_mem_cons.2 ⟨List.not_mem_nil,
    List.forall_mem_cons.2 ⟨opt4_semi h4, List.forall_mem_cons.2 ⟨opt4_semi h5, List.forall_mem_cons.2 ⟨opt4_semi h6, fun _ h => nomatch h⟩⟩⟩⟩⟩⟩⟩⟩⟩⟩⟩⟩⟩⟩⟩

/-- The small database with these lines of UnicodeData.txt. -/
def withUd (ud : List UdEntry) : Contents := { eU with mirrored := ud.map fun e => (e.cp, false) }

/-- Its files, and files for case and normalization. -/
def filesUd (ud : List UdEntry) (sp : List SpecialEntry) (cf : List FoldEntry) (ex : List (Nat × Nat)) (qc : List PropEntry) : AllFiles :=
  { toFiles := { filesOf eU with unicodeData := ud.map udRender }, folding := cf.map cfRender, casing := sp.map spRender, exclusions := ex.map exRender, normProps := qc.map propRender }

def udOk (e : UdEntry) : Bool := decide ((e.cp < 0x10000 ∧ e.ccc ≤ 254) ∧ Decomposition.ok e.decomp = true ∧ small e.upper = true ∧ small e.lower = true ∧ small e.title = true)

theorem complete_ud {U : Contents} {N : ValueNames} (h : Complete U N) (m : List (Nat × Bool)) : Complete { U with mirrored := m } N :=
  ⟨h.titles, h.gcIn, h.eawIn, h.ageIn, h.gcbIn, h.incbIn, h.wbIn, h.gcOk, h.gcFew, h.gcReserved, h.eawOk, h.ageOk, h.ageVersions, h.gcbOk, h.incbOk, h.wbOk, h.eawNeeds, h.gcbNeeds, h.incbNeeds, h.wbNeeds, h.gcNeeds, h.words, h.coreWords, h.gcKnown, h.eawKnown, h.ageKnown, h.gcbKnown, h.incbKnown, h.wbKnown, h.scriptsOne, h.gcOne, h.eawOne, h.agesOne, h.gcbOne, h.incbOne, h.wbOne, h.scriptsFew⟩

theorem describes_ud {F : Files} {U : Contents} (h : Describes F U) {lines : List Str} {m : List (Nat × Bool)} (hm : FileWith MirrorLine lines m) :
    Describes { F with unicodeData := lines } { U with mirrored := m } := by
  cases h
  constructor <;> assumption

theorem says_ud {U : Contents} {N : ValueNames} {c : Nat} {r : Row} (h : Row.Says U N c r) (m : List (Nat × Bool)) : Row.Says { U with mirrored := m } N c r := by
  cases h
  constructor <;> assumption

theorem withUd_describes {ud : List UdEntry} (h : ud.all udOk = true) : Describes { filesOf eU with unicodeData := ud.map udRender } (withUd ud) := by
  refine describes_ud eU_describes ?_
  have : FileWith MirrorLine (ud.map udRender) (ud.map fun e => (e.cp, false)) := by
    induction ud with
    | nil => exact .nil
    | cons e ud ih =>
      have := List.all_eq_true.1 h e (List.mem_cons_self ..)
      exact .data (udRender_mirror e (of_decide_eq_true this)) (Or.inl rfl) (ih (List.all_eq_true.2 fun x hx => List.all_eq_true.1 h x (List.mem_cons_of_mem _ hx)))
  exact this

theorem withUd_release (ud : List UdEntry) : Release (withUd ud) rN where
  complete := complete_ud eU_complete _
  names := ⟨rU_longNames.scripts, rU_longNames.gc, rU_longNames.eaw, rU_longNames.age, rU_longNames.gcb, rU_longNames.incb, rU_longNames.wb⟩
  functional := eU_functional
  script := eU_release.script

theorem withUd_few (ud : List UdEntry) : FewRows (withUd ud) rN := by
  obtain ⟨⟨blocks, h1, h2⟩, values, h3, h4⟩ := eU_few
  refine ⟨⟨blocks, h1, fun j hj => ?_⟩, values, h3, fun c hc => ?_⟩
  · obtain ⟨b, hb, hl, hs⟩ := h2 j hj
    exact ⟨b, hb, hl, fun k r hk => says_ud (hs k r hk) _⟩
  · obtain ⟨r, hr, hs⟩ := h4 c hc
    exact ⟨r, hr, says_ud hs _⟩

/-- The program runs on a directory with these files. -/
theorem withUd_runs {ud : List UdEntry} {sp : List SpecialEntry} {cf : List FoldEntry} {ex : List (Nat × Nat)} {qc : List PropEntry} (h : ud.all udOk = true)
    (hc : ∀ x ∈ filesAndLines (filesUd ud sp cf ex qc), CleanLines x.2) (disk : Disk) :
    ∃ disk', RunsOn (fun _ _ => false) (dirOf "ucd".toList (filesUd ud sp cf ex qc)) ⟨fun _ => true, fun _ => none⟩
      ["unicode_tablegen".toList, "ucd".toList, "out".toList] disk 0 disk' := by
  have hd : Describes (filesUd ud sp cf ex qc).toFiles (withUd ud) := withUd_describes h
  obtain ⟨D, hl⟩ := release_loads (A := filesUd ud sp cf ex qc) hd (withUd_release ud)
  exact C71_runs (fun _ _ => false) _ _ (filesUd ud sp cf ex qc) (withUd ud) rN (dirOf_holds _ _ hc) hd (withUd_release ud) (withUd_few ud) List.Pairwise.nil (show ([] : List Str).dedup.length < 65536 by decide)
    (fun i j _ _ h => by cases h) D hl ⟨fun _ => true, fun _ => none⟩ "unicode_tablegen".toList "out".toList [] disk

theorem clean_check {A : AllFiles} (h : (filesAndLines A).all (fun x => x.2.all fun l => decide ('\n' ∉ l ∧ '\r' ∉ l)) = true) : ∀ x ∈ filesAndLines A, CleanLines x.2 :=
  fun x hx l hl => of_decide_eq_true (List.all_eq_true.1 (List.all_eq_true.1 h x hx) l hl)

/-- The tables the program writes from files with ASCII letters, é, ß and ŉ make "STRASSE" of "straße". -/
example (disk : Disk) : ∃ disk', RunsOn (fun _ _ => false) (dirOf "ucd".toList (filesUd sampleUd sampleSp sampleCf [] [])) ⟨fun _ => true, fun _ => none⟩
    ["unicode_tablegen".toList, "ucd".toList, "out".toList] disk 0 disk' ∧
    ∃ text ps T, disk' "out/case_normalization_data.h".toList = some text ∧ Consists text ps ∧ CaseIn ps T ∧
      toUppercase T [0x73, 0x74, 0x72, 0x61, 0xDF, 0x65] = [0x53, 0x54, 0x52, 0x41, 0x53, 0x53, 0x45] := by
  have hc := clean_check (A := filesUd sampleUd sampleSp sampleCf [] []) (by decide +kernel)
  have ok : sampleUd.all udOk = true := by decide +kernel
  obtain ⟨disk', hr⟩ := withUd_runs ok hc disk
  refine ⟨disk', hr, ?_⟩
  obtain ⟨text, ps, T, h1, h2, h3, -, -, h4⟩ := C71_case_partial _ _ _ (filesUd sampleUd sampleSp sampleCf [] []) (withUd sampleUd) rN (dirOf_holds _ _ hc) (withUd_describes ok)
    (withUd_release _) sampleUd sampleSp sampleCf sample_lines.1 sample_lines.2.1 sample_lines.2.2 sample_files (by unfold NoBackslash; decide +kernel) _
    ⟨fun _ => rfl, fun _ => rfl⟩ _ _ _ _ _ _ hr
  refine ⟨text, ps, T, h1, h2, h3, ?_⟩
  refine ((h4 _ _).1.1 ((C51_text sample_lines.1 sample_lines.2.1 sample_lines.2.2 sample_files _ _).1.2 ?_)).symm
  decide +kernel

/-- The tables it writes from files with Å and its decompositions normalize the Ångström sign with a dot below. -/
example (disk : Disk) : ∃ disk', RunsOn (fun _ _ => false) (dirOf "ucd".toList (filesUd nUd [] [] nEx nQc)) ⟨fun _ => true, fun _ => none⟩
    ["unicode_tablegen".toList, "ucd".toList, "out".toList] disk 0 disk' ∧
    ∃ text ps T, disk' "out/case_normalization_data.h".toList = some text ∧ Consists text ps ∧ NormIn ps T ∧
      normalize T .NFD [0x212B, 0x323] = [0x41, 0x323, 0x30A] := by
  have hc := clean_check (A := filesUd nUd [] [] nEx nQc) (by decide +kernel)
  have ok : nUd.all udOk = true := by decide +kernel
  obtain ⟨disk', hr⟩ := withUd_runs ok hc disk
  refine ⟨disk', hr, ?_⟩
  obtain ⟨text, ps, T, h1, h2, h3, -, h4, -⟩ := C71_norm_partial _ _ _ (filesUd nUd [] [] nEx nQc) (withUd nUd) rN (dirOf_holds _ _ hc) (withUd_describes ok)
    (withUd_release _) nUd [] [] nEx nQc _ n_generated.udFile .nil .nil (by unfold Short; decide) (by unfold NoBackslash; decide +kernel) n_generated.exFile n_generated.qcFile
    n_generated.files _ ⟨fun _ => rfl, fun _ => rfl⟩ _ _ _ _ _ _ hr
  refine ⟨text, ps, T, h1, h2, h3, (h4 .NFD (.inl rfl) _ _).2 ((C52_nfd n_generated .NFD (.inl rfl) _ _).1 (by decide +kernel))⟩

end Verif.Props.Tg
