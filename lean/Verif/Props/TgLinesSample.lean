import Verif.Props.TgProgram
/-!
# C70, C71: the hypotheses can be met

The small database once more: its files with Unix line ends, with a file missing, and with names for two codepoints.
-/

namespace Verif.Props.Tg
open Verif Verif.Tg Verif.Tables
open Verif.Spec.Ucd
open Verif.Spec.UcdFile
open Verif.Spec.Cxx (Ident Item Piece Part Consists Means)

/-! ## C70: other line ends, a missing file -/

/-- A file with Unix line ends, the last one included. -/
def unixText : List Str → Str
  | [] => []
  | l :: ls => l ++ '\n' :: unixText ls

theorem unixText_of : ∀ ls, TextOf ls (unixText ls)
  | [] => .nil
  | l :: ls => .unix l (unixText_of ls)

/-- The directory with these files, with Unix line ends. -/
def unixDirOf (ucd : Str) (A : AllFiles) : Dir := fun path =>
  ((filesAndLines A).find? fun x => decide (inDir ucd x.1.toList = path)).map fun x => unixText x.2

theorem unix_same (ucd : Str) (A : AllFiles) (h : ∀ x ∈ filesAndLines A, CleanLines x.2) : SameFiles (dirOf ucd A) (unixDirOf ucd A) := by
  intro path
  unfold dirOf unixDirOf
  generalize e : (filesAndLines A).find? (fun x => decide (inDir ucd x.1.toList = path)) = o
  cases o with
  | none => exact .inl rfl
  | some x => exact .inr ⟨_, _, rfl, rfl, x.2, h x (List.mem_of_find?_eq_some e), dosText_of _, unixText_of _⟩

/-- The program ends successfully on the small database with DOS line ends, and leaves the same disk with Unix line ends; without the file of the
scripts it ends with exit code 1 and writes nothing. -/
example (disk : Disk) : ∃ disk',
    RunsOn (fun _ _ => false) (dirOf "ucd".toList sampleAll) ⟨fun _ => true, fun _ => none⟩ ["unicode_tablegen".toList, "ucd".toList, "out".toList] disk 0 disk' ∧
    RunsOn (fun _ _ => false) (unixDirOf "ucd".toList sampleAll) ⟨fun _ => true, fun _ => none⟩ ["unicode_tablegen".toList, "ucd".toList, "out".toList] disk 0 disk' ∧
    ∀ code disk'', RunsOn (fun _ _ => false) (fun p => if p = "ucd/Scripts.txt".toList then none else dirOf "ucd".toList sampleAll p)
      ⟨fun _ => true, fun _ => none⟩ ["unicode_tablegen".toList, "ucd".toList, "out".toList] disk code disk'' → code = 1 ∧ disk'' = disk := by
  have hh := dirOf_holds "ucd".toList sampleAll sampleAll_clean
  obtain ⟨D, hl⟩ := eU_loads
  obtain ⟨disk', hr⟩ := C71_runs (fun _ _ => false) _ _ sampleAll eU rN hh eU_describes eU_release eU_few List.Pairwise.nil (by decide) (fun i j _ _ h => by cases h) D hl ⟨fun _ => true, fun _ => none⟩ "unicode_tablegen".toList "out".toList [] disk
  refine ⟨disk', hr, (C70_line_ends _ _ _ (unix_same _ _ sampleAll_clean) ..).1 hr, fun code disk'' h => ?_⟩
  exact C70_missing_file _ _ _ _ _ _ _ "ucd".toList "Scripts.txt".toList rfl (by decide) (if_pos (by decide)) h

/-! ## C71: names -/

/-- The small database with names for two codepoints. -/
def nmU : Contents := { eU with names := [en 0x41 0x41 "LATIN CAPITAL LETTER A", en 0x3042 0x3042 "HIRAGANA LETTER A"] }

theorem nmU_describes : Describes (filesOf nmU) nmU := writable_describes (by constructor <;> decide +kernel)

theorem nmU_complete : Complete nmU rN :=
  let h := eU_complete
  { titles := h.titles, gcIn := h.gcIn, eawIn := h.eawIn, ageIn := h.ageIn, gcbIn := h.gcbIn, incbIn := h.incbIn
    wbIn := h.wbIn, gcOk := h.gcOk, gcFew := h.gcFew, gcReserved := h.gcReserved, eawOk := h.eawOk, ageOk := h.ageOk
    ageVersions := h.ageVersions, gcbOk := h.gcbOk, incbOk := h.incbOk, wbOk := h.wbOk, eawNeeds := h.eawNeeds, gcbNeeds := h.gcbNeeds
    incbNeeds := h.incbNeeds, wbNeeds := h.wbNeeds, gcNeeds := h.gcNeeds, words := h.words, coreWords := h.coreWords
    gcKnown := h.gcKnown, eawKnown := h.eawKnown, ageKnown := h.ageKnown, gcbKnown := h.gcbKnown, incbKnown := h.incbKnown
    wbKnown := h.wbKnown, scriptsOne := h.scriptsOne, gcOne := h.gcOne, eawOne := h.eawOne, agesOne := h.agesOne, gcbOne := h.gcbOne
    incbOne := h.incbOne, wbOne := h.wbOne, scriptsFew := h.scriptsFew }

theorem nmU_release : Release nmU rN where
  complete := nmU_complete
  names := ⟨rU_longNames.scripts, rU_longNames.gc, rU_longNames.eaw, rU_longNames.age, rU_longNames.gcb, rU_longNames.incb, rU_longNames.wb⟩
  functional := eU_functional
  script := eU_release.script

theorem says_names {U : Contents} {N : ValueNames} {c : Nat} {r : Row} (h : Row.Says U N c r) (n : List Entry) : Row.Says { U with names := n } N c r := by
  cases h
  constructor <;> assumption

theorem nmU_says {c : Nat} {r : Row} (h : Row.Says eU rN c r) : Row.Says nmU rN c r := says_names h _

theorem nmU_few : FewRows nmU rN := by
  obtain ⟨⟨blocks, h1, h2⟩, values, h3, h4⟩ := eU_few
  refine ⟨⟨blocks, h1, fun j hj => ?_⟩, values, h3, fun c hc => ?_⟩
  · obtain ⟨b, hb, hl, hs⟩ := h2 j hj
    exact ⟨b, hb, hl, fun k r hk => nmU_says (hs k r hk)⟩
  · obtain ⟨r, hr, hs⟩ := h4 c hc
    exact ⟨r, hr, nmU_says hs⟩

theorem nmU_loads : ∃ D, Loads (filesOf nmU) D :=
  C53_accepts nmU_describes nmU_complete.titles rN.gc nmU_complete.gcIn nmU_complete.gcOk (fun e he => nmU_complete.words e (by tauto))
    nmU_complete.gcKnown

/-- Its files. -/
def sampleNm : AllFiles := { toFiles := filesOf nmU, folding := [], casing := [], exclusions := [], normProps := [] }

theorem sampleNm_clean : ∀ x ∈ filesAndLines sampleNm, CleanLines x.2 := by
  have : (filesAndLines sampleNm).all (fun x => x.2.all fun l => decide ('\n' ∉ l ∧ '\r' ∉ l)) = true := by decide +kernel
  intro x hx l hl
  exact of_decide_eq_true (List.all_eq_true.1 (List.all_eq_true.1 this x hx) l hl)

/-- The program runs on these files, and the tables it writes give `U+3042` its name, and `U+0042` none. -/
example (disk : Disk) : ∃ disk', RunsOn (fun _ _ => false) (dirOf "ucd".toList sampleNm) ⟨fun _ => true, fun _ => none⟩
    ["unicode_tablegen".toList, "ucd".toList, "out".toList] disk 0 disk' ∧
    ∃ text ps, ∃ stage1 stage2 : List Nat, ∃ names : List Str, disk' "out/codepoint_properties_names.cpp".toList = some text ∧ Consists text ps ∧
      get propertiesShape ({ stage1 := stage1, stage2 := stage2, stage3 := names } : Gen Str) 0x3042 = .ok "HIRAGANA LETTER A".toList ∧
      get propertiesShape ({ stage1 := stage1, stage2 := stage2, stage3 := names } : Gen Str) 0x42 = .ok [] := by
  have hh := dirOf_holds "ucd".toList sampleNm sampleNm_clean
  obtain ⟨D, hl⟩ := nmU_loads
  have hs : Separate nmU.names := by unfold Separate; decide +kernel
  obtain ⟨disk', hr⟩ := C71_runs (fun _ _ => false) _ _ sampleNm nmU rN hh nmU_describes nmU_release nmU_few hs (by decide +kernel) (fun i j _ _ h => by cases h) D hl ⟨fun _ => true, fun _ => none⟩ "unicode_tablegen".toList "out".toList [] disk
  obtain ⟨text, stage1, stage2, names, t1, t2, ps, h1, -, -, h2, -, h3⟩ := C71_names_partial _ _ _ sampleNm nmU rN hh nmU_describes nmU_release hs
    (by decide +kernel) (by decide +kernel) (fun i j _ _ h => by cases h) _
    ⟨fun _ => rfl, fun _ => rfl⟩ _ _ _ precompiled precompiled_ok (C69_namespace _ _ _).1 _ _ _ hr
  refine ⟨disk', hr, text, ps, stage1, stage2, names, h1, h2, (h3 _ (by decide) _).2 (.inl ⟨en 0x3042 0x3042 "HIRAGANA LETTER A", ?_, by decide, by decide, rfl⟩),
    (h3 _ (by decide) _).2 (.inr ⟨?_, rfl⟩)⟩
  · exact List.mem_cons_of_mem _ (List.mem_cons_self ..)
  · rintro w ⟨e, he, h1, h2, -⟩
    have : ∀ e ∈ nmU.names, ¬ (e.1 ≤ 0x42 ∧ 0x42 ≤ e.2.1) := by decide +kernel
    exact this e he ⟨h1, h2⟩

end Verif.Props.Tg
