import Verif.Lemmas.TgPopulate
import Verif.Props.TgParser
import Verif.Props.Tables
import Mathlib.Data.Nat.Bitwise
/-!
# C41, C49, C50: the generated per-codepoint records

From the parsed data files (C48) to the initialisers of the emitted `properties` array.
-/

namespace Verif.Props.Tg
open Verif.Utf8 (Mem)
open Verif.Tg
open Verif.Spec.Ucd

/-! ## Helpers -/

theorem assigns_unique {es : List Entry} (h : Consistent es) (c : Nat) :
    ∀ v w, Assigns es c v → Assigns es c w → v = w := h c

/-- A field that is set from an alias based index and written by `reverseLookup`. -/
theorem pva_field (es : List Entry) (al : List (Str × Str)) (first : Option Str) (dflt d : Str) (h : GoodAliases al first)
    (hc : Consistent es) (hn : ∀ e ∈ es, ∃ f, Names al e.2.2 f) (hd : Names al dflt dflt)
    (π : Rec → Nat) (set : Nat → Rec → Rec) (hs : ∀ i rec, π (set i rec) = i) (c k : Nat) (rec : Rec)
    (hrec : π rec = (mapFind (pvaIndex al first) dflt).getD k) :
    ∃ f, NamedValueOf es al dflt c f ∧ Names al f f ∧
      mapFind (pvaIndex al first) f = some (π (runE (mapFind (pvaIndex al first)) set es c rec)) ∧
      reverseLookup (pvaIndex al first) (π (runE (mapFind (pvaIndex al first)) set es c rec)) d = f := by
  have full : ∀ v f, Names al v f → f ∈ fullNames al first ∧ f ≠ [] ∧ (v = f ∨ (v, f) ∈ al) ∧ Names al f f := by
    rintro v f (hv | ⟨rfl, a, ha⟩)
    · exact ⟨by simp only [fullNames, List.mem_append, List.mem_map]; exact Or.inr ⟨_, hv, rfl⟩, h.nonempty _ _ hv,
        Or.inr hv, Or.inr ⟨rfl, _, hv⟩⟩
    · exact ⟨by simp only [fullNames, List.mem_append, List.mem_map]; exact Or.inr ⟨_, ha, rfl⟩, h.nonempty _ _ ha,
        Or.inl rfl, Or.inr ⟨rfl, _, ha⟩⟩
  have run := runE_assign π (mapFind (pvaIndex al first)) set id hs es c (hc c) rec
  by_cases hv : ∃ v, Assigns es c v
  · obtain ⟨v, hv⟩ := hv
    obtain ⟨e, he, -, -, hev⟩ := id hv
    obtain ⟨f, hf⟩ := hn e he
    rw [hev] at hf
    obtain ⟨f1, f2, f3, f4⟩ := full v f hf
    obtain ⟨i, i1, i2, i3⟩ := reverseLookup_spec al first h v f d f1 f2 f3
    rw [run.1 v hv i i1]
    exact ⟨f, Or.inl ⟨v, hv, hf⟩, f4, i2, i3⟩
  · obtain ⟨f1, f2, f3, f4⟩ := full dflt dflt hd
    obtain ⟨i, i1, i2, i3⟩ := reverseLookup_spec al first h dflt dflt d f1 f2 f3
    rw [run.2 (fun v h => absurd ⟨v, h⟩ hv), hrec, i1]
    exact ⟨dflt, Or.inr ⟨fun w hw => hv ⟨w, hw⟩, rfl⟩, f4, i2, i3⟩

/-- Different full names have different numbers. -/
theorem pva_inj (al : List (Str × Str)) (first : Option Str) (h : GoodAliases al first) (f g : Str) (i : Nat)
    (hf : Names al f f) (hg : Names al g g) (h1 : mapFind (pvaIndex al first) f = some i)
    (h2 : mapFind (pvaIndex al first) g = some i) : f = g := by
  have mem : ∀ f, Names al f f → f ∈ fullNames al first := by
    rintro f (hv | ⟨-, a, ha⟩)
    · simp only [fullNames, List.mem_append, List.mem_map]; exact Or.inr ⟨_, hv, rfl⟩
    · simp only [fullNames, List.mem_append, List.mem_map]; exact Or.inr ⟨_, ha, rfl⟩
  obtain ⟨num, n1, n2, -⟩ := pvaIndex_spec al first h
  apply n1 f (mem f hf) g (mem g hg)
  rw [n2 f (mem f hf)] at h1
  rw [n2 g (mem g hg)] at h2
  simp at h1 h2; omega

theorem final_fields (X : Indices) (I : Input) (c : Nat) :
    (final X I c).flags = (P X I c (defaults X)).flags ∧ (final X I c).flags2 = (P X I c (defaults X)).flags2 ∧
      (final X I c).script = (P X I c (defaults X)).script ∧ (final X I c).gcb = (P X I c (defaults X)).gcb ∧
      (final X I c).eaw = (P X I c (defaults X)).eaw ∧ (final X I c).gc = (P X I c (defaults X)).gc ∧
      (final X I c).age = (P X I c (defaults X)).age ∧ (final X I c).incb = (P X I c (defaults X)).incb ∧
      (final X I c).wb = (P X I c (defaults X)).wb ∧
      (final X I c).esc = computeEsc c (P X I c (defaults X)) ((mapFind X.gcb "Regional_Indicator".toList).getD 0) := by
  unfold final pHangul
  rw [runE_pres Rec.flags _ _ (by intros; rfl), runE_pres Rec.flags2 _ _ (by intros; rfl),
    runE_pres Rec.script _ _ (by intros; rfl), runE_pres Rec.gcb _ _ (by intros; rfl),
    runE_pres Rec.eaw _ _ (by intros; rfl), runE_pres Rec.gc _ _ (by intros; rfl),
    runE_pres Rec.age _ _ (by intros; rfl), runE_pres Rec.incb _ _ (by intros; rfl),
    runE_pres Rec.wb _ _ (by intros; rfl), runE_pres Rec.esc _ _ (by intros; rfl)]
  unfold widenPrepend
  cases mapFind X.gc "Format".toList with
  | none => split <;> exact ⟨rfl, rfl, rfl, rfl, rfl, rfl, rfl, rfl, rfl, rfl⟩
  | some f =>
    simp only
    split <;> split <;> exact ⟨rfl, rfl, rfl, rfl, rfl, rfl, rfl, rfl, rfl, rfl⟩

/-! ## The setting of the theorems -/

/-- The generator ran on `I` and produced the records `R` and the enumerator list `ages` of `Age`. -/
structure Built (I : Input) (X : Indices) (ages : List Str) (R : Records) : Prop where
  bounded : Bounded I
  ages : ageMembers I.pvaAge = some ages
  indices : indices I = some X
  build : buildRecords X I = .ok R

/-- **C49, memory safety.** When all ranges of the data lie in U+0000..U+10FFFF (C48) and the version names can be
parsed, every access to the array of 0x110000 records is in bounds. -/
theorem C49_in_bounds (I : Input) (hb : Bounded I) (ages : List Str) (ha : ageMembers I.pvaAge = some ages) :
    ∃ X R, Built I X ages R := by
  have hX : ∃ X, indices I = some X := by
    unfold Verif.Tg.indices; rw [ha]; exact ⟨_, rfl⟩
  obtain ⟨X, hX⟩ := hX
  obtain ⟨R, hR, -⟩ := buildRecords_ok X I hb
  exact ⟨X, R, ⟨hb, ha, hX, hR⟩⟩

theorem built_idx {I X ages R} (h : Built I X ages R) :
    X.script = scriptIndex (I.scripts.map (·.property)) ∧ X.gc = gcIndex (I.gcats.map (·.property)) ∧
      X.eaw = pvaIndex I.pvaEaw none ∧ X.age = ageIndex I.pvaAge ages ∧
      X.gcb = pvaIndex I.pvaGcb (some "Undefined".toList) ∧ X.incb = pvaIndex I.pvaIncb none ∧
      X.wb = pvaIndex I.pvaWb none := by
  have := h.indices
  unfold Verif.Tg.indices at this
  rw [h.ages] at this
  simp only [Option.map_some, Option.some.injEq] at this
  subst this
  exact ⟨rfl, rfl, rfl, rfl, rfl, rfl, rfl⟩

theorem built_final {I X ages R} (h : Built I X ages R) (c : Nat) (hc : c ≤ 0x10FFFF) : R c = final X I c := by
  obtain ⟨R', h1, h2⟩ := buildRecords_ok X I h.bounded
  rw [h.build] at h1
  cases h1
  exact h2 c (by unfold count; omega)

/-! ## C49: the columns -/

theorem script_field {I X ages R} (h : Built I X ages R) (hc : Consistent (ents I.scripts))
    (hl : ∀ names : List Str, names.Nodup → (∀ n ∈ names, ∃ r ∈ I.scripts, r.property = n) → names.length ≤ 253)
    (c : Nat) (hcp : c ≤ 0x10FFFF) :
    ∃ f, ValueOf (ents I.scripts) "Unknown".toList c f ∧ mapFind X.script f = some (R c).script ∧
      (emit X I ages (R c)).script = f := by
  have hX := (built_idx h).1
  have hl' : (mkSet (I.scripts.map (·.property))).length ≤ 253 := hl _ (mkSet_nodup _) (by
    intro n hn
    rw [mem_mkSet, List.mem_map] at hn
    exact hn)
  rw [built_final h c hcp]
  unfold emit
  simp only
  rw [(final_fields X I c).2.2.1]
  obtain ⟨rec', e1, e2⟩ := P_script X I c (defaults X)
  rw [e2]
  have run := runE_assign Rec.script (mapFind X.script) (fun i rec => { rec with script := i }) id (fun _ _ => rfl)
    (ents I.scripts) c (hc c) rec'
  unfold pScript
  by_cases hv : ∃ v, Assigns (ents I.scripts) c v
  · obtain ⟨v, hv⟩ := hv
    obtain ⟨e, he, -, -, hev⟩ := id hv
    obtain ⟨r, hr, rfl⟩ := List.mem_map.1 he
    obtain ⟨i, i1, -, i3⟩ := scriptIndex_names _ hl' v (List.mem_map.2 ⟨r, hr, hev⟩)
    rw [← hX] at i1
    rw [run.1 v hv i i1]
    refine ⟨v, Or.inl hv, i1, ?_⟩
    simp only [id, List.getD_eq_getElem?_getD, i3, Option.getD_some]
  · obtain ⟨i, i1, i2⟩ := scriptIndex_unknown _ hl'
    rw [← hX] at i1
    rw [run.2 (fun v hv' => absurd ⟨v, hv'⟩ hv), e1]
    refine ⟨"Unknown".toList, Or.inr ⟨fun w hw => hv ⟨w, hw⟩, rfl⟩, ?_, ?_⟩
    · unfold defaults
      simp only [i1, Option.getD_some]
    · unfold defaults
      simp only [i1, Option.getD_some, List.getD_eq_getElem?_getD, i2]

/-- **C49, script.** The emitted script of every codepoint is the one `Scripts.txt` assigns, or `Unknown`. -/
theorem C49_script {I X ages R} (h : Built I X ages R) (hc : Consistent (ents I.scripts))
    (hl : ∀ names : List Str, names.Nodup → (∀ n ∈ names, ∃ r ∈ I.scripts, r.property = n) → names.length ≤ 253)
    (c : Nat) (hcp : c ≤ 0x10FFFF) :
    ValueOf (ents I.scripts) "Unknown".toList c (emit X I ages (R c)).script := by
  obtain ⟨f, f1, -, rfl⟩ := script_field h hc hl c hcp
  exact f1

/-- The general category with its number. -/
theorem gc_field {I X ages R} (h : Built I X ages R) (hc : Consistent (ents I.gcats))
    (hl : ∀ names : List Str, names.Nodup → (∀ n ∈ names, ∃ r ∈ I.gcats, r.property = n) → names.length ≤ 255)
    (hun : ∀ r ∈ I.gcats, r.property ≠ "Unspecified".toList) (c : Nat) (hcp : c ≤ 0x10FFFF) :
    ∃ g, (gcNames (I.gcats.map (·.property)))[(R c).gc]? = some g ∧ mapFind X.gc g = some (R c).gc ∧
      (Assigns (ents I.gcats) c g ∨ (∀ w, ¬ Assigns (ents I.gcats) c w) ∧
        g = if ∃ r ∈ I.gcats, r.property = "Unassigned".toList then "Unassigned".toList else "Unspecified".toList) := by
  have hX := (built_idx h).2.1
  have hl' : (mkSet (I.gcats.map (·.property))).length ≤ 255 := hl _ (mkSet_nodup _) (by
    intro n hn
    rw [mem_mkSet, List.mem_map] at hn
    exact hn)
  rw [built_final h c hcp, (final_fields X I c).2.2.2.2.2.1]
  obtain ⟨rec', e1, e2⟩ := P_gc X I c (defaults X)
  rw [e2]
  have run := runE_assign Rec.gc (mapFind X.gc) (fun i rec => { rec with gc := i }) id (fun _ _ => rfl)
    (ents I.gcats) c (hc c) rec'
  unfold pGc
  by_cases hv : ∃ v, Assigns (ents I.gcats) c v
  · obtain ⟨v, hv⟩ := hv
    obtain ⟨e, he, -, -, hev⟩ := id hv
    obtain ⟨r, hr, rfl⟩ := List.mem_map.1 he
    obtain ⟨i, i1, i3⟩ := gcIndex_names _ hl' v (List.mem_map.2 ⟨r, hr, hev⟩)
    rw [← hX] at i1
    rw [run.1 v hv i i1]
    exact ⟨v, i3, i1, Or.inl hv⟩
  · rw [run.2 (fun v hv' => absurd ⟨v, hv'⟩ hv), e1]
    by_cases hu : ∃ r ∈ I.gcats, r.property = "Unassigned".toList
    · obtain ⟨i, i1, i3⟩ := gcIndex_names _ hl' "Unassigned".toList (List.mem_map.2 hu)
      rw [← hX] at i1
      refine ⟨"Unassigned".toList, ?_, ?_, Or.inr ⟨fun w hw => hv ⟨w, hw⟩, by rw [if_pos hu]⟩⟩
      · show (gcNames _)[(mapFind X.gc "Unassigned".toList).getD 0]? = _
        rw [i1]; exact i3
      · show _ = some ((mapFind X.gc "Unassigned".toList).getD 0)
        rw [i1]; rfl
    · have hno : mapFind X.gc "Unassigned".toList = none := by
        rw [hX]
        cases hm : mapFind (gcIndex (I.gcats.map (·.property))) "Unassigned".toList with
        | none => rfl
        | some i =>
          rcases (gcIndex_find _ hl' _ i hm).2 with h | h
          · exact absurd (List.mem_map.1 h) hu
          · exact absurd h (by decide)
      have hz : (defaults X).gc = 0 := by unfold defaults; simp only [hno, Option.getD_none]
      rw [hz]
      refine ⟨"Unspecified".toList, rfl, ?_, Or.inr ⟨fun w hw => hv ⟨w, hw⟩, by rw [if_neg hu]⟩⟩
      rw [hX]
      unfold gcIndex
      rw [addFrom_notin _ _ _ _ (fun e => ?_), mapFind_set, if_pos rfl]
      obtain ⟨r, hr, hr'⟩ := List.mem_map.1 ((mem_mkSet _ _).1 e)
      exact hun r hr hr'

/-- **C49, general category.** The emitted category of every codepoint is the one `DerivedGeneralCategory.txt` assigns;
a codepoint the file does not mention gets `Unassigned` (or `Unspecified`, if the data has no such category). -/
theorem C49_general_category {I X ages R} (h : Built I X ages R) (hc : Consistent (ents I.gcats))
    (hl : ∀ names : List Str, names.Nodup → (∀ n ∈ names, ∃ r ∈ I.gcats, r.property = n) → names.length ≤ 255)
    (hun : ∀ r ∈ I.gcats, r.property ≠ "Unspecified".toList) (c : Nat) (hcp : c ≤ 0x10FFFF) :
    ValueOf (ents I.gcats)
      (if ∃ r ∈ I.gcats, r.property = "Unassigned".toList then "Unassigned".toList else "Unspecified".toList) c
      (emit X I ages (R c)).gc := by
  obtain ⟨g, g1, -, g3⟩ := gc_field h hc hl hun c hcp
  show ValueOf _ _ _ ((gcNames (I.gcats.map (·.property))).getD (R c).gc "Unspecified".toList)
  rw [List.getD_eq_getElem?_getD, g1]
  exact g3

theorem gcb_field {I X ages R} (h : Built I X ages R) (ha : GoodAliases I.pvaGcb (some "Undefined".toList))
    (hc : Consistent (gents byValue I.gcbs)) (hn : ∀ e ∈ gents byValue I.gcbs, ∃ f, Names I.pvaGcb e.2.2 f)
    (hd : Names I.pvaGcb "Other".toList "Other".toList) (c : Nat) (hcp : c ≤ 0x10FFFF) :
    ∃ f, NamedValueOf (gents byValue I.gcbs) I.pvaGcb "Other".toList c f ∧ Names I.pvaGcb f f ∧
      mapFind X.gcb f = some (R c).gcb ∧ (emit X I ages (R c)).gcb = f := by
  rw [built_final h c hcp]
  unfold emit
  simp only
  rw [(final_fields X I c).2.2.2.1]
  obtain ⟨rec', e1, e2⟩ := P_gcb X I c (defaults X)
  rw [e2]
  unfold pGcb
  rw [(built_idx h).2.2.2.2.1]
  refine pva_field _ _ _ _ _ ha hc hn hd Rec.gcb _ (fun _ _ => rfl) c 0 rec' ?_
  rw [e1, ← (built_idx h).2.2.2.2.1]; rfl

/-- **C49, grapheme cluster break.** -/
theorem C49_grapheme_cluster_break {I X ages R} (h : Built I X ages R) (ha : GoodAliases I.pvaGcb (some "Undefined".toList))
    (hc : Consistent (gents byValue I.gcbs)) (hn : ∀ e ∈ gents byValue I.gcbs, ∃ f, Names I.pvaGcb e.2.2 f)
    (hd : Names I.pvaGcb "Other".toList "Other".toList) (c : Nat) (hcp : c ≤ 0x10FFFF) :
    NamedValueOf (gents byValue I.gcbs) I.pvaGcb "Other".toList c (emit X I ages (R c)).gcb := by
  obtain ⟨f, f1, -, -, rfl⟩ := gcb_field h ha hc hn hd c hcp
  exact f1

theorem eaw_field {I X ages R} (h : Built I X ages R) (ha : GoodAliases I.pvaEaw none)
    (hc : Consistent (ents I.eaws)) (hn : ∀ e ∈ ents I.eaws, ∃ f, Names I.pvaEaw e.2.2 f)
    (hd : Names I.pvaEaw "Narrow".toList "Narrow".toList) (c : Nat) (hcp : c ≤ 0x10FFFF) :
    ∃ f, NamedValueOf (ents I.eaws) I.pvaEaw "Narrow".toList c f ∧ Names I.pvaEaw f f ∧
      mapFind X.eaw f = some (R c).eaw ∧ (emit X I ages (R c)).eaw = f := by
  rw [built_final h c hcp]
  unfold emit
  simp only
  rw [(final_fields X I c).2.2.2.2.1]
  obtain ⟨rec', e1, e2⟩ := P_eaw X I c (defaults X)
  rw [e2]
  unfold pEaw
  rw [(built_idx h).2.2.1]
  refine pva_field _ _ _ _ _ ha hc hn hd Rec.eaw _ (fun _ _ => rfl) c 0 rec' ?_
  rw [e1, ← (built_idx h).2.2.1]; rfl

/-- **C49, East Asian width.** -/
theorem C49_east_asian_width {I X ages R} (h : Built I X ages R) (ha : GoodAliases I.pvaEaw none)
    (hc : Consistent (ents I.eaws)) (hn : ∀ e ∈ ents I.eaws, ∃ f, Names I.pvaEaw e.2.2 f)
    (hd : Names I.pvaEaw "Narrow".toList "Narrow".toList) (c : Nat) (hcp : c ≤ 0x10FFFF) :
    NamedValueOf (ents I.eaws) I.pvaEaw "Narrow".toList c (emit X I ages (R c)).eaw := by
  obtain ⟨f, f1, -, -, rfl⟩ := eaw_field h ha hc hn hd c hcp
  exact f1

theorem incb_field {I X ages R} (h : Built I X ages R) (ha : GoodAliases I.pvaIncb none)
    (hc : Consistent (gents byGroup I.incbs)) (hn : ∀ e ∈ gents byGroup I.incbs, ∃ f, Names I.pvaIncb e.2.2 f)
    (hd : Names I.pvaIncb "None".toList "None".toList) (c : Nat) (hcp : c ≤ 0x10FFFF) :
    ∃ f, NamedValueOf (gents byGroup I.incbs) I.pvaIncb "None".toList c f ∧ Names I.pvaIncb f f ∧
      mapFind X.incb f = some (R c).incb ∧ (emit X I ages (R c)).incb = f := by
  rw [built_final h c hcp]
  unfold emit
  simp only
  rw [(final_fields X I c).2.2.2.2.2.2.2.1]
  obtain ⟨rec', e1, e2⟩ := P_incb X I c (defaults X)
  rw [e2]
  unfold pIncb
  rw [(built_idx h).2.2.2.2.2.1]
  exact pva_field _ _ _ _ "None".toList ha hc hn hd Rec.incb (fun i rec => { rec with incb := i })
    (fun _ _ => rfl) c 3 rec' (by rw [e1, ← (built_idx h).2.2.2.2.2.1]; rfl)

/-- **C49, Indic conjunct break.** -/
theorem C49_indic_conjunct_break {I X ages R} (h : Built I X ages R) (ha : GoodAliases I.pvaIncb none)
    (hc : Consistent (gents byGroup I.incbs)) (hn : ∀ e ∈ gents byGroup I.incbs, ∃ f, Names I.pvaIncb e.2.2 f)
    (hd : Names I.pvaIncb "None".toList "None".toList) (c : Nat) (hcp : c ≤ 0x10FFFF) :
    NamedValueOf (gents byGroup I.incbs) I.pvaIncb "None".toList c (emit X I ages (R c)).incb := by
  obtain ⟨f, f1, -, -, rfl⟩ := incb_field h ha hc hn hd c hcp
  exact f1

theorem wb_field {I X ages R} (h : Built I X ages R) (ha : GoodAliases I.pvaWb none)
    (hc : Consistent (gents byValue I.wbs)) (hn : ∀ e ∈ gents byValue I.wbs, ∃ f, Names I.pvaWb e.2.2 f)
    (hd : Names I.pvaWb "Other".toList "Other".toList) (c : Nat) (hcp : c ≤ 0x10FFFF) :
    ∃ f, NamedValueOf (gents byValue I.wbs) I.pvaWb "Other".toList c f ∧ Names I.pvaWb f f ∧
      mapFind X.wb f = some (R c).wb ∧ (emit X I ages (R c)).wb = f := by
  rw [built_final h c hcp]
  unfold emit
  simp only
  rw [(final_fields X I c).2.2.2.2.2.2.2.2.1]
  obtain ⟨rec', e1, e2⟩ := P_wb X I c (defaults X)
  rw [e2]
  unfold pWb
  rw [(built_idx h).2.2.2.2.2.2]
  exact pva_field _ _ _ _ "Other".toList ha hc hn hd Rec.wb (fun i rec => { rec with wb := i })
    (fun _ _ => rfl) c 18 rec' (by rw [e1, ← (built_idx h).2.2.2.2.2.2]; rfl)

/-- **C49, word break.** -/
theorem C49_word_break {I X ages R} (h : Built I X ages R) (ha : GoodAliases I.pvaWb none)
    (hc : Consistent (gents byValue I.wbs)) (hn : ∀ e ∈ gents byValue I.wbs, ∃ f, Names I.pvaWb e.2.2 f)
    (hd : Names I.pvaWb "Other".toList "Other".toList) (c : Nat) (hcp : c ≤ 0x10FFFF) :
    NamedValueOf (gents byValue I.wbs) I.pvaWb "Other".toList c (emit X I ages (R c)).wb := by
  obtain ⟨f, f1, -, -, rfl⟩ := wb_field h ha hc hn hd c hcp
  exact f1

/-! ### Age -/

theorem enumIndexFrom_notin (i : Nat) (ss : List Str) (m : Map) (s : Str) (h : s ∉ ss) :
    mapFind (enumIndexFrom i ss m) s = mapFind m s := by
  induction ss generalizing i m with
  | nil => rfl
  | cons x xs ih =>
    simp only [List.mem_cons, not_or] at h
    unfold enumIndexFrom
    rw [ih _ _ h.2, mapFind_set, if_neg (fun e => h.1 e.symm)]

theorem enumIndexFrom_mem (i : Nat) (ss : List Str) (m : Map) (s : Str) (h : s ∈ ss) (hl : i + ss.length ≤ 256) :
    ∃ p, ss[p]? = some s ∧ mapFind (enumIndexFrom i ss m) s = some (i + p) := by
  induction ss generalizing i m with
  | nil => simp at h
  | cons x xs ih =>
    simp only [List.length_cons] at hl
    unfold enumIndexFrom
    by_cases hx : s ∈ xs
    · obtain ⟨p, p1, p2⟩ := ih (i + 1) (mapSet x (i % 256) m) hx (by omega)
      exact ⟨p + 1, by simpa using p1, by rw [p2]; congr 1; omega⟩
    · rcases List.mem_cons.1 h with rfl | h
      · refine ⟨0, rfl, ?_⟩
        rw [enumIndexFrom_notin _ _ _ _ hx, mapFind_set, if_pos rfl, Nat.mod_eq_of_lt (by omega)]; rfl
      · exact absurd h hx

theorem addAbbrevs_keep (al : List (Str × Str)) (m : Map) (k : Str) (h : ∀ f, (k, f) ∈ al → k = f) :
    mapFind (addAbbrevs al m) k = mapFind m k := by
  induction al generalizing m with
  | nil => rfl
  | cons e al ih =>
    obtain ⟨a, f⟩ := e
    unfold addAbbrevs
    rw [ih _ (fun f hf => h f (by simp [hf]))]
    cases hf : mapFind m f with
    | none => rfl
    | some i =>
      simp only
      rw [mapFind_set]
      by_cases h1 : a = k
      · rw [if_pos h1]
        have : k = f := h f (by simp [h1])
        rw [this, hf]
      · rw [if_neg h1]

theorem mem_versInsert (k x : (Nat × Nat) × Str) (s : List ((Nat × Nat) × Str)) : x ∈ versInsert k s ↔ x = k ∨ x ∈ s := by
  induction s with
  | nil => simp [versInsert]
  | cons y ys ih =>
    unfold versInsert
    split
    · simp only [List.mem_cons, ih]; tauto
    · simp

theorem mem_versSort (xs : List ((Nat × Nat) × Str)) (x : (Nat × Nat) × Str) : x ∈ xs.foldr versInsert [] ↔ x ∈ xs := by
  induction xs with
  | nil => simp
  | cons y ys ih => rw [List.foldr_cons, mem_versInsert, ih, List.mem_cons]

theorem versioned_mem (al : List (Str × Str)) (vs : List ((Nat × Nat) × Str)) (h : versioned al = some vs) (a f : Str)
    (hf : (a, f) ∈ al) : f = "Unassigned".toList ∨ ∃ v, (v, f) ∈ vs := by
  induction al generalizing vs with
  | nil => simp at hf
  | cons e al ih =>
    obtain ⟨b, g⟩ := e
    unfold versioned at h
    by_cases hg : g = "Unassigned".toList
    · rw [if_pos hg] at h
      rcases List.mem_cons.1 hf with hf | hf
      · simp at hf; exact Or.inl (hf.2.trans hg)
      · exact ih vs h hf
    · rw [if_neg hg] at h
      cases hp : parseVersion g with
      | none => rw [hp] at h; simp at h
      | some v =>
        cases hv : versioned al with
        | none => rw [hp, hv] at h; simp at h
        | some ws =>
          rw [hp, hv] at h
          simp at h; subst h
          rcases List.mem_cons.1 hf with hf | hf
          · simp at hf; exact Or.inr ⟨v, by simp [hf.2]⟩
          · rcases ih ws hv hf with h | ⟨w, hw⟩
            · exact Or.inl h
            · exact Or.inr ⟨w, by simp [hw]⟩

theorem ageMembers_mem (al : List (Str × Str)) (ages : List Str) (h : ageMembers al = some ages) (a f : Str)
    (hf : (a, f) ∈ al) : f ∈ ages := by
  unfold ageMembers at h
  cases hv : versioned al with
  | none => rw [hv] at h; simp at h
  | some vs =>
    rw [hv] at h
    simp only [Option.map_some, Option.some.injEq] at h
    subst h
    rcases versioned_mem al vs hv a f hf with h | ⟨v, hv⟩
    · simp [h]
    · exact List.mem_cons_of_mem _ (List.mem_map.2 ⟨(v, f), (mem_versSort _ _).2 hv, rfl⟩)

theorem ageMembers_head (al : List (Str × Str)) (ages : List Str) (h : ageMembers al = some ages) :
    ages[0]? = some "Unassigned".toList := by
  unfold ageMembers at h
  cases hv : versioned al with
  | none => rw [hv] at h; simp at h
  | some vs =>
    rw [hv] at h
    simp only [Option.map_some, Option.some.injEq] at h
    subst h; rfl

theorem versioned_not (al : List (Str × Str)) (vs : List ((Nat × Nat) × Str)) (h : versioned al = some vs) :
    ∀ e ∈ vs, e.2 ≠ "Unassigned".toList := by
  induction al generalizing vs with
  | nil => simp [versioned] at h; subst h; simp
  | cons x al ih =>
    obtain ⟨a, f⟩ := x
    unfold versioned at h
    by_cases hf : f = "Unassigned".toList
    · rw [if_pos hf] at h; exact ih vs h
    · rw [if_neg hf] at h
      split at h
      · next v ws _ hw =>
        injection h with h
        subst h
        intro e he
        rcases List.mem_cons.1 he with rfl | he
        · exact hf
        · exact ih ws hw e he
      · exact absurd h (by simp)

theorem ageMembers_tail (al : List (Str × Str)) (ages : List Str) (h : ageMembers al = some ages) (p : Nat) :
    ages[p + 1]? ≠ some "Unassigned".toList := by
  unfold ageMembers at h
  cases hv : versioned al with
  | none => rw [hv] at h; simp at h
  | some vs =>
    rw [hv] at h
    simp only [Option.map_some, Option.some.injEq] at h
    subst h
    rw [List.getElem?_cons_succ]
    intro e
    obtain ⟨x, hx, he⟩ := List.mem_map.1 (List.mem_of_getElem? e)
    exact versioned_not al vs hv x ((mem_versSort _ _).1 hx) he

theorem age_field {I X ages R} (h : Built I X ages R) (hl : ages.length ≤ 256)
    (hf : ∀ a f f', (a, f) ∈ I.pvaAge → (a, f') ∈ I.pvaAge → f = f') (hne : ∀ a f, (a, f) ∈ I.pvaAge → f ≠ [])
    (hcap : ∀ a f, (a, f) ∈ I.pvaAge → a ∈ ages → a = f)
    (hc : Consistent (ents I.ages)) (hn : ∀ e ∈ ents I.ages, ∃ f, (e.2.2, f) ∈ I.pvaAge)
    (c : Nat) (hcp : c ≤ 0x10FFFF) :
    ∃ f, NamedValueOf (ents I.ages) I.pvaAge "Unassigned".toList c f ∧ mapFind X.age f = some (R c).age ∧
      (emit X I ages (R c)).age = f := by
  rw [built_final h c hcp]
  unfold emit
  simp only
  rw [(final_fields X I c).2.2.2.2.2.2.1]
  obtain ⟨rec', e1, e2⟩ := P_age X I c (defaults X)
  rw [e2]
  unfold pAge
  have run := runE_assign Rec.age (ageIdx X I.pvaAge) (fun i rec => { rec with age := i }) id (fun _ _ => rfl)
    (ents I.ages) c (hc c) rec'
  by_cases hv : ∃ v, Assigns (ents I.ages) c v
  · obtain ⟨v, hv⟩ := hv
    obtain ⟨e, he, -, -, hev⟩ := id hv
    obtain ⟨f, hef⟩ := hn e he
    rw [hev] at hef
    have hname : ageName I.pvaAge v = f := by
      unfold ageName
      cases hfi : I.pvaAge.find? (fun e => e.1 = v) with
      | none =>
        have := List.find?_eq_none.1 hfi (v, f) hef
        simp at this
      | some x =>
        obtain ⟨a, g⟩ := x
        have h1 := List.find?_some hfi
        have h2 := List.mem_of_find?_eq_some hfi
        simp at h1
        subst h1
        exact hf a g f h2 hef
    have hm := ageMembers_mem _ _ h.ages v f hef
    obtain ⟨p, p1, p2⟩ := enumIndexFrom_mem 0 ages [] f hm (by omega)
    have hidx : ageIdx X I.pvaAge v = some p := by
      unfold ageIdx
      rw [hname, if_neg (hne v f hef), (built_idx h).2.2.2.1]
      unfold ageIndex
      rw [addAbbrevs_keep _ _ _ (fun g hg => hcap f g hg hm), p2, Nat.zero_add]
    rw [run.1 v hv p hidx]
    refine ⟨f, Or.inl ⟨v, hv, Or.inl hef⟩, ?_, ?_⟩
    · rw [(built_idx h).2.2.2.1]
      unfold ageIndex
      rw [addAbbrevs_keep _ _ _ (fun g hg => hcap f g hg hm), p2, Nat.zero_add]
      rfl
    · simp only [id, List.getD_eq_getElem?_getD, p1, Option.getD_some]
  · rw [run.2 (fun v hv' => absurd ⟨v, hv'⟩ hv), e1]
    have hu : "Unassigned".toList ∈ ages := List.mem_of_getElem? (ageMembers_head _ _ h.ages)
    refine ⟨"Unassigned".toList, Or.inr ⟨fun w hw => hv ⟨w, hw⟩, rfl⟩, ?_, ?_⟩
    · rw [(built_idx h).2.2.2.1]
      unfold ageIndex
      rw [addAbbrevs_keep _ _ _ (fun g hg => hcap _ g hg hu)]
      obtain ⟨p, p1, p2⟩ := enumIndexFrom_mem 0 ages [] _ hu (by omega)
      rw [p2, Nat.zero_add]
      cases p with
      | zero => rfl
      | succ p => exact absurd p1 (ageMembers_tail _ _ h.ages p)
    · show ages.getD 0 _ = _
      rw [List.getD_eq_getElem?_getD, ageMembers_head _ _ h.ages]; rfl

/-- **C49, age.** The emitted age of every codepoint is the enumerator that the alias file gives for the version
`DerivedAge.txt` assigns, or `Unassigned`. -/
theorem C49_age {I X ages R} (h : Built I X ages R) (hl : ages.length ≤ 256)
    (hf : ∀ a f f', (a, f) ∈ I.pvaAge → (a, f') ∈ I.pvaAge → f = f') (hne : ∀ a f, (a, f) ∈ I.pvaAge → f ≠ [])
    (hcap : ∀ a f, (a, f) ∈ I.pvaAge → a ∈ ages → a = f)
    (hc : Consistent (ents I.ages)) (hn : ∀ e ∈ ents I.ages, ∃ f, (e.2.2, f) ∈ I.pvaAge)
    (c : Nat) (hcp : c ≤ 0x10FFFF) :
    NamedValueOf (ents I.ages) I.pvaAge "Unassigned".toList c (emit X I ages (R c)).age := by
  obtain ⟨f, f1, -, rfl⟩ := age_field h hl hf hne hcap hc hn c hcp
  exact f1

/-! ### Flags -/

theorem assigns_clip (rs : List PRange) (c : Nat) (hc : c ≤ 0x10FFFF) (v : Str) :
    Assigns (ents (rs.map clip)) c v ↔ Assigns (ents rs) c v := by
  unfold Assigns ents
  simp only [List.mem_map]
  constructor
  · rintro ⟨e, ⟨r, ⟨q, hq, rfl⟩, rfl⟩, h1, h2, h3⟩
    refine ⟨_, ⟨q, hq, rfl⟩, h1, ?_, h3⟩
    have h2' : c ≤ min q.last (count - 1) := h2
    show c ≤ q.last
    omega
  · rintro ⟨e, ⟨q, hq, rfl⟩, h1, h2, h3⟩
    refine ⟨_, ⟨clip q, ⟨q, hq, rfl⟩, rfl⟩, h1, ?_, h3⟩
    have h2' : c ≤ q.last := h2
    show c ≤ min q.last (count - 1)
    unfold count; omega

theorem coreIdx_some (v : Str) (m : Nat) (h : coreIdx v = some m) : v = "Grapheme_Extend".toList ∧ m = 0x40 := by
  unfold coreIdx at h
  by_cases hv : v = "Grapheme_Extend".toList
  · rw [if_pos hv] at h; exact ⟨hv, (Option.some.inj h).symm⟩
  · rw [if_neg hv] at h; exact absurd h (by simp)

theorem viramaIdx_some (v : Str) (m : Nat) (h : viramaIdx v = some m) :
    (v = "Virama".toList ∨ v = "Invisible_Stacker".toList) ∧ m = 0x80 := by
  unfold viramaIdx at h
  by_cases hv : v = "Virama".toList ∨ v = "Invisible_Stacker".toList
  · rw [if_pos hv] at h; exact ⟨hv, (Option.some.inj h).symm⟩
  · rw [if_neg hv] at h; exact absurd h (by simp)

theorem emojiFlag_some (v : Str) (m : Nat) (h : emojiFlag v = some m) :
    (v = "Emoji".toList ∧ m = 0x01) ∨ (v = "Emoji_Component".toList ∧ m = 0x04) ∨
      (v = "Emoji_Modifier".toList ∧ m = 0x08) ∨ (v = "Emoji_Modifier_Base".toList ∧ m = 0x10) ∨
      (v = "Emoji_Presentation".toList ∧ m = 0x02) ∨ (v = "Extended_Pictographic".toList ∧ m = 0x20) := by
  unfold emojiFlag at h
  by_cases h1 : v = "Emoji".toList
  · rw [if_pos h1] at h; exact Or.inl ⟨h1, (Option.some.inj h).symm⟩
  rw [if_neg h1] at h
  by_cases h2 : v = "Emoji_Component".toList
  · rw [if_pos h2] at h; exact Or.inr (Or.inl ⟨h2, (Option.some.inj h).symm⟩)
  rw [if_neg h2] at h
  by_cases h3 : v = "Emoji_Modifier".toList
  · rw [if_pos h3] at h; exact Or.inr (Or.inr (Or.inl ⟨h3, (Option.some.inj h).symm⟩))
  rw [if_neg h3] at h
  by_cases h4 : v = "Emoji_Modifier_Base".toList
  · rw [if_pos h4] at h; exact Or.inr (Or.inr (Or.inr (Or.inl ⟨h4, (Option.some.inj h).symm⟩)))
  rw [if_neg h4] at h
  by_cases h5 : v = "Emoji_Presentation".toList
  · rw [if_pos h5] at h; exact Or.inr (Or.inr (Or.inr (Or.inr (Or.inl ⟨h5, (Option.some.inj h).symm⟩))))
  rw [if_neg h5] at h
  by_cases h6 : v = "Extended_Pictographic".toList
  · rw [if_pos h6] at h; exact Or.inr (Or.inr (Or.inr (Or.inr (Or.inr ⟨h6, (Option.some.inj h).symm⟩))))
  rw [if_neg h6] at h; exact absurd h (by simp)

/-- **C49, flags.** Each bit of the emitted flag byte is set exactly when the data gives the codepoint the property. -/
theorem C49_flags {I X ages R} (h : Built I X ages R) (c : Nat) (hcp : c ≤ 0x10FFFF) :
    ((emit X I ages (R c)).flags.testBit 0 = true ↔ Assigns (gents byGroup I.emoji) c "Emoji".toList) ∧
    ((emit X I ages (R c)).flags.testBit 1 = true ↔ Assigns (gents byGroup I.emoji) c "Emoji_Presentation".toList) ∧
    ((emit X I ages (R c)).flags.testBit 2 = true ↔ Assigns (gents byGroup I.emoji) c "Emoji_Component".toList) ∧
    ((emit X I ages (R c)).flags.testBit 3 = true ↔ Assigns (gents byGroup I.emoji) c "Emoji_Modifier".toList) ∧
    ((emit X I ages (R c)).flags.testBit 4 = true ↔ Assigns (gents byGroup I.emoji) c "Emoji_Modifier_Base".toList) ∧
    ((emit X I ages (R c)).flags.testBit 5 = true ↔ Assigns (gents byGroup I.emoji) c "Extended_Pictographic".toList) ∧
    ((emit X I ages (R c)).flags.testBit 6 = true ↔ Assigns (gents byGroup I.core) c "Grapheme_Extend".toList) ∧
    ((emit X I ages (R c)).flags.testBit 7 = true ↔
      Assigns (ents I.isc) c "Virama".toList ∨ Assigns (ents I.isc) c "Invisible_Stacker".toList) ∧
    (emit X I ages (R c)).flags < 256 := by
  have e : (emit X I ages (R c)).flags = (P X I c (defaults X)).flags := by
    rw [built_final h c hcp]; exact (final_fields X I c).1
  rw [e]
  have key := P_flags X I c (defaults X)
  have h0 : (defaults X).flags = 0 := rfl
  simp only [h0, Nat.zero_testBit, Bool.false_eq_true, false_or, assigns_clip _ _ hcp] at key
  have bits : ∀ b, (P X I c (defaults X)).flags.testBit b = true ↔
      (Assigns (gents byGroup I.core) c "Grapheme_Extend".toList ∧ (0x40).testBit b = true) ∨
      ((Assigns (ents I.isc) c "Virama".toList ∨ Assigns (ents I.isc) c "Invisible_Stacker".toList) ∧ (0x80).testBit b = true) ∨
      (Assigns (gents byGroup I.emoji) c "Emoji".toList ∧ (0x01).testBit b = true) ∨
      (Assigns (gents byGroup I.emoji) c "Emoji_Component".toList ∧ (0x04).testBit b = true) ∨
      (Assigns (gents byGroup I.emoji) c "Emoji_Modifier".toList ∧ (0x08).testBit b = true) ∨
      (Assigns (gents byGroup I.emoji) c "Emoji_Modifier_Base".toList ∧ (0x10).testBit b = true) ∨
      (Assigns (gents byGroup I.emoji) c "Emoji_Presentation".toList ∧ (0x02).testBit b = true) ∨
      (Assigns (gents byGroup I.emoji) c "Extended_Pictographic".toList ∧ (0x20).testBit b = true) := by
    intro b
    rw [key]
    constructor
    · rintro (⟨v, m, h1, h2, h3⟩ | ⟨v, m, h1, h2, h3⟩ | ⟨v, m, h1, h2, h3⟩)
      · obtain ⟨rfl, rfl⟩ := coreIdx_some v m h2
        exact Or.inl ⟨h1, h3⟩
      · obtain ⟨rfl | rfl, rfl⟩ := viramaIdx_some v m h2
        · exact Or.inr (Or.inl ⟨Or.inl h1, h3⟩)
        · exact Or.inr (Or.inl ⟨Or.inr h1, h3⟩)
      · right; right
        rcases emojiFlag_some v m h2 with ⟨rfl, rfl⟩ | ⟨rfl, rfl⟩ | ⟨rfl, rfl⟩ | ⟨rfl, rfl⟩ | ⟨rfl, rfl⟩ | ⟨rfl, rfl⟩
        · exact Or.inl ⟨h1, h3⟩
        · exact Or.inr (Or.inl ⟨h1, h3⟩)
        · exact Or.inr (Or.inr (Or.inl ⟨h1, h3⟩))
        · exact Or.inr (Or.inr (Or.inr (Or.inl ⟨h1, h3⟩)))
        · exact Or.inr (Or.inr (Or.inr (Or.inr (Or.inl ⟨h1, h3⟩))))
        · exact Or.inr (Or.inr (Or.inr (Or.inr (Or.inr ⟨h1, h3⟩))))
    · rintro (⟨h1, h3⟩ | ⟨h1 | h1, h3⟩ | ⟨h1, h3⟩ | ⟨h1, h3⟩ | ⟨h1, h3⟩ | ⟨h1, h3⟩ | ⟨h1, h3⟩ | ⟨h1, h3⟩)
      · exact Or.inl ⟨_, _, h1, rfl, h3⟩
      · exact Or.inr (Or.inl ⟨_, _, h1, rfl, h3⟩)
      · exact Or.inr (Or.inl ⟨_, _, h1, rfl, h3⟩)
      all_goals exact Or.inr (Or.inr ⟨_, _, h1, rfl, h3⟩)
  refine ⟨?_, ?_, ?_, ?_, ?_, ?_, ?_, ?_, ?_⟩
  · rw [bits]; simp [Nat.testBit]
  · rw [bits]; simp [Nat.testBit]
  · rw [bits]; simp [Nat.testBit]
  · rw [bits]; simp [Nat.testBit]
  · rw [bits]; simp [Nat.testBit]
  · rw [bits]; simp [Nat.testBit]
  · rw [bits]; simp [Nat.testBit]
  · rw [bits]; simp [Nat.testBit]
  · apply Nat.lt_pow_two_of_testBit (n := 8)
    intro b hb
    rw [Bool.eq_false_iff]
    intro hbit
    have small : ∀ m < 256, m.testBit b = false := fun m hm =>
      Nat.testBit_lt_two_pow (Nat.lt_of_lt_of_le hm (Nat.pow_le_pow_right (n := 2) (i := 8) (by decide) hb))
    have := (bits b).1 hbit
    simp [small] at this

/-- **C49, variation bases.** The second flag byte says whether `emoji-variation-sequences.txt` lists the codepoint. -/
theorem C49_variation_base {I X ages R} (h : Built I X ages R) (c : Nat) (hcp : c ≤ 0x10FFFF) :
    (emit X I ages (R c)).flags2 = if c ∈ I.bases then 1 else 0 := by
  have e : (emit X I ages (R c)).flags2 = (P X I c (defaults X)).flags2 := by
    rw [built_final h c hcp]; exact (final_fields X I c).2.1
  rw [e]
  have key : ∀ (bs : List Nat) (rec : Rec), rec.flags2 = 0 ∨ rec.flags2 = 1 →
      (runE (fun _ => some 1) (fun m rec => { rec with flags2 := rec.flags2 ||| m }) (bs.map fun b => (b, b, [])) c rec).flags2 =
        if c ∈ bs ∨ rec.flags2 = 1 then 1 else 0 := by
    intro bs
    induction bs with
    | nil =>
      intro rec hr
      rcases hr with hr | hr <;> simp [runE, hr]
    | cons b bs ih =>
      intro rec hr
      rw [show (runE (fun _ => some 1) (fun m rec => { rec with flags2 := rec.flags2 ||| m })
        ((b :: bs).map fun b => (b, b, [])) c rec) = (runE (fun _ => some 1) (fun m rec => { rec with flags2 := rec.flags2 ||| m })
        (bs.map fun b => (b, b, [])) c
          (stepE (fun _ => some 1) (fun m rec => { rec with flags2 := rec.flags2 ||| m }) c rec (b, b, []))) from rfl]
      by_cases hb : c = b
      · have hs : (stepE (fun _ => some 1) (fun m rec => { rec with flags2 := rec.flags2 ||| m }) c rec (b, b, [])).flags2 = 1 := by
          unfold stepE
          rw [if_pos (by simp only; omega)]
          show rec.flags2 ||| 1 = 1
          rcases hr with hr | hr <;> rw [hr] <;> rfl
        rw [ih _ (Or.inr hs), if_pos (Or.inr hs), if_pos (Or.inl (by simp [hb]))]
      · have hs : stepE (fun _ => some 1) (fun m rec => { rec with flags2 := rec.flags2 ||| m }) c rec (b, b, []) = rec := by
          unfold stepE
          rw [if_neg (by simp only; omega)]
        rw [hs, ih _ hr]
        simp [hb]
  rw [P_flags2]
  unfold pBases
  rw [key _ _ (Or.inl rfl)]
  have h0 : (defaults X).flags2 = 0 := rfl
  simp [h0]

/-! ### Derived columns -/

theorem final_width (X : Indices) (I : Input) (c : Nat) :
    (final X I c).width =
      if Assigns (ents I.hst) c "V".toList ∨ Assigns (ents I.hst) c "T".toList then 0
      else if c = 0xAD then 1
      else if mapFind X.gc "Format".toList = some (P X I c (defaults X)).gc ∧ prepend I.gcbs c = true then 1
      else computeCharWidth (P X I c (defaults X)) (zeroWidthGCs X.gc) ((mapFind X.eaw "Wide".toList).getD 0)
        ((mapFind X.eaw "Fullwidth".toList).getD 0) := by
  have key : ∀ (es : List Entry) (rec : Rec),
      (runE hangulIdx (fun i rec => { rec with width := i }) es c rec).width =
        if Assigns es c "V".toList ∨ Assigns es c "T".toList then 0 else rec.width := by
    intro es
    induction es with
    | nil => intro rec; simp [runE, Assigns]
    | cons e es ih =>
      intro rec
      show (runE hangulIdx (fun i rec => { rec with width := i }) es c
        (stepE hangulIdx (fun i rec => { rec with width := i }) c rec e)).width = _
      rw [ih]
      simp only [assigns_cons]
      by_cases h1 : Assigns es c "V".toList ∨ Assigns es c "T".toList
      · rw [if_pos h1, if_pos (by tauto)]
      · rw [if_neg h1]
        unfold stepE
        by_cases h2 : e.1 ≤ c ∧ c ≤ e.2.1
        · rw [if_pos h2]
          by_cases h3 : e.2.2 = "V".toList ∨ e.2.2 = "T".toList
          · rw [if_pos (by tauto)]
            unfold hangulIdx
            rw [if_pos h3]
          · rw [if_neg (by tauto)]
            unfold hangulIdx
            rw [if_neg h3]
        · rw [if_neg h2, if_neg (by tauto)]
  unfold final pHangul
  rw [key]
  by_cases h1 : Assigns (ents I.hst) c "V".toList ∨ Assigns (ents I.hst) c "T".toList
  · rw [if_pos h1, if_pos h1]
  · rw [if_neg h1, if_neg h1]
    by_cases h2 : c = 0xAD
    · rw [if_pos h2, if_pos h2]
    · rw [if_neg h2, if_neg h2]
      unfold widenPrepend
      cases hf : mapFind X.gc "Format".toList with
      | none => rw [if_neg (by simp)]; rfl
      | some f =>
        simp only
        have hg : (derive X (fun c => P X I c (defaults X)) c).gc = (P X I c (defaults X)).gc := rfl
        rw [hg]
        by_cases h3 : (P X I c (defaults X)).gc = f ∧ prepend I.gcbs c = true
        · rw [if_pos h3, if_pos ⟨by rw [h3.1], h3.2⟩]
        · rw [if_neg h3, if_neg (by rintro ⟨h4, h5⟩; exact h3 ⟨(Option.some.inj h4).symm, h5⟩)]; rfl

theorem prepend_iff (gs : List (Str × List PRange)) (c : Nat) (hc : c ≤ 0x10FFFF) :
    prepend gs c = true ↔ Assigns (gents byValue gs) c "Prepend".toList := by
  unfold prepend Assigns gents
  simp only [List.any_eq_true, decide_eq_true_eq, List.mem_flatMap, List.mem_map]
  constructor
  · rintro ⟨g, hg, r, hr, h1, h2, h3⟩
    refine ⟨_, ⟨g, hg, r, hr, rfl⟩, h2, ?_, h1⟩
    have : c ≤ min r.last (count - 1) := h3
    show c ≤ r.last; omega
  · rintro ⟨e, ⟨g, hg, r, hr, rfl⟩, h2, h3, h1⟩
    refine ⟨g, hg, r, hr, h1, h2, ?_⟩
    have h3 : c ≤ r.last := h3
    show c ≤ min r.last (count - 1)
    unfold count; omega

theorem and_testBit (n k : Nat) : n &&& 2 ^ k ≠ 0 ↔ n.testBit k = true := by
  rw [Nat.and_two_pow]
  cases h : n.testBit k
  · simp
  · simp

/-- Everything the derived columns depend on is well formed. -/
structure GoodData (I : Input) : Prop where
  gcCons : Consistent (ents I.gcats)
  gcFew : ∀ names : List Str, names.Nodup → (∀ n ∈ names, ∃ r ∈ I.gcats, r.property = n) → names.length ≤ 255
  gcNo : ∀ r ∈ I.gcats, r.property ≠ "Unspecified".toList
  eawAl : GoodAliases I.pvaEaw none
  eawCons : Consistent (ents I.eaws)
  eawNamed : ∀ e ∈ ents I.eaws, ∃ f, Names I.pvaEaw e.2.2 f
  eawNames : ∀ f ∈ ["Narrow", "Wide", "Fullwidth"], Names I.pvaEaw f.toList f.toList
  gcbAl : GoodAliases I.pvaGcb (some "Undefined".toList)
  gcbCons : Consistent (gents byValue I.gcbs)
  gcbNamed : ∀ e ∈ gents byValue I.gcbs, ∃ f, Names I.pvaGcb e.2.2 f
  gcbNames : ∀ f ∈ ["Other", "Regional_Indicator"], Names I.pvaGcb f.toList f.toList

/-- The emitted category decides membership in the set of zero-width categories. -/
theorem zero_iff {I X ages R} (h : Built I X ages R) (hg : GoodData I) (c : Nat) (hcp : c ≤ 0x10FFFF) (names : List Str) :
    (R c).gc ∈ names.filterMap (mapFind X.gc) ↔ (emit X I ages (R c)).gc ∈ names := by
  obtain ⟨g, g1, g2, -⟩ := gc_field h hg.gcCons hg.gcFew hg.gcNo c hcp
  have he : (emit X I ages (R c)).gc = g := by
    show (gcNames (I.gcats.map (·.property))).getD (R c).gc "Unspecified".toList = g
    rw [List.getD_eq_getElem?_getD, g1]; rfl
  rw [he, List.mem_filterMap]
  have hl' : (mkSet (I.gcats.map (·.property))).length ≤ 255 := hg.gcFew _ (mkSet_nodup _) (by
    intro n hn
    rw [mem_mkSet, List.mem_map] at hn
    exact hn)
  constructor
  · rintro ⟨n, hn, hi⟩
    rw [(built_idx h).2.1] at hi
    have := (gcIndex_find _ hl' n _ hi).1
    rw [g1] at this
    rw [Option.some.inj this]; exact hn
  · intro hn
    exact ⟨g, hn, g2⟩

/-- **C49, width.** The emitted display width of every codepoint, in terms of its emitted (C49) category and East Asian
width and of the data files. -/
theorem C49_width {I X ages R} (h : Built I X ages R) (hg : GoodData I) (c : Nat) (hcp : c ≤ 0x10FFFF) :
    (emit X I ages (R c)).width =
      if Assigns (ents I.hst) c "V".toList ∨ Assigns (ents I.hst) c "T".toList then 0
      else if c = 0xAD then 1
      else if (emit X I ages (R c)).gc = "Format".toList ∧ Assigns (gents byValue I.gcbs) c "Prepend".toList then 1
      else if (emit X I ages (R c)).gc ∈ zeroWidthCategories.map String.toList then 0
      else if Assigns (gents byGroup I.emoji) c "Emoji_Presentation".toList then 2
      else if (emit X I ages (R c)).eaw = "Wide".toList ∨ (emit X I ages (R c)).eaw = "Fullwidth".toList then 2
      else 1 := by
  have hw : (emit X I ages (R c)).width = (final X I c).width := by rw [built_final h c hcp]; rfl
  have hgc : (P X I c (defaults X)).gc = (R c).gc := by rw [built_final h c hcp, (final_fields X I c).2.2.2.2.2.1]
  have heaw : (P X I c (defaults X)).eaw = (R c).eaw := by rw [built_final h c hcp, (final_fields X I c).2.2.2.2.1]
  have hfl : (P X I c (defaults X)).flags = (emit X I ages (R c)).flags := by
    rw [built_final h c hcp]; exact (final_fields X I c).1.symm
  rw [hw, final_width]
  by_cases h1 : Assigns (ents I.hst) c "V".toList ∨ Assigns (ents I.hst) c "T".toList
  · rw [if_pos h1, if_pos h1]
  rw [if_neg h1, if_neg h1]
  by_cases h2 : c = 0xAD
  · rw [if_pos h2, if_pos h2]
  rw [if_neg h2, if_neg h2]
  have hfmt : mapFind X.gc "Format".toList = some (P X I c (defaults X)).gc ↔
      (emit X I ages (R c)).gc = "Format".toList := by
    have := zero_iff h hg c hcp ["Format".toList]
    rw [List.mem_singleton] at this
    rw [← this, List.mem_filterMap, hgc]
    simp
  have hpre := prepend_iff I.gcbs c hcp
  by_cases h3 : (emit X I ages (R c)).gc = "Format".toList ∧ Assigns (gents byValue I.gcbs) c "Prepend".toList
  · rw [if_pos ⟨hfmt.2 h3.1, hpre.2 h3.2⟩, if_pos h3]
  rw [if_neg (fun h4 => h3 ⟨hfmt.1 h4.1, hpre.1 h4.2⟩), if_neg h3]
  have hzero : (P X I c (defaults X)).gc ∈ zeroWidthGCs X.gc ↔
      (emit X I ages (R c)).gc ∈ zeroWidthCategories.map String.toList := by
    rw [hgc]
    exact zero_iff h hg c hcp zeroWidthNames
  unfold computeCharWidth
  by_cases h4 : (emit X I ages (R c)).gc ∈ zeroWidthCategories.map String.toList
  · rw [if_pos (hzero.2 h4), if_pos h4]
  rw [if_neg (fun e => h4 (hzero.1 e)), if_neg h4]
  have hpres : (P X I c (defaults X)).flags &&& 0x02 ≠ 0 ↔ Assigns (gents byGroup I.emoji) c "Emoji_Presentation".toList := by
    rw [← (C49_flags h c hcp).2.1, hfl]
    exact and_testBit _ 1
  by_cases h5 : Assigns (gents byGroup I.emoji) c "Emoji_Presentation".toList
  · rw [if_pos (hpres.2 h5), if_pos h5]
  rw [if_neg (fun e => h5 (hpres.1 e)), if_neg h5]
  have hwide : ∀ f, f = "Wide" ∨ f = "Fullwidth" →
      ((P X I c (defaults X)).eaw = (mapFind X.eaw f.toList).getD 0 ↔ (emit X I ages (R c)).eaw = f.toList) := by
    intro f hf
    obtain ⟨g, -, g2, g3, g4⟩ := eaw_field h hg.eawAl hg.eawCons hg.eawNamed (hg.eawNames "Narrow" (by simp)) c hcp
    have hfn : Names I.pvaEaw f.toList f.toList := hg.eawNames f (by rcases hf with rfl | rfl <;> simp)
    rw [heaw, g4]
    have hfi : ∃ i, mapFind X.eaw f.toList = some i := by
      rw [(built_idx h).2.2.1]
      obtain ⟨num, -, n2, n3, -⟩ := pvaIndex_spec I.pvaEaw none hg.eawAl
      rcases hfn with hh | ⟨-, a, hh⟩
      · exact ⟨_, n3 _ _ hh⟩
      · exact ⟨_, n2 _ (by simp only [fullNames, List.mem_append, List.mem_map]; exact Or.inr ⟨_, hh, rfl⟩)⟩
    obtain ⟨i, hi⟩ := hfi
    rw [hi]
    simp only [Option.getD_some]
    constructor
    · intro e
      rw [e] at g3
      rw [(built_idx h).2.2.1] at g3 hi
      exact pva_inj _ _ hg.eawAl _ _ i g2 hfn g3 hi
    · intro e
      rw [e, hi] at g3
      exact (Option.some.inj g3).symm
  have hw1 := hwide "Wide" (Or.inl rfl)
  have hw2 := hwide "Fullwidth" (Or.inr rfl)
  by_cases h6 : (emit X I ages (R c)).eaw = "Wide".toList ∨ (emit X I ages (R c)).eaw = "Fullwidth".toList
  · rw [if_pos (h6.imp hw1.2 hw2.2), if_pos h6]
  · rw [if_neg (fun e => h6 (e.imp hw1.1 hw2.1)), if_neg h6]

/-- **C41, range.** Every emitted width is 0, 1 or 2, for every input (no assumption on the data). -/
theorem C41_width_range {I X ages R} (h : Built I X ages R) (c : Nat) (hcp : c ≤ 0x10FFFF) :
    (emit X I ages (R c)).width ≤ 2 := by
  have hw : (emit X I ages (R c)).width = (final X I c).width := by rw [built_final h c hcp]; rfl
  rw [hw, final_width]
  unfold computeCharWidth
  split
  · omega
  split
  · omega
  split
  · omega
  split
  · omega
  split
  · omega
  split <;> omega

end Verif.Props.Tg
