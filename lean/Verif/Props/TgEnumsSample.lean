import Verif.Props.TgEnums2
import Verif.Props.TgRowSample
/-!
# C55: the enumerations of a small database
-/

namespace Verif.Props.Tg
open Verif.Utf8 (Mem)
open Verif.Tg
open Verif.Spec.Ucd
open Verif.Spec.UcdFile

/-- The small database, with scripts, a binary property, blocks and script extensions. -/
def eU : Contents :=
  { rU with
    aliases := rU.aliases ++ [("Alphabetic".toList, al [("N", "No"), ("Y", "Yes")]),
      ("Script".toList, al [("Deva", "Devanagari"), ("Hani", "Han"), ("Latn", "Latin")])]
    sce := [en 0x363 0x36F "Latn", en 0x951 0x951 "Deva Latn"]
    blocks := [en 0x0 0x7F "Basic Latin", en 0x80 0xFF "Latin-1 Supplement"] }

theorem eU_writable : Writable eU := by
  constructor <;> decide +kernel

theorem eU_describes : Describes (filesOf eU) eU := writable_describes eU_writable

/-- Additional sections of value names with other titles do not matter for the table of properties. -/
theorem more_aliases {N : ValueNames} (h : Complete rU N) {V : Contents} (ha : ∀ s ∈ rU.aliases, s ∈ V.aliases)
    (ht : (V.aliases.map (·.1)).Nodup)
    (hrest : V = { rU with aliases := V.aliases, sce := V.sce, blocks := V.blocks }) : Complete V N := by
  rw [hrest]
  exact {
    titles := ht, gcIn := ha _ h.gcIn, eawIn := ha _ h.eawIn, ageIn := ha _ h.ageIn, gcbIn := ha _ h.gcbIn, incbIn := ha _ h.incbIn
    wbIn := ha _ h.wbIn, gcOk := h.gcOk, gcFew := h.gcFew, gcReserved := h.gcReserved, eawOk := h.eawOk, ageOk := h.ageOk
    ageVersions := h.ageVersions, gcbOk := h.gcbOk, incbOk := h.incbOk, wbOk := h.wbOk, eawNeeds := h.eawNeeds, gcbNeeds := h.gcbNeeds
    incbNeeds := h.incbNeeds, wbNeeds := h.wbNeeds, gcNeeds := h.gcNeeds, words := h.words, coreWords := h.coreWords
    gcKnown := h.gcKnown, eawKnown := h.eawKnown, ageKnown := h.ageKnown, gcbKnown := h.gcbKnown, incbKnown := h.incbKnown
    wbKnown := h.wbKnown, scriptsOne := h.scriptsOne, gcOne := h.gcOne, eawOne := h.eawOne, agesOne := h.agesOne, gcbOne := h.gcbOne
    incbOne := h.incbOne, wbOne := h.wbOne, scriptsFew := h.scriptsFew }

theorem eU_complete : Complete eU rN :=
  more_aliases rU_complete (fun s hs => List.mem_append_left _ hs) (by decide +kernel) rfl

theorem eU_functional : ∀ s ∈ eU.aliases, Functional s.2 := by
  have : eU.aliases.all (fun s => s.2.all (fun x => s.2.all fun y => decide (x.1 = y.1 → x.2 = y.2))) = true := by decide +kernel
  exact fun s hs => functional_of (List.all_eq_true.1 this s hs)

theorem eU_loads : ∃ D, Loads (filesOf eU) D :=
  C53_accepts eU_describes eU_complete.titles rN.gc eU_complete.gcIn eU_complete.gcOk (fun e he => eU_complete.words e (by tauto))
    eU_complete.gcKnown

def distinctIds (l : List (Str × Str)) : Bool := l.all fun x => l.all fun y => decide (sanitize x.2 = sanitize y.2 → x = y)

theorem distinct_ok {l : List (Str × Str)} (h : distinctIds l = true) : ∀ a f b g, (a, f) ∈ l → (b, g) ∈ l → Clash f g → (a, f) = (b, g) :=
  fun _ _ _ _ m m' hc => of_decide_eq_true (List.all_eq_true.1 (List.all_eq_true.1 h _ m) _ m') ((clash_iff _ _).1 hc)

def entryIds (l : List Entry) : Bool := l.all fun x => l.all fun y => decide (sanitize x.2.2 = sanitize y.2.2 → x.2.2 = y.2.2)

theorem entryIds_ok {l : List Entry} (h : entryIds l = true) : ∀ e ∈ l, ∀ e' ∈ l, Clash e.2.2 e'.2.2 → e.2.2 = e'.2.2 :=
  fun _ m _ m' hc => of_decide_eq_true (List.all_eq_true.1 (List.all_eq_true.1 h _ m) _ m') ((clash_iff _ _).1 hc)

theorem eU_noClash : NoClash eU rN where
  titles := by
    have : eU.aliases.all (fun s => decide (s.1 ≠ "Plane".toList) && decide (s.1 ≠ "Core_Property".toList)) = true := by decide +kernel
    intro s hs
    have h := List.all_eq_true.1 this s hs
    rw [Bool.and_eq_true] at h
    exact ⟨of_decide_eq_true h.1, of_decide_eq_true h.2⟩
  values := by
    have : eU.aliases.all (fun s => distinctIds s.2) = true := by decide +kernel
    rintro prop es ⟨hs, -⟩ a f b g m m' hc
    have := distinct_ok (List.all_eq_true.1 this _ hs) _ _ _ _ m m' hc
    exact congrArg Prod.fst this
  undefined := by
    have : rN.gcb.all (fun x => decide (sanitize x.2 ≠ sanitize "Undefined".toList)) = true := by decide +kernel
    intro a f m hc
    exact of_decide_eq_true (List.all_eq_true.1 this _ m) ((clash_iff _ _).1 hc)
  ages := fun a f b g m m' _ hc => congrArg Prod.fst (distinct_ok (show distinctIds rN.age = true by decide +kernel) _ _ _ _ m m' hc)
  core := entryIds_ok (by decide +kernel)
  gc := fun a f b g m m' hc => congrArg Prod.snd (distinct_ok (show distinctIds rN.gc = true by decide +kernel) _ _ _ _ m m' hc)
  scripts := entryIds_ok (by decide +kernel)
  scriptsReserved := by
    have : eU.scripts.all (fun x => decide (sanitize x.2.2 ≠ sanitize "Invalid".toList) && decide (sanitize x.2.2 ≠ sanitize "Unknown".toList)) = true := by
      decide +kernel
    intro e m
    have h := List.all_eq_true.1 this _ m
    rw [Bool.and_eq_true] at h
    exact ⟨fun hc => of_decide_eq_true h.1 ((clash_iff _ _).1 hc), fun hc => of_decide_eq_true h.2 ((clash_iff _ _).1 hc)⟩
  blocks := entryIds_ok (by decide +kernel)
  blocksReserved := by
    have : eU.blocks.all (fun x => decide (sanitize x.2.2 ≠ sanitize "Unspecified".toList)) = true := by decide +kernel
    intro e m hc
    exact of_decide_eq_true (List.all_eq_true.1 this _ m) ((clash_iff _ _).1 hc)

def plainOk (s : Str) : Bool := s.all fun c => decide (c ≠ ' ') && decide (c ≠ '-')

theorem plainOk_ok {s : Str} (h : plainOk s = true) : Plainly s := by
  intro c hc
  have := List.all_eq_true.1 h c hc
  rw [Bool.and_eq_true] at this
  exact ⟨of_decide_eq_true this.1, of_decide_eq_true this.2⟩

def plainVals (l : List (Str × Str)) : Bool := l.all fun x => plainOk x.2

theorem plainVals_ok {l : List (Str × Str)} (h : plainVals l = true) : ∀ a f, (a, f) ∈ l → Plainly f :=
  fun _ _ m => plainOk_ok (List.all_eq_true.1 h _ m)

theorem eU_plain : PlainNames eU rN where
  scripts := by
    have : eU.scripts.all (fun e => plainOk e.2.2) = true := by decide +kernel
    exact fun e he => plainOk_ok (List.all_eq_true.1 this e he)
  gc := plainVals_ok (by decide +kernel)
  eaw := plainVals_ok (by decide +kernel)
  age := plainVals_ok (by decide +kernel)
  gcb := plainVals_ok (by decide +kernel)
  incb := plainVals_ok (by decide +kernel)
  wb := plainVals_ok (by decide +kernel)

/-- C55 applies: the header of the small database exists, declares what the files say, nothing twice, numbers the first
version after `Unassigned`, and prints the enumerators of every enumeration by their names. -/
theorem sample_enums {D : Db} (hl : Loads (filesOf eU) D) :
    ∃ enums, collectEnums D = some enums ∧ (∀ E id, Declares enums E id ↔ Enumerator eU rN E id) ∧
      (enums.map EnumDef.name).Nodup ∧ (∀ d ∈ enums, d.identifiers.Nodup) ∧
      (∀ d ∈ enums, ∀ i m, d.members[i]? = some m → d.stream i = m) ∧
      Declares enums "Block".toList "Latin_1_Supplement".toList ∧ Declares enums "Age".toList "V10_0".toList ∧
      ¬ Declares enums "Alphabetic".toList "Yes".toList ∧ ¬ Declares enums "Script".toList "Beng".toList := by
  obtain ⟨enums, h1, h2⟩ := C55_exact hl eU_describes eU_complete eU_functional
  obtain ⟨h3, h4⟩ := C55_unique hl eU_describes eU_complete eU_functional eU_noClash enums h1
  refine ⟨enums, h1, h2, h3, h4, fun d hd i m hm => ((C55_print d (h4 d hd)).1 i m hm).2.1, ?_, ?_, ?_, ?_⟩
  · rw [h2]
    exact .block (e := en 0x80 0xFF "Latin-1 Supplement") (by decide +kernel) ((sanitize_iff _ _).1 (by decide +kernel))
  · rw [h2]
    exact .age (a := "10.0".toList) (f := "V10_0".toList) (by decide +kernel) ((sanitize_iff _ _).1 (by decide +kernel))
  · rw [h2]
    generalize hI : "Yes".toList = id'
    generalize hE : "Alphabetic".toList = E
    intro h
    cases h with
    | value hv hm _ =>
      subst hE
      obtain ⟨hv1, -, hv2, -⟩ := hv
      have hinj := List.inj_on_of_nodup_map eU_complete.titles
      have := hinj hv1 (show ("Alphabetic".toList, al [("N", "No"), ("Y", "Yes")]) ∈ eU.aliases by decide +kernel) rfl
      injection this with _ he
      subst he
      apply hv2
      refine ⟨"Y".toList, "N".toList, by decide +kernel, by decide +kernel, ?_⟩
      have key : ∀ x ∈ al [("N", "No"), ("Y", "Yes")], x = ("Y".toList, "Yes".toList) ∨ x = ("N".toList, "No".toList) := by decide +kernel
      exact key
    | _ => exact absurd hE (by decide)
  · rw [h2]
    generalize hI : "Beng".toList = id'
    generalize hE : "Script".toList = E
    intro h
    cases h with
    | scriptFixed hs =>
      have : ∀ s ∈ ["Invalid", "Unknown", "Common"], "Beng".toList ≠ s.toList := by decide
      exact this _ hs hI
    | @script e _ he hi =>
      subst hI
      have key : eU.scripts.all (fun e => decide (sanitize e.2.2 ≠ "Beng".toList)) = true := by decide +kernel
      exact of_decide_eq_true (List.all_eq_true.1 key e he) ((sanitize_iff _ _).2 hi)
    | value hv _ _ =>
      subst hE
      exact hv.2.2.2 (by decide)
    | _ => exact absurd hE (by decide)

/-- Every row of the table and every answer of a query function of the small database is an enumerator of its header. -/
example {D : Db} (hl : Loads (filesOf eU) D) :
    ∃ enums, collectEnums D = some enums ∧
      (∀ c v, apiBlock D c = .ok v → Declares enums "Block".toList v) ∧
      ∀ c r, Row.Says eU rN c r → Declares enums "Word_Break".toList r.wb := by
  obtain ⟨enums, h1, h2⟩ := C55_exact hl eU_describes eU_complete eU_functional
  refine ⟨enums, h1, fun c v hv => (h2 _ _).2 ?_, fun c r hr => (h2 _ _).2 ?_⟩
  · exact (C55_query hl eU_describes eU_complete eU_plain c).2.2.2.1 v hv
  · exact (C55_row eU_complete eU_plain (by decide) hr).2.2.2.2.2.2

def scripts3 : List (Str × Str) := al [("Deva", "Devanagari"), ("Hani", "Han"), ("Latn", "Latin")]

theorem eU_words : ∀ e ∈ eU.sce, ∃ ws, WordsOf e.2.2 ws ∧ ∀ w ∈ ws, Letters w ∧ ∃ n, (w, n) ∈ scripts3 := by
  have hL : ∀ s : Str, (s ≠ [] && s.all Char.isAlpha) = true → Letters s := by
    intro s h; simp at h; exact h
  have one : ∀ s : Str, wordOk s = true → WordsOf s [s] := fun s h => .one (wordOk_ok h)
  have two : ∀ s t : Str, wordOk s = true → wordOk t = true → WordsOf (s ++ [' '] ++ t) [s, t] :=
    fun s t h h' => .cons (wordOk_ok h) blank1 (by simp) (one t h')
  have d : Letters "Deva".toList ∧ ∃ n, ("Deva".toList, n) ∈ scripts3 := ⟨hL _ (by decide), "Devanagari".toList, by decide +kernel⟩
  have l : Letters "Latn".toList ∧ ∃ n, ("Latn".toList, n) ∈ scripts3 := ⟨hL _ (by decide), "Latin".toList, by decide +kernel⟩
  intro e he
  have he : e = en 0x363 0x36F "Latn" ∨ e = en 0x951 0x951 "Deva Latn" := by
    simpa [eU] using he
  rcases he with rfl | rfl
  · refine ⟨["Latn".toList], one _ (by decide), fun w h => ?_⟩
    rw [List.mem_singleton] at h
    rw [h]; exact l
  · refine ⟨["Deva".toList, "Latn".toList], two "Deva".toList "Latn".toList (by decide) (by decide), fun w h => ?_⟩
    rcases List.mem_cons.1 h with h | h
    · rw [h]; exact d
    · rw [List.mem_singleton] at h
      rw [h]; exact l

/-- The hypotheses of `C55_query_lists` are met. -/
example {D : Db} (hl : Loads (filesOf eU) D) (c : Nat) :
    ∃ m, amFind D.aliases "Script".toList = some m ∧
      ∀ l, apiScriptExtensions D m c = .ok (some l) → ∀ s ∈ l, Enumerator eU rN "Script".toList s := by
  refine (C55_query_lists hl eU_describes eU_complete eU_plain scripts3
    (by decide +kernel) (functional_of (by decide +kernel)) eU_words ?_ (by decide +kernel) (by decide) (by decide) c).1
  intro w n h _
  have key : ∀ x ∈ scripts3, ∃ e ∈ eU.scripts, e.2.2 = x.2 := by decide +kernel
  exact key _ h

/-! ## Two abbreviations with the same long name -/

/-- A section in which two abbreviations stand for the same name. -/
def shU : Contents := { rU with aliases := rU.aliases ++ [("Joining_Type".toList, al [("T", "Transparent"), ("U", "Non_Joining"), ("X", "Non_Joining")])] }

theorem shU_describes : Describes (filesOf shU) shU := writable_describes (by constructor <;> decide +kernel)

theorem shU_complete : Complete shU rN :=
  more_aliases rU_complete (fun s hs => List.mem_append_left _ hs) (by decide +kernel) rfl

/-- Without the condition that the long names of a section differ, `C55_unique` is false: the data parse, the files satisfy
everything else, and the generated header declares an enumerator twice. -/
theorem C55_fails_shared_name :
    (∃ D, Loads (filesOf shU) D) ∧ Complete shU rN ∧ (∀ s ∈ shU.aliases, Functional s.2) ∧
    ∀ D, Loads (filesOf shU) D → ∃ enums, collectEnums D = some enums ∧ ∃ d ∈ enums, ¬ d.identifiers.Nodup := by
  have hfun : ∀ s ∈ shU.aliases, Functional s.2 := by
    have : shU.aliases.all (fun s => s.2.all (fun x => s.2.all fun y => decide (x.1 = y.1 → x.2 = y.2))) = true := by decide +kernel
    exact fun s hs => functional_of (List.all_eq_true.1 this s hs)
  refine ⟨C53_accepts shU_describes shU_complete.titles rN.gc shU_complete.gcIn shU_complete.gcOk (fun e he => shU_complete.words e (by tauto))
    shU_complete.gcKnown, shU_complete, hfun, fun D hl => ?_⟩
  obtain ⟨enums, h1, -⟩ := C55_exact hl shU_describes shU_complete hfun
  refine ⟨enums, h1, ⟨"Joining_Type".toList, ["Non_Joining".toList, "Non_Joining".toList, "Transparent".toList]⟩, ?_, by decide⟩
  have hin := (aliases_mem hl shU_describes shU_complete.titles "Joining_Type".toList
    (aliasMap (al [("T", "Transparent"), ("U", "Non_Joining"), ("X", "Non_Joining")]) [])).2 ⟨by decide, _, by decide +kernel, rfl⟩
  unfold collectEnums at h1
  obtain ⟨age, -, rfl⟩ := Option.map_eq_some_iff.1 h1
  refine List.mem_cons_of_mem _ (List.mem_append_right _ (List.mem_append_left _ (List.mem_filterMap.2 ⟨_, hin, ?_⟩)))
  decide +kernel

end Verif.Props.Tg
