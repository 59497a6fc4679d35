import Verif.Props.TgProgram
import Verif.Props.TgEnums2
/-!
# C71: `ucd_enums.h`, `ucd_ostream.h` and `ucd_fmt.h`, from the data files to the disk
-/

namespace Verif.Props.Tg

open Verif Verif.Tg
open Verif.Spec.Ucd
open Verif.Spec.UcdFile
open Verif.Spec.Cxx (Ident Item Piece Part Consists Means)

/-- What the files call an enumeration or an enumerator is an identifier of C++. -/
def Identifiers (U : Contents) (N : ValueNames) : Prop := ∀ E id, Enumerator U N E id → Ident E ∧ Ident id

theorem sanitize_clean {m : Str} (h : Ident (sanitize m)) : ∀ c ∈ m, c ≠ '"' ∧ c ≠ '\\' ∧ c ≠ '\n' := by
  intro c hc
  have key : ∀ x : Char, Spec.Cxx.isWord x = false → ¬ (x = ' ' ∨ x = '-') → c ≠ x := by
    rintro x hx hn rfl
    have hm : c ∈ sanitize m := by
      unfold sanitize
      refine List.mem_map.2 ⟨c, hc, ?_⟩
      rw [if_neg hn]
    rw [h.2.1 c hm] at hx
    cases hx
  exact ⟨key _ (by decide) (by decide), key _ (by decide) (by decide), key _ (by decide) (by decide)⟩

theorem enumsOk_of {D : Db} {U : Contents} {N : ValueNames} {enums : List EnumDef} (hc : collectEnums D = some enums) (hd : ∀ E id, Declares enums E id ↔ Enumerator U N E id)
    (hi : Identifiers U N) : EnumsOk enums := by
  have mem : ∀ d ∈ enums, ∀ m ∈ d.members, Ident d.name ∧ Ident (sanitize m) := fun d hd' m hm =>
    hi _ _ ((hd _ _).1 ⟨d, hd', rfl, List.mem_map_of_mem hm⟩)
  have lit : ∀ s : String, identB s.toList = true → Ident s.toList := fun s h => ident_of h
  have fixed : ∀ d ∈ enums, d.members = [] → Ident d.name := by
    intro d hd' he
    unfold collectEnums at hc
    obtain ⟨age, ha, rfl⟩ := Option.map_eq_some_iff.1 hc
    rcases List.mem_cons.1 hd' with rfl | hd'
    · exact ident_of (by decide)
    rcases List.mem_append.1 hd' with hd' | hd'
    · unfold ageEnum at ha
      split at ha
      · obtain rfl := Option.some.inj ha; cases hd'
      · split at ha
        · obtain rfl := Option.some.inj ha; cases hd'
        · obtain ⟨ms, -, rfl⟩ := Option.map_eq_some_iff.1 ha
          rw [List.mem_singleton.1 hd']
          exact lit "Age" (by decide)
    rcases List.mem_append.1 hd' with hd' | hd'
    · obtain ⟨e, -, he'⟩ := List.mem_filterMap.1 hd'
      unfold pvaEnum at he'
      split at he'
      · cases he'
      · rename_i hne
        split at he'
        · cases he'
        · split at he'
          · cases he'
          · obtain rfl := Option.some.inj he'
            exfalso
            have h2 := (List.append_eq_nil_iff.1 he).2
            have h3 : (sortStrs (e.2.map (·.2))).length = e.2.length := (length_sortStrs _).trans (List.length_map _)
            rw [h2] at h3
            exact hne (List.length_eq_zero_iff.1 h3.symm)
    · have cases' : ∀ x ∈ [coreEnum D, gcEnum D, scriptEnum D, blockEnum D, widthEnum], Ident x.name :=
        List.forall_mem_cons.2 ⟨lit "Core_Property" (by decide), List.forall_mem_cons.2 ⟨lit "General_Category" (by decide),
          List.forall_mem_cons.2 ⟨lit "Script" (by decide), List.forall_mem_cons.2 ⟨lit "Block" (by decide),
          List.forall_mem_cons.2 ⟨lit "EastAsianWidth" (by decide), fun _ h => nomatch h⟩⟩⟩⟩⟩
      exact cases' d hd'
  intro d hd'
  refine ⟨?_, fun m hm => (mem d hd' m hm).2, fun m hm => sanitize_clean (mem d hd' m hm).2⟩
  cases e : d.members with
  | nil => exact fixed d hd' e
  | cons m ms => exact (mem d hd' m (e ▸ List.mem_cons_self ..)).1

/-! ## The theorems -/

/-- **C71, enumerations.** After a run with enough room on the disk, `ucd_enums.h` in the output directory consists of enumerations in `namespace
unicode`, numbered from 0, in types that hold the numbers, and declares `E::id` exactly if the data files say so (for every `E` and `id`); if no two titles
become the same identifier, no name is declared twice. -/
theorem C71_enums (same : Nat → Nat → Bool) (dir : Dir) (ucd : Str) (A : AllFiles) (U : Contents) (N : ValueNames) (hh : Holds dir ucd A)
    (hd : Describes A.toFiles U) (hr : Release U N) (hi : Identifiers U N) (env : Os) (hw : Willing env) (a0 out : Str) (rest : List Str)
    (disk : Disk) (code : Nat) (disk' : Disk) (h : RunsOn same dir env (a0 :: ucd :: out :: rest) disk code disk') :
    ∃ (text : Str) (ps : List Piece) (enums : List (Str × Str × List Str)), disk' (inDir out "ucd_enums.h".toList) = some text ∧ Consists text ps ∧
      List.Forall₂ Means ps (enums.map fun e => .item inUnicode (.enum e.1 e.2.1 e.2.2.zipIdx)) ∧
      (∀ e ∈ enums, e.2.2.length < 2 ^ 64 → Fits e.2.1 (List.range e.2.2.length)) ∧
      (∀ E id, Enumerator U N E id ↔ ∃ type ids, (E, type, ids) ∈ enums ∧ id ∈ ids) ∧
      (NoClash U N → (enums.map (·.1)).Nodup ∧ ∀ e ∈ enums, e.2.2.Nodup) := by
  obtain ⟨P, i, enums, al, hl, -, -, hce, -, hf⟩ := files_of hh hd hr hw h
  obtain ⟨enums', h1, hdec⟩ := C55_exact hl hd hr.complete hr.functional
  rw [hce] at h1
  obtain rfl := Option.some.inj h1
  have hok := enumsOk_of hce hdec hi
  obtain ⟨ps, p1, p2⟩ := enums_consists enums hok
  refine ⟨_, ps, enums.map fun d => (d.name, minimalUintText d.members.length, d.identifiers), (hf _ (by decide)).trans rfl, p1, ?_, ?_, ?_, ?_⟩
  · rw [List.map_map]; exact p2
  · intro e he hlt
    obtain ⟨d, -, rfl⟩ := List.mem_map.1 he
    have e : d.identifiers.length = d.members.length := List.length_map _
    show Fits _ (List.range d.identifiers.length)
    have hlt' : d.identifiers.length < 2 ^ 64 := hlt
    rw [e] at hlt' ⊢
    exact minimalUint_fits _ hlt'
  · intro E id
    rw [← hdec]
    constructor
    · rintro ⟨d, hd', rfl, hm⟩
      exact ⟨_, _, List.mem_map.2 ⟨d, hd', rfl⟩, hm⟩
    · rintro ⟨type, ids, hm, hid⟩
      obtain ⟨d, hd', e⟩ := List.mem_map.1 hm
      obtain ⟨e1, e2⟩ := Prod.mk.inj e
      obtain ⟨-, e3⟩ := Prod.mk.inj e2
      exact ⟨d, hd', e1, by rw [e3]; exact hid⟩
  · intro hn
    obtain ⟨u1, u2⟩ := C55_unique hl hd hr.complete hr.functional hn enums hce
    refine ⟨?_, ?_⟩
    · rw [List.map_map]; exact u1
    · intro e he
      obtain ⟨d, hd', rfl⟩ := List.mem_map.1 he
      exact u2 d hd'

/-- **C71, printing.** After such a run the enumerations of `ucd_enums.h` are, one by one, those with an operator `<<` in `ucd_ostream.h` and those with
a formatter in `ucd_fmt.h`. -/
theorem C71_printed (same : Nat → Nat → Bool) (dir : Dir) (ucd : Str) (A : AllFiles) (U : Contents) (N : ValueNames) (hh : Holds dir ucd A)
    (hd : Describes A.toFiles U) (hr : Release U N) (hi : Identifiers U N) (env : Os) (hw : Willing env) (a0 out : Str) (rest : List Str)
    (disk : Disk) (code : Nat) (disk' : Disk) (h : RunsOn same dir env (a0 :: ucd :: out :: rest) disk code disk') :
    ∃ (tE tO tP : Str) (E O P : List Piece), disk' (inDir out "ucd_enums.h".toList) = some tE ∧ disk' (inDir out "ucd_ostream.h".toList) = some tO ∧
      disk' (inDir out "ucd_fmt.h".toList) = some tP ∧ Consists tE E ∧ Consists tO O ∧ Consists tP P ∧ E.length = O.length ∧ E.length = P.length ∧
      ∀ (i : Nat) (q : Piece), E[i]? = some q → ∃ name type members text text', Means q (.item inUnicode (.enum name type members)) ∧
        (∃ o, O[i]? = some o ∧ Means o (.defined (shiftOf name) text)) ∧ (∃ f, P[i]? = some f ∧ Means f (.formatter [] name text')) := by
  obtain ⟨P, i, enums, al, hl, -, -, hce, -, hf⟩ := files_of hh hd hr hw h
  obtain ⟨enums', h1, hdec⟩ := C55_exact hl hd hr.complete hr.functional
  rw [hce] at h1
  obtain rfl := Option.some.inj h1
  have hok := enumsOk_of hce hdec hi
  obtain ⟨E, p1, -⟩ := enums_consists enums hok
  obtain ⟨O, o1, -⟩ := C68_ostream enums hok
  obtain ⟨Q, q1, -⟩ := C68_formatters enums hok
  exact ⟨_, _, _, E, O, Q, (hf _ (by decide)).trans rfl, (hf _ (by decide)).trans rfl, (hf _ (by decide)).trans rfl, p1, o1, q1, C68_printed enums hok E O Q p1 o1 q1⟩

/-! ## An example -/

theorem eU_identifiers : Identifiers eU rN := by
  have lit : ∀ s : String, identB s.toList = true → Ident s.toList := fun s h => ident_of h
  have via : ∀ {f id : Str}, Identifier f id → identB (sanitize f) = true → Ident id := fun {f id} h1 h2 => by
    rw [(sanitize_identifier f id).2 h1]; exact ident_of h2
  intro E id h
  cases h with
  | @plane n h =>
    have : ∀ n ∈ planeNames, identB n.toList = true := by decide +kernel
    exact ⟨lit _ (by decide), ident_of (this n h)⟩
  | unassigned => exact ⟨lit _ (by decide), lit _ (by decide)⟩
  | age h1 h2 => exact ⟨lit _ (by decide), via h2 (by have : ∀ x ∈ rN.age, identB (sanitize x.2) = true := by decide +kernel
                                                      exact this _ h1)⟩
  | undefined => exact ⟨lit _ (by decide), lit _ (by decide)⟩
  | value h1 h2 h3 =>
    have hall : ∀ s ∈ eU.aliases, identB s.1 = true ∧ ∀ x ∈ s.2, identB (sanitize x.2) = true := by decide +kernel
    have := hall _ h1.1
    exact ⟨ident_of this.1, via h3 (this.2 _ h2)⟩
  | core h1 h2 h3 =>
    have : ∀ x ∈ eU.core, identB (sanitize x.2.2) = true ∨ ¬ Spec.UcdFile.Word x.2.2 := by
      unfold Spec.UcdFile.Word; decide +kernel
    exact ⟨lit _ (by decide), via h3 ((this _ h1).resolve_right (fun h => h h2))⟩
  | gcUnspecified => exact ⟨lit _ (by decide), lit _ (by decide)⟩
  | gc _ h1 h2 => exact ⟨lit _ (by decide), via h2 (by have : ∀ x ∈ rN.gc, identB (sanitize x.2) = true := by decide +kernel
                                                       exact this _ h1)⟩
  | @scriptFixed s h =>
    have : ∀ s ∈ ["Invalid", "Unknown", "Common"], identB s.toList = true := by decide +kernel
    exact ⟨lit _ (by decide), ident_of (this s h)⟩
  | script h1 h2 => exact ⟨lit _ (by decide), via h2 (by have : ∀ x ∈ eU.scripts, identB (sanitize x.2.2) = true := by decide +kernel
                                                         exact this _ h1)⟩
  | blockUnspecified => exact ⟨lit _ (by decide), lit _ (by decide)⟩
  | block h1 h2 => exact ⟨lit _ (by decide), via h2 (by have : ∀ x ∈ eU.blocks, identB (sanitize x.2.2) = true := by decide +kernel
                                                        exact this _ h1)⟩
  | @width w h =>
    have : ∀ w ∈ ["Ambiguous", "FullWidth", "HalfWidth", "Neutral", "Narrow", "Wide", "Unspecified"], identB w.toList = true := by decide +kernel
    exact ⟨lit _ (by decide), ident_of (this w h)⟩

example (disk : Disk) : ∃ disk', RunsOn (fun _ _ => false) (dirOf "ucd".toList sampleAll) ⟨fun _ => true, fun _ => none⟩
    ["unicode_tablegen".toList, "ucd".toList, "out".toList] disk 0 disk' ∧
    ∃ (text : Str) (ps : List Piece) (enums : List (Str × Str × List Str)), disk' "out/ucd_enums.h".toList = some text ∧ Consists text ps ∧
      List.Forall₂ Means ps (enums.map fun e => .item inUnicode (.enum e.1 e.2.1 e.2.2.zipIdx)) ∧
      ∃ type ids, ("Script".toList, type, ids) ∈ enums ∧ "Common".toList ∈ ids := by
  have hh := dirOf_holds "ucd".toList sampleAll sampleAll_clean
  obtain ⟨D, hl⟩ := eU_loads
  obtain ⟨disk', hr⟩ := C71_runs (fun _ _ => false) _ _ sampleAll eU rN hh eU_describes eU_release eU_few List.Pairwise.nil (by decide) (fun i j _ _ h => by cases h) D hl ⟨fun _ => true, fun _ => none⟩ "unicode_tablegen".toList "out".toList [] disk
  obtain ⟨text, ps, enums, h1, h2, h3, -, h4, -⟩ := C71_enums _ _ _ sampleAll eU rN hh eU_describes eU_release eU_identifiers _
    ⟨fun _ => rfl, fun _ => rfl⟩ _ _ _ _ _ _ hr
  exact ⟨disk', hr, text, ps, enums, h1, h2, h3, (h4 _ _).1 (.scriptFixed (s := "Common") (by decide))⟩

end Verif.Props.Tg
