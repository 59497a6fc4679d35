import Verif.Lemmas.TgWorld
import Verif.Props.TgProgramEnums
/-!
# C71: the functions of `ucd.cpp`, from the data files to the calls

The functions are called in a program where every name means what `ucd.cpp` and `ucd_enums.h` declare (`Linked`); there is such a program unless a name is declared twice.
-/

namespace Verif.Props.Tg

open Verif Verif.Tg
open Verif.Spec.Ucd
open Verif.Spec.UcdFile
open Verif.Spec.Cxx (Ident Item Piece Part Consists Means Sig Fn World Value Res DefinesFn Reads Agrees Val)

/-- **C71, functions.** After a run with enough room on the disk, `ucd.cpp` and `ucd_enums.h` in the output directory consist of declarations and definitions;
and in every program where names mean what these declare, the functions of `ucd.cpp` answer, for every codepoint, what the data files say.  There are such
programs unless two tables or two enumerators would have the same name. -/
theorem C71_api (same : Nat → Nat → Bool) (dir : Dir) (ucd : Str) (A : AllFiles) (U : Contents) (N : ValueNames) (hh : Holds dir ucd A)
    (hd : Describes A.toFiles U) (hr : Release U N) (hi : Identifiers U N) (scripts : List (Str × Str)) (hq : Queryable U N scripts) (hn : Namable U N scripts)
    (hc : Comments A) (env : Os) (hw : Willing env) (a0 out : Str) (rest : List Str)
    (disk : Disk) (code : Nat) (disk' : Disk) (h : RunsOn same dir env (a0 :: ucd :: out :: rest) disk code disk') :
    ∃ text textE ps es, disk' (inDir out "ucd.cpp".toList) = some text ∧ Consists text ps ∧ disk' (inDir out "ucd_enums.h".toList) = some textE ∧ Consists textE es ∧
      (∀ W, Linked W ps inTables → Linked W es inUnicode → Answers U N scripts ps W) ∧
      (NoClash U N → TablesApart U → ∃ W, Linked W ps inTables ∧ Linked W es inUnicode) := by
  obtain ⟨text, textE, ps, es, h1, h2, h3, h4, h5, P, al, enums, hpa, hce, q2, p2⟩ := api_of same dir ucd A U N hh hd hr hi scripts hq hn hc env hw a0 out rest disk code disk' h
  refine ⟨text, textE, ps, es, h1, h2, h3, h4, h5, fun hcl ha => ?_⟩
  obtain ⟨u1, u2⟩ := C55_unique hpa.loads hd hr.complete hr.functional hcl enums hce
  obtain ⟨W, -, w1, w2⟩ := Verif.Tg.World.linked_exists hpa hd hr hq ha u1 u2 q2 p2 (fun _ _ => .val (.bool true))
  exact ⟨W, w1, w2⟩

/-! ## The header -/

theorem content_header (i : GenInput) (enums : List EnumDef) (D : UcdData) (ns : Str) : content i enums D ns "ucd.h".toList = some (ucdHeader D) := by
  unfold content
  rw [if_neg (by decide), if_pos rfl]

/-- The functions that `ucd.h` defines: in a program where names mean what the files declare and `contains` means the function `g` of `ucd.cpp`, the functions
`general_category::is_…` tell for every codepoint whether it is in the category, and `to_string` returns the name of a width. -/
structure HeaderAnswers (U : Contents) (N : ValueNames) (hs : List Piece) (g : Fn) (W : World) : Prop where
  category : (∀ k c, W.category k c = g.call W [.num k, .num c]) → ∀ s ∈ U.gc, ∃ f, Defined hs (named inCategory "bool".toList ("is_".toList ++ lower s.1)) f ∧
    ∀ c, (f.call W [.num c] = .val (.bool true) ↔ CategoryOf (allOf U.gc) N.gc c s.1) ∧ (f.call W [.num c] = .val (.bool false) ↔ ¬ CategoryOf (allOf U.gc) N.gc c s.1)
  width : ∃ f, Defined hs widthToString f ∧ ∀ w ∈ ["Ambiguous", "FullWidth", "HalfWidth", "Neutral", "Narrow", "Wide", "Unspecified"],
    ∃ k, W.number ["EastAsianWidth".toList, w.toList] = some k ∧ f.call W [.num k] = .val (.text w.toList)

/-- **C71, header.** After such a run `ucd.h` declares exactly the functions that `ucd.cpp` defines, and the functions it defines itself answer what the data files say. -/
theorem C71_header (same : Nat → Nat → Bool) (dir : Dir) (ucd : Str) (A : AllFiles) (U : Contents) (N : ValueNames) (hh : Holds dir ucd A)
    (hd : Describes A.toFiles U) (hr : Release U N) (hi : Identifiers U N) (scripts : List (Str × Str)) (hq : Queryable U N scripts) (hn : Namable U N scripts)
    (hc : Comments A) (env : Os) (hw : Willing env) (a0 out : Str) (rest : List Str)
    (disk : Disk) (code : Nat) (disk' : Disk) (h : RunsOn same dir env (a0 :: ucd :: out :: rest) disk code disk') :
    ∃ text textE textH ps es hs g, disk' (inDir out "ucd.cpp".toList) = some text ∧ Consists text ps ∧ disk' (inDir out "ucd_enums.h".toList) = some textE ∧
      Consists textE es ∧ disk' (inDir out "ucd.h".toList) = some textH ∧ Consists textH hs ∧ (hs.filterMap Piece.declares).Perm (ps.filterMap Piece.defines) ∧
      Defined ps (containsOf "General_Category".toList) g ∧ (∀ W, Linked W ps inTables → Linked W es inUnicode → HeaderAnswers U N hs g W) ∧
      (NoClash U N → TablesApart U → ∃ W, Linked W ps inTables ∧ Linked W es inUnicode ∧ ∀ k c, W.category k c = g.call W [.num k, .num c]) := by
  obtain ⟨P, i, enums, al, hl, hpa, -, hce, hal, hf⟩ := files_of hh hd hr hw h
  obtain ⟨enums', h1, hdec⟩ := C55_exact hl hd hr.complete hr.functional
  rw [hce] at h1
  obtain rfl := Option.some.inj h1
  have hek := enumsOk_of hce hdec hi
  obtain ⟨es, p1, p2⟩ := enums_consists enums hek
  have hok := ucdOk_of hpa hd hr hq hn (holds_clean hh) hc hal
  obtain ⟨ps, q1, q2⟩ := C67_source _ hok
  obtain ⟨hs, r1, r2⟩ := C67_header _ hok
  obtain ⟨g1, g2⟩ := gc_in hce
  obtain ⟨g, d1, d2⟩ := api_contains hl hd hpa hr hq (gc_idents hpa hok) q2 hok
  refine ⟨ucdSource (apiData P al), enumsFile enums, ucdHeader (apiData P al), ps, es, hs, g, (hf _ (by decide)).trans (content_source _ _ _ _), q1,
    (hf _ (by decide)).trans (content_enums _ _ _ _), p1, (hf _ (by decide)).trans (content_header _ _ _ _), r1, C67_linked _ hok _ _ r1 q1, d1, fun W hW hE => ?_, fun hcl ha => ?_⟩
  · obtain ⟨d3, -⟩ := d2 W (enum_agrees p2 hek hE g2) hW
    refine ⟨fun hcat s hs => ?_, ?_⟩
    · obtain ⟨k, k1, k2⟩ := d3 s hs
      obtain ⟨f, f1, -, f2⟩ := C64_is_category s.1 (hn.gc s hs)
      obtain ⟨m, m1, m2, m3, m4⟩ := gc_loaded hl hd hr.complete.titles N.gc hr.complete.gcIn hr.complete.gcOk hq.gc.words
      have hkeys : P.gcMap.map (·.1) = P.db.gcMap.map (·.1) := by rw [← hpa.gcMap.1, List.map_map]; rfl
      have hmem : s.1 ∈ P.gcMap.map (·.1) := by
        rw [hkeys, m3]
        exact List.mem_map.2 ⟨_, amFind_mem _ _ _ (sectionsMap_find _ _ hq.gcTitles _ _ hs), rfl⟩
      obtain ⟨x, hx, ex⟩ := List.mem_map.1 hmem
      refine ⟨f, ?_, fun c => ?_⟩
      · have e : "is_".toList ++ lower s.1 = isName s.1 := congrArg ("is_".toList ++ ·) (lower_eq _).symm
        rw [e]
        refine defined_of r2 ?_ f1
        unfold headerParts
        simp only [List.mem_append, or_assoc]
        exact .inr (.inl (List.mem_map.2 ⟨x, hx, by rw [ex]⟩))
      · rw [f2 W g hcat k k1 c]
        exact k2 c
    · obtain ⟨f, f1, -, f2⟩ := C64_width_string
      refine ⟨f, ?_, ?_⟩
      · refine defined_of r2 ?_ f1
        unfold headerParts
        simp only [List.mem_append, or_assoc]
        exact .inr (.inr (.inr (.inr (.inl (List.mem_cons_self ..)))))
      · have hwE : widthEnum ∈ enums := by
          unfold collectEnums at hce
          obtain ⟨age, -, e⟩ := Option.map_eq_some_iff.1 hce
          rw [← e]
          exact List.mem_cons_of_mem _ (List.mem_append_right _ (List.mem_append_right _ (List.mem_of_getElem? (i := 4) rfl)))
        have hA := enum_agrees p2 hek hE hwE
        have hH := agrees_enum hA (ident_of (by decide)) (fun m hm => ident_of (by revert m; decide))
        intro w hw
        have key : ∀ w ∈ ["Ambiguous", "FullWidth", "HalfWidth", "Neutral", "Narrow", "Wide", "Unspecified"], ∃ k : Fin 7, (w.toList, k.val) ∈ widthEnum.identifiers.zipIdx ∧
          widthEnum.members[k.val]?.getD "Unknown".toList = w.toList := by decide +kernel
        obtain ⟨k, k1, k2⟩ := key w hw
        refine ⟨k.val, hH _ k1, ?_⟩
        rw [f2 W hA k.val, k2]
  · obtain ⟨u1, u2⟩ := C55_unique hl hd hr.complete hr.functional hcl enums hce
    obtain ⟨W0, -, v1, v2⟩ := Verif.Tg.World.linked_exists hpa hd hr hq ha u1 u2 q2 p2 (fun _ _ => .val (.bool true))
    let W : World := { W0 with category := fun k c => g.call W0 [.num k, .num c] }
    have has : ∀ i, W0.Has i → W.Has i := fun i h => by cases i <;> exact h
    have w1 : Linked W ps inTables := fun q hq hs item hu => has _ (v1 q hq hs item hu)
    have w2 : Linked W es inUnicode := fun q hq hs item hu => has _ (v2 q hq hs item hu)
    refine ⟨W, w1, w2, fun k c => ?_⟩
    show g.call W0 [.num k, .num c] = g.call W [.num k, .num c]
    obtain ⟨a1, a2⟩ := d2 W0 (enum_agrees p2 hek v2 g2) v1
    obtain ⟨b1, b2⟩ := d2 W (enum_agrees p2 hek w2 g2) w1
    by_cases hk : ∃ s ∈ U.gc, W0.number ["General_Category".toList, s.1] = some k
    · obtain ⟨s, hs, hk⟩ := hk
      obtain ⟨k1, x1, x2⟩ := a1 s hs
      obtain ⟨k2, y1, y2⟩ := b1 s hs
      rw [hk] at x1
      have y1' : W0.number ["General_Category".toList, s.1] = some k2 := y1
      rw [hk] at y1'
      cases x1
      cases y1'
      by_cases hx : CategoryOf (allOf U.gc) N.gc c s.1
      · rw [((x2 c).1).2 hx, ((y2 c).1).2 hx]
      · rw [((x2 c).2).2 hx, ((y2 c).2).2 hx]
    · have hk' : ∀ s ∈ U.gc, W0.number ["General_Category".toList, s.1] ≠ some k := fun s hs h => hk ⟨s, hs, h⟩
      rw [a2 k hk' c, b2 k hk' c]

/-! ## A case -/

/-- a small database with mirrored characters -/
def qU : Contents := { eU with mirrored := [(0x28, true), (0x29, true), (0x41, false), (0xAB, true)], glyphs := [(0x29, 0x28), (0x28, 0x29)] }

def sampleQ : AllFiles := { toFiles := filesOf qU, folding := [], casing := [], exclusions := [], normProps := [] }

theorem qU_describes : Describes sampleQ.toFiles qU := writable_describes (by constructor <;> decide +kernel)

theorem sampleQ_clean : ∀ x ∈ filesAndLines sampleQ, CleanLines x.2 := by
  have : (filesAndLines sampleQ).all (fun x => x.2.all fun l => decide ('\n' ∉ l ∧ '\r' ∉ l)) = true := by decide +kernel
  intro x hx l hl
  exact of_decide_eq_true (List.all_eq_true.1 (List.all_eq_true.1 this x hx) l hl)

theorem qU_complete : Complete qU rN :=
  let h := eU_complete
  { titles := h.titles, gcIn := h.gcIn, eawIn := h.eawIn, ageIn := h.ageIn, gcbIn := h.gcbIn, incbIn := h.incbIn
    wbIn := h.wbIn, gcOk := h.gcOk, gcFew := h.gcFew, gcReserved := h.gcReserved, eawOk := h.eawOk, ageOk := h.ageOk
    ageVersions := h.ageVersions, gcbOk := h.gcbOk, incbOk := h.incbOk, wbOk := h.wbOk, eawNeeds := h.eawNeeds, gcbNeeds := h.gcbNeeds
    incbNeeds := h.incbNeeds, wbNeeds := h.wbNeeds, gcNeeds := h.gcNeeds, words := h.words, coreWords := h.coreWords
    gcKnown := h.gcKnown, eawKnown := h.eawKnown, ageKnown := h.ageKnown, gcbKnown := h.gcbKnown, incbKnown := h.incbKnown
    wbKnown := h.wbKnown, scriptsOne := h.scriptsOne, gcOne := h.gcOne, eawOne := h.eawOne, agesOne := h.agesOne, gcbOne := h.gcbOne
    incbOne := h.incbOne, wbOne := h.wbOne, scriptsFew := h.scriptsFew }

theorem qU_release : Release qU rN where
  complete := qU_complete
  names := ⟨rU_longNames.scripts, rU_longNames.gc, rU_longNames.eaw, rU_longNames.age, rU_longNames.gcb, rU_longNames.incb, rU_longNames.wb⟩
  functional := eU_functional
  script := ⟨_, List.mem_append_right _ (List.mem_cons_of_mem _ (List.mem_cons_self ..))⟩

theorem qU_identifiers : Identifiers qU rN := by
  intro E id h
  refine eU_identifiers E id ?_
  cases h with
  | plane h => exact .plane h
  | unassigned h => exact .unassigned h
  | age h1 h2 => exact .age h1 h2
  | undefined h => exact .undefined h
  | value h1 h2 h3 => exact .value h1 h2 h3
  | core h1 h2 h3 => exact .core h1 h2 h3
  | gcUnspecified => exact .gcUnspecified
  | gc h0 h1 h2 => exact .gc h0 h1 h2
  | scriptFixed h => exact .scriptFixed h
  | script h1 h2 => exact .script h1 h2
  | blockUnspecified => exact .blockUnspecified
  | block h1 h2 => exact .block h1 h2
  | width h => exact .width h

theorem qU_noClash : NoClash qU rN :=
  let h := eU_noClash
  ⟨h.titles, h.values, h.undefined, h.ages, h.core, h.gc, h.scripts, h.scriptsReserved, h.blocks, h.blocksReserved⟩

theorem says_mirrored {U : Contents} {N : ValueNames} {c : Nat} {r : Row} (h : Row.Says U N c r) (a : List (Nat × Bool)) (x : List (Nat × Nat)) :
    Row.Says { U with mirrored := a, glyphs := x } N c r := by
  cases h
  constructor <;> assumption

theorem qU_few : FewRows qU rN := by
  obtain ⟨⟨blocks, h1, h2⟩, values, h3, h4⟩ := eU_few
  refine ⟨⟨blocks, h1, fun j hj => ?_⟩, values, h3, fun c hc => ?_⟩
  · obtain ⟨b, hb, hl, hs⟩ := h2 j hj
    exact ⟨b, hb, hl, fun k r hk => says_mirrored (hs k r hk) _ _⟩
  · obtain ⟨r, hr, hs⟩ := h4 c hc
    exact ⟨r, hr, says_mirrored hs _ _⟩

theorem qU_loads : ∃ D, Loads sampleQ.toFiles D :=
  C53_accepts qU_describes qU_complete.titles rN.gc qU_complete.gcIn qU_complete.gcOk (fun e he => qU_complete.words e (.inr (.inr (.inr (.inr (.inr (.inr (.inl he))))))))
    qU_complete.gcKnown

theorem withValue_separate {es : List Entry} (vs : List Str) (hv : es.all (fun e => vs.contains e.2.2) = true)
    (h : vs.all (fun v => decide (Separate (withValue es v))) = true) : ∀ p, Separate (withValue es p) := by
  intro p
  by_cases hp : p ∈ vs
  · exact of_decide_eq_true (List.all_eq_true.1 h p hp)
  · have : withValue es p = [] := by
      unfold withValue
      rw [List.filter_eq_nil_iff]
      intro e he hd
      have h1 := List.all_eq_true.1 hv e he
      rw [List.contains_iff_mem] at h1
      exact hp (of_decide_eq_true hd ▸ h1)
    rw [this]
    exact List.Pairwise.nil

theorem qU_queryable : Queryable qU rN scripts3 where
  script := ⟨fun e he => qU_complete.words e (.inl he), by unfold Separate; decide +kernel, by decide, by decide⟩
  gc := ⟨fun e he => qU_complete.words e (.inr (.inr (.inr (.inr (.inr (.inr (.inl he))))))), by unfold Separate; decide +kernel, by decide +kernel, by decide +kernel⟩
  gcTitles := by decide +kernel
  gcTitled := by decide +kernel
  gcSections := by unfold Ascending; decide +kernel
  eaw := ⟨fun e he => qU_complete.words e (.inr (.inr (.inl he))), by unfold Separate; decide +kernel, by decide, by decide⟩
  eawValues := by decide +kernel
  blocks := by unfold Ascending; decide +kernel
  blocksNonempty := by decide
  blocksSize := by decide
  emojiSize := by decide
  emoji := withValue_separate ["Emoji".toList, "Emoji_Presentation".toList, "Extended_Pictographic".toList] (by decide +kernel) (by unfold Separate; decide +kernel)
  coreSize := by decide
  core := withValue_separate ["Alphabetic".toList, "Grapheme_Extend".toList, "InCB; Linker".toList, "InCB; Consonant".toList, "InCB; Extend".toList] (by decide +kernel) (by unfold Separate; decide +kernel)
  gcbTitles := by decide +kernel
  gcb := by
    intro s hs
    have hs' := List.mem_singleton.1 hs
    refine ⟨fun e he => qU_complete.words e (.inr (.inr (.inr (.inr (.inr (.inr (.inr (.inl (List.mem_flatMap.2 ⟨s, hs, he⟩))))))))), ?_, ?_, ?_⟩ <;> rw [hs']
    · unfold Separate; decide +kernel
    · exact List.cons_ne_nil _ _
    · decide +kernel
  mirrored := by decide +kernel
  mirroredSome := ⟨0x28, List.mem_cons_self ..⟩
  mirroredSize := by decide
  glyphs := by decide +kernel
  scriptsIn := List.mem_append_right _ (List.mem_cons_of_mem _ (List.mem_cons_self ..))
  sce := by unfold Separate; decide +kernel
  sceNonempty := by decide
  sceSize := by decide
  sceWords := eU_words

theorem qU_namable : Namable qU rN scripts3 where
  core := by
    have : ∀ e ∈ qU.core, identB e.2.2 = true ∨ ¬ Spec.UcdFile.Word e.2.2 := by unfold Spec.UcdFile.Word; decide +kernel
    exact fun e he hw => ident_of ((this e he).resolve_right fun h => h hw)
  emoji := by
    have : ∀ e ∈ qU.emoji, identB e.2.2 = true := by decide +kernel
    exact fun e he => ident_of (this e he)
  blocks := by
    have : ∀ e ∈ qU.blocks, identB (sanitize e.2.2) = true := by decide +kernel
    intro e he id h
    rw [(sanitize_identifier _ _).2 h]
    exact ident_of (this e he)
  gc := by
    have : ∀ s ∈ qU.gc, identB s.1 = true := by decide +kernel
    exact fun s hs => ident_of (this s hs)
  gcb := by
    have : ∀ s ∈ qU.gcb, identB s.1 = true ∧ Unreserved s.1 ∧ s.1 ≠ "inline".toList ∧ ∀ e ∈ s.2, identB e.2.2 = true := by unfold Unreserved; decide +kernel
    exact fun s hs => ⟨ident_of (this s hs).1, (this s hs).2.1, (this s hs).2.2.1, fun e he => ident_of ((this s hs).2.2.2 e he)⟩
  scripts := by
    have : ∀ p ∈ scripts3, identB p.2 = true := by decide +kernel
    exact fun p hp => ident_of (this p hp)
  ages := by decide +kernel

theorem qU_comments : Comments sampleQ := by
  have : ∀ ls ∈ [sampleQ.core, sampleQ.gc, sampleQ.scripts, sampleQ.sce, sampleQ.gcb, sampleQ.eaw, sampleQ.emoji], ∀ l ∈ ls, '\\' ∉ l := by decide +kernel
  intro ls hls l hl a b e
  exact absurd (e ▸ List.mem_append_right a (List.mem_cons_self ..)) (this ls hls l hl)

theorem qU_apart : TablesApart qU := by
  let names : TableKind → List Str := fun k => match k with
    | .fixed => (["Plane", "General_Category", "Script", "sce", "Block", "EastAsianWidth", "Bidi_Mirrored", "Bidi_Mirroring_Glyph"]).map String.toList
    | .core => qU.core.map (·.2.2)
    | .category => qU.gc.map (·.1)
    | .breaks => qU.gcb.map (·.1)
    | .emoji => qU.emoji.map (·.2.2)
    | .scripts => []
  have h1 : ∀ k n, TableName qU k n → n ∈ names k ∨ k = .scripts ∧ n.take 4 = "sce_".toList := by
    intro k n h
    cases h with
    | fixed h => exact .inl (List.mem_map_of_mem h)
    | core h _ => exact .inl (List.mem_map_of_mem (f := fun e : Entry => e.2.2) h)
    | category h => exact .inl (List.mem_map_of_mem (f := fun s : Str × List Entry => s.1) h)
    | breaks h => exact .inl (List.mem_map_of_mem (f := fun s : Str × List Entry => s.1) h)
    | emoji h => exact .inl (List.mem_map_of_mem (f := fun e : Entry => e.2.2) h)
    | scripts => exact .inr ⟨rfl, rfl⟩
  have all : ∀ k : TableKind, k ∈ [TableKind.fixed, .core, .category, .breaks, .emoji, .scripts] := fun k => by cases k <;> decide
  have h2 : ∀ k ∈ [TableKind.fixed, .core, .category, .breaks, .emoji, .scripts], ∀ n ∈ names k, n.take 4 ≠ "sce_".toList ∧
      ∀ k' ∈ [TableKind.fixed, .core, .category, .breaks, .emoji, .scripts], n ∈ names k' → k = k' := by decide +kernel
  intro k k' n a b
  rcases h1 k n a with a | ⟨a1, a2⟩ <;> rcases h1 k' n b with b | ⟨b1, b2⟩
  · exact (h2 k (all k) n a).2 k' (all k') b
  · exact absurd b2 (h2 k (all k) n a).1
  · exact absurd a2 (h2 k' (all k') n b).1
  · rw [a1, b1]

/-- The hypotheses can be met: the small database is written as files, the program is run on them, and in a program with the result `script(0x61)` is `Latin`,
`is_mirrored(0x28)` holds and `bidi_mirroring_glyph(0x28)` is `0x29`. -/
example (disk : Disk) : ∃ disk', RunsOn (fun _ _ => false) (dirOf "ucd".toList sampleQ) ⟨fun _ => true, fun _ => none⟩
    ["unicode_tablegen".toList, "ucd".toList, "out".toList] disk 0 disk' ∧
    ∃ text ps W f g h, disk' "out/ucd.cpp".toList = some text ∧ Consists text ps ∧ Linked W ps inTables ∧
      Defined ps (named inUnicode "Script".toList "script".toList) f ∧ f.call W [.num 0x61] = .val (.enumerator ["Script".toList, "Latin".toList]) ∧
      Defined ps (named inUnicode "bool".toList "is_mirrored".toList) g ∧ g.call W [.num 0x28] = .val (.bool true) ∧
      Defined ps (named inUnicode "char32_t".toList "bidi_mirroring_glyph".toList) h ∧ h.call W [.num 0x28] = .val (.num 0x29) := by
  have hh := dirOf_holds "ucd".toList sampleQ sampleQ_clean
  obtain ⟨D, hl⟩ := qU_loads
  obtain ⟨disk', hr⟩ := C71_runs (fun _ _ => false) _ _ sampleQ qU rN hh qU_describes qU_release qU_few List.Pairwise.nil (by decide) (fun i j _ _ h => by cases h) D hl
    ⟨fun _ => true, fun _ => none⟩ "unicode_tablegen".toList "out".toList [] disk
  obtain ⟨text, _, ps, es, h1, h2, -, -, h3, h4⟩ := C71_api _ _ _ sampleQ qU rN hh qU_describes qU_release qU_identifiers scripts3 qU_queryable qU_namable qU_comments _
    ⟨fun _ => rfl, fun _ => rfl⟩ _ _ _ _ _ _ hr
  obtain ⟨W, w1, w2⟩ := h4 qU_noClash qU_apart
  have A := h3 W w1 w2
  obtain ⟨f, f1, f2⟩ := A.script
  obtain ⟨g, g1, g2⟩ := A.mirrored
  obtain ⟨h, k1, k2⟩ := A.glyph
  refine ⟨disk', hr, text, ps, W, f, g, h, h1, h2, w1, f1, (f2 _ _).2 ?_, g1, (g2 _).1.2 (List.mem_cons_self ..), k1, (k2 _ _).2 (.inl (List.mem_cons_of_mem _ (List.mem_cons_self ..)))⟩
  exact .inl ⟨en 0x61 0x7A "Latin", List.mem_cons_self .., by decide, by decide, rfl⟩

/-- For the same database, `general_category::is_uppercase_letter` holds for `0x41` and not for `0x61`. -/
example (disk : Disk) : ∃ disk', RunsOn (fun _ _ => false) (dirOf "ucd".toList sampleQ) ⟨fun _ => true, fun _ => none⟩
    ["unicode_tablegen".toList, "ucd".toList, "out".toList] disk 0 disk' ∧
    ∃ text hs W f, disk' "out/ucd.h".toList = some text ∧ Consists text hs ∧ Defined hs (named inCategory "bool".toList "is_uppercase_letter".toList) f ∧
      f.call W [.num 0x41] = .val (.bool true) ∧ f.call W [.num 0x61] = .val (.bool false) := by
  have hh := dirOf_holds "ucd".toList sampleQ sampleQ_clean
  obtain ⟨D, hl⟩ := qU_loads
  obtain ⟨disk', hr⟩ := C71_runs (fun _ _ => false) _ _ sampleQ qU rN hh qU_describes qU_release qU_few List.Pairwise.nil (by decide) (fun i j _ _ h => by cases h) D hl
    ⟨fun _ => true, fun _ => none⟩ "unicode_tablegen".toList "out".toList [] disk
  obtain ⟨_, _, text, ps, es, hs, g, -, -, -, -, h1, h2, -, -, h3, h4⟩ := C71_header _ _ _ sampleQ qU rN hh qU_describes qU_release qU_identifiers scripts3 qU_queryable qU_namable
    qU_comments _ ⟨fun _ => rfl, fun _ => rfl⟩ _ _ _ _ _ _ hr
  obtain ⟨W, w1, w2, w3⟩ := h4 qU_noClash qU_apart
  have hs1 : ("Uppercase_Letter".toList, [en 0x41 0x5A "Lu"]) ∈ qU.gc := List.mem_cons_of_mem _ (List.mem_cons_self ..)
  obtain ⟨f, f1, f2⟩ := (h3 W w1 w2).category w3 _ hs1
  refine ⟨disk', hr, text, hs, W, f, h1, h2, f1, (f2 _).1.2 ?_, (f2 _).2.2 ?_⟩
  · exact .inl ⟨"Lu".toList, ⟨en 0x41 0x5A "Lu", List.mem_flatMap.2 ⟨_, hs1, List.mem_cons_self ..⟩, by decide, by decide, rfl⟩, by decide +kernel⟩
  · have key : ∀ e ∈ allOf qU.gc, e.1 ≤ 0x61 → 0x61 ≤ e.2.1 → (e.2.2, "Uppercase_Letter".toList) ∉ rN.gc := by decide +kernel
    rintro (⟨v, ⟨e, he, l1, l2, rfl⟩, hv⟩ | ⟨-, h⟩)
    · exact key e he l1 l2 hv
    · exact absurd h (by decide)

end Verif.Props.Tg
