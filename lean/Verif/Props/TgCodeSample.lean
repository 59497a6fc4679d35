import Verif.Props.TgCode
import Verif.Props.TgCodeFiles
import Verif.Props.TgApiSample
/-!
# C64 on concrete data

The hypotheses of the theorems of Props/TgCode hold of concrete tables and enumerations, and the calls give what one expects.
-/

namespace Verif.Props.Tg

open Verif Verif.Tg
open Verif.Utf8 (Mem)
open Verif.Spec.Cxx (Val Item Says Ident World Value Res Fn DefinesFn DefinesFormatter Agrees)

/-- The names of a list of tables and a list of enumerators. -/
def namesOf (ts : List (Str × List Val)) (es : List (List Str × Nat)) : World :=
  ⟨fun q => (es.find? fun e => decide (e.1 = q)).map (·.2), fun n => (ts.find? fun t => decide (t.1 = n)).map (·.2), fun _ _ => .stuck⟩

theorem agrees_one {W : World} {text type name : Str} {vs : List Val} (h : Says text [.table type name vs]) (hw : W.table name = some vs) : Agrees W text :=
  agrees_of h fun i hi => by rw [List.mem_singleton.1 hi]; exact hw

theorem agrees_class {W : World} {d : EnumDef} (hn : Ident d.name) (hm : ∀ m ∈ d.members, Ident (sanitize m)) (h : EnumHas W d) :
    Agrees W (writeEnumClass d) := by
  have h1 := (enum_ok d hn hm).says
  rw [numbered_eq] at h1
  exact agrees_of h1 fun i hi => by rw [List.mem_singleton.1 hi]; exact h

/-! ### A look-up -/

/-- A small database. -/
def codeDb : Db where
  aliases := []
  gcats := sampleRows.map (·.1)
  gcMap := [("Uppercase_Letter".toList, [{ first := 0x41, last := 0x5A, property := "Uppercase_Letter".toList }]),
    ("Other_Letter".toList, [{ first := 0xAA, last := 0xAA, property := "Other_Letter".toList }])]
  core := [("Alphabetic".toList, sampleRows.map (·.1)), ("Math".toList, [{ first := 0x2B, last := 0x2B, property := "Math".toList }])]
  incb := []
  scripts := sampleRows.map (·.1)
  isc := []
  sce := sampleSce
  blocks := []
  gcb := []
  wb := []
  eaw := []
  hst := []
  emoji := []
  evs := []
  mirrored := []
  glyphs := [(0x28, 0x29), (0x29, 0x28)]
  ages := []
  names := []

def scriptWorld : World := namesOf [("Script".toList, (propTable (sampleRows.map (·.1))).map (entryVal ["unicode", "Script"]))] []

example : ∃ f, DefinesFn codeScript f ∧ f.call scriptWorld [.num 0xAA] = .val (.enumerator ["Script".toList, "Other_Letter".toList]) ∧
    f.call scriptWorld [.num 0x40] = .val (.enumerator ["Script".toList, "Unknown".toList]) := by
  obtain ⟨f, h1, -, h3⟩ := C64_script
  have hA : Agrees scriptWorld (writeScripts sampleRows) := agrees_one (C61_script sampleRows sampleRows_ok.1 sampleRows_ok.2) rfl
  have := h3 scriptWorld codeDb sampleRows rfl sampleRows_ok.1 sampleRows_ok.2 hA
  refine ⟨f, h1, ?_, ?_⟩
  · rw [this]
    have e : apiScript codeDb 0xAA = .ok "Other_Letter".toList := by decide +kernel
    rw [e]; rfl
  · rw [this]
    have e : apiScript codeDb 0x40 = .ok "Unknown".toList := by decide +kernel
    rw [e]; rfl

/-! ### `contains` -/

def coreRows : List (Str × List (PRange × Str)) :=
  [("Alphabetic".toList, sampleRows), ("Math".toList, [({ first := 0x2B, last := 0x2B, property := "Math".toList }, "Sm PLUS SIGN".toList)])]

theorem coreRows_ok : (∀ e ∈ coreRows, Ident e.1) ∧ ∀ e ∈ coreRows, ∀ r ∈ e.2, OneLine r.2 := by
  have h1 : ∀ e ∈ coreRows, identB e.1 = true := by decide +kernel
  have h2 : ∀ e ∈ coreRows, ∀ r ∈ e.2, ∀ x ∈ r.2, x ≠ '\n' ∧ x ≠ '\\' := by decide +kernel
  exact ⟨fun e he => ident_of (h1 e he), fun e he r hr => oneLine_of (h2 e he r hr)⟩

def coreWorld : World := namesOf (coreRows.map fun e => (e.1, (intervalTable (e.2.map (·.1))).map intervalVal))
  [(["Core_Property".toList, "Alphabetic".toList], 0), (["Core_Property".toList, "Math".toList], 1)]

example : ∃ f, DefinesFn (codeCore ["Alphabetic".toList, "Math".toList]) f ∧ f.call coreWorld [.num 1, .num 0x2B] = .val (.bool true) ∧
    f.call coreWorld [.num 0, .num 0x2B] = .val (.bool false) ∧ f.call coreWorld [.num 2, .num 0x2B] = .val (.bool false) := by
  obtain ⟨f, h1, -, h3⟩ := C64_core coreRows coreRows_ok.1
  have hd : ∀ m ∈ (coreEnum codeDb).members, identB (sanitize m) = true := by decide +kernel
  have hE : EnumHas coreWorld (coreEnum codeDb) := by unfold EnumHas; decide +kernel
  have hT : ∀ e ∈ coreRows, coreWorld.table e.1 = some ((intervalTable (e.2.map (·.1))).map intervalVal) := by
    intro e he
    rcases List.mem_cons.1 he with rfl | he
    · rfl
    · rw [List.mem_singleton.1 he]; rfl
  obtain ⟨h4, h5⟩ := h3 coreWorld codeDb rfl coreRows_ok.2 (agrees_class (ident_of (w := "Core_Property".toList) (by decide)) (fun m hm => ident_of (hd m hm)) hE)
    (fun e he => agrees_one (C61_intervals e.1 e.2 (coreRows_ok.1 e he) (coreRows_ok.2 e he)) (hT e he))
  refine ⟨f, h1, ?_, ?_, ?_⟩
  · obtain ⟨k, hk, h6⟩ := h4 "Math".toList (by decide)
    have : k = 1 := by
      have h7 : coreWorld.number ["Core_Property".toList, "Math".toList] = some 1 := by decide +kernel
      rw [h7] at hk; injection hk with hk; exact hk.symm
    rw [← this, h6]
    have e : apiCore codeDb "Math".toList 0x2B = .ok true := by decide +kernel
    rw [e]; rfl
  · obtain ⟨k, hk, h6⟩ := h4 "Alphabetic".toList (by decide)
    have : k = 0 := by
      have h7 : coreWorld.number ["Core_Property".toList, "Alphabetic".toList] = some 0 := by decide +kernel
      rw [h7] at hk; injection hk with hk; exact hk.symm
    rw [← this, h6]
    have e : apiCore codeDb "Alphabetic".toList 0x2B = .ok false := by decide +kernel
    rw [e]; rfl
  · exact h5 2 (by decide +kernel) _

def catRows : List (Str × List (PRange × Str)) :=
  [("Uppercase_Letter".toList, [({ first := 0x41, last := 0x5A, property := "Uppercase_Letter".toList }, "Lu".toList)]),
   ("Other_Letter".toList, [({ first := 0xAA, last := 0xAA, property := "Other_Letter".toList }, "Lo".toList)])]

theorem catRows_ok : (∀ e ∈ catRows, Ident e.1) ∧ ∀ e ∈ catRows, ∀ r ∈ e.2, OneLine r.2 := by
  have h1 : ∀ e ∈ catRows, identB e.1 = true := by decide +kernel
  have h2 : ∀ e ∈ catRows, ∀ r ∈ e.2, ∀ x ∈ r.2, x ≠ '\n' ∧ x ≠ '\\' := by decide +kernel
  exact ⟨fun e he => ident_of (h1 e he), fun e he r hr => oneLine_of (h2 e he r hr)⟩

/-- The tables of the categories and their enumeration. -/
def catWorld0 : World := namesOf (catRows.map fun e => (e.1, (intervalTable (e.2.map (·.1))).map intervalVal))
  [(["General_Category".toList, "Unspecified".toList], 0), (["General_Category".toList, "Other_Letter".toList], 1),
   (["General_Category".toList, "Uppercase_Letter".toList], 2)]

/-- `contains(General_Category, char32_t)` is the generated one. -/
def catWorld : World := { catWorld0 with category := fun k c => (gcContainsFn (catRows.map (·.1))).call catWorld0 [.num k, .num c] }

theorem catWorld_agrees (W : World) (hn : W.number = catWorld0.number) (ht : W.table = catWorld0.table) :
    Agrees W (writeEnumClass (gcEnum codeDb)) ∧ ∀ e ∈ catRows, Agrees W (writeIntervals e.1 e.2) := by
  have hd : ∀ m ∈ (gcEnum codeDb).members, identB (sanitize m) = true := by decide +kernel
  have hE : EnumHas W (gcEnum codeDb) := by unfold EnumHas; rw [hn]; decide +kernel
  have hT : ∀ e ∈ catRows, W.table e.1 = some ((intervalTable (e.2.map (·.1))).map intervalVal) := by
    intro e he
    rw [ht]
    rcases List.mem_cons.1 he with rfl | he
    · rfl
    · rw [List.mem_singleton.1 he]; rfl
  exact ⟨agrees_class (ident_of (w := "General_Category".toList) (by decide)) (fun m hm => ident_of (hd m hm)) hE,
    fun e he => agrees_one (C61_intervals e.1 e.2 (catRows_ok.1 e he) (catRows_ok.2 e he)) (hT e he)⟩

theorem catWorld_contains (W : World) (hn : W.number = catWorld0.number) (ht : W.table = catWorld0.table) :
    ∃ f, DefinesFn (codeGcContains (catRows.map (·.1))) f ∧
      (∀ g ∈ catRows.map (·.1), ∃ k, W.number ["General_Category".toList, g] = some k ∧
        ∀ c, f.call W [.num k, .num c] = Res.ofMem .bool (apiGcContains codeDb g c)) ∧
      (∀ k, (∀ g ∈ catRows.map (·.1), W.number ["General_Category".toList, g] ≠ some k) → ∀ c, f.call W [.num k, .num c] = .val (.bool false)) := by
  obtain ⟨f, h1, -, h3⟩ := C64_contains_category catRows catRows_ok.1
  have hd : ∀ m ∈ (gcEnum codeDb).members, identB m = true := by decide +kernel
  obtain ⟨a1, a2⟩ := catWorld_agrees W hn ht
  exact ⟨f, h1, h3 W codeDb rfl catRows_ok.2 (by decide +kernel) (by decide +kernel) (by decide +kernel) (fun g hg => ident_of (hd g hg)) a1 a2⟩

/-- `general_category::is_other_letter` calls the generated `contains`. -/
example : ∃ f, DefinesFn (codeGcIs "Other_Letter".toList) f ∧ f.name = "is_other_letter".toList ∧
    f.call catWorld [.num 0xAA] = .val (.bool true) ∧ f.call catWorld [.num 0x41] = .val (.bool false) := by
  obtain ⟨f, h1, h2, h3⟩ := C64_is_category "Other_Letter".toList (ident_of (by decide))
  obtain ⟨g0, g1, g2, g3⟩ := catWorld_contains catWorld0 rfl rfl
  obtain ⟨g, e1, e2, e3⟩ := catWorld_contains catWorld rfl rfl
  have hg : g0 = gcContainsFn (catRows.map (·.1)) := C64_unambiguous g1 (gcContains_defines fun m hm => by
    obtain ⟨e, he, rfl⟩ := List.mem_map.1 hm
    exact ident_word' (catRows_ok.1 e he))
  have hgg : g = g0 := C64_unambiguous e1 g1
  have hk : ∀ m ∈ catRows.map (·.1), ∀ k k', catWorld0.number ["General_Category".toList, m] = some k → catWorld.number ["General_Category".toList, m] = some k' → k = k' := by
    intro m _ k k' h h'
    have : catWorld.number = catWorld0.number := rfl
    rw [this, h] at h'
    injection h'
  have hcat : ∀ k c, catWorld.category k c = g.call catWorld [.num k, .num c] := by
    intro k c
    show (gcContainsFn (catRows.map (·.1))).call catWorld0 [.num k, .num c] = _
    rw [← hg]
    by_cases h : ∃ m ∈ catRows.map (·.1), catWorld0.number ["General_Category".toList, m] = some k
    · obtain ⟨m, hm, hmk⟩ := h
      obtain ⟨k1, x1, x2⟩ := g2 m hm
      obtain ⟨k2, y1, y2⟩ := e2 m hm
      rw [hmk] at x1
      injection x1 with x1
      subst x1
      have := hk m hm _ _ hmk y1
      subst this
      rw [x2, y2]
    · have h' : ∀ m ∈ catRows.map (·.1), catWorld0.number ["General_Category".toList, m] ≠ some k := fun m hm h0 => h ⟨m, hm, h0⟩
      rw [g3 k h', e3 k h']
  have hn : catWorld.number ["General_Category".toList, "Other_Letter".toList] = some 1 := by decide +kernel
  have hcall : ∀ c, f.call catWorld [.num c] = Res.ofMem .bool (apiGcContains codeDb "Other_Letter".toList c) := by
    intro c
    rw [h3 catWorld g hcat 1 hn c]
    obtain ⟨k, y1, y2⟩ := e2 "Other_Letter".toList (by decide)
    rw [hn] at y1
    injection y1 with y1
    subst y1
    exact y2 c
  refine ⟨f, h1, h2.2.1.trans (by decide), ?_, ?_⟩
  · rw [hcall]
    have e : apiGcContains codeDb "Other_Letter".toList 0xAA = .ok true := by decide +kernel
    rw [e]; rfl
  · rw [hcall]
    have e : apiGcContains codeDb "Other_Letter".toList 0x41 = .ok false := by decide +kernel
    rw [e]; rfl

/-! ### Script extensions, glyphs, ages -/

def sceAl : List (Str × Str) := [("Grek".toList, "Greek".toList)]

def sceRows : List (MRange × Str) := sampleSce.map fun r => (r, "Mn COMBINING".toList)

def sceWorld : World := namesOf (("sce".toList, sceRows.map fun r => .list [.list [.num r.1.first, .num r.1.last],
        .list [.name [sceKey r.1.props, "data".toList], .name [sceKey r.1.props, "size".toList]]]) ::
    (sceArrays sceAl sampleSce []).map fun a => (a.1, a.2.map scriptVal)) []

example : ∃ f, DefinesFn codeSce f ∧ f.call sceWorld [.num 0x309A] = .val (.opt (some (.span [scriptVal "Hira".toList, scriptVal "Kana".toList]))) ∧
    f.call sceWorld [.num 0x342] = .val (.opt (some (.span [scriptVal "Greek".toList]))) ∧ f.call sceWorld [.num 0x41] = .val (.opt none) := by
  obtain ⟨f, h1, -, h3⟩ := C64_script_extensions
  have hi : ∀ a ∈ sceArrays sceAl codeDb.sce [], identB a.1 = true ∧ ∀ s ∈ a.2, identB s = true := by decide +kernel
  have hk : ∀ r ∈ codeDb.sce, identB (sceKey r.props) = true := by decide +kernel
  have hi' : ∀ a ∈ sceArrays sceAl codeDb.sce [], Ident a.1 ∧ ∀ s ∈ a.2, Ident s := fun a ha => ⟨ident_of (hi a ha).1, fun s hs => ident_of ((hi a ha).2 s hs)⟩
  have hc : ∀ r ∈ sceRows, OneLine r.2 := fun r hr => by
    obtain ⟨m, _, rfl⟩ := List.mem_map.1 hr
    exact oneLine_of (c := "Mn COMBINING".toList) (by decide +kernel)
  have hk' : ∀ r ∈ sceRows, Ident (sceKey r.1.props) := fun r hr => by
    obtain ⟨m, hm, rfl⟩ := List.mem_map.1 hr
    exact ident_of (hk m hm)
  have ha : Agrees sceWorld (writeSceArrays sceAl codeDb.sce) := agrees_of (C61_script_extension_arrays sceAl codeDb.sce hi') (by
    intro i hi
    obtain ⟨a, ha, rfl⟩ := List.mem_map.1 hi
    have h0 : sceArrays sceAl codeDb.sce [] = [("sce_Grek".toList, ["Greek".toList]), ("sce_Hira_Kana".toList, ["Hira".toList, "Kana".toList])] := by decide +kernel
    rw [h0] at ha
    rcases List.mem_cons.1 ha with rfl | ha
    · rfl
    · rw [List.mem_singleton.1 ha]; rfl)
  have hs : Agrees sceWorld (writeSce sceRows) := agrees_one (C61_script_extensions sceRows hk' hc) rfl
  have := h3 sceWorld codeDb sceAl sceRows rfl hc hi' (fun r hr => ident_of (hk r hr)) ha hs
  refine ⟨f, h1, ?_, ?_, ?_⟩
  · rw [this]
    have e : apiScriptExtensions codeDb sceAl 0x309A = .ok (some ["Hira".toList, "Kana".toList]) := by decide +kernel
    rw [e]; rfl
  · rw [this]
    have e : apiScriptExtensions codeDb sceAl 0x342 = .ok (some ["Greek".toList]) := by decide +kernel
    rw [e]; rfl
  · rw [this]
    have e : apiScriptExtensions codeDb sceAl 0x41 = .ok none := by decide +kernel
    rw [e]; rfl

example : ∃ f, DefinesFn codeGlyph f ∧
    f.call (namesOf [("Bidi_Mirroring_Glyph".toList, codeDb.glyphs.map pairVal)] []) [.num 0x28] = .val (.num 0x29) ∧
    f.call (namesOf [("Bidi_Mirroring_Glyph".toList, codeDb.glyphs.map pairVal)] []) [.num 0x41] = .val (.num 0x41) := by
  obtain ⟨f, h1, -, h3⟩ := C64_bidi_mirroring_glyph
  have := h3 (namesOf [("Bidi_Mirroring_Glyph".toList, codeDb.glyphs.map pairVal)] []) codeDb (agrees_one (C61_glyphs codeDb) rfl)
  refine ⟨f, h1, ?_, ?_⟩
  · rw [this]
    have e : apiGlyph codeDb 0x28 = .ok 0x29 := by decide +kernel
    rw [e]; rfl
  · rw [this]
    have e : apiGlyph codeDb 0x41 = .ok 0x41 := by decide +kernel
    rw [e]; rfl

def ageRows : List (Str × Str) := [("1.1".toList, "V1_1".toList), ("NA".toList, "Unassigned".toList)]

example (W : World) : ∃ f, DefinesFn (codeAge ageRows) f ∧ f.call W [.text "1.1".toList] = .val (.opt (some (.enumerator ["Age".toList, "V1_1".toList]))) ∧
    f.call W [.text "NA".toList] = .val (.opt none) := by
  have hi : ∀ e ∈ ageRows, identB e.2 = true := by decide +kernel
  obtain ⟨f, h1, -, h3⟩ := C64_make_age ageRows (by decide +kernel) (fun e he => ident_of (hi e he))
  refine ⟨f, h1, ?_, ?_⟩
  · rw [h3]
    have e : apiMakeAge ageRows "1.1".toList = some "V1_1".toList := by decide +kernel
    rw [e]; rfl
  · rw [h3]
    have e : apiMakeAge ageRows "NA".toList = none := by decide +kernel
    rw [e]; rfl

/-! ### Printing -/

def lineEnum : EnumDef := ⟨"Line_Break".toList, ["Break_After".toList, "Non-joiner".toList]⟩

def lineWorld : World := namesOf [] [(["Line_Break".toList, "Break_After".toList], 0), (["Line_Break".toList, "Non_joiner".toList], 1)]

theorem lineEnum_ok : Ident lineEnum.name ∧ (∀ m ∈ lineEnum.members, Ident (sanitize m)) ∧ Agrees lineWorld (writeEnumClass lineEnum) := by
  have h1 : identB lineEnum.name = true := by decide +kernel
  have h2 : ∀ m ∈ lineEnum.members, identB (sanitize m) = true := by decide +kernel
  have hE : EnumHas lineWorld lineEnum := by unfold EnumHas; decide +kernel
  exact ⟨ident_of h1, fun m hm => ident_of (h2 m hm), agrees_class (ident_of h1) (fun m hm => ident_of (h2 m hm)) hE⟩

example : ∃ f, DefinesFn (codeStream lineEnum) f ∧ f.call lineWorld [.stream "x".toList, .num 1] = .val (.stream "xNon-joiner".toList) ∧
    f.call lineWorld [.stream "x".toList, .num 7] = .val (.stream "x(7)".toList) := by
  obtain ⟨f, h1, -, h3⟩ := C64_stream lineEnum lineEnum_ok.1 lineEnum_ok.2.1 (by decide +kernel) (by decide +kernel)
  refine ⟨f, h1, ?_, ?_⟩
  · rw [h3 _ lineEnum_ok.2.2]
    have e : lineEnum.stream 1 = "Non-joiner".toList := by decide +kernel
    rw [e]; rfl
  · rw [h3 _ lineEnum_ok.2.2]
    have e : lineEnum.stream 7 = "(7)".toList := by decide +kernel
    rw [e]; rfl

example : ∃ f, DefinesFormatter (codeFormatter lineEnum) lineEnum.name f ∧ f.call lineWorld [.num 1, .stream []] = .val (.text "Non-joiner".toList) := by
  obtain ⟨f, h1, -, h3⟩ := C64_format lineEnum lineEnum_ok.1 lineEnum_ok.2.1 (by decide +kernel)
  refine ⟨f, h1, ?_⟩
  rw [h3 _ lineEnum_ok.2.2]
  have e : lineEnum.format 1 = "Non-joiner".toList := by decide +kernel
  rw [e]

def widthWorld : World := namesOf [] (widthEnum.members.zipIdx.map fun e => (["EastAsianWidth".toList, e.1], e.2))

example : ∃ f, DefinesFn codeWidthString f ∧ f.call widthWorld [.num 5] = .val (.text "Wide".toList) ∧ f.call widthWorld [.num 9] = .val (.text "Unknown".toList) := by
  obtain ⟨f, h1, -, h3⟩ := C64_width_string
  have hE : EnumHas widthWorld widthEnum := by unfold EnumHas; decide +kernel
  have h2 : ∀ m ∈ widthEnum.members, identB (sanitize m) = true := by decide +kernel
  have := h3 widthWorld (agrees_class (ident_of (by decide)) (fun m hm => ident_of (h2 m hm)) hE)
  exact ⟨f, h1, by rw [this]; rfl, by rw [this]; rfl⟩

/-! ### From the files -/

/-- A script of the excerpt of Props/TgApiSample, whatever the order in which the generator sorts equal keys: from the text of the
file to the call of the generated function. -/
example {D : Db} (hl : Loads sF D) : ∃ f W, DefinesFn codeScript f ∧ f.call W [.num 0x916] = .val (.enumerator ["Script".toList, "Devanagari".toList]) := by
  obtain ⟨f, h1, h2⟩ := C64_script_of_files
  have hp : Plain sU.scripts := plain_of (by decide +kernel)
  have hid : ∀ r ∈ D.scripts, Ident r.property := by
    intro r hr
    have h3 := hl.scripts.1.mem_iff.1 hr
    have h4 : (r.first, r.last, r.property) ∈ ents (genericEntries sF.scripts) := List.mem_map_of_mem h3
    rw [generic_ents sample_describes.scripts hp.words] at h4
    have h5 : ∀ e ∈ sU.scripts, identB e.2.2 = true := by decide +kernel
    exact ident_of (h5 _ h4)
  have hrow : (D.scripts.map fun r => (r, "x".toList)).map (·.1) = D.scripts := by rw [List.map_map]; exact List.map_id _
  have hi : ∀ r ∈ D.scripts.map fun r => (r, "x".toList), Ident r.1.property := fun r hr => by
    obtain ⟨q, hq, rfl⟩ := List.mem_map.1 hr
    exact hid q hq
  have hc : ∀ r ∈ D.scripts.map fun r => (r, "x".toList), OneLine r.2 := fun r hr => by
    obtain ⟨q, hq, rfl⟩ := List.mem_map.1 hr
    exact oneLine_of (c := "x".toList) (by decide +kernel)
  let W := namesOf [("Script".toList, (propTable ((D.scripts.map fun r => (r, "x".toList)).map (·.1))).map (entryVal ["unicode", "Script"]))] []
  have hA : Agrees W (writeScripts (D.scripts.map fun r => (r, "x".toList))) := agrees_one (C61_script _ hi hc) rfl
  exact ⟨f, W, h1, (h2 W _ hl sample_describes hp hrow hi hc hA _ _).2 (Or.inl (by decide +kernel))⟩

example {D : Db} (hl : Loads sF D) : ∃ f W, DefinesFn codeGlyph f ∧ f.call W [.num 0x28] = .val (.num 0x29) := by
  obtain ⟨f, h1, h2⟩ := C64_bidi_mirroring_glyph_of_files
  let W := namesOf [("Bidi_Mirroring_Glyph".toList, D.glyphs.map pairVal)] []
  exact ⟨f, W, h1, (h2 W hl sample_describes (by decide +kernel) (agrees_one (C61_glyphs D) rfl) _ _).2 (Or.inl (by decide +kernel))⟩

example {D : Db} (hl : Loads sF D) : ∃ f W, DefinesFn codeMirrored f ∧ f.call W [.num 0xAB] = .val (.bool true) ∧ f.call W [.num 0x41] = .val (.bool false) := by
  obtain ⟨f, h1, h2⟩ := C64_is_mirrored_of_files
  let W := namesOf [("Bidi_Mirrored".toList, D.mirrored.map pairVal)] []
  have := h2 W hl sample_describes (by decide +kernel) ⟨0x28, by decide +kernel⟩ (by decide +kernel) (agrees_one (C61_mirrored D) rfl)
  exact ⟨f, W, h1, (this _).1.2 (by decide +kernel), (this _).2.2 (by decide +kernel)⟩

end Verif.Props.Tg
