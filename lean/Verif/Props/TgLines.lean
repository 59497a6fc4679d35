import Verif.Lemmas.TgLines
import Verif.Props.TgMain
/-!
# C70: line ends of the data files
-/

namespace Verif.Props.Tg
open Verif.Tg
open Verif.Spec.UcdFile

/-- Two directories with the same files, except for the line ends in them. -/
def SameFiles (dir dir' : Dir) : Prop := ∀ path, dir' path = dir path ∨ ∃ s s', dir path = some s ∧ dir' path = some s' ∧ SameLines s s'

/-! ## The proofs -/

/-- the same lines but for the line ends -/
def Alike (ls ls' : List Str) : Prop := ls' = ls ∨ ∃ base, LineEnds base ls ∧ LineEnds base ls'

theorem lineEnds_of {ls : List Str} (hc : CleanLines ls) {s : Str} (h : TextOf ls s) : LineEnds ls (getlines s) := by
  have := getlines_text h hc
  clear h
  revert hc
  generalize getlines s = out at this
  induction this with
  | nil => intro _; exact .nil
  | cons h _ ih =>
    intro hc
    exact .cons ⟨(hc _ (List.mem_cons_self ..)).2, h⟩ (ih fun l hl => hc l (List.mem_cons_of_mem _ hl))

theorem alike_get {s s' : Str} (h : SameLines s s') : Alike (getlines s) (getlines s') := by
  obtain ⟨ls, hc, h1, h2⟩ := h
  exact .inr ⟨ls, lineEnds_of hc h1, lineEnds_of hc h2⟩

theorem alike_fn {β : Type} {f : List Str → β} (hf : ∀ base ls, LineEnds base ls → f ls = f base) {ls ls' : List Str} (h : Alike ls ls') : f ls' = f ls := by
  rcases h with rfl | ⟨base, h1, h2⟩
  · rfl
  · rw [hf _ _ h1, hf _ _ h2]

theorem alike_comment {ls ls' : List Str} (h : Alike ls ls') : CommentIn ls' = CommentIn ls :=
  alike_fn (fun _ _ h => funext fun s => propext (commentIn_ends h s)) h

theorem alike_generic {ls ls' : List Str} (h : Alike ls ls') : genericEntries ls' = genericEntries ls :=
  alike_fn (fun _ _ h => filterMap_ends (fun _ _ hc he => by rw [parse_end hc he]) h) h

theorem alike_grouped {ls ls' : List Str} (h : Alike ls ls') : groupedEntries "Property".toList ls' = groupedEntries "Property".toList ls :=
  alike_fn (fun _ _ h => congrArg Prod.snd (foldl_ends (fun st _ _ hc he => grouped_end _ (by decide) st hc he) h _)) h

/-- The two sets of files are read alike. -/
structure AllAlike (A A' : AllFiles) : Prop where
  aliases : Alike A.aliases A'.aliases
  gc : Alike A.gc A'.gc
  core : Alike A.core A'.core
  scripts : Alike A.scripts A'.scripts
  isc : Alike A.isc A'.isc
  sce : Alike A.sce A'.sce
  blocks : Alike A.blocks A'.blocks
  gcb : Alike A.gcb A'.gcb
  wb : Alike A.wb A'.wb
  eaw : Alike A.eaw A'.eaw
  hst : Alike A.hst A'.hst
  emoji : Alike A.emoji A'.emoji
  evs : Alike A.evs A'.evs
  unicodeData : Alike A.unicodeData A'.unicodeData
  bidi : Alike A.bidi A'.bidi
  age : Alike A.age A'.age
  names : Alike A.names A'.names
  folding : Alike A.folding A'.folding
  casing : Alike A.casing A'.casing
  exclusions : Alike A.exclusions A'.exclusions
  normProps : Alike A.normProps A'.normProps

theorem alike_aliases {ls ls' : List Str} (h : Alike ls ls') : loadAliases ls' = loadAliases ls :=
  alike_fn (fun _ _ h => congrArg Prod.snd (foldl_ends (fun st _ _ _ he => alias_end st he) h _)) h

theorem alike_evs {ls ls' : List Str} (h : Alike ls ls') : evsLoop ls' = evsLoop ls := alike_fn (fun _ _ h => evsLoop_ends h) h

theorem alike_gc (al : List (Str × Str)) (st : GcState) {ls ls' : List Str} (h : Alike ls ls') : gcLoop al st ls' = gcLoop al st ls :=
  alike_fn (f := gcLoop al st) (fun _ _ h => gcLoop_ends al h st) h

theorem alike_core {ls ls' : List Str} (h : Alike ls ls') : coreLoop ls' = coreLoop ls :=
  alike_fn (fun _ _ h => foldl_ends (fun st _ _ hc he => core_end st hc he) h _) h

theorem alike_sce {ls ls' : List Str} (h : Alike ls ls') : sceEntries ls' = sceEntries ls :=
  alike_fn (fun _ _ h => filterMap_ends (fun _ _ hc he => by rw [parse_end hc he]) h) h

theorem alike_blocks {ls ls' : List Str} (h : Alike ls ls') : loadBlocks ls' = loadBlocks ls :=
  alike_fn (fun _ _ h => filterMap_ends (fun _ _ hc he => by rw [parse_end hc he]) h) h

theorem alike_emoji {ls ls' : List Str} (h : Alike ls ls') : emojiEntries ls' = emojiEntries ls :=
  alike_fn (fun _ _ h => foldl_ends (fun st _ _ hc he => emoji_end st hc he) h _) h

theorem alike_mirrored {ls ls' : List Str} (h : Alike ls ls') : mirroredCps ls' = mirroredCps ls :=
  alike_fn (fun _ _ h => filterMap_ends (fun _ _ _ he => mirrored_end he) h) h

theorem alike_glyphs {ls ls' : List Str} (h : Alike ls ls') : glyphEntries ls' = glyphEntries ls :=
  alike_fn (fun _ _ h => filterMap_ends (fun _ _ hc he => by rw [parse_end hc he]) h) h

theorem alike_names {ls ls' : List Str} (h : Alike ls ls') : nameEntries ls' = nameEntries ls :=
  alike_fn (fun _ _ h => flatMap_ends (fun _ _ hc he => by rw [parse_end hc he]) h) h

theorem alike_ud {ls ls' : List Str} (h : Alike ls ls') : loadUnicodeData ls' = loadUnicodeData ls :=
  alike_fn (fun _ _ h => foldl_ends (fun st _ _ _ he => ud_end st he) h _) h

theorem alike_folds {ls ls' : List Str} (h : Alike ls ls') : loadCaseFolding ls' = loadCaseFolding ls :=
  alike_fn (fun _ _ h => foldl_ends (fun st _ _ _ he => cf_end st he) h _) h

theorem alike_special (u : Ud) {ls ls' : List Str} (h : Alike ls ls') : loadSpecialCasing u ls' = loadSpecialCasing u ls :=
  alike_fn (f := loadSpecialCasing u) (fun _ _ h => foldl_ends (fun st _ _ _ he => sc_end u st he) h _) h

theorem alike_qc {ls ls' ms ms' : List Str} (h : Alike ls ls') (h' : Alike ms ms') : loadNormProps ls' ms' = loadNormProps ls ms := by
  unfold loadNormProps
  rw [alike_fn (f := fun ls => ls.foldl exLine []) (fun _ _ h => foldl_ends (fun st _ _ _ he => ex_end st he) h _) h]
  exact alike_fn (f := fun ms => ms.foldl qcLine _) (fun _ _ h => foldl_ends (fun st _ _ _ he => qc_end st he) h _) h'

theorem loads_alike {A A' : AllFiles} (h : AllAlike A A') {D : Db} (hl : Loads A.toFiles D) : Loads A'.toFiles D where
  aliases := by rw [alike_aliases h.aliases]; exact hl.aliases
  gc := by
    obtain ⟨al, st, h1, h2, h3⟩ := hl.gc
    exact ⟨al, st, h1, by rw [alike_gc al _ h.gc]; exact h2, h3⟩
  core := by rw [alike_core h.core]; exact hl.core
  incb := by rw [alike_core h.core]; exact hl.incb
  scripts := by rw [alike_generic h.scripts]; exact hl.scripts
  isc := by rw [alike_generic h.isc]; exact hl.isc
  sce := by rw [alike_sce h.sce]; exact hl.sce
  blocks := by rw [alike_blocks h.blocks]; exact hl.blocks
  gcb := by rw [alike_grouped h.gcb]; exact hl.gcb
  wb := by rw [alike_grouped h.wb]; exact hl.wb
  eaw := by rw [alike_generic h.eaw]; exact hl.eaw
  hst := by rw [alike_generic h.hst]; exact hl.hst
  emoji := by rw [alike_emoji h.emoji]; exact hl.emoji
  evs := by
    obtain ⟨bs, bs', h1, h2⟩ := hl.evs
    exact ⟨bs, bs', by rw [alike_evs h.evs]; exact h1, h2⟩
  mirrored := by
    obtain ⟨cps, h1, h2⟩ := hl.mirrored
    exact ⟨cps, by rw [alike_mirrored h.unicodeData]; exact h1, h2⟩
  glyphs := by rw [alike_glyphs h.bidi]; exact hl.glyphs
  ages := by rw [alike_generic h.age]; exact hl.ages
  names := by rw [alike_names h.names]; exact hl.names

theorem commented_alike {α : Type} {ls ls' : List Str} (h : Alike ls ls') {t : List α} {x : List (α × Str)} (hx : Commented ls t x) : Commented ls' t x := by
  unfold Commented at *
  rw [alike_comment h]
  exact hx

theorem commentedGroups_alike {ls ls' : List Str} (h : Alike ls ls') {t : Groups} {x : List (Str × List (PRange × Str))} (hx : CommentedGroups ls t x) :
    CommentedGroups ls' t x := by
  unfold CommentedGroups at *
  rw [alike_comment h]
  exact hx

theorem parses_alike {A A' : AllFiles} (h : AllAlike A A') {P : ParsedUcd} (hp : ParsesAll A P) : ParsesAll A' P where
  loads := loads_alike h hp.loads
  core := commentedGroups_alike h.core hp.core
  gcats := commented_alike h.gc hp.gcats
  gcMap := commentedGroups_alike h.gc hp.gcMap
  scripts := commented_alike h.scripts hp.scripts
  sce := commented_alike h.sce hp.sce
  gcb := commentedGroups_alike h.gcb hp.gcb
  eaw := commented_alike h.eaw hp.eaw
  emoji := commentedGroups_alike h.emoji hp.emoji
  ud := by rw [alike_ud h.unicodeData]; exact hp.ud
  folds := by rw [alike_folds h.folding]; exact hp.folds
  special := by rw [alike_special _ h.casing]; exact hp.special
  qc := by rw [alike_qc h.exclusions h.normProps]; exact hp.qc

theorem throws_alike {A A' : AllFiles} (h : AllAlike A A') (ht : ParseThrows A) : ParseThrows A' := by
  unfold ParseThrows at *
  rw [alike_aliases h.aliases, alike_evs h.evs]
  refine ht.imp (fun h' al hal => ?_) id
  rw [alike_gc al _ h.gc]
  exact h' al hal

theorem alike_symm {ls ls' : List Str} (h : Alike ls ls') : Alike ls' ls := by
  rcases h with rfl | ⟨b, h1, h2⟩
  · exact .inl rfl
  · exact .inr ⟨b, h2, h1⟩

theorem AllAlike.symm {A A' : AllFiles} (h : AllAlike A A') : AllAlike A' A where
  aliases := alike_symm h.aliases
  gc := alike_symm h.gc
  core := alike_symm h.core
  scripts := alike_symm h.scripts
  isc := alike_symm h.isc
  sce := alike_symm h.sce
  blocks := alike_symm h.blocks
  gcb := alike_symm h.gcb
  wb := alike_symm h.wb
  eaw := alike_symm h.eaw
  hst := alike_symm h.hst
  emoji := alike_symm h.emoji
  evs := alike_symm h.evs
  unicodeData := alike_symm h.unicodeData
  bidi := alike_symm h.bidi
  age := alike_symm h.age
  names := alike_symm h.names
  folding := alike_symm h.folding
  casing := alike_symm h.casing
  exclusions := alike_symm h.exclusions
  normProps := alike_symm h.normProps

/-- how a file is read in the two directories -/
theorem read_alike {dir dir' : Dir} (h : SameFiles dir dir') {ucd : Str} {name : String} {ls : List Str} (hr : fileIn dir ucd name = some ls) :
    ∃ ls', fileIn dir' ucd name = some ls' ∧ Alike ls ls' := by
  unfold fileIn readLines at *
  rcases h _ with e | ⟨s, s', e1, e2, hs⟩
  · rw [e]; exact ⟨ls, hr, .inl rfl⟩
  · rw [e1] at hr
    rw [e2]
    obtain rfl := Option.some.inj hr
    exact ⟨_, rfl, alike_get hs⟩

theorem of_bind {α β : Type} {o : Option α} {f : α → Option β} {b : β} (h : o >>= f = some b) : ∃ a, o = some a ∧ f a = some b := by
  cases o with
  | none => cases h
  | some a => exact ⟨a, rfl, h⟩

/-- all files have been read -/
theorem assemble_some {o1 o2 o3 o4 o5 o6 o7 o8 o9 o10 o11 o12 o13 o14 o15 o16 o17 o18 o19 o20 o21 : Option (List Str)} {A : AllFiles}
    (h : assemble o1 o2 o3 o4 o5 o6 o7 o8 o9 o10 o11 o12 o13 o14 o15 o16 o17 o18 o19 o20 o21 = some A) :
    o1 = some A.aliases ∧ o2 = some A.gc ∧ o3 = some A.core ∧ o4 = some A.scripts ∧ o5 = some A.isc ∧ o6 = some A.sce ∧ o7 = some A.blocks ∧
      o8 = some A.gcb ∧ o9 = some A.wb ∧ o10 = some A.eaw ∧ o11 = some A.hst ∧ o12 = some A.emoji ∧ o13 = some A.evs ∧ o14 = some A.unicodeData ∧
      o15 = some A.bidi ∧ o16 = some A.folding ∧ o17 = some A.casing ∧ o18 = some A.exclusions ∧ o19 = some A.normProps ∧ o20 = some A.age ∧
      o21 = some A.names := by
  unfold assemble at h
  obtain ⟨l1, e1, g1⟩ := of_bind h
  obtain ⟨l2, e2, g2⟩ := of_bind g1
  obtain ⟨l3, e3, g3⟩ := of_bind g2
  obtain ⟨l4, e4, g4⟩ := of_bind g3
  obtain ⟨l5, e5, g5⟩ := of_bind g4
  obtain ⟨l6, e6, g6⟩ := of_bind g5
  obtain ⟨l7, e7, g7⟩ := of_bind g6
  obtain ⟨l8, e8, g8⟩ := of_bind g7
  obtain ⟨l9, e9, g9⟩ := of_bind g8
  obtain ⟨l10, e10, g10⟩ := of_bind g9
  obtain ⟨l11, e11, g11⟩ := of_bind g10
  obtain ⟨l12, e12, g12⟩ := of_bind g11
  obtain ⟨l13, e13, g13⟩ := of_bind g12
  obtain ⟨l14, e14, g14⟩ := of_bind g13
  obtain ⟨l15, e15, g15⟩ := of_bind g14
  obtain ⟨l16, e16, g16⟩ := of_bind g15
  obtain ⟨l17, e17, g17⟩ := of_bind g16
  obtain ⟨l18, e18, g18⟩ := of_bind g17
  obtain ⟨l19, e19, g19⟩ := of_bind g18
  obtain ⟨l20, e20, g20⟩ := of_bind g19
  obtain ⟨l21, e21, g21⟩ := of_bind g20
  obtain rfl := Option.some.inj g21
  exact ⟨e1, e2, e3, e4, e5, e6, e7, e8, e9, e10, e11, e12, e13, e14, e15, e16, e17, e18, e19, e20, e21⟩

theorem readAll_alike {dir dir' : Dir} (h : SameFiles dir dir') {ucd : Str} {A : AllFiles} (hr : readAll dir ucd = some A) :
    ∃ A', readAll dir' ucd = some A' ∧ AllAlike A A' := by
  obtain ⟨h1, h2, h3, h4, h5, h6, h7, h8, h9, h10, h11, h12, h13, h14, h15, h16, h17, h18, h19, h20, h21⟩ := assemble_some hr
  obtain ⟨m1, r1, a1⟩ := read_alike h h1
  obtain ⟨m2, r2, a2⟩ := read_alike h h2
  obtain ⟨m3, r3, a3⟩ := read_alike h h3
  obtain ⟨m4, r4, a4⟩ := read_alike h h4
  obtain ⟨m5, r5, a5⟩ := read_alike h h5
  obtain ⟨m6, r6, a6⟩ := read_alike h h6
  obtain ⟨m7, r7, a7⟩ := read_alike h h7
  obtain ⟨m8, r8, a8⟩ := read_alike h h8
  obtain ⟨m9, r9, a9⟩ := read_alike h h9
  obtain ⟨m10, r10, a10⟩ := read_alike h h10
  obtain ⟨m11, r11, a11⟩ := read_alike h h11
  obtain ⟨m12, r12, a12⟩ := read_alike h h12
  obtain ⟨m13, r13, a13⟩ := read_alike h h13
  obtain ⟨m14, r14, a14⟩ := read_alike h h14
  obtain ⟨m15, r15, a15⟩ := read_alike h h15
  obtain ⟨m16, r16, a16⟩ := read_alike h h16
  obtain ⟨m17, r17, a17⟩ := read_alike h h17
  obtain ⟨m18, r18, a18⟩ := read_alike h h18
  obtain ⟨m19, r19, a19⟩ := read_alike h h19
  obtain ⟨m20, r20, a20⟩ := read_alike h h20
  obtain ⟨m21, r21, a21⟩ := read_alike h h21
  refine ⟨⟨⟨m1, m2, m3, m4, m5, m6, m7, m8, m9, m10, m11, m12, m13, m14, m15, m20, m21⟩, m16, m17, m18, m19⟩, ?_, a1, a2, a3, a4, a5, a6, a7, a8, a9, a10, a11, a12,
    a13, a14, a15, a20, a21, a16, a17, a18, a19⟩
  unfold readAll
  rw [r1, r2, r3, r4, r5, r6, r7, r8, r9, r10, r11, r12, r13, r14, r15, r16, r17, r18, r19, r20, r21]
  rfl

theorem sameFiles_symm {dir dir' : Dir} (h : SameFiles dir dir') : SameFiles dir' dir := by
  intro path
  rcases h path with e | ⟨s, s', e1, e2, ls, hc, h1, h2⟩
  · exact .inl e.symm
  · exact .inr ⟨s', s, e2, e1, ls, hc, h2, h1⟩

theorem yields_alike {same : Nat → Nat → Bool} {dir dir' : Dir} (h : SameFiles dir dir') {ucd : Str} {o : Option GenInput} (hy : Yields same dir ucd o) :
    Yields same dir' ucd o := by
  cases o with
  | none =>
    intro A' hA'
    obtain ⟨A, hA, ha⟩ := readAll_alike (sameFiles_symm h) hA'
    exact throws_alike ha.symm (hy A hA)
  | some i =>
    obtain ⟨A, P, h1, h2, h3⟩ := hy
    obtain ⟨A', hA', ha⟩ := readAll_alike h h1
    exact ⟨A', P, hA', parses_alike ha h2, h3⟩

theorem runs_alike {same : Nat → Nat → Bool} {dir dir' : Dir} (h : SameFiles dir dir') {env : Os} {args : List Str} {disk : Disk} {code : Nat} {disk' : Disk}
    (hr : RunsOn same dir env args disk code disk') : RunsOn same dir' env args disk code disk' := by
  obtain ⟨parse, hp, hm⟩ := hr
  exact ⟨parse, fun ucd hu => yields_alike h (hp ucd hu), hm⟩

/-! ## The theorems -/

/-- **C70.** The line ends of the data files do not matter: whatever the program can do with one set of files, exit code and all files on the disk, it can
do with the same files with other line ends (`\n` or `\r\n`, in any mixture, with or without one at the end). -/
theorem C70_line_ends (same : Nat → Nat → Bool) (dir dir' : Dir) (h : SameFiles dir dir') (env : Os) (args : List Str) (disk : Disk) (code : Nat)
    (disk' : Disk) : RunsOn same dir env args disk code disk' ↔ RunsOn same dir' env args disk code disk' :=
  ⟨runs_alike h, runs_alike (sameFiles_symm h)⟩

/-- The names of the files, below the directory of the database. -/
def dataFiles : List Str :=
  ["PropertyValueAliases.txt".toList, "extracted/DerivedGeneralCategory.txt".toList, "DerivedCoreProperties.txt".toList, "Scripts.txt".toList,
   "IndicSyllabicCategory.txt".toList, "ScriptExtensions.txt".toList, "Blocks.txt".toList, "auxiliary/GraphemeBreakProperty.txt".toList,
   "auxiliary/WordBreakProperty.txt".toList, "EastAsianWidth.txt".toList, "HangulSyllableType.txt".toList, "emoji/emoji-data.txt".toList,
   "emoji/emoji-variation-sequences.txt".toList, "UnicodeData.txt".toList, "BidiMirroring.txt".toList, "CaseFolding.txt".toList,
   "SpecialCasing.txt".toList, "CompositionExclusions.txt".toList, "DerivedNormalizationProps.txt".toList, "DerivedAge.txt".toList,
   "extracted/DerivedName.txt".toList]

theorem readAll_some {dir : Dir} {ucd : Str} {A : AllFiles} (h : readAll dir ucd = some A) : ∀ name ∈ dataFiles, dir (inDir ucd name) ≠ none := by
  obtain ⟨h1, h2, h3, h4, h5, h6, h7, h8, h9, h10, h11, h12, h13, h14, h15, h16, h17, h18, h19, h20, h21⟩ := assemble_some h
  have key : ∀ (n : String) (l : List Str), fileIn dir ucd n = some l → dir (inDir ucd n.toList) ≠ none := by
    intro n l h e
    unfold fileIn readLines at h
    rw [show ucd ++ ('/' :: n.toList) = inDir ucd n.toList from rfl, e] at h
    cases h
  unfold dataFiles
  refine List.forall_mem_cons.2 ⟨key _ _ h1, List.forall_mem_cons.2 ⟨key _ _ h2, List.forall_mem_cons.2 ⟨key _ _ h3, List.forall_mem_cons.2 ⟨key _ _ h4,
    List.forall_mem_cons.2 ⟨key _ _ h5, List.forall_mem_cons.2 ⟨key _ _ h6, List.forall_mem_cons.2 ⟨key _ _ h7, List.forall_mem_cons.2 ⟨key _ _ h8,
    List.forall_mem_cons.2 ⟨key _ _ h9, List.forall_mem_cons.2 ⟨key _ _ h10, List.forall_mem_cons.2 ⟨key _ _ h11, List.forall_mem_cons.2 ⟨key _ _ h12,
    List.forall_mem_cons.2 ⟨key _ _ h13, List.forall_mem_cons.2 ⟨key _ _ h14, List.forall_mem_cons.2 ⟨key _ _ h15, List.forall_mem_cons.2 ⟨key _ _ h16,
    List.forall_mem_cons.2 ⟨key _ _ h17, List.forall_mem_cons.2 ⟨key _ _ h18, List.forall_mem_cons.2 ⟨key _ _ h19, List.forall_mem_cons.2 ⟨key _ _ h20,
    List.forall_mem_cons.2 ⟨key _ _ h21, fun _ h => nomatch h⟩⟩⟩⟩⟩⟩⟩⟩⟩⟩⟩⟩⟩⟩⟩⟩⟩⟩⟩⟩⟩

/-- If one of the 21 data files cannot be opened, the program fails and touches nothing. -/
theorem C70_missing_file (same : Nat → Nat → Bool) (dir : Dir) (env : Os) (args : List Str) (disk : Disk) (code : Nat) (disk' : Disk) (ucd name : Str)
    (hu : args[1]? = some ucd) (hn : name ∈ dataFiles) (hm : dir (inDir ucd name) = none) (h : RunsOn same dir env args disk code disk') :
    code = 1 ∧ disk' = disk := by
  obtain ⟨parse, hp, hr⟩ := h
  have hy := hp ucd hu
  have : parse ucd = none := by
    cases e : parse ucd with
    | none => rfl
    | some i =>
      rw [e] at hy
      obtain ⟨A, P, h1, -⟩ := hy
      exact absurd hm (readAll_some h1 name hn)
  rw [C69_unreadable parse env args disk ucd hu this] at hr
  exact ⟨(congrArg Prod.fst hr).symm, (congrArg Prod.snd hr).symm⟩

/-- There is such a run. -/
theorem C70_missing_run (same : Nat → Nat → Bool) (dir : Dir) (env : Os) (args : List Str) (disk : Disk) (ucd name : Str)
    (hu : args[1]? = some ucd) (hn : name ∈ dataFiles) (hm : dir (inDir ucd name) = none) : RunsOn same dir env args disk 1 disk :=
  ⟨fun _ => none, fun u hu' => by
    obtain rfl : ucd = u := Option.some.inj (hu.symm.trans hu')
    intro A hA
    exact absurd hm (readAll_some hA name hn), C69_unreadable _ env args disk ucd hu rfl⟩

/-- Only the 21 data files are read: a run does not depend on anything else on the disk. -/
theorem C70_reads_only (same : Nat → Nat → Bool) (dir dir' : Dir) (env : Os) (args : List Str) (disk : Disk) (code : Nat) (disk' : Disk)
    (h : ∀ ucd, args[1]? = some ucd → ∀ name ∈ dataFiles, dir' (inDir ucd name) = dir (inDir ucd name)) :
    RunsOn same dir env args disk code disk' → RunsOn same dir' env args disk code disk' := by
  rintro ⟨parse, hp, hm⟩
  refine ⟨parse, fun ucd hu => ?_, hm⟩
  have e : readAll dir' ucd = readAll dir ucd := by
    have hh := h ucd hu
    have key : ∀ n : String, n.toList ∈ dataFiles → fileIn dir' ucd n = fileIn dir ucd n := by
      intro n hn
      unfold fileIn readLines
      exact congrArg _ (hh _ hn)
    unfold readAll
    rw [key "PropertyValueAliases.txt" (by decide),
      key "extracted/DerivedGeneralCategory.txt" (by decide),
      key "DerivedCoreProperties.txt" (by decide),
      key "Scripts.txt" (by decide),
      key "IndicSyllabicCategory.txt" (by decide),
      key "ScriptExtensions.txt" (by decide),
      key "Blocks.txt" (by decide),
      key "auxiliary/GraphemeBreakProperty.txt" (by decide),
      key "auxiliary/WordBreakProperty.txt" (by decide),
      key "EastAsianWidth.txt" (by decide),
      key "HangulSyllableType.txt" (by decide),
      key "emoji/emoji-data.txt" (by decide),
      key "emoji/emoji-variation-sequences.txt" (by decide),
      key "UnicodeData.txt" (by decide),
      key "BidiMirroring.txt" (by decide),
      key "CaseFolding.txt" (by decide),
      key "SpecialCasing.txt" (by decide),
      key "CompositionExclusions.txt" (by decide),
      key "DerivedNormalizationProps.txt" (by decide),
      key "DerivedAge.txt" (by decide),
      key "extracted/DerivedName.txt" (by decide)]
  have hy := hp ucd hu
  revert hy
  cases parse ucd with
  | none => intro hy A hA; rw [e] at hA; exact hy A hA
  | some i => rintro ⟨A, P, h1, h2⟩; exact ⟨A, P, by rw [e]; exact h1, h2⟩

/-- A file with DOS line ends, and the same file with Unix line ends and none at the end. -/
example : SameLines "0041;A\r\n0042;B\r\n".toList "0041;A\n0042;B".toList :=
  ⟨["0041;A".toList, "0042;B".toList], by intro l hl; revert l; decide, .dos _ (.dos _ .nil), .unix _ (.last _ (by decide))⟩

end Verif.Props.Tg
