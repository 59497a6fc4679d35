import Verif.Props.LoaderAgree
import Verif.Props.TgRowSample
/-!
# C74, C75: a small directory
-/

namespace Verif.Load
open Verif.Tg Verif.Props.Tg Verif.Spec.UcdFile Verif.Spec.Ucd

def textOf (ls : List Str) : Str := ls.flatMap fun l => l ++ ['\n']

theorem textOf_ok (ls : List Str) : TextOf ls (textOf ls) := by
  induction ls with
  | nil => exact .nil
  | cons l ls ih =>
    have e : textOf (l :: ls) = l ++ '\n' :: textOf ls := by unfold textOf; rw [List.flatMap_cons, List.append_assoc]; rfl
    rw [e]
    exact .unix l ih

def lNames : List Str := ["# Names".toList, "0041          ; LATIN CAPITAL LETTER A".toList, "4E00..9FFF    ; CJK UNIFIED IDEOGRAPH-*".toList]

/-- The small database of C54, with names. -/
def lU : Contents := { rU with names := [(0x41, 0x41, "LATIN CAPITAL LETTER A".toList), (0x4E00, 0x9FFF, "CJK UNIFIED IDEOGRAPH-*".toList)] }

def lFiles : List (String × List Str) :=
  [("Scripts.txt", (filesOf rU).scripts), ("DerivedCoreProperties.txt", (filesOf rU).core), ("DerivedAge.txt", (filesOf rU).age),
   ("extracted/DerivedGeneralCategory.txt", (filesOf rU).gc), ("extracted/DerivedName.txt", lNames),
   ("auxiliary/GraphemeBreakProperty.txt", (filesOf rU).gcb), ("EastAsianWidth.txt", (filesOf rU).eaw), ("emoji/emoji-data.txt", (filesOf rU).emoji)]

def lDir : Dir := fun p => (lFiles.find? fun f => inDir "ucd".toList f.1.toList = p).map fun f => textOf f.2

def tidyB (l : Str) : Bool :=
  (l.head? != some ' ' && l.head? != some '\t') && (l.head? == some '#' ||
    (l.takeWhile (· ≠ ';')).all fun c => decide (c ≠ 'a' ∧ c ≠ 'b' ∧ c ≠ 'c' ∧ c ≠ 'd' ∧ c ≠ 'e' ∧ c ≠ 'f'))

theorem tidyB_ok {l : Str} (h : tidyB l = true) : Tidy l := by
  unfold tidyB at h
  rw [Bool.and_eq_true, Bool.and_eq_true] at h
  obtain ⟨⟨h1, h2⟩, h3⟩ := h
  constructor
  · intro c hc
    rw [hc] at h1 h2
    constructor
    · rintro rfl; exact absurd h1 (by decide)
    · rintro rfl; exact absurd h2 (by decide)
  · intro g1 g2 p q e hp
    rw [Bool.or_eq_true] at h3
    rcases h3 with h3 | h3
    · cases l with
      | nil => cases h3
      | cons c t =>
        have : c = '#' := by simpa using h3
        exact absurd (by rw [this]) (g1 t)
    · have e' : l.takeWhile (· ≠ ';') = p := by
        rw [e]
        exact (takeWhile_app (p := fun c => decide (c ≠ ';')) (fun c hc => decide_eq_true (fun e => hp (by rw [← e]; exact hc)))
          (fun c t e => by obtain ⟨rfl, -⟩ := List.cons.inj e; rfl)).1
      rw [e', List.all_eq_true] at h3
      exact fun c hc => of_decide_eq_true (h3 c hc)

def cleanB (ls : List Str) : Bool := ls.all fun l => l.all fun c => c != '\n' && c != '\r'

theorem cleanB_ok {ls : List Str} (h : cleanB ls = true) : CleanLines ls := by
  intro l hl
  have := List.all_eq_true.1 (List.all_eq_true.1 h l hl)
  constructor
  · intro hc; exact absurd (this _ hc) (by decide)
  · intro hc; exact absurd (this _ hc) (by decide)

theorem lDir_file {name : String} {ls : List Str} {es : List Entry} (hd : lDir (inDir "ucd".toList name.toList) = some (textOf ls)) (hc : cleanB ls = true)
    (ht : ls.all tidyB = true) (hf : FileOf ls es) : TidyFile lDir ("ucd".toList ++ '/' :: name.toList) es :=
  tidyFile_of ⟨cleanB_ok hc, _, hd, textOf_ok ls⟩ hf fun l hl => tidyB_ok (List.all_eq_true.1 ht l hl)

theorem lNames_ok : FileOf lNames lU.names := by
  have d : ∀ {c v}, Digit c v → HexOf [c] v := .one
  have h0 : Digit '0' 0 := by unfold Digit; decide
  have h4 : Digit '4' 4 := by unfold Digit; decide
  have h1 : Digit '1' 1 := by unfold Digit; decide
  have hE : Digit 'E' 14 := by unfold Digit; decide
  have h9 : Digit '9' 9 := by unfold Digit; decide
  have hF : Digit 'F' 15 := by unfold Digit; decide
  have b0 : Blank [] := by intro c hc; cases hc
  have b1 : Blank [' '] := by unfold Blank; decide
  have b10 : Blank "          ".toList := by unfold Blank; decide
  have b4 : Blank "    ".toList := by unfold Blank; decide
  refine .skip (Or.inl ⟨" Names".toList, rfl⟩) (Or.inl rfl) (.data (line := "0041          ; LATIN CAPITAL LETTER A".toList) ?_ (Or.inl rfl) (by decide) (by decide)
    (.data (line := "4E00..9FFF    ; CJK UNIFIED IDEOGRAPH-*".toList) ?_ (Or.inl rfl) (by decide) (by decide) .nil))
  · exact DataLine.single (w₁ := []) (h := "0041".toList) (w₂ := "          ".toList) (w₃ := [' ']) (w₄ := []) (tail := []) (value := "LATIN CAPITAL LETTER A".toList) b0
      (.snoc (.snoc (.snoc (.one h0) h0) h4) h1) b10 b1 ⟨by decide, by (intro c h; cases h; decide), by (intro c h; cases h; decide)⟩ b0 (Or.inl rfl)
  · exact DataLine.range (w₁ := []) (h₁ := "4E00".toList) (h₂ := "9FFF".toList) (w₂ := "    ".toList) (w₃ := [' ']) (w₄ := []) (tail := [])
      (value := "CJK UNIFIED IDEOGRAPH-*".toList) b0 (.snoc (.snoc (.snoc (.one h4) hE) h0) h0) (.snoc (.snoc (.snoc (.one h9) hF) hF) hF) b4 b1
      ⟨by decide, by (intro c h; cases h; decide), by (intro c h; cases h; decide)⟩ b0 (Or.inl rfl)

theorem lDir_files : LoaderFiles lDir "ucd".toList lU where
  scripts := lDir_file (ls := (filesOf rU).scripts) (by rfl) (by decide +kernel) (by decide +kernel) rU_describes.scripts
  core := lDir_file (ls := (filesOf rU).core) (by rfl) (by decide +kernel) (by decide +kernel) rU_describes.core
  ages := lDir_file (ls := (filesOf rU).age) (by rfl) (by decide +kernel) (by decide +kernel) rU_describes.ages
  gc := lDir_file (ls := (filesOf rU).gc) (by rfl) (by decide +kernel) (by decide +kernel)
    (sections_file rU_describes.gc (fun l h => h.1) (fun l n h => by obtain ⟨w, -, -, rfl⟩ := h; exact Or.inl ⟨_, rfl⟩))
  names := lDir_file (ls := lNames) (by rfl) (by decide +kernel) (by decide +kernel) lNames_ok
  gcb := lDir_file (ls := (filesOf rU).gcb) (by rfl) (by decide +kernel) (by decide +kernel)
    (sections_file rU_describes.gcb (fun l h => h.elim (fun h => Or.inr (Or.inr h)) (fun h => Or.inl h.1))
      (fun l n h => by obtain ⟨w, w', -, -, -, rfl⟩ := h; exact Or.inl ⟨_, rfl⟩))
  eaw := lDir_file (ls := (filesOf rU).eaw) (by rfl) (by decide +kernel) (by decide +kernel) rU_describes.eaw
  emoji := lDir_file (ls := (filesOf rU).emoji) (by rfl) (by decide +kernel) (by decide +kernel) rU_describes.emoji

instance (s : Str) : Decidable (Plainword s) := by unfold Plainword; infer_instance

theorem lU_plain : PlainValues lU where
  scripts := by decide +kernel
  ages := by decide +kernel
  gc := by decide +kernel
  gcb := by decide +kernel
  eaw := by decide +kernel
  emoji := by decide +kernel
  core := by
    intro e he
    have key : ∀ v : String, wordOk v.toList = true → e.2.2 = "InCB".toList ++ [] ++ ';' :: [' '] ++ v.toList → ∃ v, TwoPart e.2.2 "InCB".toList v :=
      fun v hv h => ⟨v.toList, by rw [h]; exact twoPart_of v hv⟩
    have : Plainword e.2.2 ∨ e.2.2 = "InCB; Linker".toList ∨ e.2.2 = "InCB; Consonant".toList ∨ e.2.2 = "InCB; Extend".toList := by
      clear key
      revert e
      decide +kernel
    rcases this with h | h | h | h
    · exact Or.inl h
    · exact Or.inr (key "Linker" (by decide) h)
    · exact Or.inr (key "Consonant" (by decide) h)
    · exact Or.inr (key "Extend" (by decide) h)

/-- A check that a table knows the values. -/
def knowsB (table : List (String × String)) (al : List (Str × Str)) (es : List Entry) : Bool :=
  es.all fun e => match named table e.2.2 with
    | none => false
    | some f => al.any fun p => decide (p.2 = f ∧ (p.1 = e.2.2 ∨ p.2 = e.2.2))

theorem knowsB_ok {table : List (String × String)} {al : List (Str × Str)} {es : List Entry} (h : knowsB table al es = true) :
    ∀ e ∈ es, ∃ f, named table e.2.2 = some f ∧ Names al e.2.2 f := by
  intro e he
  have := List.all_eq_true.1 h e he
  cases hn : named table e.2.2 with
  | none => rw [hn] at this; cases this
  | some f =>
    rw [hn] at this
    obtain ⟨p, hp, h2⟩ := List.any_eq_true.1 this
    obtain ⟨rfl, h3⟩ := of_decide_eq_true h2
    refine ⟨_, rfl, ?_⟩
    rcases h3 with h3 | h3
    · left; rw [← h3]; exact hp
    · right; exact ⟨h3.symm, p.1, hp⟩

theorem lU_known : LoaderKnows lU rN where
  scripts := by
    have h : ∀ e ∈ lU.scripts, named scriptTable e.2.2 = some e.2.2 := by decide +kernel
    exact fun e he => (script_known.1 (h e he)).1
  ages := by
    have h := knowsB_ok (table := ageTable) (al := rN.age) (es := lU.ages) (by decide +kernel)
    intro e he
    obtain ⟨f, h1, h2⟩ := h e he
    obtain ⟨h3, rfl⟩ := age_known.1 h1
    exact ⟨h3, h2⟩
  gc := by
    intro e he
    have h : ∀ e ∈ allOf lU.gc, ((named gcTable e.2.2).any fun f => decide ((e.2.2, f) ∈ rN.gc)) = true := by decide +kernel
    have h' := h e he
    cases hn : named gcTable e.2.2 with
    | none => rw [hn] at h'; cases h'
    | some f => rw [hn] at h'; exact ⟨f, category_known.1 hn, of_decide_eq_true h'⟩
  gcb := by
    have h := knowsB_ok (table := gcbTable) (al := rN.gcb) (es := allOf lU.gcb) (by decide +kernel)
    intro e he
    obtain ⟨f, h1, h2⟩ := h e he
    obtain ⟨h3, rfl⟩ := break_known.1 h1
    exact ⟨h3, h2⟩
  eaw := by
    have h := knowsB_ok (table := eawTable) (al := rN.eaw) (es := lU.eaw) (by decide +kernel)
    intro e he
    obtain ⟨f, h1, h2⟩ := h e he
    exact ⟨f, width_known.1 h1, h2⟩

theorem lNames_proper : ∀ text, lDir ("ucd".toList ++ '/' :: "extracted/DerivedName.txt".toList) = some text → ∀ l ∈ getlines text, ProperRange l := by
  have e : getlines (textOf lNames) = lNames := by decide +kernel
  intro text h l hl
  obtain rfl : textOf lNames = text := Option.some.inj h
  rw [e] at hl
  intro h₁ h₂ n r x1 x2 hr el
  have hdot : '.' ∈ l := by rw [el]; simp
  have key : l = "0041          ; LATIN CAPITAL LETTER A".toList ∨ l = "# Names".toList ∨ l = "4E00..9FFF    ; CJK UNIFIED IDEOGRAPH-*".toList := by
    unfold lNames at hl
    rcases List.mem_cons.1 hl with h | hl
    · exact Or.inr (Or.inl h)
    · rcases List.mem_cons.1 hl with h | hl
      · exact Or.inl h
      · exact Or.inr (Or.inr (List.mem_singleton.1 hl))
  rcases key with rfl | rfl | rfl
  · exact absurd hdot (by decide)
  · exact absurd hdot (by decide)
  · have f1 := hexOf_facts _ _ x1
    have f2 := hexOf_facts _ _ x2
    have t1 := takeWhile_app (p := isHex) (a := h₁) (b := '.' :: '.' :: (h₂ ++ r)) (fun c hc => (f1.2.2 c hc).1)
      (fun c t e => by obtain ⟨rfl, -⟩ := List.cons.inj e; decide)
    rw [← el] at t1
    have t2 := takeWhile_app (p := isHex) (a := h₂) (b := r) (fun c hc => (f2.2.2 c hc).1) (fun c t e => by
      rw [e] at hr
      rcases hr with h | h | h <;> (obtain rfl := Option.some.inj h; decide))
    have e1 : h₁ = "4E00".toList := t1.1.symm.trans (by decide)
    have e2 : '.' :: '.' :: (h₂ ++ r) = '.' :: '.' :: "9FFF    ; CJK UNIFIED IDEOGRAPH-*".toList := t1.2.symm.trans (by decide)
    have e3 := (List.cons.inj (List.cons.inj e2).2).2
    rw [e3] at t2
    have e4 : h₂ = "9FFF".toList := t2.1.symm.trans (by decide)
    have : hexNum h₁ = hexNum h₂ := f1.2.1.trans f2.2.1.symm
    rw [e1, e4] at this
    exact absurd this (by decide +kernel)

/-- The small directory is loaded: `A` is Latin, an upper case letter, from Unicode 1.1, and its name is known; the grinning face is two columns wide. -/
theorem sample_load : ∃ s, load lDir "ucd".toList = .ok s ∧ (s.props 0x41).script = "Latin".toList ∧ (s.props 0x41).gc = "Uppercase_Letter".toList ∧
    (s.props 0x41).age = "V1_1".toList ∧ (s.props 0x1F600).width = 2 ∧ s.names 0x41 = "LATIN CAPITAL LETTER A".toList := by
  obtain ⟨s, h1, h2⟩ := C74_loads_partial lDir_files lU_plain lU_known
  refine ⟨s, h1, ?_, ?_, ?_, ?_, ?_⟩
  · exact value_unique rU_complete.scriptsOne (h2 0x41).script (Or.inl (by decide +kernel))
  · rcases (h2 0x41).gc with ⟨ab, g1, g2⟩ | ⟨g1, -⟩
    · have e := rU_complete.gcOne 0x41 ab "Lu".toList g1 (by decide +kernel)
      rw [e] at g2
      exact rU_complete.gcOk _ _ _ g2 (by decide +kernel)
    · exact absurd (by decide +kernel) (g1 "Lu".toList)
  · exact named_unique rU_complete.agesOne rU_complete.ageOk (h2 0x41).age (Or.inl ⟨"1.1".toList, by decide +kernel, Or.inl (by decide +kernel)⟩)
  · have hg : (rowOf (s.props 0x1F600)).gc = "Other_Symbol".toList := by
      rcases (h2 0x1F600).gc with ⟨ab, g1, g2⟩ | ⟨g1, -⟩
      · have e := rU_complete.gcOne 0x1F600 ab "So".toList g1 (by decide +kernel)
        rw [e] at g2
        exact rU_complete.gcOk _ _ _ g2 (by decide +kernel)
      · exact absurd (by decide +kernel) (g1 "So".toList)
    have hw := (h2 0x1F600).width
    rw [hg, if_neg (by decide), if_pos (by decide +kernel)] at hw
    exact hw
  · refine (C74_names_partial lDir_files h1 lU_plain ?_ lNames_proper).1 0x41 _ (List.mem_cons_self ..) ?_
    · show List.Pairwise _ _
      exact List.pairwise_cons.2 ⟨by decide, List.pairwise_singleton _ _⟩
    · have b : Blank [' '] := by unfold Blank; decide
      exact .cons (w := "LATIN".toList) (by decide) b (by decide) (.cons (w := "CAPITAL".toList) (by decide) b (by decide)
        (.cons (w := "LETTER".toList) (by decide) b (by decide) (.one (w := "A".toList) (by decide))))

theorem eU_plain : PlainValues eU := ⟨lU_plain.scripts, lU_plain.ages, lU_plain.gc, lU_plain.gcb, lU_plain.eaw, lU_plain.emoji, lU_plain.core⟩

theorem eU_known : LoaderKnows eU rN := ⟨lU_known.scripts, lU_known.ages, lU_known.gc, lU_known.gcb, lU_known.eaw⟩

theorem sampleAll_tidy : AllTidy sampleAll := by
  have : ([sampleAll.scripts, sampleAll.core, sampleAll.age, sampleAll.gc, sampleAll.names, sampleAll.gcb, sampleAll.eaw, sampleAll.emoji].all
    fun ls => ls.all tidyB) = true := by decide +kernel
  intro ls hls l hl
  exact tidyB_ok (List.all_eq_true.1 (List.all_eq_true.1 this ls hls) l hl)

/-- The program and the loader on one directory (with DOS line ends): the records of the grinning face agree, including its width. -/
theorem sample_agree (disk : Disk) : ∃ disk' s, RunsOn (fun _ _ => false) (dirOf "ucd".toList sampleAll) ⟨fun _ => true, fun _ => none⟩
    ["unicode_tablegen".toList, "ucd".toList, "out".toList] disk 0 disk' ∧ load (dirOf "ucd".toList sampleAll) "ucd".toList = .ok s ∧
    ∃ text stage1 stage2 rows t1 t2 ps, disk' "out/codepoint_properties_data.cpp".toList = some text ∧ Verif.Spec.Cxx.Consists text ps ∧
      List.Forall₂ Verif.Spec.Cxx.Means ps [.usingNs [] inUnicode,
        .item precompiled (.table t1 "stage1".toList (stage1.map .num)), .item precompiled (.table t2 "stage2".toList (stage2.map .num)),
        .item precompiled (.table "codepoint_properties".toList "properties".toList (rows.map rowVal))] ∧
      ∃ e, Verif.Tables.get Verif.Tables.propertiesShape ({ stage1 := stage1, stage2 := stage2, stage3 := rows } : Verif.Tables.Gen Emitted) 0x1F600 = .ok e ∧
        Agree eU 0x1F600 (rowOf e) (rowOf (s.props 0x1F600)) ∧ (rowOf (s.props 0x1F600)).width = (rowOf e).width := by
  have hh := dirOf_holds "ucd".toList sampleAll sampleAll_clean
  obtain ⟨D, hl⟩ := eU_loads
  obtain ⟨disk', hr⟩ := C71_runs (fun _ _ => false) _ _ sampleAll eU rN hh eU_describes eU_release eU_few List.Pairwise.nil (by decide) (fun i j _ _ h => by cases h) D hl ⟨fun _ => true, fun _ => none⟩ "unicode_tablegen".toList "out".toList [] disk
  obtain ⟨s, h0, text, stage1, stage2, rows, t1, t2, ps, h1, h2, h3, h4⟩ := C75_directory_partial _ _ _ sampleAll eU rN hh eU_describes eU_release eU_few sampleAll_tidy
    eU_plain eU_known _ ⟨fun _ => rfl, fun _ => rfl⟩ _ _ _ precompiled precompiled_ok (C69_namespace _ _ _).1 _ _ _ hr
  obtain ⟨e, he, ha⟩ := h4 0x1F600 (by decide)
  refine ⟨disk', s, hr, h0, text, stage1, stage2, rows, t1, t2, ps, h1, h2, h3, e, he, ha, ?_⟩
  exact ha.width (by decide +kernel) (by decide +kernel) (by decide) (fun h => absurd h.2 (by decide +kernel))

end Verif.Load
