import Verif.Spec.LoaderValues
import Verif.Lemmas.LoaderName
import Verif.Props.TgRow
/-!
# C74: what the run-time loader makes of a directory of data files
-/

namespace Verif.Load
open Verif.Tg Verif.Props.Tg Verif.Spec.Regex Verif.Spec.UcdFile Verif.Spec.Ucd

/-! ## Lines -/

/-- **C74, the two patterns.**  A line is taken as data for one codepoint exactly if it has the form `HEX ; words…`; numeral and words are what the
pattern captures, and the words end where no further word follows. -/
theorem C74_pattern_single (line h v : Str) :
    (∃ m, searchAtBegin singlePattern line = some m ∧ m.group 1 = h ∧ m.group 2 = v) ↔
    ∃ w₁ w₂ rest, line = h ++ w₁ ++ ';' :: w₂ ++ v ++ rest ∧ h ≠ [] ∧ (∀ c ∈ h, isUpperHex c = true) ∧ White w₁ ∧ White w₂ ∧ Phrase v ∧ Stops rest :=
  single_exact line h v

/-- … as data for a range exactly if it has the form `HEX..HEX ; word`. -/
theorem C74_pattern_range (line h₁ h₂ v : Str) :
    (∃ m, searchAtBegin rangePattern line = some m ∧ m.group 1 = h₁ ∧ m.group 2 = h₂ ∧ m.group 3 = v) ↔
    ∃ w₁ w₂ rest, line = h₁ ++ '.' :: '.' :: h₂ ++ w₁ ++ ';' :: w₂ ++ v ++ rest ∧ h₁ ≠ [] ∧ (∀ c ∈ h₁, isUpperHex c = true) ∧ h₂ ≠ [] ∧
      (∀ c ∈ h₂, isUpperHex c = true) ∧ White w₁ ∧ White w₂ ∧ LWord v ∧ ∀ c t, rest = c :: t → isValueChar c = false :=
  range_exact line h₁ h₂ v

/-- **C74, one line.**  From a well-formed, tidy line the callback gets each codepoint of the line once, in ascending order, with its value. -/
theorem C74_line (cb : Callback) (s : State) {line stored : Str} {a b : Nat} {value v : Str} (hd : DataLine line a b value) (hs : Stored line stored)
    (ht : Tidy stored) (hf : FirstPart value v) (hab : a ≤ b) (hb : b ≤ 0x10FFFF) :
    processLine cb stored s = ((List.range (b + 1 - a)).map (a + ·)).foldl (fun r c => r.bind (cb c v)) (.ok s) := by
  rw [data_line cb s hd hs ht hf hab hb]
  have key : ∀ n a (s : State), rangeLoop cb v n a s = ((List.range n).map (a + ·)).foldl (fun r c => r.bind (cb c v)) (.ok s) := by
    have stuck : ∀ (l : List Nat) (r : Res State), (∀ s, r ≠ .ok s) → l.foldl (fun r c => r.bind (cb c v)) r = r := by
      intro l
      induction l with
      | nil => intro r _; rfl
      | cons c l ih =>
        intro r hr
        rw [List.foldl_cons]
        cases r with
        | ok s => exact absurd rfl (hr s)
        | throws => exact ih _ hr
        | oob => exact ih _ hr
        | hangs => exact ih _ hr
    intro n
    induction n with
    | zero => intro a s; rfl
    | succ n ih =>
      intro a s
      rw [rangeLoop, List.range_succ_eq_map, List.map_cons, List.foldl_cons, List.map_map]
      have e : (fun x => a + x) ∘ Nat.succ = fun x => a + 1 + x := by funext x; show a + (x + 1) = _; omega
      rw [e]
      show (cb a v s).bind _ = List.foldl _ (cb (a + 0) v s) _
      rw [Nat.add_zero]
      cases h : cb a v s with
      | ok s' => exact ih (a + 1) s'
      | throws => exact (stuck _ _ (fun s h => by cases h)).symm
      | oob => exact (stuck _ _ (fun s h => by cases h)).symm
      | hangs => exact (stuck _ _ (fun s h => by cases h)).symm
  exact key _ _ _

/-- Comments, directives and blank lines are skipped. -/
theorem C74_skips (cb : Callback) (s : State) {line stored : Str} (h : NoData line) (hs : Stored line stored) : processLine cb stored s = .ok s :=
  nodata_line cb s h hs

/-! ## All files -/

/-- The files the loader reads are there, tidy, and say what `U` says. -/
structure LoaderFiles (dir : Dir) (ucd : Str) (U : Contents) : Prop where
  scripts : TidyFile dir (ucd ++ '/' :: "Scripts.txt".toList) U.scripts
  core : TidyFile dir (ucd ++ '/' :: "DerivedCoreProperties.txt".toList) U.core
  ages : TidyFile dir (ucd ++ '/' :: "DerivedAge.txt".toList) U.ages
  gc : TidyFile dir (ucd ++ '/' :: "extracted/DerivedGeneralCategory.txt".toList) (allOf U.gc)
  names : TidyFile dir (ucd ++ '/' :: "extracted/DerivedName.txt".toList) U.names
  gcb : TidyFile dir (ucd ++ '/' :: "auxiliary/GraphemeBreakProperty.txt".toList) (allOf U.gcb)
  eaw : TidyFile dir (ucd ++ '/' :: "EastAsianWidth.txt".toList) U.eaw
  emoji : TidyFile dir (ucd ++ '/' :: "emoji/emoji-data.txt".toList) U.emoji

/-- Values are words of letters, digits, underscores and full stops. -/
structure PlainValues (U : Contents) : Prop where
  scripts : ∀ e ∈ U.scripts, Plainword e.2.2
  ages : ∀ e ∈ U.ages, Plainword e.2.2
  gc : ∀ e ∈ allOf U.gc, Plainword e.2.2
  gcb : ∀ e ∈ allOf U.gcb, Plainword e.2.2
  eaw : ∀ e ∈ U.eaw, Plainword e.2.2
  emoji : ∀ e ∈ U.emoji, Plainword e.2.2
  core : ∀ e ∈ U.core, Plainword e.2.2 ∨ ∃ v, TwoPart e.2.2 "InCB".toList v

/-- The tables of the loader know the values, under the names of PropertyValueAliases.txt. -/
structure NamesKnown (U : Contents) (N : ValueNames) : Prop where
  scripts : ∀ e ∈ U.scripts, named scriptTable e.2.2 = some e.2.2
  ages : ∀ e ∈ U.ages, ∃ f, named ageTable e.2.2 = some f ∧ Names N.age e.2.2 f
  gc : ∀ e ∈ allOf U.gc, ∃ f, named gcTable e.2.2 = some f ∧ (e.2.2, f) ∈ N.gc
  gcb : ∀ e ∈ allOf U.gcb, ∃ f, named gcbTable e.2.2 = some f ∧ Names N.gcb e.2.2 f
  eaw : ∀ e ∈ U.eaw, ∃ f, named eawTable e.2.2 = some f ∧ Names N.eaw e.2.2 f

theorem core_cut {es : List Entry} (h : ∀ e ∈ es, Plainword e.2.2 ∨ ∃ v, TwoPart e.2.2 "InCB".toList v) :
    ∃ es', List.Forall₂ Cut es es' ∧ ∀ c, Assigns es' c "Grapheme_Extend".toList ↔ Assigns es c "Grapheme_Extend".toList := by
  induction es with
  | nil => exact ⟨[], .nil, fun c => Iff.rfl⟩
  | cons e es ih =>
    obtain ⟨es', h1, h2⟩ := ih (fun e he => h e (List.mem_cons_of_mem _ he))
    have cons_iff : ∀ (e : Entry) (l : List Entry) c v, Assigns (e :: l) c v ↔ (e.1 ≤ c ∧ c ≤ e.2.1 ∧ e.2.2 = v) ∨ Assigns l c v := by
      intro e l c v
      constructor
      · rintro ⟨x, hx, hv⟩
        rcases List.mem_cons.1 hx with rfl | hx
        · exact Or.inl hv
        · exact Or.inr ⟨x, hx, hv⟩
      · rintro (hv | ⟨x, hx, hv⟩)
        · exact ⟨e, List.mem_cons_self .., hv⟩
        · exact ⟨x, List.mem_cons_of_mem _ hx, hv⟩
    obtain ⟨v', hv', hv''⟩ : ∃ v', FirstPart e.2.2 v' ∧ (v' = "Grapheme_Extend".toList ↔ e.2.2 = "Grapheme_Extend".toList) := by
      rcases h e (List.mem_cons_self ..) with hp | ⟨v, w, w', hw, hw', -, -, he⟩
      · exact ⟨e.2.2, ⟨hp, Or.inl rfl⟩, Iff.rfl⟩
      · refine ⟨"InCB".toList, ⟨⟨by decide, by decide⟩, Or.inr ⟨w, w' ++ v, hw, by rw [he]; simp [List.append_assoc]⟩⟩, ?_⟩
        constructor
        · intro e; exact absurd e (by decide)
        · intro e'
          rw [he] at e'
          have : ';' ∈ "Grapheme_Extend".toList := by rw [← e']; simp
          exact absurd this (by decide)
    refine ⟨(e.1, e.2.1, v') :: es', .cons ⟨rfl, rfl, hv'⟩ h1, fun c => ?_⟩
    rw [cons_iff, cons_iff, h2, hv'']

/-- The entries as lists, the row as a record. -/
theorem load_row {dir : Dir} {ucd : Str} {U : Contents} (hf : LoaderFiles dir ucd U) (hp : PlainValues U)
    (hgc : ∀ e ∈ allOf U.gc, named gcTable e.2.2 ≠ none) (hgcb : ∀ e ∈ allOf U.gcb, named gcbTable e.2.2 ≠ none)
    (heaw : ∀ e ∈ U.eaw, named eawTable e.2.2 ≠ none) :
    ∃ s core', load dir ucd = .ok s ∧ (∀ c, Assigns core' c "Grapheme_Extend".toList ↔ Assigns U.core c "Grapheme_Extend".toList) ∧
      (∀ x, (∀ v, ¬ Assigns U.names x v) → s.names x = []) ∧
      ∀ c, ∃ p : Emitted, p.script = lastOf (fun v => (named scriptTable v).getD "Invalid".toList) U.scripts c "Unknown".toList ∧
        p.age = lastOf (fun v => (named ageTable v).getD "Unassigned".toList) U.ages c "Unassigned".toList ∧
        p.gc = lastOf (fun v => (named gcTable v).getD []) (allOf U.gc) c "Unassigned".toList ∧
        p.gcb = lastOf (fun v => (named gcbTable v).getD []) (allOf U.gcb) c "Other".toList ∧
        p.eaw = lastOf (fun v => (named eawTable v).getD []) U.eaw c "Narrow".toList ∧
        p.flags = bitsOf (fun v => (flagOf v).getD 0) U.emoji c (bitsOf (fun v => if v = "Grapheme_Extend".toList then 0x40 else 0) core' c 0) ∧
        p.flags2 = 0 ∧ p.incb = "None".toList ∧ p.wb = "Other".toList ∧ p.esc = toEsc c p ∧ p.width = toCharWidth p ∧ s.props c = p := by
  have inOf : ∀ {path es}, TidyFile dir path es → ∀ e ∈ es, e.1 ≤ e.2.1 ∧ e.2.1 ≤ 0x10FFFF := fun ⟨_, _, h, _⟩ => file_in h
  obtain ⟨core', hcc, hge⟩ := core_cut hp.core
  have step : ∀ {name : String} {es es' : List Entry} {cb : Callback} {F : Str → Emitted → Emitted}, TidyFile dir (ucd ++ '/' :: name.toList) es →
      List.Forall₂ Cut es es' → (∀ e ∈ es', Puts cb e.2.2 (F e.2.2)) → ∀ s, ∃ s', processProperties dir ucd name cb s = .ok s' ∧ s'.names = s.names ∧
        ∀ c, s'.props c = applyAll F es' c (s.props c) := by
    intro name es es' cb F h1 h2 h3 s
    exact ⟨_, (file_pass cb h1 h2 s).trans (pass_puts (cut_in h2 (inOf h1)) h3 s), rfl, fun c => rfl⟩
  obtain ⟨s1, a1, n1, p1⟩ := step (F := fun v p => { p with script := (named scriptTable v).getD "Invalid".toList }) hf.scripts (cut_self hp.scripts)
    (fun e _ => script_puts e.2.2) init
  obtain ⟨s2, a2, n2, p2⟩ := step (F := fun v p => { p with flags := p.flags ||| if v = "Grapheme_Extend".toList then 0x40 else 0 }) hf.core hcc
    (fun e _ => core_puts e.2.2) s1
  obtain ⟨s3, a3, n3, p3⟩ := step (F := fun v p => { p with age := (named ageTable v).getD "Unassigned".toList }) hf.ages (cut_self hp.ages)
    (fun e _ => age_puts e.2.2) s2
  obtain ⟨s4, a4, n4, p4⟩ := step (F := fun v p => { p with gc := (named gcTable v).getD [] }) hf.gc (cut_self hp.gc) (fun e he => gc_puts (hgc e he)) s3
  obtain ⟨s5, a5, p5, n5⟩ := name_pass hf.names s4
  obtain ⟨s6, a6, n6, p6⟩ := step (F := fun v p => { p with gcb := (named gcbTable v).getD [] }) hf.gcb (cut_self hp.gcb) (fun e he => gcb_puts (hgcb e he)) s5
  obtain ⟨s7, a7, n7, p7⟩ := step (F := fun v p => { p with eaw := (named eawTable v).getD [] }) hf.eaw (cut_self hp.eaw) (fun e he => eaw_puts (heaw e he)) s6
  obtain ⟨s8, a8, n8, p8⟩ := step (F := fun v p => { p with flags := p.flags ||| (flagOf v).getD 0 }) hf.emoji (cut_self hp.emoji)
    (fun e _ => emoji_puts e.2.2) (preset s7)
  have hl : load dir ucd = .ok (derived s8) := by
    unfold load
    rw [a1, Res.bind, a2, Res.bind, a3, Res.bind, a4, Res.bind, a5, Res.bind, a6, Res.bind, a7, Res.bind, a8, Res.bind]
  refine ⟨derived s8, core', hl, hge, fun x hx => ?_, fun c => ?_⟩
  · show s8.names x = []
    rw [n8]
    show s7.names x = []
    rw [n7, n6, n5 x hx, n4, n3, n2, n1]
    rfl
  · have q8 := p8 c
    rw [apply_flags] at q8
    have q7 := p7 c
    rw [apply_eaw, p6 c, apply_gcb, p5, p4 c, apply_gc, p3 c, apply_age, p2 c, apply_flags, p1 c, apply_script] at q7
    refine ⟨(derived s8).props c, ?_, ?_, ?_, ?_, ?_, ?_, ?_, ?_, ?_, ?_, ?_, rfl⟩
    · show (s8.props c).script = _
      rw [q8]; show (s7.props c).script = _; rw [q7]; rfl
    · show (s8.props c).age = _
      rw [q8]; show (s7.props c).age = _; rw [q7]; rfl
    · show (s8.props c).gc = _
      rw [q8]; show (s7.props c).gc = _; rw [q7]; rfl
    · show (s8.props c).gcb = _
      rw [q8]; show (s7.props c).gcb = _; rw [q7]; rfl
    · show (s8.props c).eaw = _
      rw [q8]; show (s7.props c).eaw = _; rw [q7]; rfl
    · show (s8.props c).flags = _
      rw [q8]; show bitsOf (fun v => (flagOf v).getD 0) U.emoji c (s7.props c).flags = _; rw [q7]; rfl
    · show (s8.props c).flags2 = _
      rw [q8]; show (s7.props c).flags2 = _; rw [q7]; rfl
    · show (s8.props c).incb = _
      rw [q8]; show (s7.props c).incb = _; rw [q7]; rfl
    · show (s8.props c).wb = _
      rw [q8]; show (s7.props c).wb = _; rw [q7]; rfl
    · rfl
    · rfl

/-- The bit of each emoji property. -/
theorem flag_bit (v : Str) : ((flagOf v).getD 0 < 128) ∧
    (((flagOf v).getD 0).testBit 0 = true ↔ v = "Emoji".toList) ∧ (((flagOf v).getD 0).testBit 1 = true ↔ v = "Emoji_Presentation".toList) ∧
    (((flagOf v).getD 0).testBit 2 = true ↔ v = "Emoji_Component".toList) ∧ (((flagOf v).getD 0).testBit 3 = true ↔ v = "Emoji_Modifier".toList) ∧
    (((flagOf v).getD 0).testBit 4 = true ↔ v = "Emoji_Modifier_Base".toList) ∧
    (((flagOf v).getD 0).testBit 5 = true ↔ v = "Extended_Pictographic".toList) ∧ ((flagOf v).getD 0).testBit 6 = false := by
  by_cases h1 : v = "Emoji".toList
  · subst h1; decide
  by_cases h2 : v = "Emoji_Component".toList
  · subst h2; decide
  by_cases h3 : v = "Emoji_Modifier".toList
  · subst h3; decide
  by_cases h4 : v = "Emoji_Modifier_Base".toList
  · subst h4; decide
  by_cases h5 : v = "Emoji_Presentation".toList
  · subst h5; decide
  by_cases h6 : v = "Extended_Pictographic".toList
  · subst h6; decide
  have e : flagOf v = none := by
    unfold flagOf
    rw [if_neg h1, if_neg h2, if_neg h3, if_neg h4, if_neg h5, if_neg h6]
  rw [e]
  refine ⟨by decide, ?_, ?_, ?_, ?_, ?_, ?_, by decide⟩ <;> constructor <;> intro h <;> first | exact absurd h (by decide) | exact absurd h (by assumption)

theorem loaded_flags {core emoji core' : List Entry} {c fl : Nat}
    (q6 : fl = bitsOf (fun v => (flagOf v).getD 0) emoji c (bitsOf (fun v => if v = "Grapheme_Extend".toList then 0x40 else 0) core' c 0))
    (hge : Assigns core' c "Grapheme_Extend".toList ↔ Assigns core c "Grapheme_Extend".toList) :
    (fl.testBit 0 = true ↔ Assigns emoji c "Emoji".toList) ∧ (fl.testBit 1 = true ↔ Assigns emoji c "Emoji_Presentation".toList) ∧
    (fl.testBit 2 = true ↔ Assigns emoji c "Emoji_Component".toList) ∧ (fl.testBit 3 = true ↔ Assigns emoji c "Emoji_Modifier".toList) ∧
    (fl.testBit 4 = true ↔ Assigns emoji c "Emoji_Modifier_Base".toList) ∧ (fl.testBit 5 = true ↔ Assigns emoji c "Extended_Pictographic".toList) ∧
    (fl.testBit 6 = true ↔ Assigns core c "Grapheme_Extend".toList) ∧ fl < 128 := by
  have bit : ∀ i, fl.testBit i = true ↔
      ((∃ v, Assigns core' c v ∧ (if v = "Grapheme_Extend".toList then 0x40 else 0 : Nat).testBit i = true) ∨ ∃ v, Assigns emoji c v ∧ ((flagOf v).getD 0).testBit i = true) := by
    intro i
    rw [q6, bitsOf_spec, bitsOf_spec, Nat.zero_testBit]
    exact or_congr ⟨fun h => h.elim (fun h => absurd h Bool.false_ne_true) id, Or.inr⟩ Iff.rfl
  have low : ∀ i, i ≠ 6 → (fl.testBit i = true ↔ ∃ v, Assigns emoji c v ∧ ((flagOf v).getD 0).testBit i = true) := by
    intro i hi
    rw [bit]
    constructor
    · rintro (⟨v, -, h⟩ | h)
      · by_cases hv : v = "Grapheme_Extend".toList
        · rw [if_pos hv, show (0x40 : Nat) = 2 ^ 6 from rfl, Nat.testBit_two_pow] at h
          exact absurd (of_decide_eq_true h).symm hi
        · rw [if_neg hv, Nat.zero_testBit] at h; cases h
      · exact h
    · exact Or.inr
  have only : ∀ {i : Nat} {w : Str}, i ≠ 6 → (∀ v, ((flagOf v).getD 0).testBit i = true ↔ v = w) → (fl.testBit i = true ↔ Assigns emoji c w) := by
    intro i w hi hw
    rw [low i hi]
    constructor
    · rintro ⟨v, h, h'⟩
      rw [hw] at h'; rwa [h'] at h
    · intro h; exact ⟨w, h, (hw w).2 rfl⟩
  have f0 : fl.testBit 0 = true ↔ Assigns emoji c "Emoji".toList := only (by decide) (fun v => (flag_bit v).2.1)
  have f1 : fl.testBit 1 = true ↔ Assigns emoji c "Emoji_Presentation".toList := only (by decide) (fun v => (flag_bit v).2.2.1)
  have f2 : fl.testBit 2 = true ↔ Assigns emoji c "Emoji_Component".toList := only (by decide) (fun v => (flag_bit v).2.2.2.1)
  have f3 : fl.testBit 3 = true ↔ Assigns emoji c "Emoji_Modifier".toList := only (by decide) (fun v => (flag_bit v).2.2.2.2.1)
  have f4 : fl.testBit 4 = true ↔ Assigns emoji c "Emoji_Modifier_Base".toList := only (by decide) (fun v => (flag_bit v).2.2.2.2.2.1)
  have f5 : fl.testBit 5 = true ↔ Assigns emoji c "Extended_Pictographic".toList := only (by decide) (fun v => (flag_bit v).2.2.2.2.2.2.1)
  have f6 : fl.testBit 6 = true ↔ Assigns core c "Grapheme_Extend".toList := by
    rw [bit, ← hge]
    constructor
    · rintro (⟨v, h, h'⟩ | ⟨v, -, h⟩)
      · by_cases hv : v = "Grapheme_Extend".toList
        · rwa [hv] at h
        · rw [if_neg hv, Nat.zero_testBit] at h'; cases h'
      · rw [(flag_bit v).2.2.2.2.2.2.2] at h; cases h
    · intro h
      exact Or.inl ⟨_, h, by rw [if_pos rfl]; decide⟩
  refine ⟨f0, f1, f2, f3, f4, f5, f6, ?_⟩
  rw [q6]
  apply bitsOf_lt _ _ _ (fun v => (flag_bit v).1)
  apply bitsOf_lt
  · intro v; split <;> omega
  · omega

theorem ite_iff {α : Sort _} {P Q : Prop} [Decidable P] [Decidable Q] (h : P ↔ Q) {a a' b b' : α} (ha : a = a') (hb : b = b') :
    (if P then a else b) = if Q then a' else b' := by
  by_cases hp : P
  · rw [if_pos hp, if_pos (h.1 hp), ha]
  · rw [if_neg hp, if_neg (fun q => hp (h.2 q)), hb]

theorem zero_iff (g : Str) : (g = "Control".toList ∨ g = "Enclosing_Mark".toList ∨ g = "Format".toList ∨ g = "Line_Separator".toList ∨ g = "Nonspacing_Mark".toList ∨
    g = "Paragraph_Separator".toList ∨ g = "Spacing_Mark".toList ∨ g = "Surrogate".toList) ↔ g ∈ zeroWidthCategories.map String.toList := by
  rw [zeroWidthCategories]
  iterate 8 rw [List.map_cons]
  rw [List.map_nil]
  iterate 7 rw [List.mem_cons]
  rw [List.mem_singleton]

/-- (with the tables of the model) From a directory of tidy files the loader returns, for every codepoint, the record the files describe – as far as its tables of
names know the values: script, general category, width, age and grapheme break as assigned (with the defaults of the constructor), the seven flags, and
the derived width and emoji category. -/
theorem loads_known {dir : Dir} {ucd : Str} {U : Contents} {N : ValueNames} (hf : LoaderFiles dir ucd U) (hp : PlainValues U) (hk : NamesKnown U N) :
    ∃ s, load dir ucd = .ok s ∧ ∀ c, Row.Loaded U N c (rowOf (s.props c)) := by
  obtain ⟨s, core', h1, hge, -, h2⟩ := load_row hf hp
    (fun e he h => by obtain ⟨f, h', -⟩ := hk.gc e he; rw [h] at h'; cases h')
    (fun e he h => by obtain ⟨f, h', -⟩ := hk.gcb e he; rw [h] at h'; cases h')
    (fun e he h => by obtain ⟨f, h', -⟩ := hk.eaw e he; rw [h] at h'; cases h')
  refine ⟨s, h1, fun c => ?_⟩
  obtain ⟨p, q1, q2, q3, q4, q5, q6, q7, q8, q9, q10, q11, q12⟩ := h2 c
  rw [q12]
  obtain ⟨f0, f1, f2, f3, f4, f5, f6, fb⟩ := loaded_flags q6 (hge c)
  refine ⟨?_, ?_, ?_, ?_, ?_, q9, q8, f0, f1, f2, f3, f4, f5, f6, ?_, q7, ?_, ?_⟩
  · show ValueOf U.scripts "Unknown".toList c p.script
    rw [q1]
    rcases lastOf_spec (fun v => (named scriptTable v).getD "Invalid".toList) U.scripts c "Unknown".toList with ⟨v, h, e⟩ | ⟨h, e⟩
    · left
      obtain ⟨x, hx, hv⟩ := h
      have := hk.scripts x hx
      rw [hv.2.2] at this
      rw [e]
      rw [this]
      exact ⟨x, hx, hv⟩
    · exact Or.inr ⟨h, e⟩
  · show (∃ ab, _ ∧ (ab, p.gc) ∈ N.gc) ∨ _ ∧ p.gc = _
    rw [q3]
    rcases lastOf_spec (fun v => (named gcTable v).getD []) (allOf U.gc) c "Unassigned".toList with ⟨v, h, e⟩ | ⟨h, e⟩
    · left
      obtain ⟨x, hx, hv⟩ := h
      obtain ⟨f, g1, g2⟩ := hk.gc x hx
      rw [hv.2.2] at g1 g2
      rw [e]
      rw [g1]
      exact ⟨v, ⟨x, hx, hv⟩, g2⟩
    · exact Or.inr ⟨h, e⟩
  · show NamedValueOf U.eaw N.eaw "Narrow".toList c p.eaw
    rw [q5]
    rcases lastOf_spec (fun v => (named eawTable v).getD []) U.eaw c "Narrow".toList with ⟨v, h, e⟩ | ⟨h, e⟩
    · left
      obtain ⟨x, hx, hv⟩ := h
      obtain ⟨f, g1, g2⟩ := hk.eaw x hx
      rw [hv.2.2] at g1 g2
      rw [e]
      rw [g1]
      exact ⟨v, ⟨x, hx, hv⟩, g2⟩
    · exact Or.inr ⟨h, e⟩
  · show NamedValueOf U.ages N.age "Unassigned".toList c p.age
    rw [q2]
    rcases lastOf_spec (fun v => (named ageTable v).getD "Unassigned".toList) U.ages c "Unassigned".toList with ⟨v, h, e⟩ | ⟨h, e⟩
    · left
      obtain ⟨x, hx, hv⟩ := h
      obtain ⟨f, g1, g2⟩ := hk.ages x hx
      rw [hv.2.2] at g1 g2
      rw [e]
      rw [g1]
      exact ⟨v, ⟨x, hx, hv⟩, g2⟩
    · exact Or.inr ⟨h, e⟩
  · show NamedValueOf (allOf U.gcb) N.gcb "Other".toList c p.gcb
    rw [q4]
    rcases lastOf_spec (fun v => (named gcbTable v).getD []) (allOf U.gcb) c "Other".toList with ⟨v, h, e⟩ | ⟨h, e⟩
    · left
      obtain ⟨x, hx, hv⟩ := h
      obtain ⟨f, g1, g2⟩ := hk.gcb x hx
      rw [hv.2.2] at g1 g2
      rw [e]
      rw [g1]
      exact ⟨v, ⟨x, hx, hv⟩, g2⟩
    · exact Or.inr ⟨h, e⟩
  · exact fb
  · show p.width = _
    rw [q11]
    unfold toCharWidth
    exact ite_iff (zero_iff _) rfl (ite_iff f1 rfl (ite_iff Iff.rfl rfl rfl))
  · show p.esc = _
    rw [q10]
    unfold toEsc
    refine ite_iff Iff.rfl rfl (ite_iff Iff.rfl rfl (ite_iff Iff.rfl rfl (ite_iff Iff.rfl rfl (ite_iff Iff.rfl rfl (ite_iff Iff.rfl rfl
      (ite_iff Iff.rfl rfl (ite_iff Iff.rfl rfl (ite_iff f4 rfl (ite_iff f3 rfl (ite_iff Iff.rfl rfl (ite_iff Iff.rfl rfl ?_)))))))))))
    by_cases h1 : p.flags.testBit 1 = true
    · rw [if_pos h1, if_pos (f1.1 h1)]
    · rw [if_neg h1, if_neg (fun h => h1 (f1.2 h))]
      by_cases h0 : p.flags.testBit 0 = true
      · rw [if_pos ⟨h0, h1⟩, if_pos (f0.1 h0)]
      · rw [if_neg (fun h => h0 h.1), if_neg h0, if_neg (fun h => h0 (f0.2 h))]

/-- (with the tables of the model) … a script that is not in the table of the loader becomes `Invalid`. -/
theorem script_named {dir : Dir} {ucd : Str} {U : Contents} (hf : LoaderFiles dir ucd U) (hp : PlainValues U)
    (hgc : ∀ e ∈ allOf U.gc, named gcTable e.2.2 ≠ none) (hgcb : ∀ e ∈ allOf U.gcb, named gcbTable e.2.2 ≠ none)
    (heaw : ∀ e ∈ U.eaw, named eawTable e.2.2 ≠ none) (hc : Consistent U.scripts) {c : Nat} {v : Str} (ha : Assigns U.scripts c v)
    (hu : named scriptTable v = none) : ∃ s, load dir ucd = .ok s ∧ (s.props c).script = "Invalid".toList := by
  obtain ⟨s, core', h1, -, -, h2⟩ := load_row hf hp hgc hgcb heaw
  refine ⟨s, h1, ?_⟩
  obtain ⟨p, q1, -, -, -, -, -, -, -, -, -, -, q12⟩ := h2 c
  rw [q12, q1]
  rcases lastOf_spec (fun v => (named scriptTable v).getD "Invalid".toList) U.scripts c "Unknown".toList with ⟨w, h, e⟩ | ⟨h, e⟩
  · rw [e, hc c w v h ha, hu]; rfl
  · exact absurd ha (h v)

/-- `Garay` (Unicode 16) is not in the table. -/
example : named scriptTable "Garay".toList = none := by decide +kernel

/-! ## Errors -/

theorem bind_ok {α β : Type} {x : Res α} {f : α → Res β} {b : β} (h : x.bind f = .ok b) : ∃ a, x = .ok a ∧ f a = .ok b := by
  cases x with
  | ok a => exact ⟨a, rfl, h⟩
  | _ => cases h

/-- **C74, missing files.**  If the loader returns, all its files were there. -/
theorem C74_needs_files {dir : Dir} {ucd : Str} {s : State} (h : load dir ucd = .ok s) :
    ∀ name ∈ ["Scripts.txt", "DerivedCoreProperties.txt", "DerivedAge.txt", "extracted/DerivedGeneralCategory.txt", "extracted/DerivedName.txt",
      "auxiliary/GraphemeBreakProperty.txt", "EastAsianWidth.txt", "emoji/emoji-data.txt"], dir (ucd ++ '/' :: name.toList) ≠ none := by
  have key : ∀ {name : String} {cb : Callback} {s s' : State}, processProperties dir ucd name cb s = .ok s' → dir (ucd ++ '/' :: name.toList) ≠ none := by
    intro name cb s s' h e
    unfold processProperties at h
    rw [e] at h
    cases h
  unfold load at h
  obtain ⟨s1, a1, h⟩ := bind_ok h
  obtain ⟨s2, a2, h⟩ := bind_ok h
  obtain ⟨s3, a3, h⟩ := bind_ok h
  obtain ⟨s4, a4, h⟩ := bind_ok h
  obtain ⟨s5, a5, h⟩ := bind_ok h
  obtain ⟨s6, a6, h⟩ := bind_ok h
  obtain ⟨s7, a7, h⟩ := bind_ok h
  obtain ⟨s8, a8, h⟩ := bind_ok h
  intro name hn
  iterate 7 rw [List.mem_cons] at hn
  rw [List.mem_singleton] at hn
  rcases hn with rfl | rfl | rfl | rfl | rfl | rfl | rfl | rfl
  · exact key a1
  · exact key a2
  · exact key a3
  · exact key a4
  · exact key a5
  · exact key a6
  · exact key a7
  · exact key a8

theorem pass_throws {cb : Callback} {F : Str → Emitted → Emitted} {es : List Entry} (hi : ∀ e ∈ es, e.1 ≤ e.2.1 ∧ e.2.1 ≤ 0x10FFFF)
    (h : ∀ e ∈ es, Puts cb e.2.2 (F e.2.2) ∨ ∀ c s, cb c e.2.2 s = .throws) (he : ∃ e ∈ es, ∀ c s, cb c e.2.2 s = .throws) :
    ∀ s, assignAll cb es s = .throws := by
  induction es with
  | nil => obtain ⟨e, he, -⟩ := he; cases he
  | cons e es ih =>
    intro s
    have hi' := hi e (List.mem_cons_self ..)
    by_cases ht : ∀ c s, cb c e.2.2 s = .throws
    · rw [assignAll, show e.2.1 + 1 - e.1 = (e.2.1 - e.1) + 1 by omega, rangeLoop, ht]
      rfl
    · rcases h e (List.mem_cons_self ..) with hp | hp
      · rw [assignAll, loop_puts hp _ _ _ (by omega)]
        obtain ⟨e', h1, h2⟩ := he
        rcases List.mem_cons.1 h1 with rfl | h1
        · exact absurd h2 ht
        · exact ih (fun e he => hi e (List.mem_cons_of_mem _ he)) (fun e he => h e (List.mem_cons_of_mem _ he)) ⟨e', h1, h2⟩ _
      · exact absurd hp ht

/-- (with the tables of the model) From tidy files the loader returns or throws, and it throws exactly if a general category, a grapheme break or a width is
not in its tables. -/
theorem throws_named {dir : Dir} {ucd : Str} {U : Contents} (hf : LoaderFiles dir ucd U) (hp : PlainValues U) :
    (load dir ucd = .throws ∨ ∃ s, load dir ucd = .ok s) ∧
    (load dir ucd = .throws ↔ (∃ e ∈ allOf U.gc, named gcTable e.2.2 = none) ∨ (∃ e ∈ allOf U.gcb, named gcbTable e.2.2 = none) ∨
      ∃ e ∈ U.eaw, named eawTable e.2.2 = none) := by
  by_cases hall : (∃ e ∈ allOf U.gc, named gcTable e.2.2 = none) ∨ (∃ e ∈ allOf U.gcb, named gcbTable e.2.2 = none) ∨
      ∃ e ∈ U.eaw, named eawTable e.2.2 = none
  · suffices h : load dir ucd = .throws from ⟨Or.inl h, fun _ => hall, fun _ => h⟩
    have inOf : ∀ {path es}, TidyFile dir path es → ∀ e ∈ es, e.1 ≤ e.2.1 ∧ e.2.1 ≤ 0x10FFFF := fun ⟨_, _, h, _⟩ => file_in h
    obtain ⟨core', hcc, -⟩ := core_cut hp.core
    have step : ∀ {name : String} {es es' : List Entry} {cb : Callback} {F : Str → Emitted → Emitted}, TidyFile dir (ucd ++ '/' :: name.toList) es →
        List.Forall₂ Cut es es' → (∀ e ∈ es', Puts cb e.2.2 (F e.2.2)) → ∀ s, ∃ s', processProperties dir ucd name cb s = .ok s' := by
      intro name es es' cb F h1 h2 h3 s
      exact ⟨_, (file_pass cb h1 h2 s).trans (pass_puts (cut_in h2 (inOf h1)) h3 s)⟩
    have stop : ∀ {name : String} {es : List Entry} {cb : Callback} {F : Str → Emitted → Emitted}, TidyFile dir (ucd ++ '/' :: name.toList) es →
        (∀ e ∈ es, Plainword e.2.2) → (∀ e ∈ es, Puts cb e.2.2 (F e.2.2) ∨ ∀ c s, cb c e.2.2 s = .throws) → (∃ e ∈ es, ∀ c s, cb c e.2.2 s = .throws) →
        ∀ s, processProperties dir ucd name cb s = .throws := by
      intro name es cb F h1 h2 h3 h4 s
      exact (file_pass cb h1 (cut_self h2) s).trans (pass_throws (inOf h1) h3 h4 s)
    obtain ⟨s1, a1⟩ := step (F := fun v p => { p with script := (named scriptTable v).getD "Invalid".toList }) hf.scripts (cut_self hp.scripts)
      (fun e _ => script_puts e.2.2) init
    obtain ⟨s2, a2⟩ := step (F := fun v p => { p with flags := p.flags ||| if v = "Grapheme_Extend".toList then 0x40 else 0 }) hf.core hcc
      (fun e _ => core_puts e.2.2) s1
    obtain ⟨s3, a3⟩ := step (F := fun v p => { p with age := (named ageTable v).getD "Unassigned".toList }) hf.ages (cut_self hp.ages)
      (fun e _ => age_puts e.2.2) s2
    have t1 : ∀ {v : Str}, named gcTable v = none → ∀ c s, onCategory c v s = .throws := by
      intro v h c s; unfold onCategory; rw [h]
    have t2 : ∀ {v : Str}, named gcbTable v = none → ∀ c s, onBreak c v s = .throws := by
      intro v h c s; unfold onBreak; rw [h]
    have t3 : ∀ {v : Str}, named eawTable v = none → ∀ c s, onWidth c v s = .throws := by
      intro v h c s; unfold onWidth; rw [h]
    unfold load
    rw [a1, Res.bind, a2, Res.bind, a3, Res.bind]
    by_cases g1 : ∃ e ∈ allOf U.gc, named gcTable e.2.2 = none
    · rw [stop (F := fun v p => { p with gc := (named gcTable v).getD [] }) hf.gc hp.gc
        (fun e _ => if h : named gcTable e.2.2 = none then Or.inr (t1 h) else Or.inl (gc_puts h)) (g1.imp fun e h => ⟨h.1, t1 h.2⟩)]
      rfl
    obtain ⟨s4, a4⟩ := step (F := fun v p => { p with gc := (named gcTable v).getD [] }) hf.gc (cut_self hp.gc)
      (fun e he => gc_puts (fun h => g1 ⟨e, he, h⟩)) s3
    obtain ⟨s5, a5, -⟩ := name_pass hf.names s4
    rw [a4, Res.bind, a5, Res.bind]
    by_cases g2 : ∃ e ∈ allOf U.gcb, named gcbTable e.2.2 = none
    · rw [stop (F := fun v p => { p with gcb := (named gcbTable v).getD [] }) hf.gcb hp.gcb
        (fun e _ => if h : named gcbTable e.2.2 = none then Or.inr (t2 h) else Or.inl (gcb_puts h)) (g2.imp fun e h => ⟨h.1, t2 h.2⟩)]
      rfl
    obtain ⟨s6, a6⟩ := step (F := fun v p => { p with gcb := (named gcbTable v).getD [] }) hf.gcb (cut_self hp.gcb)
      (fun e he => gcb_puts (fun h => g2 ⟨e, he, h⟩)) s5
    rw [a6, Res.bind]
    have g3 : ∃ e ∈ U.eaw, named eawTable e.2.2 = none := by
      rcases hall with h | h | h
      · exact absurd h g1
      · exact absurd h g2
      · exact h
    rw [stop (F := fun v p => { p with eaw := (named eawTable v).getD [] }) hf.eaw hp.eaw
      (fun e _ => if h : named eawTable e.2.2 = none then Or.inr (t3 h) else Or.inl (eaw_puts h)) (g3.imp fun e h => ⟨h.1, t3 h.2⟩)]
    rfl
  · obtain ⟨s, core', h1, -⟩ := load_row hf hp (fun e he h => hall (Or.inl ⟨e, he, h⟩)) (fun e he h => hall (Or.inr (Or.inl ⟨e, he, h⟩)))
      (fun e he h => hall (Or.inr (Or.inr ⟨e, he, h⟩)))
    refine ⟨Or.inr ⟨s, h1⟩, fun h => ?_, fun h => absurd h hall⟩
    rw [h1] at h
    cases h

theorem loop_keeps {cb : Callback} {v : Str} {s : State} (h : ∀ c, cb c v s = .ok s) (n : Nat) : ∀ a, rangeLoop cb v n a s = .ok s := by
  induction n with
  | zero => intro a; rfl
  | succ n ih => intro a; rw [rangeLoop, h]; exact ih _

/-- A range up to the greatest 32-bit number with a property that is not looked at: the loop does not end. -/
theorem C74_fails_end (s : State) : processLine onEmoji "0..FFFFFFFF ; Cased".toList s = .hangs := by
  have H : Ranged "0..FFFFFFFF ; Cased".toList "0".toList "FFFFFFFF".toList "Cased".toList :=
    ⟨[' '], [' '], [], by decide, by decide, by decide, by decide, by decide, by unfold White; decide, by unfold White; decide, ⟨by decide, by decide⟩,
      by intro c t e; cases e⟩
  rw [ranged_line onEmoji s H]
  have e1 : stoul "0".toList = some 0 := by decide +kernel
  have e2 : stoul "FFFFFFFF".toList = some (2 ^ 32 - 1) := by decide +kernel
  rw [e1, e2]
  show range onEmoji "Cased".toList 0 (2 ^ 32 - 1) s = .hangs
  unfold range
  rw [loop_keeps (by intro c; unfold onEmoji; rw [show flagOf "Cased".toList = none by decide])]
  show (if 0 ≤ 2 ^ 32 - 1 ∧ 2 ^ 32 - 1 = 2 ^ 32 - 1 then Res.hangs else Res.ok s) = Res.hangs
  rw [if_pos ⟨Nat.zero_le _, rfl⟩]

/-- A line about a number that is no codepoint: the vector is accessed behind its end. -/
theorem C74_fails_bounds (s : State) : processLine onCategory "110000 ; Lu".toList s = .oob := by
  have H : Single "110000 ; Lu".toList "110000".toList "Lu".toList :=
    ⟨[' '], [' '], [], by decide, by decide, by decide, by unfold White; decide, by unfold White; decide, .one ⟨by decide, by decide⟩,
      ⟨by (intro c t e; cases e), by (intro b c t e; cases b <;> cases e)⟩⟩
  rw [single_line onCategory s H]
  have e1 : stoul "110000".toList = some 0x110000 := by decide +kernel
  rw [e1]
  show onCategory 0x110000 "Lu".toList s = .oob
  unfold onCategory
  rw [show named gcTable "Lu".toList = some "Uppercase_Letter".toList by decide]
  show put _ _ s = _
  rw [put, if_neg (by omega)]

/-! ## Names -/

theorem words_phrase {s : Str} (h : PlainWords s) : Phrase s := by
  induction h with
  | one h => exact .one (plain_lword h)
  | cons h1 h2 h3 _ ih => exact .cons (plain_lword h1) (blank_white h2) h3 ih

theorem names_known {lines : List Str} {es : List Entry} (h : FileOf lines es) (ht : ∀ l ∈ lines, Tidy l) (hr : ∀ l ∈ lines, ProperRange l)
    (hs : Separate es) : ∀ s, ∃ s', processLines onName lines s = .ok s' ∧ ∀ c n, (c, c, n) ∈ es → PlainWords n → s'.names c = n := by
  induction h with
  | nil => intro s; exact ⟨s, rfl, fun c n h => by cases h⟩
  | skip hn hst _ ih =>
    intro s
    rw [processLines, nodata_line onName s hn hst]
    exact ih (fun l hl => ht l (List.mem_cons_of_mem _ hl)) (fun l hl => hr l (List.mem_cons_of_mem _ hl)) hs s
  | @data line stored lines es a b value hd hst hab hb hfile ih =>
    intro s
    have ht' := fun l hl => ht l (List.mem_cons_of_mem _ hl)
    obtain ⟨s₁, h1, -, -⟩ := name_line s hd hst (ht _ (List.mem_cons_self ..)) hab hb
    obtain ⟨hs1, hs2⟩ := List.pairwise_cons.1 hs
    obtain ⟨s₂, g1, g2⟩ := ih ht' (fun l hl => hr l (List.mem_cons_of_mem _ hl)) hs2 s₁
    refine ⟨s₂, by rw [processLines, h1]; exact g1, fun c n hcn hw => ?_⟩
    rcases List.mem_cons.1 hcn with e | hcn
    · obtain ⟨ea, e⟩ := Prod.mk.inj e
      obtain ⟨eb, ev⟩ := Prod.mk.inj e
      subst ea eb ev
      obtain ⟨s₃, g3, -, g4⟩ := name_lines hfile ht' s₁
      rw [g1] at g3
      cases g3
      rw [g4 c (by
        rintro v ⟨e, he, h5, h6, -⟩
        have := hs1 e he
        dsimp only at this
        omega)]
      have hnl : ∀ {w₁ r : Str}, Blank w₁ → line = w₁ ++ r → w₁ = [] := by
        intro w₁ r hbl e
        cases w₁ with
        | nil => rfl
        | cons x t =>
          have h1 : stored.head? = some x := by
            rcases hst with rfl | rfl <;> rw [e] <;> rfl
          have h2 := (ht _ (List.mem_cons_self ..)).head x h1
          rcases hbl x (List.mem_cons_self ..) with rfl | rfl
          · exact absurd rfl h2.1
          · exact absurd rfl h2.2
      have happ : ∃ t', stored = line ++ t' := by
        rcases hst with h | h
        · exact ⟨[], by rw [h, List.append_nil]⟩
        · exact ⟨_, h⟩
      cases hd with
      | @range w₁ h₁ h₂ w₂ w₃ _ w₄ tail _ _ b1 x1 x2 b2 b3 _ b4 htl =>
        exfalso
        obtain rfl := hnl (w₁ := w₁) (r := h₁ ++ ['.', '.'] ++ h₂ ++ w₂ ++ [';'] ++ w₃ ++ n ++ w₄ ++ tail) b1 (by simp [List.append_assoc])
        obtain ⟨t', e'⟩ := happ
        refine hr _ (List.mem_cons_self ..) h₁ h₂ c (w₂ ++ ';' :: (w₃ ++ n ++ w₄ ++ tail ++ t')) x1 x2 ?_ (by rw [e']; simp [List.append_assoc])
        cases w₂ with
        | nil => exact Or.inr (Or.inr rfl)
        | cons y z =>
          rcases b2 y (List.mem_cons_self ..) with rfl | rfl
          · exact Or.inl rfl
          · exact Or.inr (Or.inl rfl)
      | @single w₁ hx w₂ w₃ _ w₄ tail _ b1 x1 b2 b3 _ b4 htl =>
        obtain rfl := hnl (w₁ := w₁) (r := hx ++ w₂ ++ [';'] ++ w₃ ++ n ++ w₄ ++ tail) b1 (by simp [List.append_assoc])
        have := name_single s x1 b2 b3 b4 htl hst (ht _ (List.mem_cons_self ..)) (words_phrase hw) hb
        rw [h1] at this
        cases this
        show (if _ then _ else _) = _
        rw [if_pos rfl]
    · exact g2 c n hcn hw

/-- **C74, names.**  A name of plain words, given to a single codepoint, is the name that is loaded; codepoints without a line get none. -/
theorem C74_names_partial {dir : Dir} {ucd : Str} {U : Contents} (hf : LoaderFiles dir ucd U) {s : State} (h : load dir ucd = .ok s)
    (hp : PlainValues U) (hs : Separate U.names)
    (hr : ∀ text, dir (ucd ++ '/' :: "extracted/DerivedName.txt".toList) = some text → ∀ l ∈ getlines text, ProperRange l) :
    (∀ c n, (c, c, n) ∈ U.names → PlainWords n → s.names c = n) ∧ ∀ c, (∀ v, ¬ Assigns U.names c v) → s.names c = [] := by
  have inOf : ∀ {path es}, TidyFile dir path es → ∀ e ∈ es, e.1 ≤ e.2.1 ∧ e.2.1 ≤ 0x10FFFF := fun ⟨_, _, h, _⟩ => file_in h
  have hok : ¬ load dir ucd = .throws := by rw [h]; intro h; cases h
  have hall := mt (throws_named hf hp).2.2 hok
  have hgc : ∀ e ∈ allOf U.gc, named gcTable e.2.2 ≠ none := fun e he h => hall (Or.inl ⟨e, he, h⟩)
  have hgcb : ∀ e ∈ allOf U.gcb, named gcbTable e.2.2 ≠ none := fun e he h => hall (Or.inr (Or.inl ⟨e, he, h⟩))
  have heaw : ∀ e ∈ U.eaw, named eawTable e.2.2 ≠ none := fun e he h => hall (Or.inr (Or.inr ⟨e, he, h⟩))
  have hnone : ∀ c, (∀ v, ¬ Assigns U.names c v) → s.names c = [] := by
    obtain ⟨s', core', h1, -, h2, -⟩ := load_row hf hp hgc hgcb heaw
    rw [h] at h1
    cases h1
    exact h2
  refine ⟨?_, hnone⟩
  have keep : ∀ {name : String} {es : List Entry} {cb : Callback} {F : Str → Emitted → Emitted} {s s' : State}, TidyFile dir (ucd ++ '/' :: name.toList) es →
      (∀ e ∈ es, Plainword e.2.2) → (∀ e ∈ es, Puts cb e.2.2 (F e.2.2)) → processProperties dir ucd name cb s = .ok s' → s'.names = s.names := by
    intro name es cb F s s' h1 h2 h3 h4
    rw [file_pass cb h1 (cut_self h2) s, pass_puts (inOf h1) h3 s] at h4
    cases h4
    rfl
  unfold load at h
  obtain ⟨s1, a1, h⟩ := bind_ok h
  obtain ⟨s2, a2, h⟩ := bind_ok h
  obtain ⟨s3, a3, h⟩ := bind_ok h
  obtain ⟨s4, a4, h⟩ := bind_ok h
  obtain ⟨s5, a5, h⟩ := bind_ok h
  obtain ⟨s6, a6, h⟩ := bind_ok h
  obtain ⟨s7, a7, h⟩ := bind_ok h
  obtain ⟨s8, a8, h⟩ := bind_ok h
  cases h
  have e8 := keep (F := fun v p => { p with flags := p.flags ||| (flagOf v).getD 0 }) hf.emoji hp.emoji (fun e _ => emoji_puts e.2.2) a8
  have e7 := keep (F := fun v p => { p with eaw := (named eawTable v).getD [] }) hf.eaw hp.eaw (fun e he => eaw_puts (heaw e he)) a7
  have e6 := keep (F := fun v p => { p with gcb := (named gcbTable v).getD [] }) hf.gcb hp.gcb (fun e he => gcb_puts (hgcb e he)) a6
  obtain ⟨text, t1, t2, t3⟩ := hf.names
  obtain ⟨s', k1, k2⟩ := names_known t2 t3 (hr text t1) hs s4
  have e5 : processProperties dir ucd "extracted/DerivedName.txt" onName s4 = processLines onName (getlines text) s4 := by
    unfold processProperties
    rw [t1]
    exact processLines_cut _ _ _
  rw [e5, k1] at a5
  cases a5
  intro c n hcn hw
  show s8.names c = n
  rw [e8]
  show s7.names c = n
  rw [e7, e6]
  exact k2 c n hcn hw

/-- A hyphen ends the name. -/
theorem C74_fails_name (s : State) : DataLine "002D ; HYPHEN-MINUS".toList 0x2D 0x2D "HYPHEN-MINUS".toList ∧
    processLine onName "002D ; HYPHEN-MINUS".toList s = .ok { s with names := fun x => if x = 0x2D then "HYPHEN".toList else s.names x } := by
  constructor
  · have hx : HexOf "002D".toList 0x2D := by
      have h0 : Digit '0' 0 := by unfold Digit; decide
      have h2 : Digit '2' 2 := by unfold Digit; decide
      have hD : Digit 'D' 13 := by unfold Digit; decide
      exact .snoc (.snoc (.snoc (.one h0) h0) h2) hD
    exact DataLine.single (w₁ := []) (w₂ := [' ']) (w₃ := [' ']) (w₄ := []) (tail := []) (by intro c hc; cases hc) hx (by unfold Blank; decide)
      (by unfold Blank; decide) (show Value "HYPHEN-MINUS".toList from ⟨by decide, by (intro c h; cases h; decide), by (intro c h; cases h; decide)⟩) (by intro c hc; cases hc) (Or.inl rfl)
  · have H : Single "002D ; HYPHEN-MINUS".toList "002D".toList "HYPHEN".toList := by
      refine ⟨[' '], [' '], "-MINUS".toList, by decide, by decide, by decide, by unfold White; decide, by unfold White; decide, .one ⟨by decide, by decide⟩, ?_, ?_⟩
      · intro c t e; obtain ⟨rfl, -⟩ := List.cons.inj e; decide
      · intro b c t e hb
        cases b with
        | nil => obtain ⟨rfl, -⟩ := List.cons.inj e; decide
        | cons x y =>
          obtain ⟨rfl, -⟩ := List.cons.inj e
          exact absurd (hb _ (List.mem_cons_self ..)) (by decide)
    rw [single_line onName s H, show stoul "002D".toList = some 0x2D by decide +kernel]
    show onName 0x2D "HYPHEN".toList s = _
    rw [onName, if_pos (by omega)]

/-! ## The values that are known -/

theorem named_of {t : List (String × String)} {v f : Str} (h : named t v = some f) : ∃ e ∈ t, e.1.toList = v ∧ e.2.toList = f := by
  unfold named at h
  cases hf : t.find? (fun e => e.1.toList = v) with
  | none => rw [hf] at h; cases h
  | some e =>
    rw [hf] at h
    exact ⟨e, List.mem_of_find?_eq_some hf, of_decide_eq_true (List.find?_some (p := fun e : String × String => decide (e.1.toList = v)) hf), Option.some.inj h⟩

theorem script_known {v f : Str} : named scriptTable v = some f ↔ Value knownScripts v ∧ f = v := by
  have h1 : ∀ s ∈ knownScripts, named scriptTable s.toList = some s.toList := by decide +kernel
  have h2 : ∀ e ∈ scriptTable, e.1 ∈ knownScripts ∧ e.2 = e.1 := by decide +kernel
  constructor
  · intro h
    obtain ⟨e, he, e1, e2⟩ := named_of h
    obtain ⟨k1, k2⟩ := h2 e he
    exact ⟨⟨e.1, k1, e1⟩, by rw [← e2, k2, e1]⟩
  · rintro ⟨⟨s, hs, rfl⟩, rfl⟩
    exact h1 s hs

theorem age_known {v f : Str} : named ageTable v = some f ↔ Value knownAges v ∧ f = ageName v := by
  have h1 : ∀ s ∈ knownAges, named ageTable s.toList = some (ageName s.toList) := by decide +kernel
  have h2 : ∀ e ∈ ageTable, e.1 ∈ knownAges ∧ e.2.toList = ageName e.1.toList := by decide +kernel
  constructor
  · intro h
    obtain ⟨e, he, e1, e2⟩ := named_of h
    obtain ⟨k1, k2⟩ := h2 e he
    exact ⟨⟨e.1, k1, e1⟩, by rw [← e2, k2, e1]⟩
  · rintro ⟨⟨s, hs, rfl⟩, rfl⟩
    exact h1 s hs

theorem break_known {v f : Str} : named gcbTable v = some f ↔ Value knownBreaks v ∧ f = v := by
  have h1 : ∀ s ∈ knownBreaks, named gcbTable s.toList = some s.toList := by decide +kernel
  have h2 : ∀ e ∈ gcbTable, e.1 ∈ knownBreaks ∧ e.2 = e.1 := by decide +kernel
  constructor
  · intro h
    obtain ⟨e, he, e1, e2⟩ := named_of h
    obtain ⟨k1, k2⟩ := h2 e he
    exact ⟨⟨e.1, k1, e1⟩, by rw [← e2, k2, e1]⟩
  · rintro ⟨⟨s, hs, rfl⟩, rfl⟩
    exact h1 s hs

theorem category_known {v f : Str} : named gcTable v = some f ↔ Long knownCategories v f := by
  have h1 : ∀ e ∈ knownCategories, named gcTable e.1.toList = some e.2.toList := by decide +kernel
  have h2 : ∀ e ∈ gcTable, e ∈ knownCategories := by decide +kernel
  constructor
  · intro h
    obtain ⟨e, he, e1, e2⟩ := named_of h
    exact ⟨e, h2 e he, e1, e2⟩
  · rintro ⟨s, hs, rfl, rfl⟩
    exact h1 s hs

theorem width_known {v f : Str} : named eawTable v = some f ↔ Long knownWidths v f := by
  have h1 : ∀ e ∈ knownWidths, named eawTable e.1.toList = some e.2.toList := by decide +kernel
  have h2 : ∀ e ∈ eawTable, e ∈ knownWidths := by decide +kernel
  constructor
  · intro h
    obtain ⟨e, he, e1, e2⟩ := named_of h
    exact ⟨e, h2 e he, e1, e2⟩
  · rintro ⟨s, hs, rfl, rfl⟩
    exact h1 s hs

theorem none_iff {o : Option Str} {P : Str → Prop} (h : ∀ f, o = some f ↔ P f) : o = none ↔ ∀ f, ¬ P f := by
  cases o with
  | none => exact ⟨fun _ f hp => (nomatch (h f).2 hp), fun _ => rfl⟩
  | some a => exact ⟨fun e => (nomatch e), fun hn => absurd ((h a).1 rfl) (hn a)⟩

theorem knows_named {U : Contents} {N : ValueNames} (h : LoaderKnows U N) : NamesKnown U N where
  scripts := fun e he => script_known.2 ⟨h.scripts e he, rfl⟩
  ages := fun e he => ⟨_, age_known.2 ⟨(h.ages e he).1, rfl⟩, (h.ages e he).2⟩
  gc := fun e he => let ⟨f, h1, h2⟩ := h.gc e he; ⟨f, category_known.2 h1, h2⟩
  gcb := fun e he => ⟨_, break_known.2 ⟨(h.gcb e he).1, rfl⟩, (h.gcb e he).2⟩
  eaw := fun e he => let ⟨f, h1, h2⟩ := h.eaw e he; ⟨f, width_known.2 h1, h2⟩

/-- **C74, the records.**  From a directory of tidy files the loader returns, for every codepoint, the record the files describe – if it knows the
values: script, general category, width, age and grapheme break as assigned (with the defaults of the constructor), the seven flags, and the derived width
and emoji category. -/
theorem C74_loads_partial {dir : Dir} {ucd : Str} {U : Contents} {N : ValueNames} (hf : LoaderFiles dir ucd U) (hp : PlainValues U) (hk : LoaderKnows U N) :
    ∃ s, load dir ucd = .ok s ∧ ∀ c, Row.Loaded U N c (rowOf (s.props c)) := loads_known hf hp (knows_named hk)

/-- **C74, unknown values.**  From tidy files the loader returns or throws, and it throws exactly if a general category, a grapheme break or a width is
not one of those it knows. -/
theorem C74_throws {dir : Dir} {ucd : Str} {U : Contents} (hf : LoaderFiles dir ucd U) (hp : PlainValues U) :
    (load dir ucd = .throws ∨ ∃ s, load dir ucd = .ok s) ∧
    (load dir ucd = .throws ↔ (∃ e ∈ allOf U.gc, ∀ f, ¬ Long knownCategories e.2.2 f) ∨ (∃ e ∈ allOf U.gcb, ¬ Value knownBreaks e.2.2) ∨
      ∃ e ∈ U.eaw, ∀ f, ¬ Long knownWidths e.2.2 f) := by
  obtain ⟨h1, h2⟩ := throws_named hf hp
  refine ⟨h1, h2.trans ?_⟩
  have k1 : ∀ v, named gcTable v = none ↔ ∀ f, ¬ Long knownCategories v f := fun v => none_iff fun f => category_known
  have k3 : ∀ v, named eawTable v = none ↔ ∀ f, ¬ Long knownWidths v f := fun v => none_iff fun f => width_known
  have k2 : ∀ v, named gcbTable v = none ↔ ¬ Value knownBreaks v := fun v =>
    (none_iff fun f => break_known).trans ⟨fun h hv => h v ⟨hv, rfl⟩, fun h f hf => h hf.1⟩
  simp only [k1, k2, k3]

/-- **C74, a script the loader does not know** becomes `Script::Invalid`, without a complaint. -/
theorem C74_fails_script {dir : Dir} {ucd : Str} {U : Contents} (hf : LoaderFiles dir ucd U) (hp : PlainValues U)
    (hgc : ∀ e ∈ allOf U.gc, ∃ f, Long knownCategories e.2.2 f) (hgcb : ∀ e ∈ allOf U.gcb, Value knownBreaks e.2.2)
    (heaw : ∀ e ∈ U.eaw, ∃ f, Long knownWidths e.2.2 f) (hc : Consistent U.scripts) {c : Nat} {v : Str} (ha : Assigns U.scripts c v)
    (hu : ¬ Value knownScripts v) : ∃ s, load dir ucd = .ok s ∧ (s.props c).script = "Invalid".toList := by
  refine script_named hf hp (fun e he => ?_) (fun e he => ?_) (fun e he => ?_) hc ha ((none_iff fun f => script_known).2 fun f h => hu h.1)
  · obtain ⟨f, h⟩ := hgc e he
    rw [category_known.2 h]; exact fun h => nomatch h
  · rw [break_known.2 ⟨hgcb e he, rfl⟩]; exact fun h => nomatch h
  · obtain ⟨f, h⟩ := heaw e he
    rw [width_known.2 h]; exact fun h => nomatch h

/-- `Garay` (Unicode 16) is one of them. -/
example : ¬ Value knownScripts "Garay".toList := by
  have : ∀ s ∈ knownScripts, s.toList ≠ "Garay".toList := by decide +kernel
  exact fun ⟨s, h, e⟩ => this s h e

end Verif.Load
