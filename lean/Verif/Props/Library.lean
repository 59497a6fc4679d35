import Verif.Model.Compiled
import Verif.Props.TgEnums2
import Verif.Props.Grapheme
import Verif.Props.Width
import Verif.Props.Word
import Verif.Props.ScanWidth
import Verif.Props.Emoji
import Verif.Props.Script
/-!
# C56: from the text of the data files to the segmentation of text
-/

namespace Verif.Props.Tg
open Verif.Utf8 (Mem)
open Verif.Tg
open Verif.Ucd
open Verif.Spec Verif.Spec.Ucd Verif.Spec.UcdFile
open Verif.Tables (Gen get generate propertiesShape)

/-! ## Names -/

theorem find_name {α : Type} [DecidableEq α] {all : List α} {name : α → String} {d : α} (hall : ∀ g, g ∈ all)
    {s : Str} (h : ∃ g, (name g).toList = s) : (name ((all.find? fun g => decide ((name g).toList = s)).getD d)).toList = s := by
  cases hf : all.find? fun g => decide ((name g).toList = s) with
  | none =>
    obtain ⟨g, hg⟩ := h
    have := List.find?_eq_none.1 hf g (hall g)
    exact absurd (decide_eq_true hg) this
  | some g =>
    have := List.find?_some hf
    exact of_decide_eq_true this

theorem gcb_inj {a b : GCB} (h : (gcbName a).toList = (gcbName b).toList) : a = b := by
  have : gcbName a = gcbName b := String.toList_inj.1 h
  revert this; cases a <;> cases b <;> decide
theorem incb_inj {a b : InCB} (h : (incbName a).toList = (incbName b).toList) : a = b := by
  have : incbName a = incbName b := String.toList_inj.1 h
  revert this; cases a <;> cases b <;> decide
theorem wb_inj {a b : WB} (h : (wbName a).toList = (wbName b).toList) : a = b := by
  have : wbName a = wbName b := String.toList_inj.1 h
  revert this; cases a <;> cases b <;> decide

theorem esc_shown {U N c r} (h : Row.Says U N c r) : ∃ s, (s, escNumber r.esc) ∈ emojiSymbols ∧ s.toList = r.esc := by
  have key : ∀ s ∈ ["CombiningEnclosingKeyCap", "CombiningEnclosingCircleBackslash", "ZWJ", "VS15", "VS16", "TagBase", "TagSequence",
      "TagTerm", "EmojiModifierBase", "EmojiModifier", "RegionalIndicator", "KeyCapBase", "EmojiEmojiPresentation",
      "EmojiTextPresentation", "Invalid"], (s, escNumber s.toList) ∈ emojiSymbols := by decide
  have lift : ∀ s : String, s ∈ ["CombiningEnclosingKeyCap", "CombiningEnclosingCircleBackslash", "ZWJ", "VS15", "VS16", "TagBase", "TagSequence",
      "TagTerm", "EmojiModifierBase", "EmojiModifier", "RegionalIndicator", "KeyCapBase", "EmojiEmojiPresentation",
      "EmojiTextPresentation", "Invalid"] → ∃ s', (s', escNumber s.toList) ∈ emojiSymbols ∧ s'.toList = s.toList :=
    fun s hs => ⟨s, key s hs, rfl⟩
  rw [h.esc]
  repeat' refine Verif.Toy.ite_elim (fun x : Str => ∃ s', (s', escNumber x) ∈ emojiSymbols ∧ s'.toList = x) (fun _ => ?_) (fun _ => ?_)
  all_goals exact lift _ (by simp only [List.mem_cons, true_or, or_true])

/-- A row the files say, compiled. -/
theorem compile_shown {U N c e} {d : EnumDef} (h : Row.Says U N c (rowOf e)) (hu : Row.Usable c (rowOf e)) :
    Row.Shown (rowOf e) (compileRow d e) where
  width := rfl
  flags := rfl
  flags2 := rfl
  gcb := find_name (fun g => by cases g <;> decide) hu.gcbKnown
  incb := find_name (fun g => by cases g <;> decide) hu.incbKnown
  wb := find_name (fun g => by cases g <;> decide) hu.wbKnown
  gc := find_name (fun g => by cases g <;> decide) hu.gcKnown
  esc := esc_shown h

/-- **C56, the table.** The properties the compiled library finds are those the text of the data files gives. -/
theorem C56_table {F D U N} (hl : Loads F D) (hd : Describes F U) (hc : Complete U N) (hu : Usable U N)
    (blocks : List (List Row)) (hb : blocks.length ≤ 256) (hcover : ∀ j < 0x1100, ∃ b ∈ blocks, BlockSays U N (j * 256) b)
    (values : List Row) (hv : values.length ≤ 65536) (hvc : ∀ c ≤ 0x10FFFF, ∃ r ∈ values, Row.Says U N c r)
    (hash : List Rec → Nat) :
    ∃ X ages R g, Built (inputOf D) X ages R ∧ generate propertiesShape hash ((List.range 0x110000).map R) = .ok g ∧
      Shows U N (compiledTable D { stage1 := g.stage1, stage2 := g.stage2, stage3 := g.stage3.map (emit X (inputOf D) ages) }) := by
  obtain ⟨X, ages, R, g, h1, h2, h3⟩ := C54_lookup hl hd hc blocks hb hcover values hv hvc hash
  refine ⟨X, ages, R, g, h1, h2, fun c => ?_⟩
  obtain ⟨e, he, hs⟩ := h3 c
  refine ⟨rowOf e, hs, ?_⟩
  unfold compiledTable
  rw [he]
  exact compile_shown hs (hu _ (by split <;> omega) _ hs)

/-- **C56, one table.** The data files determine the table. -/
theorem C56_unique {U N T T'} (hc : Complete U N) (h : Shows U N T) (h' : Shows U N T') (c : Nat) :
    (T c).charWidth = (T' c).charWidth ∧ (T c).flags = (T' c).flags ∧ (T c).flags2 = (T' c).flags2 ∧ (T c).gcb = (T' c).gcb ∧
    (T c).incb = (T' c).incb ∧ (T c).wb = (T' c).wb ∧ (T c).generalCategory = (T' c).generalCategory ∧
    (T c).emojiCategory = (T' c).emojiCategory := by
  obtain ⟨r, hr, hs⟩ := h c
  obtain ⟨r', hr', hs'⟩ := h' c
  have hrr := C54_unique hc hr hr'
  subst hrr
  refine ⟨by rw [hs.width, hs'.width], by rw [hs.flags, hs'.flags], by rw [hs.flags2, hs'.flags2], gcb_inj (by rw [hs.gcb, hs'.gcb]),
    incb_inj (by rw [hs.incb, hs'.incb]), wb_inj (by rw [hs.wb, hs'.wb]), ?_, ?_⟩
  · have : gcName (T c).generalCategory = gcName (T' c).generalCategory := String.toList_inj.1 (by rw [hs.gc, hs'.gc])
    revert this
    generalize (T c).generalCategory = a
    generalize (T' c).generalCategory = b
    cases a <;> cases b <;> decide
  · obtain ⟨s, h1, h2⟩ := hs.esc
    obtain ⟨s', h1', h2'⟩ := hs'.esc
    have : s = s' := String.toList_inj.1 (by rw [h2, h2'])
    subst this
    have key : ∀ x ∈ emojiSymbols, ∀ y ∈ emojiSymbols, x.1 = y.1 → x.2 = y.2 := by decide
    exact key _ h1 _ h1' rfl

theorem pict_bit (p : Props) : p.isExtPict = p.flags.testBit 5 := by
  unfold Props.isExtPict
  rw [show (0x20 : Nat) = 2 ^ 5 by decide, Nat.and_two_pow]
  cases p.flags.testBit 5 <;> rfl

/-- The premises of the theorems about segmentation hold of every table that shows usable files. -/
theorem shows_ok {U N T} (hu : Usable U N) (h : Shows U N T) : GB.DataOk T ∧ WidthOk T ∧ Word.WordDataOk T ∧ Scan.AsciiOk T := by
  have row : ∀ c, ∃ r, Row.Shown r (T c) ∧ Row.Usable (if c ≤ 0x10FFFF then c else 0) r ∧
      Row.Says U N (if c ≤ 0x10FFFF then c else 0) r := by
    intro c
    obtain ⟨r, h1, h2⟩ := h c
    exact ⟨r, h2, hu _ (by split <;> omega) r h1, h1⟩
  have low : ∀ c, c < 128 → (if c ≤ 0x10FFFF then c else 0) = c := fun c hc => if_pos (by omega)
  have hg : ∀ {c : Nat} {r : Row} {g : GCB}, Row.Shown r (T c) → r.gcb = (gcbName g).toList → (T c).gcb = g := by
    intro c r g hs he; exact gcb_inj (by rw [hs.gcb, he])
  refine ⟨⟨?_, ?_, ?_, ?_, ?_, ?_, ?_⟩, ⟨?_, ?_, ?_⟩, ?_, ?_⟩
  · intro c hc
    obtain ⟨r, hs, hu, -⟩ := row c
    rw [low c hc] at hu
    obtain ⟨h1, -⟩ := hu.ascii hc
    simp only [List.map_cons, List.map_nil, List.mem_cons, List.not_mem_nil, or_false] at h1
    rcases h1 with h1 | h1 | h1 | h1
    · exact Or.inl (hg hs h1)
    · exact Or.inr (Or.inl (hg hs h1))
    · exact Or.inr (Or.inr (Or.inl (hg hs h1)))
    · exact Or.inr (Or.inr (Or.inr (hg hs h1)))
  · intro c hc
    obtain ⟨r, hs, hu, -⟩ := row c
    rw [low c hc] at hu
    obtain ⟨-, h1, -⟩ := hu.ascii hc
    exact incb_inj (b := .None) (by rw [hs.incb, h1]; rfl)
  · intro c hc
    obtain ⟨r, hs, hu, -⟩ := row c
    rw [low c hc] at hu
    obtain ⟨-, -, h1⟩ := hu.ascii hc
    rw [pict_bit, hs.flags]; exact h1
  · intro c hc
    obtain ⟨r, hs, hu, -⟩ := row c
    have h1 : r.gcb ∈ ["CR", "LF"].map String.toList := by
      rw [← hs.gcb]
      rcases hc with h | h <;> rw [h] <;> decide
    obtain ⟨-, h2, h3⟩ := hu.ascii (hu.crlf h1)
    exact ⟨incb_inj (b := .None) (by rw [hs.incb, h2]; rfl), by rw [pict_bit, hs.flags]; exact h3⟩
  · intro c hc
    obtain ⟨r, hs, hu, -⟩ := row c
    have h1 : r.incb ∈ ["Extend", "Linker"].map String.toList := by
      rw [← hs.incb]
      rcases hc with h | h <;> rw [h] <;> decide
    have h2 := hu.marks h1
    simp only [List.map_cons, List.map_nil, List.mem_cons, List.not_mem_nil, or_false] at h2
    rcases h2 with h2 | h2 | h2
    · exact Or.inl (hg hs h2)
    · exact Or.inr (Or.inl (hg hs h2))
    · exact Or.inr (Or.inr (hg hs h2))
  · intro c hc
    obtain ⟨r, hs, hu, -⟩ := row c
    have h1 := hu.consonants (by rw [← hs.incb, hc]; rfl)
    rw [← hs.gcb] at h1
    refine ⟨?_, ?_, ?_, ?_⟩ <;> intro h <;> rw [h] at h1 <;> exact h1 (by decide)
  · intro c hc
    obtain ⟨r, hs, hu, -⟩ := row c
    rw [pict_bit, hs.flags] at hc
    exact hg hs (hu.pictographs hc).1
  · intro c
    obtain ⟨r, hs, -, hr⟩ := row c
    rw [hs.width, hr.width]
    repeat' split
    all_goals omega
  · obtain ⟨r, hs, hu, -⟩ := row 0x200D
    rw [hs.width]
    exact hu.joiner (if_pos (by decide))
  · obtain ⟨r, hs, hu, -⟩ := row 0
    rw [low 0 (by decide)] at hu
    obtain ⟨h1, -, h3⟩ := hu.ascii (by decide)
    refine ⟨by rw [pict_bit, hs.flags]; exact h3, ?_⟩
    intro h
    rw [← hs.gcb, h] at h1
    exact absurd h1 (by decide)
  · intro c ht
    obtain ⟨r, hs, hu, -⟩ := row c
    rw [Bool.eq_false_iff]
    intro hp
    rw [pict_bit, hs.flags] at hp
    apply (hu.pictographs hp).2
    rw [← hs.wb]
    rcases ht with h | h | h <;> rw [h] <;> decide
  · intro c h1 h2
    obtain ⟨r, hs, hu, -⟩ := row c
    rw [low c (by omega)] at hu
    obtain ⟨h3, h4⟩ := hu.printable h1 h2
    exact ⟨hg hs h3, by rw [hs.width, h4]⟩

/-- **C56, grapheme clusters.** A library generated from usable files puts a cluster border at a position exactly where the
rules of UAX #29, applied to the values in the files, do - GB11 and GB12 as the code has them (C14), and as the standard has
them in texts without the two degenerate patterns. -/
theorem C56_graphemes {U N T} (hu : Usable U N) (h : Shows U N T) (l : List Nat) (b : Nat) (post : List Nat) (hne : l ≠ []) :
    (SegBoundary (Grapheme.clusters T (l ++ b :: post)) l ↔ GB.BoundaryX T l b) ∧
    (GB.NoZwjExtendZwj T l → GB.NoPrependFlag T (l ++ [b]) →
      (SegBoundary (Grapheme.clusters T (l ++ b :: post)) l ↔ GB.BoundaryAt T l b)) :=
  ⟨C14_segmenter_exact (shows_ok hu h).1 l b post hne, fun h1 h2 => C14_uax29_partial (shows_ok hu h).1 l b post hne h1 h2⟩

/-- **C56, words.** A library generated from usable files puts a word border exactly where the rules of UAX #29, applied to
the values in the files, do. -/
theorem C56_words {U N T} (hu : Usable U N) (h : Shows U N T) (l : List Nat) (b : Nat) (post : List Nat) (hne : l ≠ []) :
    SegBoundary (Verif.Word.segments T (l ++ b :: post)) l ↔ WBR.BoundaryAt T l b post :=
  Word.C18_segmenter (shows_ok hu h).2.2.1 l b post hne

/-- **C56, emoji.** A library generated from usable files splits every text into maximal runs of emoji and text presentation
according to the emoji grammar, the symbol of a codepoint being the one the files give it. -/
theorem C56_emoji {U N T} (h : Shows U N T) (text : List Nat) :
    (∀ c, ∃ r s, Row.Says U N (if c ≤ 0x10FFFF then c else 0) r ∧ s.toList = r.esc ∧ (s, (T c).emojiCategory) ∈ emojiSymbols) ∧
    ∃ segs : List (Bool × List (List Int)),
      Emoji.runs (text.map fun c => (T c).emojiCategory) = endsOf 0 (segs.map fun s => (s.1, s.2.flatten)) ∧
        Emoji.Grouping (text.map fun c => (T c).emojiCategory) segs := by
  refine ⟨fun c => ?_, Emoji.C23_groups _⟩
  obtain ⟨r, hr, hs⟩ := h c
  obtain ⟨s, h1, h2⟩ := hs.esc
  exact ⟨r, s, hr, h2, h1⟩

/-- **C56, width.** A single codepoint is as wide as the files say; followed by U+FE0F it takes two columns exactly if it has
two already or is a base of emoji-variation-sequences.txt of one column; and no cluster is wider than twice the number of
codepoints the files give a width. -/
theorem C56_width {U N T} (hu : Usable U N) (h : Shows U N T) :
    (∀ c r, c ≤ 0x10FFFF → Row.Says U N c r → Complete U N →
      Width.clusterWidth T [c] = r.width ∧
      (r.width ≠ 0 → Width.clusterWidth T [c, 0xFE0F] = if c ∈ U.evs ∧ r.width = 1 then 2 else r.width)) ∧
    ∀ cl, Width.clusterWidth T cl ≤ 2 * visible T cl := by
  obtain ⟨-, W, -, -⟩ := shows_ok hu h
  refine ⟨fun c r hcp hr hc => ?_, fun cl => C20_upper_bound W cl⟩
  obtain ⟨r', hr', hs⟩ := h c
  rw [if_pos hcp] at hr'
  have hrr := C54_unique hc hr hr'
  subst hrr
  refine ⟨hs.width, fun hw => ?_⟩
  rw [← hs.width] at hw ⊢
  rw [C20_vs16 W c hw]
  have : (T c).isEmojiVariationBase = true ↔ c ∈ U.evs := by
    unfold Props.isEmojiVariationBase
    rw [hs.flags2, hr.variationBase]
    by_cases hm : c ∈ U.evs
    · rw [if_pos hm]; exact ⟨fun _ => hm, fun _ => by decide⟩
    · rw [if_neg hm]; exact ⟨fun h => absurd h (by decide), fun h => absurd h hm⟩
  simp only [this]

/-- **C56, scanning (partial).** The columns `scan_text` counts are the widths of the clusters according to the files, under
the conditions of C46. -/
theorem C56_scan_partial {U N T} (hu : Usable U N) (h : Shows U N T) (v : Scan.Variant) (w k : Nat) (cs : List Nat)
    (hsc : Scan.Scannable cs) (hvs : 0xFE0E ∉ cs) (hnf : GB.NoFlags T cs) (hnp : Scan.NoPrependAscii T cs) (max : Nat)
    (hmax : 3 * (Utf8.toUtf8Str cs).length + 2 ≤ max) (R : Verif.Scan.Out)
    (hR : Verif.Scan.scanText T v w (Verif.Scan.State.init T) none [] (Utf8.toUtf8Str cs) max = .ok R) :
    R.count = Width.textWidth T k (Utf8.toUtf8Str cs) ∧ R.next = (Utf8.toUtf8Str cs).length := by
  obtain ⟨h1, h2, -, h4⟩ := shows_ok hu h
  exact Scan.C46_width_partial h1 h2 h4 v w k cs hsc hvs hnf hnp max hmax R hR

/-! ## Scripts -/

/-- According to the files, `n` is the script of `c`. -/
def ScriptIs (U : Contents) (c : Nat) (n : Str) : Prop := ValueOf U.scripts "Unknown".toList c n

/-- According to the files, `n` is one of the script extensions of `c`. -/
def ExtensionIs (U : Contents) (al : List (Str × Str)) (c : Nat) (n : Str) : Prop :=
  ∃ v ws w, Assigns U.sce c v ∧ WordsOf v ws ∧ w ∈ ws ∧ (w, n) ∈ al

/-- A script of its own. -/
def Proper (n : Str) : Prop := n ∉ ["Common", "Inherited", "Invalid"].map String.toList

/-- What the files of scripts must satisfy (the Unicode Character Database does). -/
structure ScriptFiles (U : Contents) (al : List (Str × Str)) : Prop where
  plain : Plain U.scripts
  aliases : ("Script".toList, al) ∈ U.aliases
  functional : Functional al
  words : ∀ e ∈ U.sce, ∃ ws, WordsOf e.2.2 ws ∧ ∀ w ∈ ws, Letters w ∧ ∃ n, (w, n) ∈ al
  separate : Separate U.sce
  some : U.sce ≠ []
  size : U.sce.length < 2 ^ 64
  /-- a codepoint with a script of its own has proper scripts as extensions -/
  proper : ∀ c n m, ScriptIs U c n → Proper n → ExtensionIs U al c m → Proper m

theorem scriptOf_proper (d : EnumDef) (n : Str) : Script.Proper (scriptOf d n) ↔ Proper n := by
  rw [Script.proper_iff]
  unfold scriptOf Proper
  simp only [List.map_cons, List.map_nil, List.mem_cons, List.not_mem_nil, or_false, not_or]
  by_cases h1 : n = "Invalid".toList
  · rw [if_pos h1]; exact ⟨fun h => absurd h (by decide), fun h => absurd h1 h.2.2⟩
  rw [if_neg h1]
  by_cases h2 : n = "Common".toList
  · rw [if_pos h2]; exact ⟨fun h => absurd h (by decide), fun h => absurd h2 h.1⟩
  rw [if_neg h2]
  by_cases h3 : n = "Inherited".toList
  · rw [if_pos h3]; exact ⟨fun h => absurd h (by decide), fun h => absurd h3 h.2.1⟩
  rw [if_neg h3]
  exact ⟨fun _ => ⟨h2, h3, h1⟩, fun _ => rfl⟩

theorem script_eq (D : Db) (m : List (Str × Str)) (c : Nat) :
    (compiledScripts D m).script c = compiledScript (scriptEnum D) (apiScript D c) := rfl

theorem exts_eq (D : Db) (m : List (Str × Str)) (c : Nat) :
    (compiledScripts D m).exts c = compiledExts (scriptEnum D) (apiScriptExtensions D m c) := rfl

theorem exts_ok (d : EnumDef) (r : Option (List Str)) : compiledExts d (.ok r) = r.map fun l => l.map (scriptOf d) := rfl

/-- `script` and `script_extensions` as the files have them. -/
theorem compiled_scripts {F D U} (hl : Loads F D) (hd : Describes F U) (hn : (U.aliases.map (·.1)).Nodup) {al} (hs : ScriptFiles U al) :
    ∃ m, amFind D.aliases "Script".toList = some m ∧
      (∀ c, ∃ n, ScriptIs U c n ∧ (compiledScripts D m).script c = scriptOf (scriptEnum D) n) ∧
      ∀ c es, (compiledScripts D m).exts c = some es → ∀ s ∈ es, ∃ n, ExtensionIs U al c n ∧ s = scriptOf (scriptEnum D) n := by
  obtain ⟨m, hm, -⟩ := C53_aliases hl hd hn "Script".toList (by decide) al hs.aliases hs.functional
  refine ⟨m, hm, fun c => ?_, fun c es he s hes => ?_⟩
  · obtain ⟨n, hn'⟩ : ∃ n, ScriptIs U c n := by
      by_cases h : ∃ v, Assigns U.scripts c v
      · obtain ⟨v, hv⟩ := h; exact ⟨v, Or.inl hv⟩
      · exact ⟨_, Or.inr ⟨fun w hw => h ⟨w, hw⟩, rfl⟩⟩
    refine ⟨n, hn', ?_⟩
    have := (C53_script hl hd hs.plain c n).2 hn'
    rw [script_eq, this]
    rfl
  · obtain ⟨m', r, h1, h2, -, h4⟩ := C53_script_extensions hl hd hn al hs.aliases hs.functional hs.separate hs.some hs.size hs.words c
    rw [hm] at h1
    injection h1 with h1
    subst h1
    rw [exts_eq, h2, exts_ok] at he
    cases r with
    | none => exact absurd he (by simp only [Option.map_none, reduceCtorEq, not_false_eq_true])
    | some l =>
      rw [Option.map_some] at he
      injection he with he
      subst he
      obtain ⟨n, hn1, rfl⟩ := List.mem_map.1 hes
      obtain ⟨v, ws, ns, h5, h6, h7, h8⟩ := h4 l rfl
      have hsn := h8.mem_iff.1 hn1
      obtain ⟨w, hw, hwn⟩ : ∃ w ∈ ws, (w, n) ∈ al := by
        clear h6 h8
        induction h7 with
        | nil => exact absurd hsn (by simp)
        | cons h _ ih =>
          rcases List.mem_cons.1 hsn with rfl | hsn
          · exact ⟨_, by simp, h⟩
          · obtain ⟨w, hw, h⟩ := ih hsn
            exact ⟨w, by simp [hw], h⟩
      exact ⟨n, ⟨v, ws, w, h5, h6, hw, hwn⟩, rfl⟩

/-- **C56, scripts.** A library generated from the files splits every text into consecutive non-empty runs, each labelled so
that every codepoint in it with a script of its own has the label as its script or among its script extensions, according
to the files. -/
theorem C56_scripts {F D U} (hl : Loads F D) (hd : Describes F U) (hn : (U.aliases.map (·.1)).Nodup) {al} (hs : ScriptFiles U al)
    (text : List Nat) :
    ∃ m, amFind D.aliases "Script".toList = some m ∧
      ∃ segs : List (Script.Script × List Nat), Script.runs (compiledScripts D m) text = endsOf 0 segs ∧
        Partition (segs.map Prod.snd) text ∧
        ∀ x ∈ segs, ∀ c ∈ x.2, ∀ n, ScriptIs U c n → Proper n →
          ∃ l, x.1 = scriptOf (scriptEnum D) l ∧ (ScriptIs U c l ∨ ExtensionIs U al c l) := by
  obtain ⟨m, hm, h1, h2⟩ := compiled_scripts hl hd hn hs
  have one : ∀ c n n', ScriptIs U c n → ScriptIs U c n' → n = n' := by
    intro c n n' a b
    have e1 := (C53_script hl hd hs.plain c n).2 a
    have e2 := (C53_script hl hd hs.plain c n').2 b
    rw [e1] at e2
    injection e2
  have hstrong : Script.StrongOk (compiledScripts D m) := by
    intro c hst es he s hes
    obtain ⟨n, hn1, hn2⟩ := h1 c
    obtain ⟨k, hk1, rfl⟩ := h2 c es he s hes
    unfold Script.Strong at hst
    rw [hn2, scriptOf_proper] at hst
    rw [scriptOf_proper]
    exact hs.proper c n k hn1 hst hk1
  obtain ⟨segs, a1, a2, a3⟩ := Script.C22_partition_labels hstrong text
  refine ⟨m, hm, segs, a1, a2, fun x hx c hc n hn1 hp => ?_⟩
  obtain ⟨n', hn2, hn3⟩ := h1 c
  have := one c n n' hn1 hn2
  subst this
  have hst : Script.Strong (compiledScripts D m) c := by
    unfold Script.Strong
    rw [hn3, scriptOf_proper]; exact hp
  rcases a3 x hx c hc hst with h | ⟨es, he, h⟩
  · exact ⟨n, by rw [h, hn3], Or.inl hn1⟩
  · obtain ⟨k, hk1, hk2⟩ := h2 c es he _ h
    exact ⟨k, hk2, Or.inr hk1⟩

/-- Different scripts have different labels. -/
theorem C56_labels {F D U N} (hl : Loads F D) (hd : Describes F U) (hc : Complete U N) (hf : ∀ s ∈ U.aliases, Functional s.2)
    (hnc : NoClash U N) (a b : Str)
    (ha : Enumerator U N "Script".toList a) (hb : Enumerator U N "Script".toList b)
    (h : scriptOf (scriptEnum D) a = scriptOf (scriptEnum D) b) : a = b := by
  obtain ⟨enums, he, hex⟩ := C55_exact hl hd hc hf
  obtain ⟨hu1, hu2⟩ := C55_unique hl hd hc hf hnc enums he
  have hmem : scriptEnum D ∈ enums := by
    unfold collectEnums at he
    obtain ⟨age, -, rfl⟩ := Option.map_eq_some_iff.1 he
    exact List.mem_cons_of_mem _ (List.mem_append_right _ (List.mem_append_right _ (by simp)))
  have num : ∀ x, Enumerator U N "Script".toList x → ∃ i, (scriptEnum D).number x = some i ∧ (scriptEnum D).identifiers[i]? = some x := by
    intro x hx
    obtain ⟨d, hd1, hd2, hd3⟩ := (hex _ _).2 hx
    have : d = scriptEnum D := by
      have hinj := List.inj_on_of_nodup_map hu1
      exact hinj hd1 hmem hd2
    subst this
    obtain ⟨i, hi⟩ := List.mem_iff_getElem?.1 hd3
    refine ⟨i, ?_, hi⟩
    exact findIdx_nodup (hu2 _ hmem) i x hi
  obtain ⟨i, hi1, hi2⟩ := num a ha
  obtain ⟨j, hj1, hj2⟩ := num b hb
  have cases' : ∀ x, (x = "Invalid".toList ∧ scriptOf (scriptEnum D) x = .Invalid) ∨ (x = "Common".toList ∧ scriptOf (scriptEnum D) x = .Common) ∨
      (x = "Inherited".toList ∧ scriptOf (scriptEnum D) x = .Inherited) ∨
      scriptOf (scriptEnum D) x = .sc (((scriptEnum D).number x).getD 0) := by
    intro x
    unfold scriptOf
    by_cases h1 : x = "Invalid".toList
    · exact Or.inl ⟨h1, if_pos h1⟩
    by_cases h2 : x = "Common".toList
    · exact Or.inr (Or.inl ⟨h2, by rw [if_neg h1, if_pos h2]⟩)
    by_cases h3 : x = "Inherited".toList
    · exact Or.inr (Or.inr (Or.inl ⟨h3, by rw [if_neg h1, if_neg h2, if_pos h3]⟩))
    · exact Or.inr (Or.inr (Or.inr (by rw [if_neg h1, if_neg h2, if_neg h3])))
  rcases cases' a with ⟨e, f⟩ | ⟨e, f⟩ | ⟨e, f⟩ | f <;> rcases cases' b with ⟨e', f'⟩ | ⟨e', f'⟩ | ⟨e', f'⟩ | f' <;> rw [f, f'] at h
  all_goals first
    | (rw [e, e']; done)
    | exact absurd h (by simp only [reduceCtorEq, not_false_eq_true])
    | skip
  rw [hi1, hj1] at h
  injection h with h
  have hij : i = j := h
  subst hij
  rw [hi2] at hj2
  injection hj2

/-- **C56, the script column.** The script of the properties of a codepoint is the enumerator, in the generated enumeration of
scripts, that carries the name the files give. -/
theorem C56_script_column {F D U N} (hl : Loads F D) (hd : Describes F U) (hc : Complete U N) (hf : ∀ s ∈ U.aliases, Functional s.2)
    (hnc : NoClash U N) (hp : PlainNames U N) (hage : N.age ≠ [])
    (blocks : List (List Row)) (hb : blocks.length ≤ 256) (hcover : ∀ j < 0x1100, ∃ b ∈ blocks, BlockSays U N (j * 256) b)
    (values : List Row) (hv : values.length ≤ 65536) (hvc : ∀ c ≤ 0x10FFFF, ∃ r ∈ values, Row.Says U N c r)
    (hash : List Rec → Nat) :
    ∃ X ages R g enums d, Built (inputOf D) X ages R ∧ generate propertiesShape hash ((List.range 0x110000).map R) = .ok g ∧
      collectEnums D = some enums ∧ d ∈ enums ∧ d.name = "Script".toList ∧
      ∀ c, ∃ r, Row.Says U N (if c ≤ 0x10FFFF then c else 0) r ∧
        d.identifiers[(compiledTable D { stage1 := g.stage1, stage2 := g.stage2, stage3 := g.stage3.map (emit X (inputOf D) ages) } c).script]?
          = some r.script := by
  obtain ⟨X, ages, R, g, h1, h2, h3⟩ := C54_lookup hl hd hc blocks hb hcover values hv hvc hash
  obtain ⟨enums, he, hex⟩ := C55_exact hl hd hc hf
  obtain ⟨hu1, hu2⟩ := C55_unique hl hd hc hf hnc enums he
  have hmem : scriptEnum D ∈ enums := by
    unfold collectEnums at he
    obtain ⟨age, -, rfl⟩ := Option.map_eq_some_iff.1 he
    exact List.mem_cons_of_mem _ (List.mem_append_right _ (List.mem_append_right _ (by simp)))
  refine ⟨X, ages, R, g, enums, scriptEnum D, h1, h2, he, hmem, rfl, fun c => ?_⟩
  obtain ⟨e, hge, hs⟩ := h3 c
  refine ⟨rowOf e, hs, ?_⟩
  have hx := (C55_row hc hp hage hs).1
  obtain ⟨d, hd1, hd2, hd3⟩ := (hex _ _).2 hx
  have : d = scriptEnum D := List.inj_on_of_nodup_map hu1 hd1 hmem hd2
  subst this
  obtain ⟨i, hi⟩ := List.mem_iff_getElem?.1 hd3
  have hnum : (scriptEnum D).number (rowOf e).script = some i := findIdx_nodup (hu2 _ hmem) i _ hi
  unfold compiledTable
  rw [hge]
  have hcol : (compiled (scriptEnum D) (.ok e)).script = ((scriptEnum D).number (rowOf e).script).getD 0 := rfl
  rw [hcol, hnum]
  exact hi

end Verif.Props.Tg
