import Verif.Lemmas.TgLoad
/-!
# C53: the query functions of ucd.h answer what the data files say
-/

namespace Verif.Props.Tg
open Verif.Utf8 (Mem)
open Verif.Tg
open Verif.Spec.Ucd
open Verif.Spec.UcdFile

/-- The texts of the files have the documented formats, with the contents `U`. -/
structure Describes (F : Files) (U : Contents) : Prop where
  aliases : Sections AliasPlain AliasHeader AliasLine F.aliases [] U.aliases
  gc : Sections CategoryPlain CategoryHeader RangeLine F.gc [] U.gc
  core : FileOf F.core U.core
  scripts : FileOf F.scripts U.scripts
  isc : FileOf F.isc U.isc
  sce : FileOf F.sce U.sce
  blocks : FileWith BlockLine F.blocks U.blocks
  gcb : Sections PropertyPlain PropertyHeader RangeLine F.gcb [] U.gcb
  wb : Sections PropertyPlain PropertyHeader RangeLine F.wb [] U.wb
  eaw : FileOf F.eaw U.eaw
  hst : FileOf F.hst U.hst
  emoji : FileOf F.emoji U.emoji
  evs : FileWith VariationLine F.evs U.evs
  mirrored : FileWith MirrorLine F.unicodeData U.mirrored
  glyphs : FileWith GlyphLine F.bidi U.glyphs
  ages : FileOf F.age U.ages
  names : FileOf F.names U.names

/-- Values are single words. -/
def Words (es : List Entry) : Prop := ∀ e ∈ es, Word e.2.2

/-! ## Files of plain values -/

theorem generic_ents {lines : List Str} {es : List Entry} (h : FileOf lines es) (hw : Words es) : ents (genericEntries lines) = es := by
  rw [C48_file_exact _ _ h]
  unfold ents
  rw [List.map_map]
  conv => rhs; rw [← List.map_id es]
  apply List.map_congr_left
  intro e he
  simp [firstWord_word (hw e he)]

/-- What the theorems need of a file with plain values: it lists something, and no codepoint twice. -/
structure Plain (es : List Entry) : Prop where
  words : Words es
  separate : Separate es
  nonempty : es ≠ []
  size : es.length < 2 ^ 64

theorem generic_value {lines : List Str} {es : List Entry} (h : FileOf lines es) (hp : Plain es) {rs : List PRange}
    (hs : SortedBy PRange.first (genericEntries lines) rs) (d : Str) (c : Nat) (v : Str) :
    valueOr (propTable rs) d c = .ok v ↔ ValueOf es d c v := by
  have e := generic_ents h hp.words
  obtain ⟨h1, h2, h3, h4⟩ := ents_sorted hs (by rw [e]; exact hp.separate) (by rw [e]; exact fun x hx => (fileOf_valid h x hx).1)
  rw [e] at h3 h4
  rw [valueOr_exact (ents rs) h1 h2 (by intro hn; rw [hn] at h3; exact hp.nonempty (List.length_eq_zero_iff.1 h3.symm))
    (by rw [h3]; exact hp.size) d c v _ (propTable_ents rs)]
  exact valueOf_congr h4 d c v

/-- **C53, `script`.** -/
theorem C53_script {F D U} (hl : Loads F D) (hd : Describes F U) (hp : Plain U.scripts) (c : Nat) (v : Str) :
    apiScript D c = .ok v ↔ ValueOf U.scripts "Unknown".toList c v :=
  generic_value hd.scripts hp hl.scripts _ c v

/-! ## East Asian width -/

theorem mergeFrom_ne (rs : List PRange) (cur : PRange) : mergeFrom cur rs ≠ [] := by
  induction rs generalizing cur with
  | nil => simp [mergeFrom]
  | cons r rs ih => rw [mergeFrom]; split; exact ih _; simp

theorem mergeFrom_length (rs : List PRange) (cur : PRange) : (mergeFrom cur rs).length ≤ rs.length + 1 := by
  induction rs generalizing cur with
  | nil => simp [mergeFrom]
  | cons r rs ih =>
    rw [mergeFrom]; split
    · have := ih { cur with last := r.last }; simp; omega
    · have := ih r; simp; omega

theorem mergeFrom_spec (rs : List PRange) (cur : PRange) (ha : Ascending (ents (cur :: rs))) (hv : ∀ e ∈ ents (cur :: rs), e.1 ≤ e.2.1) :
    Ascending (ents (mergeFrom cur rs)) ∧ (∀ e ∈ ents (mergeFrom cur rs), e.1 ≤ e.2.1 ∧ cur.first ≤ e.1) ∧
      ∀ c v, Assigns (ents (mergeFrom cur rs)) c v ↔ Assigns (ents (cur :: rs)) c v := by
  induction rs generalizing cur with
  | nil =>
    refine ⟨ha, ?_, fun c v => Iff.rfl⟩
    intro e he
    refine ⟨hv e he, ?_⟩
    simp [ents, mergeFrom] at he
    subst he
    exact Nat.le_refl _
  | cons r rs ih =>
    have hc : cur.first ≤ cur.last := hv (cur.first, cur.last, cur.property) (by simp [ents])
    have hr : r.first ≤ r.last := hv (r.first, r.last, r.property) (by simp [ents])
    have ha' := ha
    unfold Ascending ents at ha'
    rw [List.map_cons, List.map_cons, List.pairwise_cons, List.pairwise_cons] at ha'
    have hcr : cur.last < r.first := ha'.1 (r.first, r.last, r.property) (by simp)
    rw [mergeFrom]
    split
    · rename_i hm
      obtain ⟨i1, i2, i3⟩ := ih { cur with last := r.last }
        (by
          unfold Ascending ents
          rw [List.map_cons, List.pairwise_cons]
          exact ⟨ha'.2.1, ha'.2.2⟩)
        (by
          intro e he
          simp only [ents, List.map_cons, List.mem_cons] at he
          rcases he with rfl | he
          · show cur.first ≤ r.last; omega
          · exact hv e (by simp only [ents, List.map_cons, List.mem_cons]; exact Or.inr (Or.inr he)))
      refine ⟨i1, i2, fun c v => ?_⟩
      rw [i3]
      simp only [ents, List.map_cons, assigns_cons]
      constructor
      · rintro (⟨h1, h2, h3⟩ | h)
        · by_cases h4 : c ≤ cur.last
          · exact Or.inl ⟨h1, h4, h3⟩
          · refine Or.inr (Or.inl ⟨?_, h2, by rw [← hm.2]; exact h3⟩)
            have := hm.1
            show r.first ≤ c
            omega
        · exact Or.inr (Or.inr h)
      · rintro (⟨h1, h2, h3⟩ | ⟨h1, h2, h3⟩ | h)
        · refine Or.inl ⟨h1, ?_, h3⟩
          show c ≤ r.last
          have : c ≤ cur.last := h2
          omega
        · refine Or.inl ⟨?_, h2, by rw [hm.2]; exact h3⟩
          show cur.first ≤ c
          have : r.first ≤ c := h1
          omega
        · exact Or.inr h
    · obtain ⟨i1, i2, i3⟩ := ih r (by unfold Ascending ents; rw [List.map_cons, List.pairwise_cons]; exact ha'.2)
        (fun e he => hv e (by simp only [ents, List.map_cons, List.mem_cons] at he ⊢; exact Or.inr he))
      refine ⟨?_, ?_, ?_⟩
      · unfold Ascending ents at i1 ⊢
        rw [List.map_cons, List.pairwise_cons]
        refine ⟨?_, i1⟩
        intro e he
        have := (i2 e he).2
        show cur.last < e.1
        omega
      · intro e he
        simp only [ents, List.map_cons, List.mem_cons] at he
        rcases he with rfl | he
        · exact ⟨hc, Nat.le_refl _⟩
        · have := i2 e he; exact ⟨this.1, by omega⟩
      · intro c v
        have e1 : ents (cur :: mergeFrom r rs) = (cur.first, cur.last, cur.property) :: ents (mergeFrom r rs) := rfl
        have e2 : ents (cur :: r :: rs) = (cur.first, cur.last, cur.property) :: ents (r :: rs) := rfl
        rw [e1, e2, assigns_cons, assigns_cons, i3]

theorem mergeRanges_spec (rs : List PRange) (ha : Ascending (ents rs)) (hv : ∀ e ∈ ents rs, e.1 ≤ e.2.1) (hne : rs ≠ []) :
    Ascending (ents (mergeRanges rs)) ∧ (∀ e ∈ ents (mergeRanges rs), e.1 ≤ e.2.1) ∧
      (∀ c v, Assigns (ents (mergeRanges rs)) c v ↔ Assigns (ents rs) c v) ∧ mergeRanges rs ≠ [] ∧
      (mergeRanges rs).length ≤ rs.length := by
  cases rs with
  | nil => exact absurd rfl hne
  | cons r rs =>
    obtain ⟨h1, h2, h3⟩ := mergeFrom_spec rs r ha hv
    exact ⟨h1, fun e he => (h2 e he).1, h3, mergeFrom_ne _ _, mergeFrom_length _ _⟩

/-- The value of a codepoint, in the spelling of the enumeration. -/
def WidthValue (es : List Entry) (c : Nat) (v : Str) : Prop :=
  (∃ ab full, (ab, full) ∈ widths ∧ Assigns es c ab.toList ∧ v = full.toList) ∨
    (∀ w, ¬ Assigns es c w) ∧ v = "Unspecified".toList

theorem widthName_widths (a f : String) (h : (a, f) ∈ widths) : widthName a.toList = f.toList := by
  simp only [widths, List.mem_cons, Prod.mk.injEq, List.not_mem_nil, or_false] at h
  rcases h with ⟨rfl, rfl⟩ | ⟨rfl, rfl⟩ | ⟨rfl, rfl⟩ | ⟨rfl, rfl⟩ | ⟨rfl, rfl⟩ | ⟨rfl, rfl⟩ <;> decide

/-- **C53, `east_asian_width`.** Merging adjacent ranges changes no answer; the abbreviations of the file become the
enumerators of UAX #11. -/
theorem C53_east_asian_width {F D U} (hl : Loads F D) (hd : Describes F U) (hp : Plain U.eaw)
    (hw : ∀ e ∈ U.eaw, ∃ p ∈ widths, e.2.2 = p.1.toList) (c : Nat) (v : Str) :
    apiEaw D c = .ok v ↔ WidthValue U.eaw c v := by
  have e := generic_ents hd.eaw hp.words
  obtain ⟨h1, h2, h3, h4⟩ := ents_sorted hl.eaw (by rw [e]; exact hp.separate)
    (by rw [e]; exact fun x hx => (fileOf_valid hd.eaw x hx).1)
  rw [e] at h3 h4
  have hlen : D.eaw.length = U.eaw.length := by rw [← h3]; simp [ents]
  have hne : D.eaw ≠ [] := by
    intro h; rw [h] at hlen; exact hp.nonempty (List.length_eq_zero_iff.1 hlen.symm)
  obtain ⟨m1, m2, m3, m4, m5⟩ := mergeRanges_spec D.eaw h1 h2 hne
  have em : ents ((mergeRanges D.eaw).map fun r => { r with property := widthName r.property })
      = (ents (mergeRanges D.eaw)).map fun x => (x.1, x.2.1, widthName x.2.2) := by
    unfold ents; rw [List.map_map, List.map_map]; rfl
  have hx := valueOr_exact (ents ((mergeRanges D.eaw).map fun r => { r with property := widthName r.property }))
    (by rw [em]; exact List.pairwise_map.2 m1)
    (by rw [em]; intro x hx; obtain ⟨y, hy, rfl⟩ := List.mem_map.1 hx; exact m2 y hy)
    (by rw [em]; simpa [ents] using m4) (by
      have : U.eaw.length < 2 ^ 64 := hp.size
      rw [em]; simp only [ents, List.length_map]; omega)
    "Unspecified".toList c v _ (propTable_ents _)
  unfold apiEaw
  rw [hx, em]
  have ha : ∀ w, Assigns ((ents (mergeRanges D.eaw)).map fun x => (x.1, x.2.1, widthName x.2.2)) c w ↔
      ∃ a, Assigns U.eaw c a ∧ widthName a = w := by
    intro w
    have : ∀ a, Assigns U.eaw c a ↔ Assigns (ents (mergeRanges D.eaw)) c a := fun a => by
      rw [m3, assigns_congr h4]
    simp only [this]
    unfold Assigns
    simp only [List.mem_map]
    constructor
    · rintro ⟨x, ⟨y, hy, rfl⟩, q1, q2, q3⟩; exact ⟨y.2.2, ⟨y, hy, q1, q2, rfl⟩, q3⟩
    · rintro ⟨a, ⟨y, hy, q1, q2, rfl⟩, q3⟩; exact ⟨_, ⟨y, hy, rfl⟩, q1, q2, q3⟩
  unfold ValueOf WidthValue
  simp only [ha]
  constructor
  · rintro (⟨a, q1, q2⟩ | ⟨q1, q2⟩)
    · obtain ⟨x, hx, -, -, q3⟩ := id q1
      obtain ⟨p, hp, q4⟩ := hw x hx
      rw [q4] at q3
      rw [← q3] at q1 q2
      exact Or.inl ⟨p.1, p.2, hp, q1, by rw [← q2, widthName_widths _ _ hp]⟩
    · exact Or.inr ⟨fun w hw => q1 _ ⟨w, hw, rfl⟩, q2⟩
  · rintro (⟨a, f, q1, q2, q3⟩ | ⟨q1, q2⟩)
    · exact Or.inl ⟨_, q2, by rw [q3, widthName_widths _ _ q1]⟩
    · exact Or.inr ⟨fun w ⟨a, hw, _⟩ => q1 a hw, q2⟩

/-! ## Properties of codepoints -/

/-- A list of ranges pushed to their groups. -/
theorem group_contains (kr : List (Str × PRange)) (out : Groups) (hs : SortedGroups (pushAll kr []) out) (p : Str)
    (hsep : Separate (ents ((kr.filter fun e => decide (e.1 = p)).map (·.2)))) (hv : ∀ e ∈ kr, e.2.first ≤ e.2.last)
    (hl : kr.length < 2 ^ 64) (c : Nat) :
    ((∀ e ∈ kr, e.1 ≠ p) → amFind out p = none) ∧
    ((∃ e ∈ kr, e.1 = p) → ∃ rs, amFind out p = some rs ∧ ∃ b, Verif.Tables.contains (intervalTable rs) c = .ok b ∧
      (b = true ↔ ∃ e ∈ kr, e.1 = p ∧ e.2.first ≤ c ∧ c ≤ e.2.last)) := by
  have hf := pushAll_find kr p
  obtain ⟨g1, g2⟩ := sortedGroups_find hs p
  constructor
  · intro h
    rw [if_neg (by rintro ⟨e, he, hp⟩; exact h e he hp)] at hf
    exact g1 hf
  · intro h
    rw [if_pos h] at hf
    obtain ⟨rs, r1, r2⟩ := g2 _ hf
    obtain ⟨e, he, hp⟩ := h
    obtain ⟨h1, h2, h3, h4⟩ := ents_sorted r2 hsep (by
      intro x hx
      simp only [ents, List.mem_map, List.mem_filter] at hx
      obtain ⟨_, ⟨y, ⟨hy, -⟩, rfl⟩, rfl⟩ := hx
      exact hv y hy)
    have hmem : ∀ x, x ∈ ents rs ↔ ∃ y ∈ kr, y.1 = p ∧ x = (y.2.first, y.2.last, y.2.property) := by
      intro x
      rw [h4]
      simp only [ents, List.mem_map, List.mem_filter, decide_eq_true_eq]
      constructor
      · rintro ⟨_, ⟨y, ⟨hy, hp⟩, rfl⟩, rfl⟩; exact ⟨y, hy, hp, rfl⟩
      · rintro ⟨y, hy, hp, rfl⟩; exact ⟨_, ⟨y, ⟨hy, hp⟩, rfl⟩, rfl⟩
    refine ⟨rs, r1, ?_⟩
    obtain ⟨b, b1, b2⟩ := contains_exact (ents rs) h1 h2
      (by
        intro hn
        have := (hmem (e.2.first, e.2.last, e.2.property)).2 ⟨e, he, hp, rfl⟩
        rw [hn] at this; simp at this)
      (by
        rw [h3]
        have : (kr.filter fun e => decide (e.1 = p)).length ≤ kr.length := List.length_filter_le _ _
        simp only [ents, List.length_map]
        omega) c _ (intervalTable_ents rs)
    refine ⟨b, b1, ?_⟩
    rw [b2]
    constructor
    · rintro ⟨x, hx, q1, q2⟩
      obtain ⟨y, hy, hp, rfl⟩ := (hmem x).1 hx
      exact ⟨y, hy, hp, q1, q2⟩
    · rintro ⟨y, hy, hp, q1, q2⟩
      exact ⟨_, (hmem _).2 ⟨y, hy, hp, rfl⟩, q1, q2⟩

theorem pushAll_map {E : Type} (k : E → Str) (r : E → PRange) (es : List E) (gs : Groups) :
    es.foldl (fun gs e => groupPush (k e) (r e) gs) gs = pushAll (es.map fun e => (k e, r e)) gs := by
  unfold pushAll; rw [List.foldl_map]

theorem separate_filter (es : List Entry) (p : Str) (g : Entry → Str) (k : Entry → Str) (hk : ∀ e ∈ es, k e = p ↔ e.2.2 = p)
    (h : Separate (withValue es p)) :
    Separate (ents (((es.map fun e => (k e, (⟨e.1, e.2.1, g e⟩ : PRange))).filter fun e => decide (e.1 = p)).map (·.2))) := by
  unfold Separate withValue ents at *
  rw [List.filter_map, List.map_map, List.map_map, List.pairwise_map]
  have : es.filter ((fun e : Str × PRange => decide (e.1 = p)) ∘ fun e => (k e, ⟨e.1, e.2.1, g e⟩)) = es.filter fun e => decide (e.2.2 = p) := by
    apply List.filter_congr
    intro e he
    simp [hk e he]
  rw [this]
  exact h

theorem emoji_loaded {F U} (hd : Describes F U) (hw : Words U.emoji) :
    emojiEntries F.emoji = pushAll (U.emoji.map fun e => (e.2.2, (⟨e.1, e.2.1, e.2.2⟩ : PRange))) [] := by
  unfold emojiEntries
  rw [fileOf_fold emojiLine (fun gs e => groupPush (firstWord e.2.2) ⟨e.1, e.2.1, firstWord e.2.2⟩ gs)
    (fun st line stored h1 h2 => by unfold emojiLine; rw [C48_skips _ _ h1 h2])
    (fun st line stored e h1 h2 => by
      obtain ⟨q, q1, q2, q3, q4⟩ := parse_rangeLine h1 h2
      unfold emojiLine rangeOf
      rw [q1, ← q2, ← q3, ← q4]) hd.emoji,
    pushAll_map (fun e : Entry => firstWord e.2.2) (fun e => ⟨e.1, e.2.1, firstWord e.2.2⟩)]
  congr 1
  apply List.map_congr_left
  intro e he
  rw [firstWord_word (hw e he)]

/-- **C53, `is_emoji`, `is_emoji_presentation`, …** There is a function for every property named in emoji-data.txt, and it
holds exactly for the codepoints the file lists under that name. -/
theorem C53_emoji {F D U} (hl : Loads F D) (hd : Describes F U) (hw : Words U.emoji) (hsize : U.emoji.length < 2 ^ 64)
    (p : Str) (hs : Separate (withValue U.emoji p)) (c : Nat) :
    (∃ e ∈ U.emoji, e.2.2 = p) → ∃ b, apiEmoji D p c = some (.ok b) ∧ (b = true ↔ Assigns U.emoji c p) := by
  have hload := emoji_loaded hd hw
  have hsort := hl.emoji
  rw [hload] at hsort
  intro ⟨e, he, hep⟩
  obtain ⟨-, h⟩ := group_contains _ _ hsort p (separate_filter U.emoji p (fun e => e.2.2) (fun e => e.2.2) (fun _ _ => Iff.rfl) hs)
    (by intro x hx; obtain ⟨y, hy, rfl⟩ := List.mem_map.1 hx; exact (fileOf_valid hd.emoji y hy).1) (by simpa using hsize) c
  obtain ⟨rs, r1, b, b1, b2⟩ := h ⟨_, List.mem_map.2 ⟨e, he, rfl⟩, hep⟩
  refine ⟨b, by unfold apiEmoji; rw [r1, Option.map_some, b1], ?_⟩
  rw [b2]
  unfold Assigns
  constructor
  · rintro ⟨x, hx, q1, q2, q3⟩
    obtain ⟨y, hy, rfl⟩ := List.mem_map.1 hx
    exact ⟨y, hy, q2, q3, q1⟩
  · rintro ⟨y, hy, q1, q2, q3⟩
    exact ⟨_, List.mem_map.2 ⟨y, hy, rfl⟩, q3, q1, q2⟩

/-! ## Core properties -/

/-- Two entries do not share a codepoint. -/
def Apart (a b : Entry) : Prop := a.2.1 < b.1 ∨ b.2.1 < a.1

theorem separate_filterMap (es : List Entry) (k : Entry → Option (Str × PRange)) (p : Str) (Q : Entry → Prop)
    (hk : ∀ e ∈ es, ∀ x, k e = some x → x.1 = p → Q e ∧ x.2.first = e.1 ∧ x.2.last = e.2.1)
    (h : es.Pairwise fun a b => Q a → Q b → Apart a b) :
    Separate (ents (((es.filterMap k).filter fun e => decide (e.1 = p)).map (·.2))) := by
  unfold Separate ents
  rw [List.pairwise_map, List.pairwise_map, List.pairwise_filter, List.pairwise_filterMap]
  refine h.imp_of_mem ?_
  intro a b ha hb hab x hx y hy hpx hpy
  obtain ⟨q1, q2, q3⟩ := hk a ha x hx (by simpa using hpx)
  obtain ⟨r1, r2, r3⟩ := hk b hb y hy (by simpa using hpy)
  rw [q2, q3, r2, r3]
  exact hab q1 r1

theorem separate_withValue {es : List Entry} {p : Str} (h : Separate (withValue es p)) :
    es.Pairwise fun a b => a.2.2 = p → b.2.2 = p → Apart a b := by
  unfold Separate withValue at h
  rw [List.pairwise_filter] at h
  exact h.imp (fun h q1 q2 => h (by simpa using q1) (by simpa using q2))

/-- The group and range that a line of DerivedCoreProperties.txt adds to the core properties. -/
def coreKey (e : Entry) : Option (Str × PRange) :=
  match cutAt ';' e.2.2 with
  | some _ => none
  | none => some (firstWord e.2.2, ⟨e.1, e.2.1, []⟩)

/-- … and to the Indic conjunct breaks. -/
def incbKey (e : Entry) : Option (Str × PRange) :=
  match cutAt ';' e.2.2 with
  | some (n, v) => if trim n = "InCB".toList then some (trim v, ⟨e.1, e.2.1, trim v⟩) else none
  | none => none

theorem coreLoop_eq {lines : List Str} {es : List Entry} (h : FileOf lines es) :
    coreLoop lines = (pushAll (es.filterMap coreKey) [], pushAll (es.filterMap incbKey) []) := by
  have key : ∀ (es : List Entry) (g1 g2 : Groups),
      es.foldl (fun st e =>
        (match coreKey e with | some x => groupPush x.1 x.2 st.1 | none => st.1,
         match incbKey e with | some x => groupPush x.1 x.2 st.2 | none => st.2)) (g1, g2)
        = (pushAll (es.filterMap coreKey) g1, pushAll (es.filterMap incbKey) g2) := by
    intro es
    induction es with
    | nil => intro g1 g2; rfl
    | cons e es ih =>
      intro g1 g2
      rw [List.foldl_cons, ih]
      have hp : ∀ (k : Entry → Option (Str × PRange)) (g : Groups),
          pushAll (List.filterMap k es) (match k e with | some x => groupPush x.1 x.2 g | none => g)
            = pushAll (List.filterMap k (e :: es)) g := by
        intro k g
        rw [List.filterMap_cons]
        cases hk : k e with
        | none => rfl
        | some x => rfl
      rw [hp, hp]
  unfold coreLoop
  rw [← key]
  refine fileOf_fold coreLine _ ?_ ?_ h _
  · intro st line stored h1 h2
    unfold coreLine; rw [C48_skips _ _ h1 h2]
  · intro st line stored e h1 h2
    obtain ⟨q, q1, q2, q3, q4⟩ := parse_rangeLine h1 h2
    unfold coreLine coreKey incbKey
    rw [q1]
    simp only
    rw [q2, q3, q4]
    cases hc : cutAt ';' e.2.2 with
    | none => rfl
    | some x =>
      obtain ⟨n, v⟩ := x
      simp only
      split <;> rfl

/-- The values of DerivedCoreProperties.txt: a name, or a name and a value. -/
def CoreValues (es : List Entry) : Prop := ∀ e ∈ es, Word e.2.2 ∨ ∃ n v, TwoPart e.2.2 n v

theorem word_no_semi {s : Str} (h : Word s) : ';' ∉ s := fun hm => (h.2 _ hm).2.2.2.2.1 rfl

theorem coreKey_word {e : Entry} (h : Word e.2.2) : coreKey e = some (e.2.2, ⟨e.1, e.2.1, []⟩) ∧ incbKey e = none := by
  unfold coreKey incbKey
  rw [cutAt_none _ _ (word_no_semi h)]
  exact ⟨by simp only [firstWord_word h], rfl⟩

theorem coreKey_two {e : Entry} {n v : Str} (h : TwoPart e.2.2 n v) :
    coreKey e = none ∧ incbKey e = if n = "InCB".toList then some (v, ⟨e.1, e.2.1, v⟩) else none := by
  obtain ⟨w, w', hw, hw', hn, hv, he⟩ := h
  unfold coreKey incbKey
  rw [he, show n ++ w ++ ';' :: w' ++ v = (n ++ w) ++ ';' :: (w' ++ v) by simp, cutAt_append]
  · refine ⟨rfl, ?_⟩
    simp only
    have t1 : trim (n ++ w) = n := by
      have := trimBy_append isWs [] n w (by simp) (blank_ws hw) (fun c hc => (word_ws hn c (List.mem_of_mem_head? hc)).1)
        (fun c hc => (word_ws hn c (List.mem_of_getLast? hc)).1)
      simpa [trim] using this
    have t2 : trim (w' ++ v) = v := by
      have := trimBy_append isWs w' v [] (blank_ws hw') (by simp) (fun c hc => (word_ws hv c (List.mem_of_mem_head? hc)).1)
        (fun c hc => (word_ws hv c (List.mem_of_getLast? hc)).1)
      simpa [trim] using this
    rw [t1, t2]
  · intro hm
    rcases List.mem_append.1 hm with hm | hm
    · exact word_no_semi hn hm
    · exact (blank_not hw _ hm).1 rfl

theorem twoPart_not_word {s n v : Str} (h : TwoPart s n v) : ¬ Word s := by
  obtain ⟨w, w', -, -, -, -, rfl⟩ := h
  intro hw
  exact word_no_semi hw (by simp)

/-- **C53, `contains(Core_Property, …)`.** For every property name, the answer is yes exactly for the codepoints the file
lists under that name. -/
theorem C53_core {F D U} (hl : Loads F D) (hd : Describes F U) (hw : CoreValues U.core) (hsize : U.core.length < 2 ^ 64)
    (p : Str) (hp : Word p) (hs : Separate (withValue U.core p)) (c : Nat) :
    ∃ b, apiCore D p c = .ok b ∧ (b = true ↔ Assigns U.core c p) := by
  have hsort := hl.core
  rw [coreLoop_eq hd.core] at hsort
  have hk : ∀ e ∈ U.core, ∀ x, coreKey e = some x → Word e.2.2 ∧ x = (e.2.2, ⟨e.1, e.2.1, []⟩) := by
    intro e he x hx
    rcases hw e he with h | ⟨n, v, h⟩
    · rw [(coreKey_word h).1] at hx; exact ⟨h, by injection hx with hx; exact hx.symm⟩
    · rw [(coreKey_two h).1] at hx; exact absurd hx (by simp)
  have hmem : ∀ x, x ∈ U.core.filterMap coreKey ∧ x.1 = p ↔ ∃ e ∈ U.core, e.2.2 = p ∧ x = (p, ⟨e.1, e.2.1, []⟩) := by
    intro x
    rw [List.mem_filterMap]
    constructor
    · rintro ⟨⟨e, he, hx⟩, hxp⟩
      obtain ⟨h1, rfl⟩ := hk e he x hx
      have : e.2.2 = p := hxp
      exact ⟨e, he, this, by rw [this]⟩
    · rintro ⟨e, he, h1, rfl⟩
      exact ⟨⟨e, he, by rw [(coreKey_word (by rw [h1]; exact hp)).1, h1]⟩, rfl⟩
  obtain ⟨g1, g2⟩ := group_contains _ _ hsort p
    (separate_filterMap U.core coreKey p (fun e => e.2.2 = p)
      (fun e he x hx hxp => by obtain ⟨-, rfl⟩ := hk e he x hx; exact ⟨hxp, rfl, rfl⟩) (separate_withValue hs))
    (by
      intro x hx
      obtain ⟨e, he, hx⟩ := List.mem_filterMap.1 hx
      obtain ⟨-, rfl⟩ := hk e he x hx
      exact (fileOf_valid hd.core e he).1)
    (by have : (U.core.filterMap coreKey).length ≤ U.core.length := List.length_filterMap_le _ _; omega) c
  unfold apiCore
  by_cases hex : ∃ e ∈ U.core.filterMap coreKey, e.1 = p
  · obtain ⟨rs, r1, b, b1, b2⟩ := g2 hex
    rw [r1]
    refine ⟨b, b1, ?_⟩
    rw [b2]
    unfold Assigns
    constructor
    · rintro ⟨x, hx, q1, q2, q3⟩
      obtain ⟨e, he, h1, rfl⟩ := (hmem x).1 ⟨hx, q1⟩
      exact ⟨e, he, q2, q3, h1⟩
    · rintro ⟨e, he, q1, q2, q3⟩
      obtain ⟨h1, h2⟩ := (hmem _).2 ⟨e, he, q3, rfl⟩
      exact ⟨_, h1, h2, q1, q2⟩
  · rw [g1 (fun e he hep => hex ⟨e, he, hep⟩)]
    refine ⟨false, rfl, ?_⟩
    simp only [Bool.false_eq_true, false_iff]
    rintro ⟨e, he, q1, q2, q3⟩
    obtain ⟨h1, h2⟩ := (hmem _).2 ⟨e, he, q3, rfl⟩
    exact hex ⟨_, h1, h2⟩

/-! ## Files in sections -/

/-- The groups built from the sections of a file. -/
def sectionsMap (rng : Entry → PRange) (secs : List (Str × List Entry)) (m : Groups) : Groups :=
  secs.foldl (fun m s => pushAll (s.2.map fun e => (s.1, rng e)) (groupOpen s.1 m)) m

theorem sectionsMap_spec (rng : Entry → PRange) (secs : List (Str × List Entry)) (m : Groups) (hm : AmOk m) :
    AmOk (sectionsMap rng secs m) ∧ ∀ j,
      (amFind (sectionsMap rng secs m) j).getD [] =
        (amFind m j).getD [] ++ (secs.filter fun s => decide (s.1 = j)).flatMap (fun s => s.2.map rng) ∧
      ((amFind (sectionsMap rng secs m) j).isSome ↔ (amFind m j).isSome ∨ ∃ s ∈ secs, s.1 = j) := by
  induction secs generalizing m with
  | nil => exact ⟨hm, fun j => ⟨by simp [sectionsMap], by simp [sectionsMap]⟩⟩
  | cons s secs ih =>
    have hok : AmOk (groupOpen s.1 m) := amUpd_ok _ _ _ hm
    obtain ⟨p1, p2⟩ := pushAll_spec (s.2.map fun e => (s.1, rng e)) _ hok
    obtain ⟨i1, i2⟩ := ih _ p1
    refine ⟨i1, fun j => ?_⟩
    obtain ⟨i3, i4⟩ := i2 j
    obtain ⟨p3, p4⟩ := p2 j
    obtain ⟨o1, o2⟩ := amFind_open s.1 j m hm
    have e0 : sectionsMap rng (s :: secs) m = sectionsMap rng secs (pushAll (s.2.map fun e => (s.1, rng e)) (groupOpen s.1 m)) := rfl
    constructor
    · rw [e0, i3, p3, o1, List.filter_cons]
      by_cases hj : s.1 = j
      · rw [List.filter_eq_self.2 (by intro a ha; obtain ⟨e, -, rfl⟩ := List.mem_map.1 ha; simpa using hj)]
        simp [hj, Function.comp_def]
      · rw [List.filter_eq_nil_iff.2 (by intro a ha; obtain ⟨e, -, rfl⟩ := List.mem_map.1 ha; simpa using hj)]
        simp [hj]
    · rw [e0, i4, p4, o2]
      constructor
      · rintro (((h | h) | ⟨e, he, h⟩) | ⟨t, ht, h⟩)
        · exact Or.inl h
        · exact Or.inr ⟨s, by simp, h⟩
        · obtain ⟨y, -, rfl⟩ := List.mem_map.1 he; exact Or.inr ⟨s, by simp, h⟩
        · exact Or.inr ⟨t, by simp [ht], h⟩
      · rintro (h | ⟨t, ht, h⟩)
        · exact Or.inl (Or.inl (Or.inl h))
        · rcases List.mem_cons.1 ht with rfl | ht
          · exact Or.inl (Or.inl (Or.inr h))
          · exact Or.inr ⟨t, ht, h⟩

theorem sectionsMap_find (rng : Entry → PRange) (secs : List (Str × List Entry)) (hn : (secs.map (·.1)).Nodup) (g : Str)
    (es : List Entry) (h : (g, es) ∈ secs) : amFind (sectionsMap rng secs []) g = some (es.map rng) := by
  obtain ⟨-, h2⟩ := sectionsMap_spec rng secs [] List.Pairwise.nil
  obtain ⟨h3, h4⟩ := h2 g
  have hs := h4.2 (Or.inr ⟨_, h, rfl⟩)
  obtain ⟨rs, hrs⟩ := Option.isSome_iff_exists.1 hs
  rw [hrs] at h3 ⊢
  have hf : secs.filter (fun s => decide (s.1 = g)) = [(g, es)] := by
    clear h3 h4 h2 hs hrs rs
    induction secs with
    | nil => simp at h
    | cons s secs ih =>
      rw [List.map_cons, List.nodup_cons] at hn
      rw [List.filter_cons]
      rcases List.mem_cons.1 h with rfl | h
      · rw [if_pos (by simp), List.filter_eq_nil_iff.2]
        intro a ha hag
        exact hn.1 (List.mem_map.2 ⟨a, ha, by simpa using hag⟩)
      · rw [if_neg, ih hn.2 h]
        intro hsg
        exact hn.1 (List.mem_map.2 ⟨_, h, by simpa using (by simpa using hsg : s.1 = g).symm⟩)
  rw [hf] at h3
  simp [amFind] at h3
  rw [h3]

theorem sections_valid {P : Str → Prop} {H : Str → Str → Prop} {lines : List Str} {pre : List Entry} {secs : List (Str × List Entry)}
    (h : Sections P H RangeLine lines pre secs) :
    (∀ e ∈ pre, e.1 ≤ e.2.1 ∧ e.2.1 ≤ 0x10FFFF) ∧ ∀ s ∈ secs, ∀ e ∈ s.2, e.1 ≤ e.2.1 ∧ e.2.1 ≤ 0x10FFFF := by
  induction h with
  | nil => exact ⟨by simp, by simp⟩
  | skip _ _ _ ih => exact ih
  | header _ _ _ ih =>
    refine ⟨by simp, ?_⟩
    intro s hs
    rcases List.mem_cons.1 hs with rfl | hs
    · exact ih.1
    · exact ih.2 s hs
  | data h1 _ _ ih =>
    refine ⟨?_, ih.2⟩
    intro e he
    rcases List.mem_cons.1 he with rfl | he
    · exact h1.2
    · exact ih.1 e he

/-! ## Grapheme cluster break -/

theorem isPrefixOf_append (a b : Str) : a.isPrefixOf (a ++ b) = true := by simp

theorem cutStr_none (pat s : Str) (hne : pat ≠ []) (h : ¬ pat <:+: s) : cutStr pat s = none := by
  induction s with
  | nil => rw [cutStr, if_neg hne]
  | cons c cs ih =>
    rw [cutStr, if_neg, ih]
    · intro ⟨a, b, hab⟩
      exact h ⟨c :: a, b, by rw [← hab]; rfl⟩
    · intro hp
      rw [List.isPrefixOf_iff_prefix] at hp
      exact h hp.isInfix

theorem cutStr_step (pat : Str) (c : Char) (cs : Str) (h : pat.isPrefixOf (c :: cs) = false) : cutStr pat (c :: cs) = cutStr pat cs := by
  rw [cutStr, h, if_neg Bool.false_ne_true]

theorem comment_head {t stored : Str} (hs : Stored ('#' :: t) stored) :
    (∃ t', stored = '#' :: t') ∧ (trim stored).head? = some '#' := by
  have : ∃ t', stored = '#' :: t' := by
    rcases hs with rfl | rfl
    · exact ⟨t, rfl⟩
    · exact ⟨t ++ ['\r'], rfl⟩
  refine ⟨this, ?_⟩
  obtain ⟨t', rfl⟩ := this
  unfold trim trimBy
  rw [show ('#' :: t').dropWhile isWs = '#' :: t' from rfl, List.head?_reverse, List.reverse_cons]
  have hd : ∀ u : Str, ((u ++ ['#']).dropWhile isWs).getLast? = some '#' := by
    intro u
    induction u with
    | nil => rfl
    | cons z u ih =>
      rw [List.cons_append, List.dropWhile_cons]
      split
      · exact ih
      · rw [← List.cons_append, List.getLast?_concat]
  exact hd _

theorem firstWord_blank {w name w' : Str} (hw : ∀ c ∈ w, isWs c = true) (hn : Word name) (hw' : ∀ c ∈ w', isWs c = true) :
    firstWord (trim (w ++ name ++ w')) = name := by
  have : trim (w ++ name ++ w') = name :=
    trimBy_append isWs w name w' hw hw' (fun c hc => (word_ws hn c (List.mem_of_mem_head? hc)).1)
      (fun c hc => (word_ws hn c (List.mem_of_getLast? hc)).1)
  rw [this]
  exact firstWord_word hn

theorem groupHeader_prop {line stored name : Str} (h : PropertyHeader line name) (hs : Stored line stored) :
    groupHeader "Property".toList stored = some name := by
  obtain ⟨w, w', hw, hw', hn, rfl⟩ := h
  have : ∃ w'', stored = "# Property:".toList ++ (w ++ name ++ w'') ∧ ∀ c ∈ w'', isWs c = true := by
    rcases hs with rfl | rfl
    · exact ⟨w', by simp, blank_ws hw'⟩
    · refine ⟨w' ++ ['\r'], by simp, ?_⟩
      intro c hc
      rcases List.mem_append.1 hc with hc | hc
      · exact blank_ws hw' c hc
      · simp at hc; subst hc; rfl
  obtain ⟨w'', rfl, hw''⟩ := this
  unfold groupHeader
  rw [if_pos (show ("# Property:".toList ++ (w ++ name ++ w'')).head? = some '#' from rfl)]
  have hcut : cutStr ("Property".toList ++ [':']) ("# Property:".toList ++ (w ++ name ++ w'')) = some (w ++ name ++ w'') := by
    rw [show "# Property:".toList ++ (w ++ name ++ w'') = '#' :: ' ' :: ("Property".toList ++ [':'] ++ (w ++ name ++ w'')) from rfl,
      cutStr_step _ _ _ rfl, cutStr_step _ _ _ rfl]
    generalize w ++ name ++ w'' = r
    have : ∀ (p : Str) (r : Str), p ≠ [] → cutStr p (p ++ r) = some r := by
      intro p r hne
      cases p with
      | nil => exact absurd rfl hne
      | cons x xs =>
        rw [List.cons_append, cutStr, ← List.cons_append, if_pos (isPrefixOf_append _ _), List.drop_left]
    exact this _ _ (by simp)
  rw [hcut, Option.map_some, firstWord_blank (blank_ws hw) hn hw'']

/-- The range a line contributes. -/
def wordRange (e : Entry) : PRange := ⟨e.1, e.2.1, firstWord e.2.2⟩

theorem grouped_eq {lines : List Str} {secs : List (Str × List Entry)}
    (h : Sections PropertyPlain PropertyHeader RangeLine lines [] secs) :
    groupedEntries "Property".toList lines = sectionsMap wordRange secs [] := by
  unfold groupedEntries
  rw [sections_fold (groupedLine "Property".toList) (fun st g => (g, groupOpen g st.2))
    (fun st e => (st.1, groupPush st.1 (wordRange e) st.2)) ?_ ?_ ?_ h]
  · have key : ∀ (secs : List (Str × List Entry)) (st : Str × Groups),
        (secs.foldl (fun st s => s.2.foldl (fun st e => (st.1, groupPush st.1 (wordRange e) st.2)) (s.1, groupOpen s.1 st.2)) st).2
          = sectionsMap wordRange secs st.2 := by
      intro secs
      induction secs with
      | nil => intro st; rfl
      | cons s secs ih =>
        intro st
        rw [List.foldl_cons, ih]
        have : ∀ (es : List Entry) (g : Str) (m : Groups),
            (es.foldl (fun st e => (st.1, groupPush st.1 (wordRange e) st.2)) (g, m)).2 = pushAll (es.map fun e => (g, wordRange e)) m := by
          intro es
          induction es with
          | nil => intro g m; rfl
          | cons e es ih' => intro g m; rw [List.foldl_cons]; exact ih' _ _
        rw [this]; rfl
    exact key _ _
  · rintro st line stored (h1 | ⟨⟨t, rfl⟩, h1⟩) hs
    · unfold groupedLine
      have ht : trim stored = [] := by
        have hall : ∀ c ∈ stored, isWs c = true := by
          rcases hs with rfl | rfl
          · exact blank_ws h1
          · intro c hc
            rcases List.mem_append.1 hc with hc | hc
            · exact blank_ws h1 c hc
            · simp at hc; subst hc; rfl
        have := trimBy_append isWs stored [] [] hall (by simp) (by simp) (by simp)
        simpa [trim] using this
      rw [if_neg (by rw [ht]; simp), C48_skips _ _ (Or.inr (Or.inr h1)) hs]
    · unfold groupedLine
      rw [if_pos (comment_head hs).2]
      have : groupHeader "Property".toList stored = none := by
        unfold groupHeader
        obtain ⟨t', rfl⟩ := (comment_head hs).1
        rw [if_pos (show ('#' :: t').head? = some '#' from rfl), cutStr_none _ _ (by simp)]
        · rfl
        · intro hin
          apply h1
          rcases hs with h2 | h2
          · rw [h2] at hin; exact hin
          · rw [h2] at hin
            obtain ⟨a, b, hab⟩ := hin
            cases b using List.reverseRecOn with
            | nil =>
              rw [List.append_nil] at hab
              have := congrArg List.getLast? hab
              rw [← List.append_assoc, List.getLast?_concat, List.getLast?_concat] at this
              exact absurd this (by decide)
            | append_singleton b y =>
              rw [← List.append_assoc] at hab
              have := List.append_inj_left' hab rfl
              exact ⟨a, b, this⟩
      rw [this]
  · intro st line stored name h1 hs
    unfold groupedLine
    have hh := groupHeader_prop h1 hs
    obtain ⟨w, w', -, -, -, rfl⟩ := h1
    have hs' : Stored ('#' :: (" Property:".toList ++ w ++ name ++ w')) stored := hs
    rw [if_pos (comment_head hs').2, hh]
  · intro st line stored e h1 hs
    unfold groupedLine
    rw [if_neg (trim_not_hash h1.1 hs)]
    obtain ⟨q, q1, q2, q3, q4⟩ := parse_rangeLine h1 hs
    rw [q1]
    show (st.1, groupPush st.1 (rangeOf q) st.2) = _
    unfold rangeOf wordRange
    rw [q2, q3, q4]

/-- **C53, `grapheme_cluster_break`.** There is one function for each section of GraphemeBreakProperty.txt (which has one,
named `Grapheme_Cluster_Break`); it returns the value the section assigns, or `Undefined`. -/
theorem C53_grapheme_cluster_break {F D U} (hl : Loads F D) (hd : Describes F U) (hn : (U.gcb.map (·.1)).Nodup)
    (name : Str) (es : List Entry) (hs : (name, es) ∈ U.gcb) (hp : Plain es) (c : Nat) :
    ∃ f, apiBreak D name c = some f ∧ ∀ v, f = .ok v ↔ ValueOf es "Undefined".toList c v := by
  have hsort := hl.gcb
  rw [grouped_eq hd.gcb] at hsort
  obtain ⟨rs, r1, r2⟩ := (sortedGroups_find hsort name).2 _ (sectionsMap_find wordRange U.gcb hn name es hs)
  have ee : ents (es.map wordRange) = es := by
    unfold ents wordRange
    rw [List.map_map]
    conv => rhs; rw [← List.map_id es]
    apply List.map_congr_left
    intro e he
    simp [firstWord_word (hp.words e he)]
  obtain ⟨h1, h2, h3, h4⟩ := ents_sorted r2 (by rw [ee]; exact hp.separate)
    (by rw [ee]; exact fun x hx => ((sections_valid hd.gcb).2 _ hs x hx).1)
  rw [ee] at h3 h4
  refine ⟨_, by unfold apiBreak; rw [r1]; rfl, fun v => ?_⟩
  rw [valueOr_exact (ents rs) h1 h2 (by intro hn; rw [hn] at h3; exact hp.nonempty (List.length_eq_zero_iff.1 h3.symm))
    (by rw [h3]; exact hp.size) _ c v _ (propTable_ents rs)]
  exact valueOf_congr h4 _ c v

end Verif.Props.Tg
