import Verif.Props.TgRecords
import Verif.Model.Loader
/-!
# C41, C49, C50: derived columns, names, ordering of versions, composition with parsing and with the look-up table
-/

namespace Verif.Props.Tg
open Verif.Utf8 (Mem)
open Verif.Tg
open Verif.Spec.Ucd

/-- **C49, emoji segmentation category.** -/
theorem C49_emoji_category {I X ages R} (h : Built I X ages R) (hg : GoodData I) (c : Nat) (hcp : c ≤ 0x10FFFF) :
    (emit X I ages (R c)).esc =
      if c = 0x20E3 then "CombiningEnclosingKeyCap".toList
      else if c = 0x20E0 then "CombiningEnclosingCircleBackslash".toList
      else if c = 0x200D then "ZWJ".toList
      else if c = 0xFE0E then "VS15".toList
      else if c = 0xFE0F then "VS16".toList
      else if c = 0x1F3F4 then "TagBase".toList
      else if (0xE0030 ≤ c ∧ c ≤ 0xE0039) ∨ (0xE0061 ≤ c ∧ c ≤ 0xE007A) then "TagSequence".toList
      else if c = 0xE007F then "TagTerm".toList
      else if Assigns (gents byGroup I.emoji) c "Emoji_Modifier_Base".toList then "EmojiModifierBase".toList
      else if Assigns (gents byGroup I.emoji) c "Emoji_Modifier".toList then "EmojiModifier".toList
      else if (emit X I ages (R c)).gcb = "Regional_Indicator".toList then "RegionalIndicator".toList
      else if (0x30 ≤ c ∧ c ≤ 0x39) ∨ c = 0x23 ∨ c = 0x2A then "KeyCapBase".toList
      else if Assigns (gents byGroup I.emoji) c "Emoji_Presentation".toList then "EmojiEmojiPresentation".toList
      else if Assigns (gents byGroup I.emoji) c "Emoji".toList then "EmojiTextPresentation".toList
      else "Invalid".toList := by
  have hw : (emit X I ages (R c)).esc = escName (final X I c).esc := by rw [built_final h c hcp]; rfl
  have hgcb : (P X I c (defaults X)).gcb = (R c).gcb := by rw [built_final h c hcp, (final_fields X I c).2.2.2.1]
  have hfl : (P X I c (defaults X)).flags = (emit X I ages (R c)).flags := by
    rw [built_final h c hcp]; exact (final_fields X I c).1.symm
  have hri : (P X I c (defaults X)).gcb = (mapFind X.gcb "Regional_Indicator".toList).getD 0 ↔
      (emit X I ages (R c)).gcb = "Regional_Indicator".toList := by
    obtain ⟨g, -, g2, g3, g4⟩ := gcb_field h hg.gcbAl hg.gcbCons hg.gcbNamed (hg.gcbNames "Other" (by simp)) c hcp
    have hfn := hg.gcbNames "Regional_Indicator" (by simp)
    rw [hgcb, g4]
    have hfi : ∃ i, mapFind X.gcb "Regional_Indicator".toList = some i := by
      rw [(built_idx h).2.2.2.2.1]
      obtain ⟨num, -, n2, n3, -⟩ := pvaIndex_spec I.pvaGcb _ hg.gcbAl
      rcases hfn with hh | ⟨-, a, hh⟩
      · exact ⟨_, n3 _ _ hh⟩
      · exact ⟨_, n2 _ (by simp only [fullNames, List.mem_append, List.mem_map]; exact Or.inr ⟨_, hh, rfl⟩)⟩
    obtain ⟨i, hi⟩ := hfi
    rw [hi]
    simp only [Option.getD_some]
    constructor
    · intro e
      rw [e] at g3
      rw [(built_idx h).2.2.2.2.1] at g3 hi
      exact pva_inj _ _ hg.gcbAl _ _ i g2 hfn g3 hi
    · intro e
      rw [e, hi] at g3
      exact (Option.some.inj g3).symm
  obtain ⟨b0, b1, -, b3, b4, -⟩ := C49_flags h c hcp
  have f0 : (P X I c (defaults X)).flags &&& 0x01 ≠ 0 ↔ Assigns (gents byGroup I.emoji) c "Emoji".toList := by
    rw [← b0, hfl]; exact and_testBit _ 0
  have f1 : (P X I c (defaults X)).flags &&& 0x02 ≠ 0 ↔ Assigns (gents byGroup I.emoji) c "Emoji_Presentation".toList := by
    rw [← b1, hfl]; exact and_testBit _ 1
  have f3 : (P X I c (defaults X)).flags &&& 0x08 ≠ 0 ↔ Assigns (gents byGroup I.emoji) c "Emoji_Modifier".toList := by
    rw [← b3, hfl]; exact and_testBit _ 3
  have f4 : (P X I c (defaults X)).flags &&& 0x10 ≠ 0 ↔ Assigns (gents byGroup I.emoji) c "Emoji_Modifier_Base".toList := by
    rw [← b4, hfl]; exact and_testBit _ 4
  rw [hw, (final_fields X I c).2.2.2.2.2.2.2.2.2]
  unfold computeEsc
  by_cases a1 : c = 0x20E3
  · rw [if_pos a1, if_pos a1]; rfl
  rw [if_neg a1, if_neg a1]
  by_cases a2 : c = 0x20E0
  · rw [if_pos a2, if_pos a2]; rfl
  rw [if_neg a2, if_neg a2]
  by_cases a3 : c = 0x200D
  · rw [if_pos a3, if_pos a3]; rfl
  rw [if_neg a3, if_neg a3]
  by_cases a4 : c = 0xFE0E
  · rw [if_pos a4, if_pos a4]; rfl
  rw [if_neg a4, if_neg a4]
  by_cases a5 : c = 0xFE0F
  · rw [if_pos a5, if_pos a5]; rfl
  rw [if_neg a5, if_neg a5]
  by_cases a6 : c = 0x1F3F4
  · rw [if_pos a6, if_pos a6]; rfl
  rw [if_neg a6, if_neg a6]
  by_cases a7 : (0xE0030 ≤ c ∧ c ≤ 0xE0039) ∨ (0xE0061 ≤ c ∧ c ≤ 0xE007A)
  · rw [if_pos a7, if_pos a7]; rfl
  rw [if_neg a7, if_neg a7]
  by_cases a8 : c = 0xE007F
  · rw [if_pos a8, if_pos a8]; rfl
  rw [if_neg a8, if_neg a8]
  by_cases a9 : Assigns (gents byGroup I.emoji) c "Emoji_Modifier_Base".toList
  · rw [if_pos (f4.2 a9), if_pos a9]; rfl
  rw [if_neg (fun e => a9 (f4.1 e)), if_neg a9]
  by_cases a10 : Assigns (gents byGroup I.emoji) c "Emoji_Modifier".toList
  · rw [if_pos (f3.2 a10), if_pos a10]; rfl
  rw [if_neg (fun e => a10 (f3.1 e)), if_neg a10]
  by_cases a11 : (emit X I ages (R c)).gcb = "Regional_Indicator".toList
  · rw [if_pos (hri.2 a11), if_pos a11]; rfl
  rw [if_neg (fun e => a11 (hri.1 e)), if_neg a11]
  by_cases a12 : (0x30 ≤ c ∧ c ≤ 0x39) ∨ c = 0x23 ∨ c = 0x2A
  · rw [if_pos a12, if_pos a12]; rfl
  rw [if_neg a12, if_neg a12]
  by_cases a13 : Assigns (gents byGroup I.emoji) c "Emoji_Presentation".toList
  · rw [if_pos (f1.2 a13), if_pos a13]; rfl
  rw [if_neg (fun e => a13 (f1.1 e)), if_neg a13]
  by_cases a14 : Assigns (gents byGroup I.emoji) c "Emoji".toList
  · rw [if_pos ⟨f0.2 a14, fun e => a13 (f1.1 e)⟩, if_pos a14]; rfl
  rw [if_neg (fun e => a14 (f0.1 e.1)), if_neg (fun e => a14 (f0.1 e)), if_neg a14]; rfl

/-! ## C41: the two derivations of the columns -/

/-- **C41, emoji category.** The loader derives, from the emitted raw properties of any codepoint, exactly the emitted
emoji segmentation category. -/
theorem C41_emoji_category_agrees {I X ages R} (h : Built I X ages R) (hg : GoodData I) (c : Nat) (hcp : c ≤ 0x10FFFF) :
    toEsc c (emit X I ages (R c)) = (emit X I ages (R c)).esc := by
  obtain ⟨b0, b1, -, b3, b4, -⟩ := C49_flags h c hcp
  rw [C49_emoji_category h hg c hcp]
  unfold toEsc
  simp only [b0, b1, b3, b4]
  by_cases h1 : Assigns (gents byGroup I.emoji) c "Emoji_Presentation".toList
  · simp only [h1, if_true]
  · by_cases h2 : Assigns (gents byGroup I.emoji) c "Emoji".toList
    · simp only [h1, h2, if_true, if_false, not_false_iff, and_true]
    · simp only [h1, h2, if_false, false_and]

/-- **C41, width** (partial: the generator's overrides excluded).  The loader derives, from the emitted raw properties,
exactly the emitted width of every codepoint that is not a Hangul vowel or trailing consonant, not U+00AD and not a
format character with `Grapheme_Cluster_Break=Prepend`. -/
theorem C41_width_agrees_partial {I X ages R} (h : Built I X ages R) (hg : GoodData I) (c : Nat) (hcp : c ≤ 0x10FFFF)
    (h1 : ¬ Assigns (ents I.hst) c "V".toList) (h2 : ¬ Assigns (ents I.hst) c "T".toList) (h3 : c ≠ 0xAD)
    (h4 : ¬ ((emit X I ages (R c)).gc = "Format".toList ∧ Assigns (gents byValue I.gcbs) c "Prepend".toList)) :
    toCharWidth (emit X I ages (R c)) = (emit X I ages (R c)).width := by
  obtain ⟨-, b1, -⟩ := C49_flags h c hcp
  rw [C49_width h hg c hcp, if_neg (by tauto), if_neg h3, if_neg h4]
  unfold toCharWidth
  have hz : ∀ g : Str, g ∈ zeroWidthCategories.map String.toList ↔
      (g = "Control".toList ∨ g = "Enclosing_Mark".toList ∨ g = "Format".toList ∨ g = "Line_Separator".toList ∨
      g = "Nonspacing_Mark".toList ∨ g = "Paragraph_Separator".toList ∨ g = "Spacing_Mark".toList ∨
      g = "Surrogate".toList) := by
    intro g
    simp only [zeroWidthCategories, List.map_cons, List.map_nil, List.mem_cons, List.not_mem_nil, or_false]
  simp only [hz, b1]

/-- **C41 fails** for the overrides: U+00AD has category `Format`, so the loader gives it no column, while the generator
always emits width 1 for it (unless the data calls it a Hangul vowel). -/
theorem C41_fails_soft_hyphen {I X ages R} (h : Built I X ages R) (hg : GoodData I)
    (h1 : ¬ Assigns (ents I.hst) 0xAD "V".toList) (h2 : ¬ Assigns (ents I.hst) 0xAD "T".toList)
    (hf : Assigns (ents I.gcats) 0xAD "Format".toList) :
    toCharWidth (emit X I ages (R 0xAD)) = 0 ∧ (emit X I ages (R 0xAD)).width = 1 := by
  constructor
  · have hgc : (emit X I ages (R 0xAD)).gc = "Format".toList := by
      rcases C49_general_category h hg.gcCons hg.gcFew hg.gcNo 0xAD (by omega) with hh | ⟨hh, -⟩
      · exact hg.gcCons 0xAD _ _ hh hf
      · exact absurd hf (hh _)
    unfold toCharWidth
    rw [hgc]
    rfl
  · rw [C49_width h hg 0xAD (by omega), if_neg (by tauto), if_pos rfl]

/-! ## C50: enumerators -/

/-- **C50, declared.** Every enumerator written into the tables is one of those the enum generator declares
(`scriptNames`/`gcNames` are the declared lists; the alias based enums declare the full names of the alias file, for
grapheme cluster break after `Undefined`). -/
theorem C50_declared {I X ages R} (h : Built I X ages R) (hg : GoodData I)
    (hsc : Consistent (ents I.scripts))
    (hsl : ∀ names : List Str, names.Nodup → (∀ n ∈ names, ∃ r ∈ I.scripts, r.property = n) → names.length ≤ 253)
    (c : Nat) (hcp : c ≤ 0x10FFFF) :
    (emit X I ages (R c)).script ∈ scriptNames (I.scripts.map (·.property)) ∧
      (emit X I ages (R c)).gc ∈ gcNames (I.gcats.map (·.property)) ∧
      (emit X I ages (R c)).gcb ∈ I.pvaGcb.map (·.2) ∧ (emit X I ages (R c)).eaw ∈ I.pvaEaw.map (·.2) ∧
      (emit X I ages (R c)).age ∈ ages := by
  refine ⟨?_, ?_, ?_, ?_, ?_⟩
  · rcases C49_script h hsc hsl c hcp with ⟨e, he, -, -, hv⟩ | ⟨-, hv⟩
    · obtain ⟨r, hr, rfl⟩ := List.mem_map.1 he
      simp only at hv
      rw [← hv]
      unfold scriptNames
      by_cases hcom : r.property = "Common".toList
      · simp [hcom]
      · refine List.mem_cons_of_mem _ (List.mem_cons_of_mem _ (List.mem_cons_of_mem _ ?_))
        simp only [otherScripts, List.mem_filter, mem_mkSet]
        exact ⟨List.mem_map.2 ⟨r, hr, rfl⟩, by simpa using hcom⟩
    · rw [hv]; unfold scriptNames; simp
  · obtain ⟨g, g1, -, -⟩ := gc_field h hg.gcCons hg.gcFew hg.gcNo c hcp
    show (gcNames (I.gcats.map (·.property))).getD (R c).gc "Unspecified".toList ∈ _
    rw [List.getD_eq_getElem?_getD, g1]
    exact List.mem_of_getElem? g1
  · obtain ⟨f, -, f2, -, f4⟩ := gcb_field h hg.gcbAl hg.gcbCons hg.gcbNamed (hg.gcbNames "Other" (by simp)) c hcp
    rw [f4]
    rcases f2 with f2 | ⟨-, a, f2⟩
    · exact List.mem_map.2 ⟨_, f2, rfl⟩
    · exact List.mem_map.2 ⟨_, f2, rfl⟩
  · obtain ⟨f, -, f2, -, f4⟩ := eaw_field h hg.eawAl hg.eawCons hg.eawNamed (hg.eawNames "Narrow" (by simp)) c hcp
    rw [f4]
    rcases f2 with f2 | ⟨-, a, f2⟩
    · exact List.mem_map.2 ⟨_, f2, rfl⟩
    · exact List.mem_map.2 ⟨_, f2, rfl⟩
  · show ages.getD (R c).age "Unassigned".toList ∈ ages
    have h0 : "Unassigned".toList ∈ ages := List.mem_of_getElem? (ageMembers_head _ _ h.ages)
    rw [List.getD_eq_getElem?_getD]
    cases hx : ages[(R c).age]? with
    | none => exact h0
    | some x => exact List.mem_of_getElem? hx

theorem decDigit (c : Char) (v : Nat) (h : "0123456789".toList[v]? = some c) : c.isDigit = true ∧ c ≠ '_' ∧ c.toNat - 48 = v := by
  have hv : v < 10 := by
    have := (List.getElem?_eq_some_iff.1 h).1
    simpa using this
  have : v = 0 ∨ v = 1 ∨ v = 2 ∨ v = 3 ∨ v = 4 ∨ v = 5 ∨ v = 6 ∨ v = 7 ∨ v = 8 ∨ v = 9 := by omega
  rcases this with rfl | rfl | rfl | rfl | rfl | rfl | rfl | rfl | rfl | rfl <;>
    (simp at h; subst h; decide)

theorem decOf_facts (s : Str) (n : Nat) (h : Numeral s n) :
    s ≠ [] ∧ (∀ c ∈ s, c.isDigit = true ∧ c ≠ '_') ∧ s.foldl (fun n c => n * 10 + (c.toNat - 48)) 0 = n := by
  induction h with
  | one h =>
    obtain ⟨h1, h2, h3⟩ := decDigit _ _ h
    exact ⟨by simp, by simpa using ⟨h1, h2⟩, by simp [h3]⟩
  | snoc _ h ih =>
    obtain ⟨h1, h2, h3⟩ := decDigit _ _ h
    refine ⟨by simp, ?_, ?_⟩
    · intro c hc
      rcases List.mem_append.1 hc with hc | hc
      · exact ih.2.1 c hc
      · simp at hc; subst hc; exact ⟨h1, h2⟩
    · rw [List.foldl_append, ih.2.2]
      simp [h3]

theorem stoi_dec (s : Str) (n : Nat) (h : Numeral s n) : stoi s = some n := by
  obtain ⟨h1, h2, h3⟩ := decOf_facts s n h
  have ht : s.takeWhile Char.isDigit = s := by
    have := List.takeWhile_append_of_pos (p := Char.isDigit) (l₁ := s) (l₂ := []) (fun c hc => (h2 c hc).1)
    simpa using this
  unfold stoi
  rw [ht, if_neg h1, h3]

theorem parseVersion_name (f : Str) (m n : Nat) (h : VersionName f m n) : parseVersion f = some (m, n) := by
  obtain ⟨s, t, hs, ht, rfl⟩ := h
  unfold parseVersion
  rw [show 'V' :: s ++ '_' :: t = ('V' :: s) ++ '_' :: t from rfl, cutAt_append]
  · simp only [List.drop_succ_cons, List.drop_zero, stoi_dec _ _ hs, stoi_dec _ _ ht]
  · simp only [List.mem_cons, not_or]
    exact ⟨by decide, fun h => ((decOf_facts _ _ hs).2.1 _ h).2 rfl⟩

/-- Version order. -/
def Earlier (m n m' n' : Nat) : Prop := m < m' ∨ (m = m' ∧ n < n')

theorem versLt_total (a b : (Nat × Nat) × Str) (h : versLt a b = false) (m n m' n' : Nat) (ha : a.1 = (m, n)) (hb : b.1 = (m', n')) :
    ¬ Earlier m n m' n' := by
  obtain ⟨⟨p, q⟩, s⟩ := a
  obtain ⟨⟨p', q'⟩, s'⟩ := b
  simp only [Prod.mk.injEq] at ha hb
  obtain ⟨rfl, rfl⟩ := ha
  obtain ⟨rfl, rfl⟩ := hb
  unfold versLt at h
  simp only at h
  rintro (he | ⟨rfl, he⟩)
  · rw [if_pos he] at h; simp at h
  · rw [if_neg (by omega), if_neg (by omega), if_pos he] at h; simp at h

/-- The sort puts no version before an earlier one. -/
def VOrdered (a b : (Nat × Nat) × Str) : Prop := ¬ Earlier b.1.1 b.1.2 a.1.1 a.1.2

theorem vordered_trans {a b c : (Nat × Nat) × Str} (h1 : VOrdered a b) (h2 : VOrdered b c) : VOrdered a c := by
  unfold VOrdered Earlier at *; omega

theorem versLt_ordered (a b : (Nat × Nat) × Str) (h : versLt a b = true) : VOrdered a b := by
  unfold versLt at h
  unfold VOrdered Earlier
  by_cases h1 : a.1.1 < b.1.1
  · omega
  · rw [if_neg h1] at h
    by_cases h2 : b.1.1 < a.1.1
    · rw [if_pos h2] at h; simp at h
    · rw [if_neg h2] at h
      by_cases h3 : a.1.2 < b.1.2
      · omega
      · rw [if_neg h3] at h
        by_cases h4 : b.1.2 < a.1.2
        · rw [if_pos h4] at h; simp at h
        · omega

theorem versInsert_ordered (k : (Nat × Nat) × Str) (s : List ((Nat × Nat) × Str)) (h : s.Pairwise VOrdered) :
    (versInsert k s).Pairwise VOrdered := by
  induction s with
  | nil => simp [versInsert]
  | cons y ys ih =>
    have hy := List.pairwise_cons.1 h
    unfold versInsert
    by_cases h1 : versLt y k = true
    · rw [if_pos h1]
      refine List.pairwise_cons.2 ⟨?_, ih hy.2⟩
      intro z hz
      rcases (mem_versInsert k z ys).1 hz with rfl | hz
      · exact versLt_ordered _ _ h1
      · exact hy.1 z hz
    · rw [if_neg h1]
      have hky : VOrdered k y := versLt_total y k (by simpa using h1) _ _ _ _ rfl rfl
      refine List.pairwise_cons.2 ⟨?_, h⟩
      intro z hz
      rcases List.mem_cons.1 hz with rfl | hz
      · exact hky
      · exact vordered_trans hky (hy.1 z hz)

theorem versSort_ordered (xs : List ((Nat × Nat) × Str)) : (xs.foldr versInsert []).Pairwise VOrdered := by
  induction xs with
  | nil => simp
  | cons y ys ih => rw [List.foldr_cons]; exact versInsert_ordered _ _ ih

theorem versioned_parse (al : List (Str × Str)) (vs : List ((Nat × Nat) × Str)) (h : versioned al = some vs) :
    ∀ e ∈ vs, parseVersion e.2 = some e.1 := by
  induction al generalizing vs with
  | nil => unfold versioned at h; simp at h; subst h; simp
  | cons e al ih =>
    obtain ⟨b, g⟩ := e
    unfold versioned at h
    by_cases hg : g = "Unassigned".toList
    · rw [if_pos hg] at h; exact ih vs h
    · rw [if_neg hg] at h
      cases hp : parseVersion g with
      | none => rw [hp] at h; simp at h
      | some v =>
        cases hv : versioned al with
        | none => rw [hp, hv] at h; simp at h
        | some ws =>
          rw [hp, hv] at h
          simp at h; subst h
          intro e he
          rcases List.mem_cons.1 he with rfl | he
          · exact hp
          · exact ih ws hv e he

/-- **C50, versions compare.** Enumerators of `Age` compare like the versions they name: if `V`*m*`_`*n* stands at
position `i` of the declared enumerators and the later version `V`*m'*`_`*n'* at position `j`, then `i < j`; and
`Unassigned` stands first. -/
theorem C50_age_order (al : List (Str × Str)) (ages : List Str) (h : ageMembers al = some ages) :
    ages[0]? = some "Unassigned".toList ∧
      ∀ i j f g m n m' n', ages[i]? = some f → ages[j]? = some g → VersionName f m n → VersionName g m' n' →
        Earlier m n m' n' → 0 < i ∧ i < j := by
  refine ⟨ageMembers_head al ages h, ?_⟩
  unfold ageMembers at h
  cases hv : versioned al with
  | none => rw [hv] at h; simp at h
  | some vs =>
    rw [hv] at h
    simp only [Option.map_some, Option.some.injEq] at h
    subst h
    intro i j f g m n m' n' hi hj hf hg he
    have nun : ∀ f m n, VersionName f m n → f ≠ "Unassigned".toList := by
      rintro f m n ⟨s, t, -, -, rfl⟩ e
      have := congrArg List.head? e
      simp at this
    have pos : ∀ i f m n, ("Unassigned".toList :: (vs.foldr versInsert []).map (·.2))[i]? = some f → VersionName f m n →
        ∃ k, i = k + 1 ∧ ∃ e, (vs.foldr versInsert [])[k]? = some e ∧ e.1 = (m, n) := by
      intro i f m n hi hf
      cases i with
      | zero =>
        simp only [List.getElem?_cons_zero, Option.some.injEq] at hi
        exact absurd hi.symm (nun f m n hf)
      | succ k =>
        rw [List.getElem?_cons_succ, List.getElem?_map] at hi
        cases hx : (vs.foldr versInsert [])[k]? with
        | none => rw [hx] at hi; simp at hi
        | some e =>
          rw [hx] at hi
          simp only [Option.map_some, Option.some.injEq] at hi
          have hp := versioned_parse al vs hv e ((mem_versSort _ _).1 (List.mem_of_getElem? hx))
          rw [hi, parseVersion_name f m n hf] at hp
          exact ⟨k, rfl, e, hx, (Option.some.inj hp).symm⟩
    obtain ⟨k, rfl, e, e1, e2⟩ := pos i f m n hi hf
    obtain ⟨l, rfl, e', e1', e2'⟩ := pos j g m' n' hj hg
    refine ⟨by omega, ?_⟩
    by_contra hlt
    have hord := versSort_ordered vs
    obtain ⟨k1, k2⟩ := List.getElem?_eq_some_iff.1 e1
    obtain ⟨l1, l2⟩ := List.getElem?_eq_some_iff.1 e1'
    by_cases hkl : k = l
    · subst hkl
      rw [e1] at e1'
      cases e1'
      rw [e2] at e2'
      cases e2'
      unfold Earlier at he; omega
    · have := List.pairwise_iff_getElem.1 hord l k l1 k1 (by omega)
      rw [k2, l2] at this
      unfold VOrdered at this
      rw [e2, e2'] at this
      exact this he

/-- **C50, no throw.** When every age alias is `Unassigned` or a version name, the list can be built. -/
theorem C50_age_total (al : List (Str × Str)) (h : ∀ a f, (a, f) ∈ al → f = "Unassigned".toList ∨ ∃ m n, VersionName f m n) :
    ∃ ages, ageMembers al = some ages := by
  have : ∃ vs, versioned al = some vs := by
    induction al with
    | nil => exact ⟨_, rfl⟩
    | cons e al ih =>
      obtain ⟨a, f⟩ := e
      obtain ⟨vs, hvs⟩ := ih (fun a f hf => h a f (by simp [hf]))
      unfold versioned
      by_cases hf : f = "Unassigned".toList
      · rw [if_pos hf]; exact ⟨vs, hvs⟩
      · rw [if_neg hf]
        rcases h a f (by simp) with hh | ⟨m, n, hh⟩
        · exact absurd hh hf
        · rw [parseVersion_name f m n hh, hvs]; exact ⟨_, rfl⟩
  obtain ⟨vs, hvs⟩ := this
  unfold ageMembers
  rw [hvs]; exact ⟨_, rfl⟩

end Verif.Props.Tg
