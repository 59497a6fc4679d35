import Verif.Props.TgDerived
/-!
# C49: from the text of the data files to the look-up in the generated table
-/

namespace Verif.Props.Tg
open Verif.Utf8 (Mem)
open Verif.Tg
open Verif.Spec.Ucd
open Verif.Tables (Gen get generate propertiesShape)

/-- **C49, from the text of a file.** Whatever order `std::sort` leaves the entries of a well-formed file in, they are in
range and assign exactly what the lines of the file say. -/
theorem C49_from_file (lines : List Str) (es : List Entry) (h : FileOf lines es) (rs : List PRange)
    (hs : SortedBy (·.first) (genericEntries lines) rs) :
    InRange (ents rs) ∧
      ∀ c v, Assigns (ents rs) c v ↔ ∃ e ∈ es, e.1 ≤ c ∧ c ≤ e.2.1 ∧ firstWord e.2.2 = v := by
  have hmem : ∀ r, r ∈ rs ↔ r ∈ genericEntries lines := fun r => hs.1.mem_iff
  constructor
  · intro e he
    obtain ⟨r, hr, rfl⟩ := List.mem_map.1 he
    exact (C48_file_bounds lines r ((hmem r).1 hr)).2
  · intro c v
    unfold Assigns ents
    simp only [List.mem_map, hmem, C48_file_exact lines es h]
    constructor
    · rintro ⟨e, ⟨r, ⟨x, hx, rfl⟩, rfl⟩, h1, h2, h3⟩
      exact ⟨x, hx, h1, h2, h3⟩
    · rintro ⟨x, hx, h1, h2, h3⟩
      exact ⟨_, ⟨_, ⟨x, hx, rfl⟩, rfl⟩, h1, h2, h3⟩

theorem get_map {α β : Type} (S : Verif.Tables.Shape) (g : Gen α) (f : α → β) (i : Nat) (a : α) (h : get S g i = .ok a) :
    get S ({ stage1 := g.stage1, stage2 := g.stage2, stage3 := g.stage3.map f } : Gen β) i = .ok (f a) := by
  unfold Verif.Tables.get Verif.Tables.unsafeGet at h ⊢
  generalize (if i ≤ S.max then i else 0) = k at h ⊢
  unfold Verif.Tables.at? at h ⊢
  revert h
  simp only
  cases h1 : g.stage1[k / S.B]? with
  | none => simp
  | some b =>
    simp only
    cases h2 : g.stage2[b * S.B + k % S.B]? with
    | none => simp
    | some q =>
      simp only
      rw [List.getElem?_map]
      cases h3 : g.stage3[q]? with
      | none => simp
      | some x => simp; intro e; rw [e]

theorem lookup_final {I X ages R} (h : Built I X ages R) (hash : List Rec → Nat)
    (blocks : List (List Rec)) (hb : blocks.length ≤ 256)
    (hcover : ∀ j < 0x1100, (List.range 256).map (fun k => R (j * 256 + k)) ∈ blocks)
    (values : List Rec) (hv : values.length ≤ 65536) (hvc : ∀ c ≤ 0x10FFFF, R c ∈ values) :
    ∃ g, generate propertiesShape hash ((List.range 0x110000).map R) = .ok g ∧
      ∀ c ≤ 0x10FFFF, get propertiesShape
        ({ stage1 := g.stage1, stage2 := g.stage2, stage3 := g.stage3.map (emit X I ages) } : Gen Emitted) c =
          .ok (emit X I ages (final X I c)) := by
  have hblk : ∀ j < 0x1100, (((List.range 0x110000).map R).drop (j * 256)).take 256 =
      (List.range 256).map (fun k => R (j * 256 + k)) := by
    intro j hj
    apply List.ext_getElem?
    intro k
    rw [List.getElem?_take]
    by_cases hk : k < 256
    · rw [if_pos hk, List.getElem?_drop, List.getElem?_map, List.getElem?_map, List.getElem?_range (by omega),
        List.getElem?_range hk]
      rfl
    · rw [if_neg hk]
      rw [List.getElem?_eq_none (by simp; omega)]
  obtain ⟨g, g1, g2⟩ := Verif.Props.Tables.C38_properties hash ((List.range 0x110000).map R) (by simp) blocks hb
    (fun j hj => by rw [hblk j hj]; exact hcover j hj) values hv (by
      intro v hv'
      obtain ⟨c, hc, rfl⟩ := List.mem_map.1 hv'
      rw [List.mem_range] at hc
      exact hvc c (by omega))
  refine ⟨g, g1, fun c hc => ?_⟩
  rw [← built_final h c hc]
  apply get_map
  rw [g2 c hc]
  simp

/-- **C49, look-up.** Composition with C38: when the records fall into at most 256 different blocks of 256 codepoints
and at most 65536 different records, the generator succeeds, and looking up any Unicode codepoint in the three arrays it
writes gives the emitted properties of exactly that codepoint. -/
theorem C49_lookup {I X ages R} (h : Built I X ages R) (hash : List Rec → Nat)
    (blocks : List (List Rec)) (hb : blocks.length ≤ 256)
    (hcover : ∀ j < 0x1100, (List.range 256).map (fun k => R (j * 256 + k)) ∈ blocks)
    (values : List Rec) (hv : values.length ≤ 65536) (hvc : ∀ c ≤ 0x10FFFF, R c ∈ values) :
    ∃ g, generate propertiesShape hash ((List.range 0x110000).map R) = .ok g ∧
      ∀ c ≤ 0x10FFFF, get propertiesShape
        ({ stage1 := g.stage1, stage2 := g.stage2, stage3 := g.stage3.map (emit X I ages) } : Gen Emitted) c =
          .ok (emit X I ages (R c)) := by
  obtain ⟨g, g1, g2⟩ := lookup_final h hash blocks hb hcover values hv hvc
  exact ⟨g, g1, fun c hc => by rw [g2 c hc, built_final h c hc]⟩

/-! ## A concrete run -/

/-- A small database: two scripts, a wide ideograph, an emoji, a mark, a Hangul vowel, a format character. -/
def sample : Input where
  scripts := [⟨0x41, 0x5A, "Latin".toList⟩, ⟨0x4E00, 0x4E0F, "Han".toList⟩, ⟨0x30, 0x39, "Common".toList⟩]
  core := [("Grapheme_Extend".toList, [⟨0x300, 0x36F, []⟩])]
  isc := [⟨0x94D, 0x94D, "Virama".toList⟩]
  bases := [0x23, 0x2A]
  ages := [⟨0x41, 0x5A, "1.1".toList⟩, ⟨0x1F600, 0x1F600, "10.0".toList⟩]
  gcats := [⟨0x41, 0x5A, "Uppercase_Letter".toList⟩, ⟨0x300, 0x36F, "Nonspacing_Mark".toList⟩,
    ⟨0xAD, 0xAD, "Format".toList⟩, ⟨0x10FFFF, 0x10FFFF, "Unassigned".toList⟩]
  gcbs := [("CR".toList, [⟨0xD, 0xD, "CR".toList⟩]), ("Extend".toList, [⟨0x300, 0x36F, "Extend".toList⟩])]
  incbs := [("Linker".toList, [⟨0x94D, 0x94D, "Linker".toList⟩])]
  wbs := []
  eaws := [⟨0x4E00, 0x4E0F, "W".toList⟩, ⟨0x1F600, 0x1F600, "W".toList⟩, ⟨0x41, 0x5A, "Na".toList⟩]
  emoji := [("Emoji".toList, [⟨0x1F600, 0x1F600, "Emoji".toList⟩]),
    ("Emoji_Presentation".toList, [⟨0x1F600, 0x1F600, "Emoji_Presentation".toList⟩])]
  hst := [⟨0x1160, 0x11A7, "V".toList⟩]
  pvaEaw := [("F".toList, "Fullwidth".toList), ("Na".toList, "Narrow".toList), ("W".toList, "Wide".toList)]
  pvaAge := [("1.1".toList, "V1_1".toList), ("10.0".toList, "V10_0".toList), ("NA".toList, "Unassigned".toList)]
  pvaGcb := [("CR".toList, "CR".toList), ("EX".toList, "Extend".toList), ("RI".toList, "Regional_Indicator".toList),
    ("XX".toList, "Other".toList)]
  pvaIncb := [("Linker".toList, "Linker".toList), ("None".toList, "None".toList)]
  pvaWb := [("XX".toList, "Other".toList)]

theorem sample_bounded : Bounded sample := by
  constructor <;> (intro e he; revert e he; decide)

theorem consistent_of (es : List Entry)
    (h : ∀ e ∈ es, ∀ e' ∈ es, e.1 ≤ e'.2.1 → e'.1 ≤ e.2.1 → e.2.2 = e'.2.2) : Consistent es := by
  rintro cp v w ⟨e, he, h1, h2, rfl⟩ ⟨e', he', h3, h4, rfl⟩
  exact h e he e' he' (by omega) (by omega)

theorem goodAliases_of (al : List (Str × Str)) (r : Option Str) (h1 : al.length + 1 ≤ 256)
    (h2 : ∀ e ∈ al, ∀ e' ∈ al, e.1 = e'.1 → e.2 = e'.2)
    (h3 : ∀ e ∈ al, (e.1 ∈ al.map (·.2) ∨ r = some e.1) → e.1 = e.2)
    (h4 : ∀ e ∈ al, e.1 = e.2 ∨ e.1.length < e.2.length) (h5 : ∀ e ∈ al, e.2 ≠ []) : GoodAliases al r :=
  ⟨h1, fun _ _ _ m m' => h2 _ m _ m' rfl, fun _ _ m => h3 _ m, fun _ _ m => h4 _ m, fun _ _ m => h5 _ m⟩

instance (al : List (Str × Str)) (v f : Str) : Decidable (Names al v f) :=
  decidable_of_iff ((v, f) ∈ al ∨ (v = f ∧ f ∈ al.map (·.2))) (by simp [Names])

theorem few (rs : List PRange) (names : List Str) (hn : names.Nodup) (h : ∀ n ∈ names, ∃ r ∈ rs, r.property = n) :
    names.length ≤ rs.length := by
  have : names.length ≤ (rs.map (·.property)).length := by
    refine (List.subperm_of_subset hn ?_).length_le
    intro n hm
    exact List.mem_map.2 (h n hm)
  simpa using this

theorem named_of (es : List Entry) (al : List (Str × Str)) (h : ∀ e ∈ es, ∃ p ∈ al, e.2.2 = p.1) :
    ∀ e ∈ es, ∃ f, Names al e.2.2 f := by
  intro e he
  obtain ⟨⟨a, f⟩, hp, hh⟩ := h e he
  exact ⟨f, Or.inl (by rw [hh]; exact hp)⟩

/-- The hypotheses of the C41/C49/C50 theorems are met. -/
theorem sample_good : GoodData sample where
  gcCons := consistent_of _ (by decide)
  gcFew := fun names hn h => Nat.le_trans (few _ names hn h) (by decide)
  gcNo := by decide
  eawAl := goodAliases_of _ _ (by decide) (by decide) (by decide) (by decide) (by decide)
  eawCons := consistent_of _ (by decide)
  eawNamed := named_of _ _ (by decide)
  eawNames := by decide
  gcbAl := goodAliases_of _ _ (by decide) (by decide) (by decide) (by decide) (by decide)
  gcbCons := consistent_of _ (by decide)
  gcbNamed := by
    intro e he
    have : e.2.2 = "CR".toList ∨ e.2.2 = "Extend".toList := by revert e he; decide
    rcases this with h | h
    · exact ⟨"CR".toList, by rw [h]; decide⟩
    · exact ⟨"Extend".toList, by rw [h]; decide⟩
  gcbNames := by decide

/-- The concrete run: the generator succeeds; `A` is Latin, an uppercase letter, one column wide, of age 1.1; the
ideograph is two columns wide, the combining mark and the Hangul vowel none; the soft hyphen is one column wide. -/
example : ∃ X ages R, Built sample X ages R ∧
    ValueOf (ents sample.scripts) "Unknown".toList 0x41 (emit X sample ages (R 0x41)).script ∧
    (emit X sample ages (R 0x41)).script = "Latin".toList ∧
    (emit X sample ages (R 0x41)).width = 1 ∧ (emit X sample ages (R 0x4E00)).width = 2 ∧
    (emit X sample ages (R 0x300)).width = 0 ∧ (emit X sample ages (R 0x1160)).width = 0 ∧
    (emit X sample ages (R 0xAD)).width = 1 ∧ toCharWidth (emit X sample ages (R 0xAD)) = 0 ∧
    (emit X sample ages (R 0x1F600)).esc = "EmojiEmojiPresentation".toList := by
  have ha : ageMembers sample.pvaAge = some ["Unassigned".toList, "V1_1".toList, "V10_0".toList] := by decide +kernel
  obtain ⟨ages, ha⟩ : ∃ ages, ageMembers sample.pvaAge = some ages := ⟨_, ha⟩
  obtain ⟨X, R, h⟩ := C49_in_bounds sample sample_bounded _ ha
  have hs := C49_script h (consistent_of _ (by decide)) (fun names hn hh => Nat.le_trans (few _ names hn hh) (by decide))
    0x41 (by omega)
  have hgc : ∀ c v, c ≤ 0x10FFFF → Assigns (ents sample.gcats) c v → (emit X sample ages (R c)).gc = v := by
    intro c v hc hv
    rcases C49_general_category h sample_good.gcCons sample_good.gcFew sample_good.gcNo c hc with hh | ⟨hh, -⟩
    · exact sample_good.gcCons c _ _ hh hv
    · exact absurd hv (hh _)
  have hw := fun c hc => C49_width h sample_good c hc
  refine ⟨X, _, R, h, hs, ?_, ?_, ?_, ?_, ?_, ?_, ?_, ?_⟩
  · rcases hs with hs | ⟨hs, -⟩
    · exact consistent_of (ents sample.scripts) (by decide) 0x41 _ _ hs (by decide)
    · exact absurd (show Assigns (ents sample.scripts) 0x41 "Latin".toList by decide) (hs _)
  · have he : (emit X sample ages (R 0x41)).eaw = "Narrow".toList := by
      rcases C49_east_asian_width h sample_good.eawAl sample_good.eawCons sample_good.eawNamed
        (sample_good.eawNames "Narrow" (by simp)) 0x41 (by omega) with ⟨v, hv, hn⟩ | ⟨hh, -⟩
      · have hv' : v = "Na".toList := sample_good.eawCons 0x41 _ _ hv (by decide)
        subst hv'
        rcases hn with hn | ⟨hn, a, hm⟩
        · exact sample_good.eawAl.func _ _ _ hn (by decide)
        · exfalso
          have : "Na".toList ∈ sample.pvaEaw.map (·.2) := by rw [hn]; exact List.mem_map.2 ⟨_, hm, rfl⟩
          revert this; decide
      · exact absurd (show Assigns (ents sample.eaws) 0x41 "Na".toList by decide) (hh _)
    rw [hw _ (by omega), hgc 0x41 "Uppercase_Letter".toList (by omega) (by decide), he]
    decide
  · have he : (emit X sample ages (R 0x4E00)).eaw = "Wide".toList := by
      rcases C49_east_asian_width h sample_good.eawAl sample_good.eawCons sample_good.eawNamed
        (sample_good.eawNames "Narrow" (by simp)) 0x4E00 (by omega) with ⟨v, hv, hn⟩ | ⟨hh, -⟩
      · have hv' : v = "W".toList := sample_good.eawCons 0x4E00 _ _ hv (by decide)
        subst hv'
        rcases hn with hn | ⟨hn, a, hm⟩
        · exact sample_good.eawAl.func _ _ _ hn (by decide)
        · exfalso
          have : "W".toList ∈ sample.pvaEaw.map (·.2) := by rw [hn]; exact List.mem_map.2 ⟨_, hm, rfl⟩
          revert this; decide
      · exact absurd (show Assigns (ents sample.eaws) 0x4E00 "W".toList by decide) (hh _)
    have hg : (emit X sample ages (R 0x4E00)).gc = "Unassigned".toList := by
      rcases C49_general_category h sample_good.gcCons sample_good.gcFew sample_good.gcNo 0x4E00 (by omega) with hh | ⟨-, hh⟩
      · exfalso
        obtain ⟨e, he, h1, h2, -⟩ := hh
        have : ∀ e ∈ ents sample.gcats, ¬ (e.1 ≤ 0x4E00 ∧ 0x4E00 ≤ e.2.1) := by decide
        exact this e he ⟨h1, h2⟩
      · rw [hh]; decide
    rw [hw _ (by omega), hg, he]
    decide
  · rw [hw _ (by omega), hgc 0x300 "Nonspacing_Mark".toList (by omega) (by decide)]
    rw [if_neg (by decide), if_neg (by decide), if_neg (by decide), if_pos (by decide)]
  · rw [hw _ (by omega), if_pos (by decide)]
  · exact (C41_fails_soft_hyphen h sample_good (by decide) (by decide) (by decide)).2
  · exact (C41_fails_soft_hyphen h sample_good (by decide) (by decide) (by decide)).1
  · rw [C49_emoji_category h sample_good _ (by omega)]
    have hg : (emit X sample ages (R 0x1F600)).gcb = "Other".toList := by
      rcases C49_grapheme_cluster_break h sample_good.gcbAl sample_good.gcbCons sample_good.gcbNamed
        (sample_good.gcbNames "Other" (by simp)) 0x1F600 (by omega) with ⟨v, ⟨e, he, h1, h2, -⟩, -⟩ | ⟨-, hh⟩
      · exfalso
        have : ∀ e ∈ gents byValue sample.gcbs, ¬ (e.1 ≤ 0x1F600 ∧ 0x1F600 ≤ e.2.1) := by decide
        exact this e he ⟨h1, h2⟩
      · exact hh
    rw [hg]
    decide

end Verif.Props.Tg
