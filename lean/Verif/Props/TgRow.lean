import Verif.Props.TgApi3
import Verif.Props.TgCompose
import Verif.Spec.UcdRecord
import Verif.Model.TgRow
/-!
# C54: the properties table holds what the data files say
-/

namespace Verif.Props.Tg
open Verif.Utf8 (Mem)
open Verif.Tg
open Verif.Spec.Ucd
open Verif.Spec.UcdFile
open Verif.Tables (Gen get generate propertiesShape)

/-! ## From the parsed data back to the files -/

theorem generic_mem {lines : List Str} {es : List Entry} (h : FileOf lines es) (hw : Words es) {rs : List PRange}
    (hs : SortedBy PRange.first (genericEntries lines) rs) : ∀ e, e ∈ ents rs ↔ e ∈ es := by
  intro e
  rw [← generic_ents h hw]
  exact (hs.1.map _).mem_iff

theorem gents_mem (key : Str → PRange → Str) (gs : Groups) (e : Entry) :
    e ∈ gents key gs ↔ ∃ g ∈ gs, ∃ r ∈ g.2, e = (r.first, r.last, key g.1 r) := by
  unfold gents
  simp only [List.mem_flatMap, List.mem_map]
  constructor
  · rintro ⟨g, hg, r, hr, rfl⟩; exact ⟨g, hg, r, hr, rfl⟩
  · rintro ⟨g, hg, r, hr, rfl⟩; exact ⟨g, hg, r, hr, rfl⟩

theorem gents_sorted {gs out : Groups} (h : SortedGroups gs out) (key : Str → PRange → Str) (e : Entry) :
    e ∈ gents key out ↔ e ∈ gents key gs := by
  rw [gents_mem, gents_mem]
  unfold SortedGroups at h
  induction h with
  | nil => simp
  | @cons a b gs out hab _ ih =>
    simp only [List.mem_cons, exists_eq_or_imp, ih, hab.1]
    have : ∀ r, r ∈ b.2 ↔ r ∈ a.2 := fun r => hab.2.1.mem_iff
    simp only [this]

theorem gents_find (key : Str → PRange → Str) (gs : Groups) (hok : AmOk gs) (e : Entry) :
    e ∈ gents key gs ↔ ∃ j, ∃ r ∈ (amFind gs j).getD [], e = (r.first, r.last, key j r) := by
  rw [gents_mem]
  constructor
  · rintro ⟨⟨j, rs⟩, hg, r, hr, rfl⟩
    rw [mem_amFind _ hok] at hg
    exact ⟨j, r, by rw [hg]; exact hr, rfl⟩
  · rintro ⟨j, r, hr, rfl⟩
    cases hf : amFind gs j with
    | none => rw [hf] at hr; simp at hr
    | some rs =>
      rw [hf] at hr
      exact ⟨(j, rs), amFind_mem _ _ _ hf, r, hr, rfl⟩

theorem gents_pushAll (key : Str → PRange → Str) (kr : List (Str × PRange)) {out : Groups} (hs : SortedGroups (pushAll kr []) out)
    (e : Entry) : e ∈ gents key out ↔ ∃ x ∈ kr, e = (x.2.first, x.2.last, key x.1 x.2) := by
  obtain ⟨h1, h2⟩ := pushAll_spec kr [] List.Pairwise.nil
  rw [gents_sorted hs, gents_find _ _ h1]
  constructor
  · rintro ⟨j, r, hr, rfl⟩
    rw [(h2 j).1] at hr
    simp only [show amFind ([] : Groups) j = none from rfl, Option.getD_none, List.nil_append, List.mem_map, List.mem_filter] at hr
    obtain ⟨x, ⟨hx, hj⟩, rfl⟩ := hr
    exact ⟨x, hx, by rw [of_decide_eq_true hj]⟩
  · rintro ⟨x, hx, rfl⟩
    refine ⟨x.1, x.2, ?_, rfl⟩
    rw [(h2 x.1).1]
    simp only [show amFind ([] : Groups) x.1 = none from rfl, Option.getD_none, List.nil_append, List.mem_map, List.mem_filter]
    exact ⟨x, ⟨hx, by simp⟩, rfl⟩

theorem gents_sections (rng : Entry → PRange) (secs : List (Str × List Entry)) {out : Groups}
    (hs : SortedGroups (sectionsMap rng secs []) out) (e : Entry) :
    e ∈ gents byValue out ↔ ∃ x ∈ allOf secs, e = ((rng x).first, (rng x).last, (rng x).property) := by
  obtain ⟨h1, h2⟩ := sectionsMap_spec rng secs [] List.Pairwise.nil
  rw [gents_sorted hs, gents_find _ _ h1]
  unfold allOf byValue
  constructor
  · rintro ⟨j, r, hr, rfl⟩
    rw [(h2 j).1] at hr
    simp only [show amFind ([] : Groups) j = none from rfl, Option.getD_none, List.nil_append, List.mem_flatMap, List.mem_filter,
      List.mem_map] at hr
    obtain ⟨s, ⟨hs, -⟩, x, hx, rfl⟩ := hr
    exact ⟨x, List.mem_flatMap.2 ⟨s, hs, hx⟩, rfl⟩
  · rintro ⟨x, hx, rfl⟩
    obtain ⟨s, hs, hx⟩ := List.mem_flatMap.1 hx
    refine ⟨s.1, rng x, ?_, rfl⟩
    rw [(h2 s.1).1]
    simp only [show amFind ([] : Groups) s.1 = none from rfl, Option.getD_none, List.nil_append, List.mem_flatMap, List.mem_filter,
      List.mem_map]
    exact ⟨s, ⟨hs, by simp⟩, x, hx, rfl⟩

theorem breaks_mem {lines : List Str} {secs : List (Str × List Entry)}
    (h : Sections PropertyPlain PropertyHeader RangeLine lines [] secs) (hw : Words (allOf secs)) {out : Groups}
    (hs : SortedGroups (groupedEntries "Property".toList lines) out) : ∀ e, e ∈ gents byValue out ↔ e ∈ allOf secs := by
  intro e
  rw [grouped_eq h] at hs
  rw [gents_sections _ _ hs]
  constructor
  · rintro ⟨x, hx, rfl⟩
    unfold wordRange
    simp only [firstWord_word (hw x hx)]
    exact hx
  · intro he
    refine ⟨e, he, ?_⟩
    unfold wordRange
    simp only [firstWord_word (hw e he)]

theorem emoji_mem {F D U} (hl : Loads F D) (hd : Describes F U) (hw : Words U.emoji) : ∀ e, e ∈ gents byGroup D.emoji ↔ e ∈ U.emoji := by
  intro e
  have hs := hl.emoji
  rw [emoji_loaded hd hw] at hs
  rw [gents_pushAll _ _ hs]
  unfold byGroup
  constructor
  · rintro ⟨x, hx, rfl⟩
    obtain ⟨y, hy, rfl⟩ := List.mem_map.1 hx
    exact hy
  · intro he
    exact ⟨_, List.mem_map.2 ⟨e, he, rfl⟩, rfl⟩

theorem core_mem {F D U} (hl : Loads F D) (hd : Describes F U) (hw : CoreValues U.core) (e : Entry) :
    e ∈ gents byGroup D.core ↔ e ∈ U.core ∧ Word e.2.2 := by
  have hs := hl.core
  rw [coreLoop_eq hd.core] at hs
  rw [gents_pushAll _ _ hs]
  unfold byGroup
  constructor
  · rintro ⟨x, hx, rfl⟩
    obtain ⟨y, hy, hx⟩ := List.mem_filterMap.1 hx
    rcases hw y hy with h | ⟨n, v, h⟩
    · rw [(coreKey_word h).1] at hx
      injection hx with hx
      subst hx
      exact ⟨hy, h⟩
    · rw [(coreKey_two h).1] at hx; exact absurd hx (by simp)
  · rintro ⟨he, h⟩
    exact ⟨_, List.mem_filterMap.2 ⟨e, he, (coreKey_word h).1⟩, rfl⟩

theorem incb_mem {F D U} (hl : Loads F D) (hd : Describes F U) (hw : CoreValues U.core) (e : Entry) :
    e ∈ gents byGroup D.incb ↔ ∃ x ∈ U.core, x.1 = e.1 ∧ x.2.1 = e.2.1 ∧ TwoPart x.2.2 "InCB".toList e.2.2 := by
  have hs := hl.incb
  rw [coreLoop_eq hd.core] at hs
  rw [gents_pushAll _ _ hs]
  unfold byGroup
  constructor
  · rintro ⟨x, hx, rfl⟩
    obtain ⟨y, hy, hx⟩ := List.mem_filterMap.1 hx
    rcases hw y hy with h | ⟨n, v, h⟩
    · rw [(coreKey_word h).2] at hx; exact absurd hx (by simp)
    · rw [(coreKey_two h).2] at hx
      split at hx
      · next hn =>
        injection hx with hx
        subst hx
        rw [hn] at h
        exact ⟨y, hy, rfl, rfl, h⟩
      · exact absurd hx (by simp)
  · rintro ⟨x, hx, h1, h2, h⟩
    refine ⟨(e.2.2, ⟨x.1, x.2.1, e.2.2⟩), List.mem_filterMap.2 ⟨x, hx, ?_⟩, ?_⟩
    · rw [(coreKey_two h).2, if_pos rfl]
    · rw [h1, h2]

theorem incb_assigns {F D U} (hl : Loads F D) (hd : Describes F U) (hw : CoreValues U.core) (c : Nat) (v : Str) :
    Assigns (gents byGroup D.incb) c v ↔ AssignsInCB U.core c v := by
  unfold Assigns AssignsInCB
  simp only [incb_mem hl hd hw]
  constructor
  · rintro ⟨e, ⟨x, hx, h1, h2, h3⟩, h4, h5, rfl⟩
    exact ⟨x, hx, by omega, by omega, h3⟩
  · rintro ⟨x, hx, h1, h2, h3⟩
    exact ⟨(x.1, x.2.1, v), ⟨x, hx, rfl, rfl, h3⟩, h1, h2, rfl⟩

theorem core_assigns {F D U} (hl : Loads F D) (hd : Describes F U) (hw : CoreValues U.core) (c : Nat) (v : Str) (hv : Word v) :
    Assigns (gents byGroup D.core) c v ↔ Assigns U.core c v := by
  unfold Assigns
  simp only [core_mem hl hd hw]
  constructor
  · rintro ⟨e, ⟨he, -⟩, h⟩; exact ⟨e, he, h⟩
  · rintro ⟨e, he, h1, h2, rfl⟩; exact ⟨e, ⟨he, hv⟩, h1, h2, rfl⟩

/-! ## The aliases -/

theorem findPva_spec {F D U} (hl : Loads F D) (hd : Describes F U) (hn : (U.aliases.map (·.1)).Nodup) (prop : Str)
    (hb : prop ≠ "Block".toList) (al : List (Str × Str)) (hs : (prop, al) ∈ U.aliases) (hf : Functional al) :
    (∀ x, x ∈ findPva D prop ↔ x ∈ al) ∧ (findPva D prop).length ≤ al.length := by
  obtain ⟨m, h1, h2⟩ := C53_aliases hl hd hn prop hb al hs hf
  have hmok : AmOk m := by
    rw [hl.aliases, loadAliases_eq hd.aliases, aliases_find _ hn ([], []) List.Pairwise.nil, if_neg hb] at h1
    split at h1
    · injection h1 with h1; rw [← h1]; exact aliasMap_ok _ _ List.Pairwise.nil
    · simp [amFind] at h1
  have e : findPva D prop = m := by unfold findPva; rw [h1]; rfl
  rw [e]
  have hm : ∀ x, x ∈ m ↔ x ∈ al := fun ⟨a, f⟩ => by rw [mem_amFind _ hmok, h2]
  refine ⟨hm, ?_⟩
  have hnd : m.Nodup := hmok.imp (fun {a b} h e => by rw [e, strLt_irrefl] at h; simp at h)
  exact (List.subperm_of_subset hnd (fun x hx => (hm x).1 hx)).length_le

theorem goodAliases_congr {al m : List (Str × Str)} {r : Option Str} (h : GoodAliases al r) (hm : ∀ x, x ∈ m ↔ x ∈ al)
    (hlen : m.length ≤ al.length) : GoodAliases m r := by
  have hmap : ∀ a, a ∈ m.map (·.2) ↔ a ∈ al.map (·.2) := by intro a; simp only [List.mem_map, hm]
  refine ⟨by have := h.small; omega, ?_, ?_, ?_, ?_⟩
  · intro a f f' h1 h2; exact h.func a f f' ((hm _).1 h1) ((hm _).1 h2)
  · intro a f h1 h2; rw [hmap] at h2; exact h.noCapture a f ((hm _).1 h1) h2
  · intro a f h1; exact h.shorter a f ((hm _).1 h1)
  · intro a f h1; exact h.nonempty a f ((hm _).1 h1)

theorem names_congr {al m : List (Str × Str)} (hm : ∀ x, x ∈ m ↔ x ∈ al) (v f : Str) : Names m v f ↔ Names al v f := by
  unfold Names; simp only [hm]

theorem consistent_congr {es es' : List Entry} (h : ∀ e, e ∈ es ↔ e ∈ es') : Consistent es ↔ Consistent es' := by
  unfold Consistent; simp only [assigns_congr h]

theorem namedValueOf_congr {es es' : List Entry} (h : ∀ e, e ∈ es ↔ e ∈ es') {al m : List (Str × Str)} (hm : ∀ x, x ∈ m ↔ x ∈ al)
    (d : Str) (c : Nat) (f : Str) : NamedValueOf es m d c f ↔ NamedValueOf es' al d c f := by
  unfold NamedValueOf; simp only [assigns_congr h, names_congr hm]

theorem inRange_congr {es es' : List Entry} (h : ∀ e, e ∈ es ↔ e ∈ es') (h' : ∀ e ∈ es', e.1 ≤ e.2.1 ∧ e.2.1 ≤ 0x10FFFF) : InRange es :=
  fun e he => (h' e ((h e).1 he)).2

theorem allOf_valid {P : Str → Prop} {H : Str → Str → Prop} {lines : List Str} {secs : List (Str × List Entry)}
    (h : Sections P H RangeLine lines [] secs) : ∀ e ∈ allOf secs, e.1 ≤ e.2.1 ∧ e.2.1 ≤ 0x10FFFF := by
  intro e he
  obtain ⟨s, hs, he⟩ := List.mem_flatMap.1 he
  exact (sections_valid h).2 s hs e he

/-! ## Ages -/

theorem versioned_sub (al : List (Str × Str)) (vs : List ((Nat × Nat) × Str)) (h : versioned al = some vs) :
    vs.length ≤ al.length ∧ ∀ e ∈ vs, e.2 ∈ al.map (·.2) := by
  induction al generalizing vs with
  | nil => simp [versioned] at h; subst h; simp
  | cons x al ih =>
    obtain ⟨a, f⟩ := x
    unfold versioned at h
    split at h
    · obtain ⟨h1, h2⟩ := ih vs h
      exact ⟨by simp; omega, fun e he => by simp only [List.map_cons, List.mem_cons]; exact Or.inr (h2 e he)⟩
    · split at h
      · next v ws _ hw =>
        injection h with h
        subst h
        obtain ⟨h1, h2⟩ := ih ws hw
        refine ⟨by simpa using h1, fun e he => ?_⟩
        simp only [List.map_cons, List.mem_cons]
        rcases List.mem_cons.1 he with rfl | he
        · exact Or.inl rfl
        · exact Or.inr (h2 e he)
      · simp at h

theorem versSort_length (vs : List ((Nat × Nat) × Str)) : (vs.foldr versInsert []).length = vs.length := by
  have hi : ∀ (k : (Nat × Nat) × Str) (l : List ((Nat × Nat) × Str)), (versInsert k l).length = l.length + 1 := by
    intro k l
    induction l with
    | nil => rfl
    | cons x l ih => rw [versInsert]; split <;> simp [ih]
  induction vs with
  | nil => rfl
  | cons v vs ih => rw [List.foldr_cons, hi, ih]; rfl

theorem ages_facts (al : List (Str × Str)) (ages : List Str) (h : ageMembers al = some ages) :
    ages.length ≤ al.length + 1 ∧ ∀ a ∈ ages, a = "Unassigned".toList ∨ a ∈ al.map (·.2) := by
  unfold ageMembers at h
  cases hv : versioned al with
  | none => rw [hv] at h; simp at h
  | some vs =>
    rw [hv] at h
    simp only [Option.map_some, Option.some.injEq] at h
    subst h
    obtain ⟨h1, h2⟩ := versioned_sub al vs hv
    refine ⟨by simp [versSort_length]; omega, fun a ha => ?_⟩
    rcases List.mem_cons.1 ha with ha | ha
    · exact Or.inl ha
    · obtain ⟨e, he, rfl⟩ := List.mem_map.1 ha
      exact Or.inr (h2 e ((mem_versSort _ _).1 he))

/-! ## All columns -/

theorem complete_core {U N} (h : Complete U N) : CoreValues U.core := h.coreWords

/-- The parsed general categories are the entries of the file with long names. -/
theorem gcats_mem {F D U N} (hl : Loads F D) (hd : Describes F U) (hc : Complete U N) :
    (∀ e ∈ ents D.gcats, ∃ x ∈ allOf U.gc, e.1 = x.1 ∧ e.2.1 = x.2.1 ∧ (x.2.2, e.2.2) ∈ N.gc) ∧
      ∀ x ∈ allOf U.gc, ∃ f, (x.1, x.2.1, f) ∈ ents D.gcats ∧ (x.2.2, f) ∈ N.gc := by
  obtain ⟨m, m1, m2, -, m4⟩ := gc_loaded hl hd hc.titles N.gc hc.gcIn hc.gcOk (fun e he => hc.words e (by tauto))
  have hm : ∀ r, r ∈ D.gcats ↔ r ∈ (allOf U.gc).map (gcRange m) := fun r => m4.1.mem_iff
  constructor
  · intro e he
    obtain ⟨r, hr, rfl⟩ := List.mem_map.1 he
    obtain ⟨x, hx, rfl⟩ := List.mem_map.1 ((hm r).1 hr)
    exact ⟨x, hx, rfl, rfl, m2 x hx⟩
  · intro x hx
    exact ⟨(gcRange m x).property, List.mem_map.2 ⟨gcRange m x, (hm _).2 (List.mem_map.2 ⟨x, hx, rfl⟩), rfl⟩, m2 x hx⟩

theorem gcats_assigns {F D U N} (hl : Loads F D) (hd : Describes F U) (hc : Complete U N) (c : Nat) (f : Str) :
    Assigns (ents D.gcats) c f ↔ ∃ ab, Assigns (allOf U.gc) c ab ∧ (ab, f) ∈ N.gc := by
  obtain ⟨h1, h2⟩ := gcats_mem hl hd hc
  constructor
  · rintro ⟨e, he, x1, x2, rfl⟩
    obtain ⟨x, hx, y1, y2, y3⟩ := h1 e he
    exact ⟨x.2.2, ⟨x, hx, by omega, by omega, rfl⟩, y3⟩
  · rintro ⟨ab, ⟨x, hx, x1, x2, rfl⟩, hf⟩
    obtain ⟨g, g1, g2⟩ := h2 x hx
    exact ⟨_, g1, x1, x2, hc.gcOk _ _ _ g2 hf⟩

theorem input_aliases {F D U N} (hl : Loads F D) (hd : Describes F U) (hc : Complete U N) :
    ((∀ x, x ∈ (inputOf D).pvaEaw ↔ x ∈ N.eaw) ∧ (inputOf D).pvaEaw.length ≤ N.eaw.length) ∧
    ((∀ x, x ∈ (inputOf D).pvaAge ↔ x ∈ N.age) ∧ (inputOf D).pvaAge.length ≤ N.age.length) ∧
    ((∀ x, x ∈ (inputOf D).pvaGcb ↔ x ∈ N.gcb) ∧ (inputOf D).pvaGcb.length ≤ N.gcb.length) ∧
    ((∀ x, x ∈ (inputOf D).pvaIncb ↔ x ∈ N.incb) ∧ (inputOf D).pvaIncb.length ≤ N.incb.length) ∧
    ((∀ x, x ∈ (inputOf D).pvaWb ↔ x ∈ N.wb) ∧ (inputOf D).pvaWb.length ≤ N.wb.length) :=
  ⟨findPva_spec hl hd hc.titles _ (by decide) _ hc.eawIn hc.eawOk.func,
   findPva_spec hl hd hc.titles _ (by decide) _ hc.ageIn hc.ageOk.func,
   findPva_spec hl hd hc.titles _ (by decide) _ hc.gcbIn hc.gcbOk.func,
   findPva_spec hl hd hc.titles _ (by decide) _ hc.incbIn hc.incbOk.func,
   findPva_spec hl hd hc.titles _ (by decide) _ hc.wbIn hc.wbOk.func⟩

/-- The parsed entries are those of the files. -/
theorem input_entries {F D U N} (hl : Loads F D) (hd : Describes F U) (hc : Complete U N) :
    (∀ e, e ∈ ents D.scripts ↔ e ∈ U.scripts) ∧ (∀ e, e ∈ ents D.isc ↔ e ∈ U.isc) ∧ (∀ e, e ∈ ents D.ages ↔ e ∈ U.ages) ∧
    (∀ e, e ∈ ents D.eaw ↔ e ∈ U.eaw) ∧ (∀ e, e ∈ ents D.hst ↔ e ∈ U.hst) ∧ (∀ e, e ∈ gents byValue D.gcb ↔ e ∈ allOf U.gcb) ∧
    (∀ e, e ∈ gents byValue D.wb ↔ e ∈ allOf U.wb) ∧ (∀ e, e ∈ gents byGroup D.emoji ↔ e ∈ U.emoji) := by
  refine ⟨generic_mem hd.scripts ?_ hl.scripts, generic_mem hd.isc ?_ hl.isc, generic_mem hd.ages ?_ hl.ages,
    generic_mem hd.eaw ?_ hl.eaw, generic_mem hd.hst ?_ hl.hst, breaks_mem hd.gcb ?_ hl.gcb, breaks_mem hd.wb ?_ hl.wb,
    emoji_mem hl hd ?_⟩ <;>
  · intro e he
    exact hc.words e (by tauto)

theorem input_bounded {F D U N} (hl : Loads F D) (hd : Describes F U) (hc : Complete U N) : Bounded (inputOf D) := by
  obtain ⟨e1, -, e3, e4, e5, e6, e7, e8⟩ := input_entries hl hd hc
  refine ⟨inRange_congr e1 (fileOf_valid hd.scripts), ?_, inRange_congr e3 (fileOf_valid hd.ages), ?_,
    inRange_congr e6 (allOf_valid hd.gcb), ?_, inRange_congr e7 (allOf_valid hd.wb), inRange_congr e4 (fileOf_valid hd.eaw),
    inRange_congr e8 (fileOf_valid hd.emoji), inRange_congr e5 (fileOf_valid hd.hst)⟩
  · intro e he
    exact (fileOf_valid hd.core e ((core_mem hl hd hc.coreWords e).1 he).1).2
  · intro e he
    obtain ⟨x, hx, -, h2, -⟩ := (gcats_mem hl hd hc).1 e he
    rw [h2]
    exact (allOf_valid hd.gc x hx).2
  · intro e he
    obtain ⟨x, hx, -, h2, -⟩ := (incb_mem hl hd hc.coreWords e).1 he
    rw [← h2]
    exact (fileOf_valid hd.core x hx).2

theorem input_good {F D U N} (hl : Loads F D) (hd : Describes F U) (hc : Complete U N) : GoodData (inputOf D) := by
  obtain ⟨-, -, -, e4, -, e6, -, -⟩ := input_entries hl hd hc
  obtain ⟨⟨a1, b1⟩, -, ⟨a3, b3⟩, -, -⟩ := input_aliases hl hd hc
  have hg : ∀ r ∈ D.gcats, ∃ ab, (ab, r.property) ∈ N.gc := by
    intro r hr
    obtain ⟨x, -, -, -, h⟩ := (gcats_mem hl hd hc).1 _ (List.mem_map.2 ⟨r, hr, rfl⟩)
    exact ⟨_, h⟩
  refine ⟨?_, ?_, ?_, goodAliases_congr hc.eawOk a1 b1, (consistent_congr e4).2 hc.eawOne, ?_, ?_,
    goodAliases_congr hc.gcbOk a3 b3, (consistent_congr e6).2 hc.gcbOne, ?_, ?_⟩
  · intro c v w hv hw
    obtain ⟨a, h1, h2⟩ := (gcats_assigns hl hd hc c v).1 hv
    obtain ⟨b, h3, h4⟩ := (gcats_assigns hl hd hc c w).1 hw
    rw [hc.gcOne c _ _ h3 h1] at h4
    exact hc.gcOk _ _ _ h2 h4
  · intro names hn h
    have : names.length ≤ (N.gc.map (·.2)).length := by
      refine (List.subperm_of_subset hn ?_).length_le
      intro n hm
      obtain ⟨r, hr, rfl⟩ := h n hm
      obtain ⟨ab, hab⟩ := hg r hr
      exact List.mem_map.2 ⟨_, hab, rfl⟩
    have h' := hc.gcFew
    simp only [List.length_map] at this
    omega
  · intro r hr e
    obtain ⟨ab, hab⟩ := hg r hr
    rw [e] at hab
    exact hc.gcReserved _ hab
  · intro e he
    obtain ⟨f, hf⟩ := hc.eawKnown e ((e4 e).1 he)
    exact ⟨f, (names_congr a1 _ _).2 hf⟩
  · intro f hf; exact (names_congr a1 _ _).2 (hc.eawNeeds f hf)
  · intro e he
    obtain ⟨f, hf⟩ := hc.gcbKnown e ((e6 e).1 he)
    exact ⟨f, (names_congr a3 _ _).2 hf⟩
  · intro f hf; exact (names_congr a3 _ _).2 (hc.gcbNeeds f hf)

/-- The initialiser as a row of names. -/
def rowOf (e : Emitted) : Row where
  width := e.width
  flags := e.flags
  flags2 := e.flags2
  script := e.script
  gcb := e.gcb
  eaw := e.eaw
  gc := e.gc
  esc := e.esc
  age := e.age
  incb := e.incb
  wb := e.wb

/-- The conditions on the ages. -/
theorem input_ages {F D U N} (hl : Loads F D) (hd : Describes F U) (hc : Complete U N) :
    ∃ ages, ageMembers (inputOf D).pvaAge = some ages ∧ ages.length ≤ 256 ∧
      (∀ a f f', (a, f) ∈ (inputOf D).pvaAge → (a, f') ∈ (inputOf D).pvaAge → f = f') ∧
      (∀ a f, (a, f) ∈ (inputOf D).pvaAge → f ≠ []) ∧ (∀ a f, (a, f) ∈ (inputOf D).pvaAge → a ∈ ages → a = f) := by
  obtain ⟨-, ⟨a2, b2⟩, -⟩ := input_aliases hl hd hc
  obtain ⟨ages, h⟩ := C50_age_total (inputOf D).pvaAge (fun a f hf => hc.ageVersions a f ((a2 _).1 hf))
  obtain ⟨g1, g2⟩ := ages_facts _ _ h
  have hg := goodAliases_congr hc.ageOk a2 b2
  refine ⟨ages, h, by have := hg.small; omega, hg.func, hg.nonempty, ?_⟩
  intro a f hf ha
  apply hg.noCapture a f hf
  rcases g2 a ha with rfl | h
  · exact Or.inr rfl
  · exact Or.inl h

theorem assigns_no {es es' : List Entry} (h : ∀ e, e ∈ es ↔ e ∈ es') (c : Nat) (v : Str) : Assigns es c v ↔ Assigns es' c v :=
  assigns_congr h c v

theorem input_fields {F D U N} (hl : Loads F D) (hd : Describes F U) (hc : Complete U N) {X ages R}
    (h : Built (inputOf D) X ages R) (c : Nat) (hcp : c ≤ 0x10FFFF) :
    (∃ f, ValueOf U.scripts "Unknown".toList c f ∧ mapFind X.script f = some (R c).script ∧ (emit X (inputOf D) ages (R c)).script = f) ∧
    (∃ f, NamedValueOf U.ages N.age "Unassigned".toList c f ∧ mapFind X.age f = some (R c).age ∧ (emit X (inputOf D) ages (R c)).age = f) ∧
    (∃ f, NamedValueOf U.eaw N.eaw "Narrow".toList c f ∧ mapFind X.eaw f = some (R c).eaw ∧ (emit X (inputOf D) ages (R c)).eaw = f) ∧
    (∃ f, NamedValueOf (allOf U.gcb) N.gcb "Other".toList c f ∧ mapFind X.gcb f = some (R c).gcb ∧ (emit X (inputOf D) ages (R c)).gcb = f) ∧
    (∃ f, NamedValueOf (allOf U.wb) N.wb "Other".toList c f ∧ mapFind X.wb f = some (R c).wb ∧ (emit X (inputOf D) ages (R c)).wb = f) ∧
    (∃ f, ((∃ v, AssignsInCB U.core c v ∧ Names N.incb v f) ∨ (∀ v, ¬ AssignsInCB U.core c v) ∧ f = "None".toList) ∧
      mapFind X.incb f = some (R c).incb ∧ (emit X (inputOf D) ages (R c)).incb = f) ∧
    (∃ f, ((∃ ab, Assigns (allOf U.gc) c ab ∧ (ab, f) ∈ N.gc) ∨ (∀ w, ¬ Assigns (allOf U.gc) c w) ∧ f = "Unassigned".toList) ∧
      mapFind X.gc f = some (R c).gc ∧ (emit X (inputOf D) ages (R c)).gc = f) := by
  obtain ⟨e1, e2, e3, e4, e5, e6, e7, e8⟩ := input_entries hl hd hc
  obtain ⟨⟨a1, b1⟩, ⟨a2, b2⟩, ⟨a3, b3⟩, ⟨a4, b4⟩, ⟨a5, b5⟩⟩ := input_aliases hl hd hc
  have hg := input_good hl hd hc
  refine ⟨?_, ?_, ?_, ?_, ?_, ?_, ?_⟩
  · obtain ⟨f, f1, f2, f3⟩ := script_field h ((consistent_congr e1).2 hc.scriptsOne) (fun names hn hh => hc.scriptsFew names hn (by
      intro n hm
      obtain ⟨r, hr, hp⟩ := hh n hm
      exact ⟨_, (e1 _).1 (List.mem_map.2 ⟨r, hr, rfl⟩), hp⟩)) c hcp
    exact ⟨f, (valueOf_congr e1 _ c f).1 f1, f2, f3⟩
  · obtain ⟨ages', g1, g2, g3, g4, g5⟩ := input_ages hl hd hc
    rw [h.ages] at g1
    injection g1 with g1
    subst g1
    obtain ⟨f, f1, f2, f3⟩ := age_field h g2 g3 g4 g5 ((consistent_congr e3).2 hc.agesOne) (by
      intro e he
      obtain ⟨f, hf⟩ := hc.ageKnown e ((e3 e).1 he)
      exact ⟨f, (a2 _).2 hf⟩) c hcp
    exact ⟨f, (namedValueOf_congr e3 a2 _ c f).1 f1, f2, f3⟩
  · obtain ⟨f, f1, -, f2, f3⟩ := eaw_field h hg.eawAl hg.eawCons hg.eawNamed (hg.eawNames "Narrow" (by simp)) c hcp
    exact ⟨f, (namedValueOf_congr e4 a1 _ c f).1 f1, f2, f3⟩
  · obtain ⟨f, f1, -, f2, f3⟩ := gcb_field h hg.gcbAl hg.gcbCons hg.gcbNamed (hg.gcbNames "Other" (by simp)) c hcp
    exact ⟨f, (namedValueOf_congr e6 a3 _ c f).1 f1, f2, f3⟩
  · obtain ⟨f, f1, -, f2, f3⟩ := wb_field h (goodAliases_congr hc.wbOk a5 b5) ((consistent_congr e7).2 hc.wbOne) (by
      intro e he
      obtain ⟨f, hf⟩ := hc.wbKnown e ((e7 e).1 he)
      exact ⟨f, (names_congr a5 _ _).2 hf⟩) ((names_congr a5 _ _).2 hc.wbNeeds) c hcp
    exact ⟨f, (namedValueOf_congr e7 a5 _ c f).1 f1, f2, f3⟩
  · have ia := incb_assigns hl hd hc.coreWords
    obtain ⟨f, f1, -, f2, f3⟩ := incb_field h (goodAliases_congr hc.incbOk a4 b4) (by
      intro c v w hv hw
      exact hc.incbOne c v w ((ia c v).1 hv) ((ia c w).1 hw)) (by
      intro e he
      obtain ⟨x, hx, h1, h2, h3⟩ := (incb_mem hl hd hc.coreWords e).1 he
      obtain ⟨f, hf⟩ := hc.incbKnown x.1 e.2.2 ⟨x, hx, Nat.le_refl _, (fileOf_valid hd.core x hx).1, h3⟩
      exact ⟨f, (names_congr a4 _ _).2 hf⟩) ((names_congr a4 _ _).2 hc.incbNeeds) c hcp
    refine ⟨f, ?_, f2, f3⟩
    rcases f1 with ⟨v, h1, h2⟩ | ⟨h1, h2⟩
    · exact Or.inl ⟨v, (ia c v).1 h1, (names_congr a4 _ _).1 h2⟩
    · exact Or.inr ⟨fun v hv => h1 v ((ia c v).2 hv), h2⟩
  · obtain ⟨f, f1, f2, f3⟩ := gc_field h hg.gcCons hg.gcFew hg.gcNo c hcp
    have ga := gcats_assigns hl hd hc c
    refine ⟨f, ?_, f2, ?_⟩
    · rcases f3 with h1 | ⟨h1, h2⟩
      · exact Or.inl ((ga f).1 h1)
      · refine Or.inr ⟨?_, ?_⟩
        · intro w hw
          obtain ⟨e, he, -, -, rfl⟩ := id hw
          obtain ⟨g, hgn⟩ := hc.gcKnown e he
          exact h1 g ((ga g).2 ⟨_, hw, hgn⟩)
        · rw [h2, if_pos]
          obtain ⟨x, hx, hxn⟩ := hc.gcNeeds
          obtain ⟨g, g1, g2⟩ := (gcats_mem hl hd hc).2 x hx
          obtain ⟨r, hr, hre⟩ := List.mem_map.1 g1
          refine ⟨r, hr, ?_⟩
          have : r.property = g := congrArg (·.2.2) hre
          rw [this]
          exact hc.gcOk _ _ _ g2 hxn
    · show (gcNames ((inputOf D).gcats.map (·.property))).getD (R c).gc "Unspecified".toList = f
      rw [List.getD_eq_getElem?_getD, f1]; rfl

/-- **C54, generation.** From files that describe complete and consistent data the generator builds its records without
an out-of-bounds access, and what it writes for any Unicode codepoint is what the files say about it. -/
theorem C54_row {F D U N} (hl : Loads F D) (hd : Describes F U) (hc : Complete U N) :
    ∃ X ages R, Built (inputOf D) X ages R ∧ ∀ c ≤ 0x10FFFF, Row.Says U N c (rowOf (emit X (inputOf D) ages (R c))) := by
  obtain ⟨ages, g1, -⟩ := input_ages hl hd hc
  obtain ⟨X, R, h⟩ := C49_in_bounds (inputOf D) (input_bounded hl hd hc) ages g1
  refine ⟨X, ages, R, h, fun c hcp => ?_⟩
  obtain ⟨e1, e2, e3, e4, e5, e6, e7, e8⟩ := input_entries hl hd hc
  obtain ⟨⟨f1, f2, -, f3⟩, ⟨g1, g2, -, g3⟩, ⟨h1, h2, -, h3⟩, ⟨i1, i2, -, i3⟩, ⟨j1, j2, -, j3⟩, ⟨k1, k2, -, k3⟩, ⟨l1, l2, -, l3⟩⟩ :=
    input_fields hl hd hc h c hcp
  have hg := input_good hl hd hc
  obtain ⟨b0, b1, b2, b3, b4, b5, b6, b7, b8⟩ := C49_flags h c hcp
  have hw := C49_width h hg c hcp
  have he := C49_emoji_category h hg c hcp
  have hv := C49_variation_base h c hcp
  refine ⟨by rw [← f3] at f2; exact f2, by rw [← l3] at l2; exact l2, by rw [← h3] at h2; exact h2, by rw [← g3] at g2; exact g2,
    by rw [← i3] at i2; exact i2, by rw [← j3] at j2; exact j2, by rw [← k3] at k2; exact k2,
    b0.trans (assigns_congr e8 _ _), b1.trans (assigns_congr e8 _ _), b2.trans (assigns_congr e8 _ _),
    b3.trans (assigns_congr e8 _ _), b4.trans (assigns_congr e8 _ _), b5.trans (assigns_congr e8 _ _),
    b6.trans (core_assigns hl hd hc.coreWords c _ ?_), b7.trans ?_, b8, ?_, ?_, ?_⟩
  · exact ⟨by decide, by decide⟩
  · exact or_congr (assigns_congr e2 _ _) (assigns_congr e2 _ _)
  · show (emit X (inputOf D) ages (R c)).flags2 = _
    rw [hv]
    have := (C53_variation_bases hl hd).2 c
    simp only [show (inputOf D).bases = D.evs from rfl, this]
  · show (emit X (inputOf D) ages (R c)).width = _
    rw [hw]
    simp only [show (inputOf D).hst = D.hst from rfl, show (inputOf D).gcbs = D.gcb from rfl, show (inputOf D).emoji = D.emoji from rfl,
      assigns_congr e5, assigns_congr e6, assigns_congr e8]
    rfl
  · show (emit X (inputOf D) ages (R c)).esc = _
    rw [he]
    simp only [show (inputOf D).emoji = D.emoji from rfl, assigns_congr e8]
    rfl

/-! ## The files determine the row -/

theorem names_unique {al : List (Str × Str)} {r : Option Str} (h : GoodAliases al r) {v f f' : Str} (h1 : Names al v f)
    (h2 : Names al v f') : f = f' := by
  have key : ∀ {a g : Str}, (v, g) ∈ al → (a, v) ∈ al → g = v := by
    intro a g hg ha
    exact (h.noCapture v g hg (Or.inl (List.mem_map.2 ⟨_, ha, rfl⟩))).symm
  rcases h1 with h1 | ⟨rfl, a, h1⟩
  · rcases h2 with h2 | ⟨rfl, b, h2⟩
    · exact h.func _ _ _ h1 h2
    · exact key h1 h2
  · rcases h2 with h2 | ⟨e, b, h2⟩
    · exact (key h2 h1).symm
    · exact e

theorem value_unique {es : List Entry} (h : Consistent es) {d : Str} {c : Nat} {v w : Str} (h1 : ValueOf es d c v)
    (h2 : ValueOf es d c w) : v = w := by
  rcases h1 with h1 | ⟨h1, rfl⟩ <;> rcases h2 with h2 | ⟨h2, rfl⟩
  · exact h c _ _ h1 h2
  · exact absurd h1 (h2 _)
  · exact absurd h2 (h1 _)
  · rfl

theorem named_unique {es : List Entry} (h : Consistent es) {al : List (Str × Str)} {r : Option Str} (hg : GoodAliases al r) {d : Str}
    {c : Nat} {v w : Str} (h1 : NamedValueOf es al d c v) (h2 : NamedValueOf es al d c w) : v = w := by
  rcases h1 with ⟨a, h1, n1⟩ | ⟨h1, rfl⟩ <;> rcases h2 with ⟨b, h2, n2⟩ | ⟨h2, rfl⟩
  · rw [h c _ _ h1 h2] at n1; exact names_unique hg n1 n2
  · exact absurd h1 (h2 _)
  · exact absurd h2 (h1 _)
  · rfl

theorem byte_ext (m n : Nat) (hm : m < 256) (hn : n < 256) (h : ∀ b < 8, (m.testBit b = true ↔ n.testBit b = true)) : m = n := by
  apply Nat.eq_of_testBit_eq
  intro b
  by_cases hb : b < 8
  · exact Bool.eq_iff_iff.2 (h b hb)
  · have small : ∀ m < 256, m.testBit b = false := fun m hm =>
      Nat.testBit_lt_two_pow (Nat.lt_of_lt_of_le hm (Nat.pow_le_pow_right (n := 2) (i := 8) (by decide) (by omega)))
    rw [small m hm, small n hn]

/-- **C54, one answer.** Complete and consistent files determine every column of the row of every codepoint. -/
theorem C54_unique {U N} (hc : Complete U N) {c : Nat} {r r' : Row} (h : Row.Says U N c r) (h' : Row.Says U N c r') : r = r' := by
  have e1 := value_unique hc.scriptsOne h.script h'.script
  have e2 := named_unique hc.eawOne hc.eawOk h.eaw h'.eaw
  have e3 := named_unique hc.agesOne hc.ageOk h.age h'.age
  have e4 := named_unique hc.gcbOne hc.gcbOk h.gcb h'.gcb
  have e5 := named_unique hc.wbOne hc.wbOk h.wb h'.wb
  have e6 : r.gc = r'.gc := by
    rcases h.gc with ⟨a, h1, n1⟩ | ⟨h1, e⟩ <;> rcases h'.gc with ⟨b, h2, n2⟩ | ⟨h2, e'⟩
    · rw [hc.gcOne c _ _ h1 h2] at n1; exact hc.gcOk _ _ _ n1 n2
    · exact absurd h1 (h2 _)
    · exact absurd h2 (h1 _)
    · rw [e, e']
  have e7 : r.incb = r'.incb := by
    rcases h.incb with ⟨a, h1, n1⟩ | ⟨h1, e⟩ <;> rcases h'.incb with ⟨b, h2, n2⟩ | ⟨h2, e'⟩
    · rw [hc.incbOne c _ _ h1 h2] at n1; exact names_unique hc.incbOk n1 n2
    · exact absurd h1 (h2 _)
    · exact absurd h2 (h1 _)
    · rw [e, e']
  have e8 : r.flags = r'.flags := by
    apply byte_ext _ _ h.byte h'.byte
    intro b hb
    have : b = 0 ∨ b = 1 ∨ b = 2 ∨ b = 3 ∨ b = 4 ∨ b = 5 ∨ b = 6 ∨ b = 7 := by omega
    rcases this with rfl | rfl | rfl | rfl | rfl | rfl | rfl | rfl
    · rw [h.emoji, h'.emoji]
    · rw [h.presentation, h'.presentation]
    · rw [h.component, h'.component]
    · rw [h.modifier, h'.modifier]
    · rw [h.modifierBase, h'.modifierBase]
    · rw [h.pictographic, h'.pictographic]
    · rw [h.graphemeExtend, h'.graphemeExtend]
    · rw [h.virama, h'.virama]
  have e9 : r.flags2 = r'.flags2 := by rw [h.variationBase, h'.variationBase]
  have e10 : r.width = r'.width := by rw [h.width, h'.width, e6, e2]
  have e11 : r.esc = r'.esc := by rw [h.esc, h'.esc, e4]
  cases r; cases r'
  simp only at e1 e2 e3 e4 e5 e6 e7 e8 e9 e10 e11
  subst e1 e2 e3 e4 e5 e6 e7 e8 e9 e10 e11
  rfl

/-! ## The look-up -/

/-- The number of an emoji category name. -/
def escNum (s : Str) : Int :=
  if s = "Emoji".toList then 0
  else if s = "EmojiTextPresentation".toList then 1
  else if s = "EmojiEmojiPresentation".toList then 2
  else if s = "EmojiModifierBase".toList then 3
  else if s = "EmojiModifier".toList then 4
  else if s = "EmojiVSBase".toList then 5
  else if s = "RegionalIndicator".toList then 6
  else if s = "KeyCapBase".toList then 7
  else if s = "CombiningEnclosingKeyCap".toList then 8
  else if s = "CombiningEnclosingCircleBackslash".toList then 9
  else if s = "ZWJ".toList then 10
  else if s = "VS15".toList then 11
  else if s = "VS16".toList then 12
  else if s = "TagBase".toList then 13
  else if s = "TagSequence".toList then 14
  else if s = "TagTerm".toList then 15
  else -1

theorem escNum_name (i : Int) (h : -1 ≤ i) (h' : i ≤ 15) : escNum (escName i) = i := by
  have : i = -1 ∨ i = 0 ∨ i = 1 ∨ i = 2 ∨ i = 3 ∨ i = 4 ∨ i = 5 ∨ i = 6 ∨ i = 7 ∨ i = 8 ∨ i = 9 ∨ i = 10 ∨ i = 11 ∨ i = 12 ∨
    i = 13 ∨ i = 14 ∨ i = 15 := by omega
  rcases this with rfl | rfl | rfl | rfl | rfl | rfl | rfl | rfl | rfl | rfl | rfl | rfl | rfl | rfl | rfl | rfl | rfl <;> decide

theorem computeEsc_range (cp : Nat) (rec : Rec) (ri : Nat) : -1 ≤ computeEsc cp rec ri ∧ computeEsc cp rec ri ≤ 15 := by
  have key : ∀ (p : Prop) [Decidable p] (a b : Int), (-1 ≤ a ∧ a ≤ 15) → (-1 ≤ b ∧ b ≤ 15) →
      (-1 ≤ (if p then a else b) ∧ (if p then a else b) ≤ 15) := by
    intro p _ a b h1 h2
    by_cases hp : p
    · rw [if_pos hp]; exact h1
    · rw [if_neg hp]; exact h2
  unfold computeEsc
  repeat' apply key
  all_goals decide

/-- Records with the same row are the same. -/
theorem rec_inj {F D U N} (hl : Loads F D) (hd : Describes F U) (hc : Complete U N) {X ages R}
    (h : Built (inputOf D) X ages R) (c c' : Nat) (h1 : c ≤ 0x10FFFF) (h2 : c' ≤ 0x10FFFF)
    (he : rowOf (emit X (inputOf D) ages (R c)) = rowOf (emit X (inputOf D) ages (R c'))) : R c = R c' := by
  obtain ⟨⟨a1, -, a2, a3⟩, ⟨b1, -, b2, b3⟩, ⟨c1, -, c2, c3⟩, ⟨d1, -, d2, d3⟩, ⟨e1, -, e2, e3⟩, ⟨f1, -, f2, f3⟩, ⟨g1, -, g2, g3⟩⟩ :=
    input_fields hl hd hc h c h1
  obtain ⟨⟨a1', -, a2', a3'⟩, ⟨b1', -, b2', b3'⟩, ⟨c1', -, c2', c3'⟩, ⟨d1', -, d2', d3'⟩, ⟨e1', -, e2', e3'⟩, ⟨f1', -, f2', f3'⟩,
    ⟨g1', -, g2', g3'⟩⟩ := input_fields hl hd hc h c' h2
  have key : ∀ {m : Map} {x y : Str} {i j : Nat}, mapFind m x = some i → mapFind m y = some j → x = y → i = j := by
    intro m x y i j h1 h2 e
    rw [e, h2] at h1
    exact (Option.some.inj h1).symm
  have k1 := key a2 a2' (by rw [← a3, ← a3']; exact congrArg Row.script he)
  have k2 := key b2 b2' (by rw [← b3, ← b3']; exact congrArg Row.age he)
  have k3 := key c2 c2' (by rw [← c3, ← c3']; exact congrArg Row.eaw he)
  have k4 := key d2 d2' (by rw [← d3, ← d3']; exact congrArg Row.gcb he)
  have k5 := key e2 e2' (by rw [← e3, ← e3']; exact congrArg Row.wb he)
  have k6 := key f2 f2' (by rw [← f3, ← f3']; exact congrArg Row.incb he)
  have k7 := key g2 g2' (by rw [← g3, ← g3']; exact congrArg Row.gc he)
  have k8 : (R c).width = (R c').width := congrArg Row.width he
  have k9 : (R c).flags = (R c').flags := congrArg Row.flags he
  have k10 : (R c).flags2 = (R c').flags2 := congrArg Row.flags2 he
  have k11 : (R c).esc = (R c').esc := by
    have hn : escName (R c).esc = escName (R c').esc := congrArg Row.esc he
    have hr : ∀ x, x ≤ 0x10FFFF → -1 ≤ (R x).esc ∧ (R x).esc ≤ 15 := by
      intro x hx
      rw [built_final h x hx, (final_fields X (inputOf D) x).2.2.2.2.2.2.2.2.2]
      exact computeEsc_range _ _ _
    rw [← escNum_name _ (hr c h1).1 (hr c h1).2, ← escNum_name _ (hr c' h2).1 (hr c' h2).2, hn]
  generalize R c = x at *
  generalize R c' = y at *
  cases x; cases y
  simp only at k1 k2 k3 k4 k5 k6 k7 k8 k9 k10 k11
  subst k1 k2 k3 k4 k5 k6 k7 k8 k9 k10 k11
  rfl

/-- `block` is what the files say about the 256 codepoints from `first` on. -/
def BlockSays (U : Contents) (N : ValueNames) (first : Nat) (block : List Row) : Prop :=
  block.length = 256 ∧ ∀ k r, block[k]? = some r → Row.Says U N (first + k) r

/-- **C54, look-up.** From the text of the data files to the generated arrays: when the files describe complete and
consistent data with at most 256 different blocks of 256 codepoints and at most 65536 different rows, the generator
succeeds (whatever the order `std::sort` leaves equal keys in and whatever `std::hash` is), and looking up a codepoint in
what it writes gives the row the files say - for values that are not codepoints, the row of U+0000. -/
theorem C54_lookup {F D U N} (hl : Loads F D) (hd : Describes F U) (hc : Complete U N)
    (blocks : List (List Row)) (hb : blocks.length ≤ 256) (hcover : ∀ j < 0x1100, ∃ b ∈ blocks, BlockSays U N (j * 256) b)
    (values : List Row) (hv : values.length ≤ 65536) (hvc : ∀ c ≤ 0x10FFFF, ∃ r ∈ values, Row.Says U N c r)
    (hash : List Rec → Nat) :
    ∃ X ages R g, Built (inputOf D) X ages R ∧ generate propertiesShape hash ((List.range 0x110000).map R) = .ok g ∧
      ∀ c, ∃ e, get propertiesShape
          ({ stage1 := g.stage1, stage2 := g.stage2, stage3 := g.stage3.map (emit X (inputOf D) ages) } : Gen Emitted) c = .ok e ∧
        Row.Says U N (if c ≤ 0x10FFFF then c else 0) (rowOf e) := by
  obtain ⟨X, ages, R, h, hsay⟩ := C54_row hl hd hc
  classical
  obtain ⟨ρ, hρ⟩ : ∃ ρ : Row → Rec, ∀ c ≤ 0x10FFFF, ∀ r, Row.Says U N c r → ρ r = R c := by
    refine ⟨fun r => if hr : ∃ c ≤ 0x10FFFF, Row.Says U N c r then R hr.choose else R 0, ?_⟩
    intro c hcp r hr
    have hex : ∃ c ≤ 0x10FFFF, Row.Says U N c r := ⟨c, hcp, hr⟩
    simp only [dif_pos hex]
    obtain ⟨h1, h2⟩ := hex.choose_spec
    exact rec_inj hl hd hc h _ _ h1 hcp (by rw [C54_unique hc (hsay _ h1) h2, C54_unique hc (hsay _ hcp) hr])
  obtain ⟨g, g1, g2⟩ := lookup_final h hash (blocks.map fun b => b.map ρ) (by simpa using hb) (by
      intro j hj
      obtain ⟨b, hb1, hb2, hb3⟩ := hcover j hj
      refine List.mem_map.2 ⟨b, hb1, ?_⟩
      apply List.ext_getElem?
      intro k
      by_cases hk : k < 256
      · rw [List.getElem?_map, List.getElem?_map, List.getElem?_range hk, List.getElem?_eq_getElem (by omega)]
        simp only [Option.map_some]
        rw [hρ (j * 256 + k) (by omega) _ (hb3 k _ (List.getElem?_eq_getElem (by omega)))]
      · rw [List.getElem?_eq_none (by simp; omega), List.getElem?_eq_none (by simp; omega)])
    (values.map ρ) (by simpa using hv) (by
      intro c hcp
      obtain ⟨r, hr, hs⟩ := hvc c hcp
      exact List.mem_map.2 ⟨r, hr, hρ c hcp r hs⟩)
  refine ⟨X, ages, R, g, h, g1, fun c => ?_⟩
  by_cases hcp : c ≤ 0x10FFFF
  · refine ⟨_, g2 c hcp, ?_⟩
    rw [if_pos hcp, ← built_final h c hcp]
    exact hsay c hcp
  · refine ⟨emit X (inputOf D) ages (final X (inputOf D) 0), ?_, ?_⟩
    · rw [← g2 0 (by omega)]
      unfold Verif.Tables.get
      rw [if_neg (show ¬ c ≤ propertiesShape.max from hcp), if_pos (Nat.zero_le _)]
    · rw [if_neg hcp, ← built_final h 0 (by omega)]
      exact hsay 0 (by omega)

end Verif.Props.Tg
