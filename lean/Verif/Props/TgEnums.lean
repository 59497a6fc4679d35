import Verif.Spec.UcdEnum
import Verif.Model.TgEnums
import Verif.Props.TgRowSample

/-!
# C55: enumerators
-/

namespace Verif.Props.Tg
open Verif.Utf8 (Mem)
open Verif.Tg
open Verif.Spec.Ucd Verif.Spec.UcdFile

theorem sanitize_iff (t v : Str) : sanitize t = v ↔ Identifier t v := by
  rw [← sanitize_identifier]; exact eq_comm

theorem clash_iff (s t : Str) : Clash s t ↔ sanitize s = sanitize t := by
  unfold Clash
  simp only [← sanitize_iff]
  constructor
  · rintro ⟨i, h1, h2⟩; rw [h1, h2]
  · intro h; exact ⟨_, rfl, h.symm⟩

theorem sanitize_sanitize (s : Str) : sanitize (sanitize s) = sanitize s := by
  unfold sanitize
  rw [List.map_map]
  apply List.map_congr_left
  intro c _
  simp only [Function.comp_apply]
  by_cases h : c = ' ' ∨ c = '-'
  · rw [if_pos h]; decide
  · rw [if_neg h, if_neg h]

theorem sanitize_plain {s : Str} (h : Plainly s) : sanitize s = s := by
  unfold sanitize
  conv => rhs; rw [← List.map_id s]
  apply List.map_congr_left
  intro c hc
  have := h c hc
  rw [if_neg (by tauto)]; rfl

/-! ## The sections of the alias file -/

theorem aliases_fold_ok (secs : List (Str × List (Str × Str))) (st : Str × Aliases) (hm : AmOk st.2) :
    AmOk (secs.foldl (fun st s => s.2.foldl aliasAdd (aliasOpen st s.1)) st).2 := by
  induction secs generalizing st with
  | nil => exact hm
  | cons s secs ih =>
    rw [List.foldl_cons]
    apply ih
    by_cases hb : s.1 = "Block".toList
    · have : aliasOpen st s.1 = (s.1, st.2) := by unfold aliasOpen; rw [if_pos hb]
      rw [this]
      exact (aliasAdd_fold s.2 s.1 st.2 hm).2.1
    · have : aliasOpen st s.1 = (s.1, amUpd s.1 (fun _ => []) st.2) := by unfold aliasOpen; rw [if_neg hb]
      rw [this]
      exact (aliasAdd_fold s.2 s.1 _ (amUpd_ok _ _ _ hm)).2.1

theorem aliases_ok {F D U} (hl : Loads F D) (hd : Describes F U) : AmOk D.aliases := by
  rw [hl.aliases, loadAliases_eq hd.aliases]
  exact aliases_fold_ok _ _ List.Pairwise.nil

/-- The parsed sections. -/
theorem aliases_mem {F D U} (hl : Loads F D) (hd : Describes F U) (hn : (U.aliases.map (·.1)).Nodup) (prop : Str) (m : List (Str × Str)) :
    (prop, m) ∈ D.aliases ↔ prop ≠ "Block".toList ∧ ∃ es, (prop, es) ∈ U.aliases ∧ m = aliasMap es [] := by
  rw [mem_amFind _ (aliases_ok hl hd), hl.aliases, loadAliases_eq hd.aliases, aliases_find _ hn ([], []) List.Pairwise.nil]
  by_cases hb : prop = "Block".toList
  · rw [if_pos hb]
    simp [amFind, hb]
  · rw [if_neg hb]
    have key : ∀ es, amFind U.aliases prop = some es ↔ (prop, es) ∈ U.aliases := by
      clear hl hd
      generalize U.aliases = secs at hn
      intro es
      induction secs with
      | nil => simp [amFind]
      | cons s secs ih =>
        rw [List.map_cons, List.nodup_cons] at hn
        rw [amFind_cons, List.mem_cons]
        by_cases hs : s.1 = prop
        · rw [if_pos hs]
          constructor
          · intro h; left; rw [← hs]; injection h with h; rw [← h]
          · rintro (h | h)
            · rw [← h]
            · exact absurd (List.mem_map.2 ⟨_, h, hs.symm⟩) hn.1
        · rw [if_neg hs, ih hn.2]
          constructor
          · exact Or.inr
          · rintro (h | h)
            · exact absurd (by rw [← h]) hs
            · exact h
    constructor
    · intro h
      refine ⟨hb, ?_⟩
      split at h
      · rename_i es he
        injection h with h
        exact ⟨es, (key es).1 he, h.symm⟩
      · simp [amFind] at h
    · rintro ⟨-, es, h1, h2⟩
      rw [(key es).2 h1, h2]

theorem aliasMap_mem {es : List (Str × Str)} (hf : Functional es) (x : Str × Str) : x ∈ aliasMap es [] ↔ x ∈ es := by
  obtain ⟨a, f⟩ := x
  rw [mem_amFind _ (aliasMap_ok _ _ List.Pairwise.nil)]
  by_cases hex : ∃ f', (a, f') ∈ es
  · obtain ⟨f', hf'⟩ := hex
    rw [aliasMap_find es [] List.Pairwise.nil a f' (fun f'' h => hf a f'' f' h hf'), if_pos hf']
    constructor
    · intro h; injection h with h; rw [← h]; exact hf'
    · intro h; rw [hf a f f' h hf']
  · rw [aliasMap_find es [] List.Pairwise.nil a f (fun f' h => absurd ⟨f', h⟩ hex), if_neg (fun h => hex ⟨f, h⟩)]
    constructor
    · intro h; simp [amFind] at h
    · intro h; exact absurd ⟨f, h⟩ hex

theorem amOk_nodup {V : Type} {m : List (Str × V)} (h : AmOk m) : m.Nodup :=
  h.imp (fun {a b} h e => by rw [e, strLt_irrefl] at h; simp at h)

theorem amOk_keys {V : Type} {m : List (Str × V)} (h : AmOk m) : (m.map (·.1)).Nodup := by
  unfold List.Nodup
  rw [List.pairwise_map]
  exact h.imp (fun {a b} h e => by rw [e, strLt_irrefl] at h; simp at h)

theorem yesNo_iff {es : List (Str × Str)} (hf : Functional es) : yesNo (aliasMap es []) = true ↔ Binary es := by
  have hm := aliasMap_mem hf
  have hnd := amOk_nodup (aliasMap_ok es [] List.Pairwise.nil)
  unfold yesNo Binary
  simp only [Bool.and_eq_true, decide_eq_true_eq]
  have hne : "Yes".toList ≠ "No".toList := by decide
  constructor
  · rintro ⟨⟨h1, h2⟩, h3⟩
    obtain ⟨⟨a, y⟩, ha, rfl⟩ := List.mem_map.1 h2
    obtain ⟨⟨b, n⟩, hb, hn'⟩ := List.mem_map.1 h3
    simp only at hn'
    subst hn'
    refine ⟨a, b, (hm _).1 ha, (hm _).1 hb, ?_⟩
    intro x hx
    have hx := (hm x).2 hx
    match hl : aliasMap es [], h1 with
    | [p, q], _ =>
      rw [hl] at ha hb hx hnd
      simp only [List.mem_cons, List.not_mem_nil, or_false] at ha hb hx
      have hab : ((a, "Yes".toList) : Str × Str) ≠ (b, "No".toList) := fun h => hne (congrArg Prod.snd h)
      rcases ha with ha | ha <;> rcases hb with hb | hb
      · exact absurd (ha.trans hb.symm) hab
      · rcases hx with hx | hx
        · exact Or.inl (hx.trans ha.symm)
        · exact Or.inr (hx.trans hb.symm)
      · rcases hx with hx | hx
        · exact Or.inr (hx.trans hb.symm)
        · exact Or.inl (hx.trans ha.symm)
      · exact absurd (ha.trans hb.symm) hab
  · rintro ⟨a, b, ha, hb, hall⟩
    have ha' := (hm _).2 ha
    have hb' := (hm _).2 hb
    refine ⟨⟨?_, List.mem_map.2 ⟨_, ha', rfl⟩⟩, List.mem_map.2 ⟨_, hb', rfl⟩⟩
    have hab : ((a, "Yes".toList) : Str × Str) ≠ (b, "No".toList) := fun h => hne (congrArg Prod.snd h)
    have hp : (aliasMap es []).Perm [(a, "Yes".toList), (b, "No".toList)] := by
      rw [List.perm_ext_iff_of_nodup hnd (by simpa using hab)]
      intro x
      rw [hm x]
      simp only [List.mem_cons, List.not_mem_nil, or_false]
      constructor
      · exact hall x
      · rintro (rfl | rfl) <;> assumption
    exact hp.length_eq

/-! ## What is declared -/

/-- Enumeration `E` of the generated header has an enumerator `id`. -/
def Declares (enums : List EnumDef) (E id : Str) : Prop := ∃ d ∈ enums, d.name = E ∧ id ∈ d.identifiers

theorem declares_append (l l' : List EnumDef) (E id : Str) : Declares (l ++ l') E id ↔ Declares l E id ∨ Declares l' E id := by
  unfold Declares
  constructor
  · rintro ⟨d, hd, h⟩
    rcases List.mem_append.1 hd with hd | hd
    · exact Or.inl ⟨d, hd, h⟩
    · exact Or.inr ⟨d, hd, h⟩
  · rintro (⟨d, hd, h⟩ | ⟨d, hd, h⟩)
    · exact ⟨d, List.mem_append_left _ hd, h⟩
    · exact ⟨d, List.mem_append_right _ hd, h⟩

theorem declares_cons (d : EnumDef) (l : List EnumDef) (E id : Str) :
    Declares (d :: l) E id ↔ (d.name = E ∧ ∃ m ∈ d.members, sanitize m = id) ∨ Declares l E id := by
  unfold Declares EnumDef.identifiers
  simp only [List.mem_cons, List.mem_map]
  constructor
  · rintro ⟨d', rfl | hd, h⟩
    · exact Or.inl h
    · exact Or.inr ⟨d', hd, h⟩
  · rintro (h | ⟨d', hd, h⟩)
    · exact ⟨d, Or.inl rfl, h⟩
    · exact ⟨d', Or.inr hd, h⟩

theorem declares_nil (E id : Str) : ¬ Declares [] E id := fun ⟨_, h, _⟩ => absurd h (by simp)

theorem plane_ids : ∀ id : Str, id ∈ planeEnum.identifiers ↔ ∃ n ∈ planeNames, n.toList = id := by
  have h1 : planeEnum.identifiers ⊆ planeNames.map String.toList := by decide +kernel
  have h2 : planeNames.map String.toList ⊆ planeEnum.identifiers := by decide +kernel
  intro id
  constructor
  · intro h
    obtain ⟨n, hn, e⟩ := List.mem_map.1 (h1 h)
    exact ⟨n, hn, e⟩
  · rintro ⟨n, hn, rfl⟩
    exact h2 (List.mem_map.2 ⟨n, hn, rfl⟩)

/-- The declared members of the age enumeration. -/
theorem ageDecl_mem {al : List (Str × Str)} {ages : List Str} (h : ageMembers al = some ages) (f : Str) :
    f ∈ ages ↔ f = "Unassigned".toList ∨ ∃ a, (a, f) ∈ al := by
  have key : ∀ (al : List (Str × Str)) vs, versioned al = some vs → ∀ f, f ∈ vs.map (·.2) ↔ f ≠ "Unassigned".toList ∧ ∃ a, (a, f) ∈ al := by
    intro al
    induction al with
    | nil => intro vs h f; unfold versioned at h; injection h with h; subst h; simp
    | cons e al ih =>
      obtain ⟨a, g⟩ := e
      intro vs h f
      unfold versioned at h
      by_cases hg : g = "Unassigned".toList
      · rw [if_pos hg] at h
        rw [ih vs h f]
        constructor
        · rintro ⟨h1, b, h2⟩; exact ⟨h1, b, List.mem_cons_of_mem _ h2⟩
        · rintro ⟨h1, b, h2⟩
          rcases List.mem_cons.1 h2 with h2 | h2
          · injection h2 with _ h2; exact absurd (h2.trans hg) h1
          · exact ⟨h1, b, h2⟩
      · rw [if_neg hg] at h
        cases hp : parseVersion g with
        | none => rw [hp] at h; simp at h
        | some p =>
          cases hv : versioned al with
          | none => rw [hp, hv] at h; simp at h
          | some vs' =>
            rw [hp, hv] at h
            injection h with h
            subst h
            rw [List.map_cons, List.mem_cons, ih vs' hv f]
            constructor
            · rintro (rfl | ⟨h1, b, h2⟩)
              · exact ⟨hg, a, by simp⟩
              · exact ⟨h1, b, List.mem_cons_of_mem _ h2⟩
            · rintro ⟨h1, b, h2⟩
              rcases List.mem_cons.1 h2 with h2 | h2
              · injection h2 with _ h2; exact Or.inl h2
              · exact Or.inr ⟨h1, b, h2⟩
  have perm : ∀ vs : List ((Nat × Nat) × Str), (vs.foldr versInsert []).Perm vs := by
    have ins : ∀ k (s : List ((Nat × Nat) × Str)), (versInsert k s).Perm (k :: s) := by
      intro k s
      induction s with
      | nil => exact List.Perm.refl _
      | cons x s ih =>
        unfold versInsert
        split
        · exact (List.Perm.cons x ih).trans (List.Perm.swap k x s)
        · exact List.Perm.refl _
    intro vs
    induction vs with
    | nil => exact List.Perm.refl _
    | cons v vs ih => exact (ins v _).trans (List.Perm.cons v ih)
  unfold ageMembers at h
  cases hv : versioned al with
  | none => rw [hv] at h; simp at h
  | some vs =>
    rw [hv] at h
    injection h with h
    subst h
    rw [List.mem_cons]
    have := key al vs hv f
    have hp := ((perm vs).map (·.2)).mem_iff (a := f)
    constructor
    · rintro (h | h)
      · exact Or.inl h
      · exact Or.inr (this.1 (hp.1 h)).2
    · rintro (h | h)
      · exact Or.inl h
      · by_cases hf : f = "Unassigned".toList
        · exact Or.inl hf
        · exact Or.inr (hp.2 (this.2 ⟨hf, h⟩))

theorem core_keys {F D U} (hl : Loads F D) (hd : Describes F U) (hw : CoreValues U.core) (k : Str) :
    k ∈ D.core.map (·.1) ↔ ∃ e ∈ U.core, Word e.2.2 ∧ e.2.2 = k := by
  have hs := hl.core
  rw [coreLoop_eq hd.core] at hs
  have h1 : ∀ {gs out : Groups}, SortedGroups gs out → out.map (·.1) = gs.map (·.1) := by
    intro gs out h
    unfold SortedGroups at h
    induction h with
    | nil => rfl
    | cons h _ ih => rw [List.map_cons, List.map_cons, ih, h.1]
  rw [h1 hs]
  obtain ⟨p1, p2⟩ := pushAll_spec (U.core.filterMap coreKey) [] List.Pairwise.nil
  have h2 : k ∈ (pushAll (U.core.filterMap coreKey) []).map (·.1) ↔ (amFind (pushAll (U.core.filterMap coreKey) []) k).isSome := by
    constructor
    · intro h
      obtain ⟨⟨a, v⟩, hx, rfl⟩ := List.mem_map.1 h
      rw [(mem_amFind _ p1 _ _).1 hx]; rfl
    · intro h
      obtain ⟨v, hv⟩ := Option.isSome_iff_exists.1 h
      exact List.mem_map.2 ⟨_, amFind_mem _ _ _ hv, rfl⟩
  rw [h2, (p2 k).2]
  constructor
  · rintro (h | ⟨x, hx, rfl⟩)
    · simp [amFind] at h
    · obtain ⟨e, he, hk⟩ := List.mem_filterMap.1 hx
      rcases hw e he with h | ⟨n, v, h⟩
      · rw [(coreKey_word h).1] at hk
        injection hk with hk
        exact ⟨e, he, h, by rw [← hk]⟩
      · rw [(coreKey_two h).1] at hk; exact absurd hk (by simp)
  · rintro ⟨e, he, h, rfl⟩
    exact Or.inr ⟨_, List.mem_filterMap.2 ⟨e, he, (coreKey_word h).1⟩, rfl⟩

/-- The enumerations of the value sections. -/
theorem pva_declares {F D U} (hl : Loads F D) (hd : Describes F U) (hn : (U.aliases.map (·.1)).Nodup)
    (hf : ∀ s ∈ U.aliases, Functional s.2) (E id : Str) :
    Declares (D.aliases.filterMap (fun e => pvaEnum e.1 e.2)) E id ↔
      ∃ es, ValueSection U E es ∧ ((E = "Grapheme_Cluster_Break".toList ∧ id = "Undefined".toList) ∨ ∃ a f, (a, f) ∈ es ∧ Identifier f id) := by
  have hdef : ∀ (prop : Str) (es : List (Str × Str)), (prop, es) ∈ U.aliases → prop ≠ "Block".toList → ∀ d,
      pvaEnum prop (aliasMap es []) = some d ↔ ValueSection U prop es ∧
        d = ⟨prop, (if prop = "Grapheme_Cluster_Break".toList then ["Undefined".toList] else []) ++ sortStrs ((aliasMap es []).map (·.2))⟩ := by
    intro prop es hs hb d
    have hfe := hf _ hs
    have hnil : aliasMap es [] = [] ↔ es = [] := by
      rw [List.eq_nil_iff_forall_not_mem, List.eq_nil_iff_forall_not_mem]
      exact forall_congr' (fun x => not_congr (aliasMap_mem hfe x))
    have hel : elsewhere prop = true ↔ prop ∈ ["Script", "General_Category", "EastAsianWidth", "Age", "Block"].map String.toList := by
      unfold elsewhere
      simp only [Bool.or_eq_true, decide_eq_true_eq, List.map_cons, List.map_nil, List.mem_cons, List.not_mem_nil, or_false]
      constructor
      · rintro (((h | h) | h) | h)
        · exact Or.inl h
        · exact Or.inr (Or.inl h)
        · exact Or.inr (Or.inr (Or.inl h))
        · exact Or.inr (Or.inr (Or.inr (Or.inl h)))
      · rintro (h | h | h | h | h)
        · exact Or.inl (Or.inl (Or.inl h))
        · exact Or.inl (Or.inl (Or.inr h))
        · exact Or.inl (Or.inr h)
        · exact Or.inr h
        · exact absurd h hb
    unfold pvaEnum ValueSection
    by_cases h1 : es = []
    · rw [if_pos (hnil.2 h1)]
      constructor
      · intro h; exact absurd h (by simp only [reduceCtorEq, not_false_eq_true])
      · rintro ⟨h, -⟩; exact absurd h1 h.2.1
    · rw [if_neg (fun h => h1 (hnil.1 h))]
      by_cases h2 : Binary es
      · rw [if_pos ((yesNo_iff hfe).2 h2)]
        constructor
        · intro h; exact absurd h (by simp only [reduceCtorEq, not_false_eq_true])
        · rintro ⟨h, -⟩; exact absurd h2 h.2.2.1
      · rw [if_neg (fun h => h2 ((yesNo_iff hfe).1 h))]
        by_cases h3 : elsewhere prop = true
        · rw [if_pos h3]
          constructor
          · intro h; exact absurd h (by simp only [reduceCtorEq, not_false_eq_true])
          · rintro ⟨h, -⟩; exact absurd (hel.1 h3) h.2.2.2
        · rw [if_neg h3]
          constructor
          · intro h; injection h with h; exact ⟨⟨hs, h1, h2, fun h => h3 (hel.2 h)⟩, h.symm⟩
          · rintro ⟨-, rfl⟩; rfl
  have hids : ∀ (prop : Str) (es : List (Str × Str)), Functional es → (id ∈ (⟨prop, (if prop = "Grapheme_Cluster_Break".toList then ["Undefined".toList] else []) ++
      sortStrs ((aliasMap es []).map (·.2))⟩ : EnumDef).identifiers ↔
        (prop = "Grapheme_Cluster_Break".toList ∧ id = "Undefined".toList) ∨ ∃ a f, (a, f) ∈ es ∧ Identifier f id) := by
    intro prop es hfe
    unfold EnumDef.identifiers
    rw [List.map_append, List.mem_append]
    apply or_congr
    · by_cases hp : prop = "Grapheme_Cluster_Break".toList
      · rw [if_pos hp]
        simp only [hp, true_and, List.map_cons, List.map_nil, List.mem_singleton]
        rw [show sanitize "Undefined".toList = "Undefined".toList by decide]
      · rw [if_neg hp]; simp only [List.map_nil, List.not_mem_nil, hp, false_and]
    · simp only [List.mem_map, mem_sortStrs]
      constructor
      · rintro ⟨f, ⟨⟨a, f'⟩, hx, rfl⟩, hid⟩
        exact ⟨a, f', (aliasMap_mem hfe _).1 hx, (sanitize_iff _ _).1 hid⟩
      · rintro ⟨a, f, hx, hid⟩
        exact ⟨f, ⟨(a, f), (aliasMap_mem hfe _).2 hx, rfl⟩, (sanitize_iff _ _).2 hid⟩
  unfold Declares
  constructor
  · rintro ⟨d, hd', rfl, hid⟩
    obtain ⟨⟨prop, m⟩, hm, hp⟩ := List.mem_filterMap.1 hd'
    obtain ⟨hb, es, hs, rfl⟩ := (aliases_mem hl hd hn prop m).1 hm
    obtain ⟨hv, rfl⟩ := (hdef prop es hs hb d).1 hp
    exact ⟨es, hv, (hids prop es (hf _ hs)).1 hid⟩
  · rintro ⟨es, hv, hid⟩
    have hb : E ≠ "Block".toList := fun h => hv.2.2.2 (by rw [h]; simp)
    exact ⟨_, List.mem_filterMap.2 ⟨(E, aliasMap es []), (aliases_mem hl hd hn _ _).2 ⟨hb, es, hv.1, rfl⟩, (hdef E es hv.1 hb _).2 ⟨hv, rfl⟩⟩, rfl,
      (hids E es (hf _ hv.1)).2 hid⟩

/-- What the enumerations are: the declarations of the generated header, spelled out. -/
theorem enums_declare {D : Db} {enums : List EnumDef} (h : collectEnums D = some enums) (E id : Str) :
    ∃ age, ageEnum D = some age ∧ (Declares enums E id ↔
      (E = "Plane".toList ∧ id ∈ planeEnum.identifiers) ∨ Declares age E id ∨
      Declares (D.aliases.filterMap (fun e => pvaEnum e.1 e.2)) E id ∨
      (E = "Core_Property".toList ∧ ∃ m ∈ D.core.map (·.1), sanitize m = id) ∨
      (E = "General_Category".toList ∧ ∃ m ∈ gcNames (D.gcats.map (·.property)), sanitize m = id) ∨
      (E = "Script".toList ∧ ∃ m ∈ scriptNames (D.scripts.map (·.property)), sanitize m = id) ∨
      (E = "Block".toList ∧ ∃ m ∈ (blockEnum D).members, sanitize m = id) ∨
      (E = "EastAsianWidth".toList ∧ ∃ m ∈ widthEnum.members, sanitize m = id)) := by
  unfold collectEnums at h
  cases ha : ageEnum D with
  | none => rw [ha] at h; exact absurd h (by simp only [Option.map_none, reduceCtorEq, not_false_eq_true])
  | some age =>
    rw [ha] at h
    injection h with h
    subst h
    refine ⟨age, rfl, ?_⟩
    rw [declares_cons, declares_append, declares_append, declares_cons, declares_cons, declares_cons, declares_cons, declares_cons]
    have e : ∀ a b : Str, (a = b) = (b = a) := fun a b => propext eq_comm
    show ("Plane".toList = E ∧ _) ∨ _ ∨ _ ∨ ("Core_Property".toList = E ∧ _) ∨ ("General_Category".toList = E ∧ _) ∨ ("Script".toList = E ∧ _) ∨
      ("Block".toList = E ∧ _) ∨ ("EastAsianWidth".toList = E ∧ _) ∨ _ ↔ _
    rw [e _ E, e _ E, e _ E, e _ E, e _ E, e _ E]
    have : ∀ id, id ∈ planeEnum.identifiers ↔ ∃ m ∈ planeEnum.members, sanitize m = id := fun id => List.mem_map
    rw [this]
    refine or_congr Iff.rfl (or_congr Iff.rfl (or_congr Iff.rfl (or_congr Iff.rfl (or_congr Iff.rfl (or_congr Iff.rfl (or_congr Iff.rfl ?_))))))
    constructor
    · rintro (h | h)
      · exact h
      · exact absurd h (declares_nil _ _)
    · exact Or.inl

/-- **C55, contents.** From files that describe complete and consistent data the generator writes its header of
enumerations (no exception), and enumeration `E` declares `id` exactly if the data files say so. -/
theorem C55_exact {F D U N} (hl : Loads F D) (hd : Describes F U) (hc : Complete U N) (hf : ∀ s ∈ U.aliases, Functional s.2) :
    ∃ enums, collectEnums D = some enums ∧ ∀ E id, Declares enums E id ↔ Enumerator U N E id := by
  obtain ⟨ages, hag, -⟩ := input_ages hl hd hc
  -- the age section
  obtain ⟨ma, hma1, hma2⟩ := C53_aliases hl hd hc.titles "Age".toList (by decide) N.age hc.ageIn (hf _ hc.ageIn)
  have hpva : findPva D "Age".toList = ma := by unfold findPva; rw [hma1]; rfl
  have hmem : ∀ x, x ∈ ma ↔ x ∈ N.age := by
    have := (findPva_spec hl hd hc.titles "Age".toList (by decide) N.age hc.ageIn (hf _ hc.ageIn)).1
    rw [hpva] at this; exact this
  have hag' : ageMembers ma = some ages := by rw [← hpva]; exact hag
  have hnil : ma = [] ↔ N.age = [] := by
    rw [List.eq_nil_iff_forall_not_mem, List.eq_nil_iff_forall_not_mem]
    exact forall_congr' (fun x => not_congr (hmem x))
  have hage : ∃ age, ageEnum D = some age ∧ ∀ E id, Declares age E id ↔
      E = "Age".toList ∧ N.age ≠ [] ∧ (id = "Unassigned".toList ∨ ∃ a f, (a, f) ∈ N.age ∧ Identifier f id) := by
    unfold ageEnum
    rw [hma1]
    by_cases hm : ma = []
    · refine ⟨[], by simp only [hm, if_true], fun E id => ?_⟩
      constructor
      · intro h; exact absurd h (declares_nil _ _)
      · rintro ⟨-, h, -⟩; exact absurd (hnil.1 hm) h
    · refine ⟨[⟨"Age".toList, ages⟩], by simp only [if_neg hm, hag', Option.map_some], fun E id => ?_⟩
      rw [declares_cons]
      constructor
      · rintro (⟨h1, m, h2, h3⟩ | h)
        · refine ⟨h1.symm, fun h => hm (hnil.2 h), ?_⟩
          rcases (ageDecl_mem hag' m).1 h2 with h | ⟨a, h⟩
          · left; rw [← h3, h]; decide
          · exact Or.inr ⟨a, m, (hmem _).1 h, (sanitize_iff _ _).1 h3⟩
        · exact absurd h (declares_nil _ _)
      · rintro ⟨h1, -, h2⟩
        refine Or.inl ⟨h1.symm, ?_⟩
        rcases h2 with h | ⟨a, f, h, h3⟩
        · exact ⟨"Unassigned".toList, (ageDecl_mem hag' _).2 (Or.inl rfl), by rw [h]; decide⟩
        · exact ⟨f, (ageDecl_mem hag' _).2 (Or.inr ⟨a, (hmem _).2 h⟩), (sanitize_iff _ _).2 h3⟩
  obtain ⟨age, hae, had⟩ := hage
  have hcol : ∃ enums, collectEnums D = some enums := by unfold collectEnums; rw [hae]; exact ⟨_, rfl⟩
  obtain ⟨enums, hen⟩ := hcol
  refine ⟨enums, hen, fun E id => ?_⟩
  obtain ⟨age', hae', hiff⟩ := enums_declare hen E id
  rw [hae] at hae'
  injection hae' with hae'
  subst hae'
  rw [hiff, had E id, pva_declares hl hd hc.titles hf E id]
  obtain ⟨e1, -⟩ := input_entries hl hd hc
  obtain ⟨g1, g2⟩ := gcats_mem hl hd hc
  constructor
  · rintro (⟨rfl, h⟩ | ⟨rfl, h1, rfl | ⟨a, f, h2, h3⟩⟩ | ⟨es, hv, ⟨rfl, rfl⟩ | ⟨a, f, h2, h3⟩⟩ | ⟨rfl, m, h1, h2⟩ | ⟨rfl, m, h1, h2⟩ | ⟨rfl, m, h1, h2⟩ |
      ⟨rfl, m, h1, h2⟩ | ⟨rfl, m, h1, h2⟩)
    · obtain ⟨n, hn, rfl⟩ := (plane_ids id).1 h
      exact .plane hn
    · exact .unassigned h1
    · exact .age h2 h3
    · exact .undefined hv
    · exact .value hv h2 h3
    · obtain ⟨e, he, hw, rfl⟩ := (core_keys hl hd (complete_core hc) m).1 h1
      exact .core he hw ((sanitize_iff _ _).1 h2)
    · unfold gcNames at h1
      rcases List.mem_cons.1 h1 with h | h
      · rw [← h2, h]
        exact .gcUnspecified
      · rw [mem_mkSet] at h
        obtain ⟨r, hr, rfl⟩ := List.mem_map.1 h
        obtain ⟨x, hx, -, -, hx3⟩ := g1 _ (List.mem_map.2 ⟨r, hr, rfl⟩)
        exact .gc hx hx3 ((sanitize_iff _ _).1 h2)
    · have hcase : m = "Invalid".toList ∨ m = "Unknown".toList ∨ m = "Common".toList ∨ ∃ r ∈ D.scripts, r.property = m := by
        unfold scriptNames at h1
        rcases List.mem_cons.1 h1 with h | h
        · exact Or.inl h
        rcases List.mem_cons.1 h with h | h
        · exact Or.inr (Or.inl h)
        rcases List.mem_cons.1 h with h | h
        · exact Or.inr (Or.inr (Or.inl h))
        · unfold otherScripts at h
          rw [List.mem_filter, mem_mkSet, List.mem_map] at h
          exact Or.inr (Or.inr (Or.inr h.1))
      rcases hcase with h | h | h | ⟨r, hr, rfl⟩
      · rw [← h2, h]; exact .scriptFixed (s := "Invalid") (by simp)
      · rw [← h2, h]; exact .scriptFixed (s := "Unknown") (by simp)
      · rw [← h2, h]; exact .scriptFixed (s := "Common") (by simp)
      · exact .script ((e1 _).1 (List.mem_map.2 ⟨r, hr, rfl⟩)) ((sanitize_iff _ _).1 h2)
    · rcases List.mem_cons.1 h1 with h | h
      · rw [← h2, h]; exact .blockUnspecified
      · obtain ⟨t, ht, rfl⟩ := List.mem_map.1 h
        rw [mem_mkSet] at ht
        obtain ⟨b, hb, rfl⟩ := List.mem_map.1 ht
        rw [hl.blocks, loadBlocks_eq hd.blocks] at hb
        obtain ⟨e, he, rfl⟩ := List.mem_map.1 hb
        rw [sanitize_sanitize] at h2
        exact .block he ((sanitize_iff _ _).1 h2)
    · have hw : widthEnum.identifiers ⊆ ["Ambiguous", "FullWidth", "HalfWidth", "Neutral", "Narrow", "Wide", "Unspecified"].map String.toList := by decide
      obtain ⟨n, hn, rfl⟩ := List.mem_map.1 (hw (List.mem_map.2 ⟨m, h1, h2⟩))
      exact .width hn
  · intro h
    cases h with
    | plane hn => exact Or.inl ⟨rfl, (plane_ids _).2 ⟨_, hn, rfl⟩⟩
    | unassigned h => exact Or.inr (Or.inl ⟨rfl, h, Or.inl rfl⟩)
    | age h1 h2 => exact Or.inr (Or.inl ⟨rfl, fun h => by rw [h] at h1; simp at h1, Or.inr ⟨_, _, h1, h2⟩⟩)
    | undefined hv => exact Or.inr (Or.inr (Or.inl ⟨_, hv, Or.inl ⟨rfl, rfl⟩⟩))
    | value hv h1 h2 => exact Or.inr (Or.inr (Or.inl ⟨_, hv, Or.inr ⟨_, _, h1, h2⟩⟩))
    | core h1 h2 h3 =>
      exact Or.inr (Or.inr (Or.inr (Or.inl ⟨rfl, _, (core_keys hl hd (complete_core hc) _).2 ⟨_, h1, h2, rfl⟩, (sanitize_iff _ _).2 h3⟩)))
    | gcUnspecified =>
      exact Or.inr (Or.inr (Or.inr (Or.inr (Or.inl ⟨rfl, "Unspecified".toList, List.mem_cons_self, by decide⟩))))
    | @gc e f id h1 h2 h3 =>
      obtain ⟨f', hf', hf2⟩ := g2 _ h1
      have := hc.gcOk _ _ _ h2 hf2
      subst this
      obtain ⟨r, hr, hre⟩ := List.mem_map.1 hf'
      have hrp : r.property = f := congrArg (·.2.2) hre
      exact Or.inr (Or.inr (Or.inr (Or.inr (Or.inl ⟨rfl, f, List.mem_cons_of_mem _ ((mem_mkSet _ _).2 (List.mem_map.2 ⟨r, hr, hrp⟩)),
        (sanitize_iff _ _).2 h3⟩))))
    | @scriptFixed s hs =>
      refine Or.inr (Or.inr (Or.inr (Or.inr (Or.inr (Or.inl ⟨rfl, s.toList, ?_, ?_⟩)))))
      · unfold scriptNames
        simp only [List.mem_cons, List.not_mem_nil, or_false] at hs
        rcases hs with rfl | rfl | rfl
        · exact List.mem_cons_self
        · exact List.mem_cons_of_mem _ List.mem_cons_self
        · exact List.mem_cons_of_mem _ (List.mem_cons_of_mem _ List.mem_cons_self)
      · simp only [List.mem_cons, List.not_mem_nil, or_false] at hs
        rcases hs with rfl | rfl | rfl <;> decide
    | @script e id h1 h2 =>
      obtain ⟨r, hr, hre⟩ := List.mem_map.1 ((e1 _).2 h1)
      have hrp : r.property = e.2.2 := congrArg (·.2.2) hre
      refine Or.inr (Or.inr (Or.inr (Or.inr (Or.inr (Or.inl ⟨rfl, e.2.2, ?_, (sanitize_iff _ _).2 h2⟩)))))
      unfold scriptNames
      by_cases hcm : e.2.2 = "Common".toList
      · rw [hcm]; exact List.mem_cons_of_mem _ (List.mem_cons_of_mem _ List.mem_cons_self)
      · refine List.mem_cons_of_mem _ (List.mem_cons_of_mem _ (List.mem_cons_of_mem _ ?_))
        unfold otherScripts
        rw [List.mem_filter, mem_mkSet]
        exact ⟨List.mem_map.2 ⟨r, hr, hrp⟩, by simpa using hcm⟩
    | blockUnspecified =>
      exact Or.inr (Or.inr (Or.inr (Or.inr (Or.inr (Or.inr (Or.inl ⟨rfl, "Unspecified".toList, List.mem_cons_self, by decide⟩))))))
    | @block e id h1 h2 =>
      refine Or.inr (Or.inr (Or.inr (Or.inr (Or.inr (Or.inr (Or.inl ⟨rfl, sanitize e.2.2, ?_, ?_⟩))))))
      · refine List.mem_cons_of_mem _ (List.mem_map.2 ⟨e.2.2, ?_, rfl⟩)
        rw [mem_mkSet, hl.blocks, loadBlocks_eq hd.blocks]
        exact List.mem_map.2 ⟨_, List.mem_map.2 ⟨e, h1, rfl⟩, rfl⟩
      · rw [sanitize_sanitize]; exact (sanitize_iff _ _).2 h2
    | @width w hw =>
      have hw' : ["Ambiguous", "FullWidth", "HalfWidth", "Neutral", "Narrow", "Wide", "Unspecified"].map String.toList ⊆ widthEnum.identifiers := by decide
      obtain ⟨m, hm1, hm2⟩ := List.mem_map.1 (hw' (List.mem_map.2 ⟨_, hw, rfl⟩))
      exact Or.inr (Or.inr (Or.inr (Or.inr (Or.inr (Or.inr (Or.inr ⟨rfl, m, hm1, hm2⟩))))))

end Verif.Props.Tg
