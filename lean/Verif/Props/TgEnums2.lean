import Verif.Props.TgEnums

/-!
# C55: enumerators are declared once, fit their type, are printed by their names, and suffice for the generated code
-/

namespace Verif.Props.Tg
open Verif.Utf8 (Mem)
open Verif.Tg
open Verif.Spec.Ucd Verif.Spec.UcdFile

/-- Without an underscore in the identifier nothing was replaced. -/
theorem sanitize_back {f s : Str} (h : sanitize f = s) (hs : '_' ∉ s) : f = s := by
  rw [← h]
  symm
  apply sanitize_plain
  intro c hc
  have : (if c = ' ' ∨ c = '-' then '_' else c) ∈ s := by
    rw [← h]; exact List.mem_map.2 ⟨c, hc, rfl⟩
  by_cases hh : c = ' ' ∨ c = '-'
  · rw [if_pos hh] at this; exact absurd this hs
  · tauto

theorem nodup_sanitize {l : List Str} (h : l.Nodup) (hi : ∀ a ∈ l, ∀ b ∈ l, sanitize a = sanitize b → a = b) : (l.map sanitize).Nodup :=
  List.Nodup.map_on hi h

theorem versioned_names (al : List (Str × Str)) (vs : List ((Nat × Nat) × Str)) (h : versioned al = some vs) :
    vs.map (·.2) = (al.filter fun e => decide (e.2 ≠ "Unassigned".toList)).map (·.2) := by
  induction al generalizing vs with
  | nil => unfold versioned at h; injection h with h; subst h; rfl
  | cons e al ih =>
    obtain ⟨a, g⟩ := e
    unfold versioned at h
    by_cases hg : g = "Unassigned".toList
    · rw [if_pos hg] at h
      rw [ih vs h, List.filter_cons_of_neg (fun h => (of_decide_eq_true h) hg)]
    · rw [if_neg hg] at h
      cases hp : parseVersion g with
      | none => rw [hp] at h; simp at h
      | some p =>
        cases hv : versioned al with
        | none => rw [hp, hv] at h; simp at h
        | some vs' =>
          rw [hp, hv] at h
          injection h with h
          subst h
          rw [List.filter_cons_of_pos (a := (a, g)) (by exact decide_eq_true hg), List.map_cons, List.map_cons, ih vs' hv]

theorem versSort_perm (vs : List ((Nat × Nat) × Str)) : (vs.foldr versInsert []).Perm vs := by
  have ins : ∀ k (s : List ((Nat × Nat) × Str)), (versInsert k s).Perm (k :: s) := by
    intro k s
    induction s with
    | nil => exact List.Perm.refl _
    | cons x s ih =>
      unfold versInsert
      split
      · exact (List.Perm.cons x ih).trans (List.Perm.swap k x s)
      · exact List.Perm.refl _
  induction vs with
  | nil => exact List.Perm.refl _
  | cons v vs ih => exact (ins v _).trans (List.Perm.cons v ih)

theorem pva_names_sublist (l : Aliases) :
    ((l.filterMap (fun e => pvaEnum e.1 e.2)).map EnumDef.name).Sublist (l.map (·.1)) := by
  induction l with
  | nil => exact List.Sublist.refl _
  | cons e l ih =>
    rw [List.filterMap_cons, List.map_cons]
    cases h : pvaEnum e.1 e.2 with
    | none => exact List.Sublist.cons _ ih
    | some d =>
      have : d.name = e.1 := by
        unfold pvaEnum at h
        split at h
        · exact absurd h (by simp only [reduceCtorEq, not_false_eq_true])
        split at h
        · exact absurd h (by simp only [reduceCtorEq, not_false_eq_true])
        split at h
        · exact absurd h (by simp only [reduceCtorEq, not_false_eq_true])
        · injection h with h; rw [← h]
      simp only [List.map_cons, this]
      exact List.Sublist.cons_cons _ ih

/-- **C55, no name is declared twice.** If no two titles of the data files turn into the same identifier, then the
enumerations of the generated header have different names, and the enumerators of each of them have different names. -/
theorem C55_unique {F D U N} (hl : Loads F D) (hd : Describes F U) (hc : Complete U N) (hf : ∀ s ∈ U.aliases, Functional s.2)
    (hn : NoClash U N) (enums : List EnumDef) (he : collectEnums D = some enums) :
    (enums.map EnumDef.name).Nodup ∧ ∀ d ∈ enums, d.identifiers.Nodup := by
  obtain ⟨ages, hag, -⟩ := input_ages hl hd hc
  obtain ⟨ma, hma1, hma2⟩ := C53_aliases hl hd hc.titles "Age".toList (by decide) N.age hc.ageIn (hf _ hc.ageIn)
  have hpva : findPva D "Age".toList = ma := by unfold findPva; rw [hma1]; rfl
  have hmem : ∀ x, x ∈ ma ↔ x ∈ N.age := by
    have := (findPva_spec hl hd hc.titles "Age".toList (by decide) N.age hc.ageIn (hf _ hc.ageIn)).1
    rw [hpva] at this; exact this
  have hag' : ageMembers ma = some ages := by rw [← hpva]; exact hag
  have hmand : ma.Nodup := by
    have := (aliases_mem hl hd hc.titles "Age".toList ma).1 ((mem_amFind _ (aliases_ok hl hd) _ _).2 hma1)
    obtain ⟨-, es, -, rfl⟩ := this
    exact amOk_nodup (aliasMap_ok _ _ List.Pairwise.nil)
  -- the identifiers of the ages
  have hageN : (ages.map sanitize).Nodup := by
    unfold ageMembers at hag'
    cases hv : versioned ma with
    | none => rw [hv] at hag'; exact absurd hag' (by simp only [Option.map_none, reduceCtorEq, not_false_eq_true])
    | some vs =>
      rw [hv] at hag'
      injection hag' with hag'
      subst hag'
      rw [List.map_cons, List.nodup_cons]
      have hmap : ((vs.foldr versInsert []).map (·.2)).Perm ((ma.filter fun e => decide (e.2 ≠ "Unassigned".toList)).map (·.2)) := by
        rw [← versioned_names _ _ hv]
        exact (versSort_perm vs).map _
      constructor
      · intro h
        obtain ⟨f, h1, h2⟩ := List.mem_map.1 h
        have hf' : f = "Unassigned".toList := sanitize_back (s := "Unassigned".toList) (by rw [h2]; decide) (by decide)
        rw [hmap.mem_iff] at h1
        obtain ⟨x, hx, rfl⟩ := List.mem_map.1 h1
        rw [List.mem_filter] at hx
        exact (of_decide_eq_true hx.2) hf'
      · rw [(hmap.map sanitize).nodup_iff, List.map_map]
        apply List.Nodup.map_on _ (hmand.filter _)
        rintro ⟨a, f⟩ hx ⟨b, g⟩ hy hxy
        rw [List.mem_filter] at hx hy
        have h1 := (hmem _).1 hx.1
        have h2 := (hmem _).1 hy.1
        have hab := hn.ages a f b g h1 h2 (of_decide_eq_true hx.2) ((clash_iff _ _).2 hxy)
        subst hab
        rw [hc.ageOk.func _ _ _ h1 h2]
  have hageE : ∃ l, ageEnum D = some l ∧ (l = [] ∨ l = [⟨"Age".toList, ages⟩]) := by
    unfold ageEnum
    rw [hma1]
    by_cases hm : ma = []
    · exact ⟨[], by simp only [hm, if_true], Or.inl rfl⟩
    · exact ⟨_, by simp only [if_neg hm, hag', Option.map_some], Or.inr rfl⟩
  obtain ⟨age, hae, hacase⟩ := hageE
  have hage1 : age.map EnumDef.name = [] ∨ age.map EnumDef.name = ["Age".toList] := by
    rcases hacase with rfl | rfl
    · exact Or.inl rfl
    · exact Or.inr rfl
  have hage2 : ∀ d ∈ age, d.identifiers.Nodup := by
    rcases hacase with rfl | rfl
    · intro d h; exact absurd h (by simp)
    · intro d h
      rw [List.mem_singleton] at h
      rw [h]; exact hageN
  -- the sections
  have hsec : ∀ d ∈ D.aliases.filterMap (fun e => pvaEnum e.1 e.2), d.identifiers.Nodup ∧ d.name ∉ ["Plane", "Age", "Core_Property", "General_Category", "Script", "Block", "EastAsianWidth"].map String.toList := by
    intro d hd'
    obtain ⟨⟨prop, m⟩, hm, hp⟩ := List.mem_filterMap.1 hd'
    obtain ⟨hb, es, hs, rfl⟩ := (aliases_mem hl hd hc.titles prop m).1 hm
    have hfe := hf _ hs
    simp only at hp
    unfold pvaEnum at hp
    split at hp
    · exact absurd hp (by simp only [reduceCtorEq, not_false_eq_true])
    rename_i h1
    split at hp
    · exact absurd hp (by simp only [reduceCtorEq, not_false_eq_true])
    rename_i h2
    split at hp
    · exact absurd hp (by simp only [reduceCtorEq, not_false_eq_true])
    rename_i h3
    injection hp with hp
    have hel : prop ≠ "Script".toList ∧ prop ≠ "General_Category".toList ∧ prop ≠ "EastAsianWidth".toList ∧ prop ≠ "Age".toList := by
      unfold elsewhere at h3
      simp only [Bool.or_eq_true, decide_eq_true_eq, not_or] at h3
      exact ⟨h3.1.1.1, h3.1.1.2, h3.1.2, h3.2⟩
    have hv : ValueSection U prop es := by
      refine ⟨hs, ?_, fun h => h2 ((yesNo_iff hfe).2 h), ?_⟩
      · intro h
        apply h1
        rw [h]; rfl
      · simp only [List.map_cons, List.map_nil, List.mem_cons, List.not_mem_nil, or_false, not_or]
        exact ⟨hel.1, hel.2.1, hel.2.2.1, hel.2.2.2, hb⟩
    constructor
    · rw [← hp]
      show (((if prop = "Grapheme_Cluster_Break".toList then ["Undefined".toList] else []) ++ sortStrs ((aliasMap es []).map (·.2))).map sanitize).Nodup
      have hrest : ((sortStrs ((aliasMap es []).map (·.2))).map sanitize).Nodup := by
        rw [((sortStrs_perm _).map sanitize).nodup_iff, List.map_map]
        apply List.Nodup.map_on _ (amOk_nodup (aliasMap_ok es [] List.Pairwise.nil))
        rintro ⟨a, f⟩ hx ⟨b, g⟩ hy hxy
        rw [aliasMap_mem hfe] at hx hy
        have hab := hn.values prop es hv a f b g hx hy ((clash_iff _ _).2 hxy)
        subst hab
        rw [hfe _ _ _ hx hy]
      by_cases hg : prop = "Grapheme_Cluster_Break".toList
      · rw [if_pos hg, List.singleton_append, List.map_cons, List.nodup_cons]
        refine ⟨?_, hrest⟩
        intro h
        obtain ⟨f, h4, h5⟩ := List.mem_map.1 h
        rw [mem_sortStrs] at h4
        obtain ⟨⟨a, f'⟩, hx, rfl⟩ := List.mem_map.1 h4
        rw [aliasMap_mem hfe] at hx
        have hes : es = N.gcb := by
          have hinj := List.inj_on_of_nodup_map hc.titles
          have := hinj hs hc.gcbIn (by simpa using hg)
          injection this
        rw [hes] at hx
        exact hn.undefined a f' hx ((clash_iff _ _).2 h5)
      · rw [if_neg hg, List.nil_append]; exact hrest
    · rw [← hp]
      simp only [List.map_cons, List.map_nil, List.mem_cons, List.not_mem_nil, or_false, not_or]
      have ht := hn.titles _ hs
      exact ⟨ht.1, hel.2.2.2, ht.2, hel.2.1, hel.1, hb, hel.2.2.1⟩
  have hsecN : ((D.aliases.filterMap (fun e => pvaEnum e.1 e.2)).map EnumDef.name).Nodup :=
    (pva_names_sublist _).nodup (amOk_keys (aliases_ok hl hd))
  unfold collectEnums at he
  rw [hae] at he
  injection he with he
  subst he
  obtain ⟨e1, -⟩ := input_entries hl hd hc
  obtain ⟨g1, g2⟩ := gcats_mem hl hd hc
  constructor
  · -- names
    rw [List.map_cons, List.map_append, List.map_append]
    have hno : ∀ n ∈ (D.aliases.filterMap (fun e => pvaEnum e.1 e.2)).map EnumDef.name,
        n ∉ ["Plane", "Age", "Core_Property", "General_Category", "Script", "Block", "EastAsianWidth"].map String.toList := by
      intro n h
      obtain ⟨d, hd', rfl⟩ := List.mem_map.1 h
      exact (hsec d hd').2
    generalize (D.aliases.filterMap (fun e => pvaEnum e.1 e.2)).map EnumDef.name = secs at hsecN hno
    have hfix : [coreEnum D, gcEnum D, scriptEnum D, blockEnum D, widthEnum].map EnumDef.name =
        ["Core_Property", "General_Category", "Script", "Block", "EastAsianWidth"].map String.toList := rfl
    rw [hfix]
    show (["Plane".toList] ++ (age.map EnumDef.name ++ (secs ++ _))).Nodup
    have hA : (secs ++ ["Core_Property", "General_Category", "Script", "Block", "EastAsianWidth"].map String.toList).Nodup := by
      rw [List.nodup_append]
      refine ⟨hsecN, by decide, ?_⟩
      intro a ha b hb hab
      apply hno a ha
      rw [hab]
      have : ["Core_Property", "General_Category", "Script", "Block", "EastAsianWidth"].map String.toList ⊆
        ["Plane", "Age", "Core_Property", "General_Category", "Script", "Block", "EastAsianWidth"].map String.toList := by decide
      exact this hb
    have hB : "Age".toList ∉ secs ++ ["Core_Property", "General_Category", "Script", "Block", "EastAsianWidth"].map String.toList := by
      intro h
      rcases List.mem_append.1 h with h | h
      · exact hno _ h (by decide)
      · revert h; decide
    have hC : "Plane".toList ∉ secs ++ ["Core_Property", "General_Category", "Script", "Block", "EastAsianWidth"].map String.toList := by
      intro h
      rcases List.mem_append.1 h with h | h
      · exact hno _ h (by decide)
      · revert h; decide
    rcases hage1 with h | h <;> rw [h]
    · rw [List.nil_append, List.singleton_append, List.nodup_cons]; exact ⟨hC, hA⟩
    · rw [List.singleton_append, List.singleton_append, List.nodup_cons, List.nodup_cons]
      refine ⟨?_, hB, hA⟩
      intro h
      rcases List.mem_cons.1 h with h | h
      · revert h; decide
      · exact hC h
  · intro d hd'
    rcases List.mem_cons.1 hd' with rfl | hd'
    · decide +kernel
    rcases List.mem_append.1 hd' with hd' | hd'
    · exact hage2 d hd'
    rcases List.mem_append.1 hd' with hd' | hd'
    · exact (hsec d hd').1
    simp only [List.mem_cons, List.not_mem_nil, or_false] at hd'
    rcases hd' with rfl | rfl | rfl | rfl | rfl
    · -- core
      show ((D.core.map (·.1)).map sanitize).Nodup
      have hok : AmOk D.core := by
        have hs := hl.core
        rw [coreLoop_eq hd.core] at hs
        have hp := (pushAll_spec (U.core.filterMap coreKey) [] List.Pairwise.nil).1
        have key : ∀ {gs out : Groups}, SortedGroups gs out → out.map (·.1) = gs.map (·.1) := by
          intro gs out h
          unfold SortedGroups at h
          induction h with
          | nil => rfl
          | cons h _ ih => rw [List.map_cons, List.map_cons, ih, h.1]
        have hk := key hs
        unfold AmOk at hp ⊢
        rw [← List.pairwise_map (f := fun e : Str × List PRange => e.1) (R := fun a b => strLt a b = true)] at hp ⊢
        rw [hk]; exact hp
      apply nodup_sanitize (amOk_keys hok)
      intro a ha b hb hab
      obtain ⟨x, hx, -, rfl⟩ := (core_keys hl hd (complete_core hc) a).1 ha
      obtain ⟨y, hy, -, rfl⟩ := (core_keys hl hd (complete_core hc) b).1 hb
      exact hn.core x hx y hy ((clash_iff _ _).2 hab)
    · -- general category
      show ((gcNames (D.gcats.map (·.property))).map sanitize).Nodup
      have hin : ∀ f ∈ mkSet (D.gcats.map (·.property)), ∃ a, (a, f) ∈ N.gc := by
        intro f h
        rw [mem_mkSet] at h
        obtain ⟨r, hr, rfl⟩ := List.mem_map.1 h
        obtain ⟨x, hx, -, -, hx3⟩ := g1 _ (List.mem_map.2 ⟨r, hr, rfl⟩)
        exact ⟨_, hx3⟩
      unfold gcNames
      rw [List.map_cons, List.nodup_cons]
      constructor
      · intro h
        obtain ⟨f, h1, h2⟩ := List.mem_map.1 h
        obtain ⟨a, ha⟩ := hin f h1
        have : f = "Unspecified".toList := sanitize_back (s := "Unspecified".toList) (by rw [h2]; decide) (by decide)
        rw [this] at ha
        exact hc.gcReserved a ha
      · apply nodup_sanitize (mkSet_nodup _)
        intro f hf1 g hg1 hfg
        obtain ⟨a, ha⟩ := hin f hf1
        obtain ⟨b, hb⟩ := hin g hg1
        exact hn.gc a f b g ha hb ((clash_iff _ _).2 hfg)
    · -- script
      show ((scriptNames (D.scripts.map (·.property))).map sanitize).Nodup
      have hin : ∀ f ∈ otherScripts (D.scripts.map (·.property)), f ≠ "Common".toList ∧ ∃ e ∈ U.scripts, e.2.2 = f := by
        intro f h
        unfold otherScripts at h
        rw [List.mem_filter, mem_mkSet, List.mem_map] at h
        obtain ⟨⟨r, hr, rfl⟩, h2⟩ := h
        exact ⟨of_decide_eq_true h2, _, (e1 _).1 (List.mem_map.2 ⟨r, hr, rfl⟩), rfl⟩
      unfold scriptNames
      rw [List.map_cons, List.map_cons, List.map_cons, List.nodup_cons, List.nodup_cons, List.nodup_cons]
      have hx : ∀ s : Str, '_' ∉ s → sanitize s = s → (∀ e ∈ U.scripts, ¬ Clash e.2.2 s) →
          sanitize s ∉ (otherScripts (D.scripts.map (·.property))).map sanitize := by
        intro s _ _ h3 h
        obtain ⟨f, h1, h2⟩ := List.mem_map.1 h
        obtain ⟨-, e, he, rfl⟩ := hin f h1
        exact h3 e he ((clash_iff _ _).2 h2)
      refine ⟨?_, ?_, ?_, ?_⟩
      · intro h
        rcases List.mem_cons.1 h with h | h
        · revert h; decide
        rcases List.mem_cons.1 h with h | h
        · revert h; decide
        · exact hx _ (by decide) (by decide) (fun e he => (hn.scriptsReserved e he).1) h
      · intro h
        rcases List.mem_cons.1 h with h | h
        · revert h; decide
        · exact hx _ (by decide) (by decide) (fun e he => (hn.scriptsReserved e he).2) h
      · intro h
        obtain ⟨f, h1, h2⟩ := List.mem_map.1 h
        have : f = "Common".toList := sanitize_back (s := "Common".toList) (by rw [h2]; decide) (by decide)
        exact (hin f h1).1 this
      · apply nodup_sanitize
        · exact (mkSet_nodup _).filter _
        · intro f hf1 g hg1 hfg
          obtain ⟨-, x, hx1, rfl⟩ := hin f hf1
          obtain ⟨-, y, hy1, rfl⟩ := hin g hg1
          exact hn.scripts x hx1 y hy1 ((clash_iff _ _).2 hfg)
    · -- block
      show (("Unspecified".toList :: (mkSet (D.blocks.map (·.property))).map sanitize).map sanitize).Nodup
      have hin : ∀ f ∈ mkSet (D.blocks.map (·.property)), ∃ e ∈ U.blocks, e.2.2 = f := by
        intro f h
        rw [mem_mkSet, hl.blocks, loadBlocks_eq hd.blocks] at h
        obtain ⟨b, hb, rfl⟩ := List.mem_map.1 h
        obtain ⟨e, he, rfl⟩ := List.mem_map.1 hb
        exact ⟨e, he, rfl⟩
      have hss : ((mkSet (D.blocks.map (·.property))).map sanitize).map sanitize = (mkSet (D.blocks.map (·.property))).map sanitize := by
        rw [List.map_map]
        exact List.map_congr_left (fun a _ => sanitize_sanitize a)
      rw [List.map_cons, hss, List.nodup_cons]
      constructor
      · intro h
        obtain ⟨f, h1, h2⟩ := List.mem_map.1 h
        obtain ⟨e, he, rfl⟩ := hin f h1
        exact hn.blocksReserved e he ((clash_iff _ _).2 h2)
      · apply nodup_sanitize (mkSet_nodup _)
        intro f hf1 g hg1 hfg
        obtain ⟨x, hx1, rfl⟩ := hin f hf1
        obtain ⟨y, hy1, rfl⟩ := hin g hg1
        exact hn.blocks x hx1 y hy1 ((clash_iff _ _).2 hfg)
    · decide +kernel

/-- **C55, the underlying type.** Every enumerator's number fits the underlying type of its enumeration. -/
theorem C55_fits (d : EnumDef) (hsize : d.members.length < 2 ^ 64) (i : Nat) (hi : i < d.identifiers.length) : i < 2 ^ d.bits := by
  unfold EnumDef.identifiers at hi
  rw [List.length_map] at hi
  unfold EnumDef.bits minimalUint
  split
  · omega
  split
  · omega
  split
  · omega
  · omega

theorem findIdx_nodup {l : List Str} (h : l.Nodup) (i : Nat) (x : Str) (hx : l[i]? = some x) :
    l.findIdx? (fun y => decide (y = x)) = some i := by
  obtain ⟨hi, hx⟩ := List.getElem?_eq_some_iff.1 hx
  rw [List.findIdx?_eq_some_iff_getElem]
  refine ⟨hi, by simpa using hx, ?_⟩
  intro j hj
  simp only [decide_eq_true_eq]
  intro e
  rw [← hx] at e
  have := (List.Nodup.getElem_inj_iff h).1 e
  omega

/-- **C55, printing.** If the enumerators have different names, streaming or formatting the enumerator with number `i`
gives its name (as the data files spell it), and different enumerators are printed differently; a value that is no
enumerator is streamed as its number in parentheses and formatted as nothing. -/
theorem C55_print (d : EnumDef) (hn : d.identifiers.Nodup) :
    (∀ i m, d.members[i]? = some m → d.number (sanitize m) = some i ∧ d.stream i = m ∧ d.format i = m) ∧
    (∀ i j, i < d.members.length → j < d.members.length → d.stream i = d.stream j → i = j) ∧
    (∀ v, d.members.length ≤ v → d.stream v = "(".toList ++ Nat.toDigits 10 v ++ ")".toList ∧ d.format v = []) := by
  have hnum : ∀ i m, d.members[i]? = some m → d.number (sanitize m) = some i := by
    intro i m h
    unfold EnumDef.number
    apply findIdx_nodup hn
    unfold EnumDef.identifiers
    rw [List.getElem?_map, h]; rfl
  have hcase : ∀ i m, d.members[i]? = some m → d.caseOf i = some m := by
    intro i m h
    unfold EnumDef.caseOf
    have hsome : (d.members.find? (fun m => decide (d.number (sanitize m) = some i))).isSome := by
      rw [List.find?_isSome]
      exact ⟨m, List.mem_of_getElem? h, by simpa using hnum i m h⟩
    obtain ⟨m', hm'⟩ := Option.isSome_iff_exists.1 hsome
    rw [hm']
    have h1 := List.find?_some hm'
    have h2 := List.mem_of_find?_eq_some hm'
    obtain ⟨j, hj⟩ := List.mem_iff_getElem?.1 h2
    have := hnum j m' hj
    simp only [decide_eq_true_eq] at h1
    rw [this] at h1
    injection h1 with h1
    subst h1
    rw [h] at hj
    injection hj with hj
    rw [hj]
  have hst : ∀ i m, d.members[i]? = some m → d.stream i = m := by
    intro i m h
    unfold EnumDef.stream; rw [hcase i m h]
  have hnd : d.members.Nodup := List.Nodup.of_map _ hn
  refine ⟨fun i m h => ⟨hnum i m h, hst i m h, ?_⟩, ?_, ?_⟩
  · unfold EnumDef.format; rw [hcase i m h]; rfl
  · intro i j hi hj h
    have h1 : d.members[i]? = some d.members[i] := List.getElem?_eq_getElem hi
    have h2 : d.members[j]? = some d.members[j] := List.getElem?_eq_getElem hj
    rw [hst i _ h1, hst j _ h2] at h
    exact (List.Nodup.getElem_inj_iff hnd).1 h
  · intro v hv
    have : d.caseOf v = none := by
      unfold EnumDef.caseOf
      rw [List.find?_eq_none]
      intro m hm
      obtain ⟨j, hj⟩ := List.mem_iff_getElem?.1 hm
      rw [hnum j m hj]
      have := (List.getElem?_eq_some_iff.1 hj).1
      simp only [decide_eq_true_eq, Option.some.injEq]
      omega
    constructor
    · unfold EnumDef.stream; rw [this]
    · unfold EnumDef.format; rw [this]; rfl

/-- **C55, versions.** In the header, the enumerator of an earlier version has the smaller number, and `Unassigned` is 0. -/
theorem C55_age_numbers {D : Db} {enums : List EnumDef} (he : collectEnums D = some enums)
    (d : EnumDef) (hd : d ∈ enums) (hname : d.name = "Age".toList) (hids : d.identifiers.Nodup) :
    d.number "Unassigned".toList = some 0 ∧
      ∀ f g m n m' n' i j, VersionName f m n → VersionName g m' n' → Earlier m n m' n' → f ∈ d.members → g ∈ d.members →
        d.number (sanitize f) = some i → d.number (sanitize g) = some j → 0 < i ∧ i < j := by
  have hmem : ∃ al ages, ageMembers al = some ages ∧ d = ⟨"Age".toList, ages⟩ := by
    unfold collectEnums at he
    cases ha : ageEnum D with
    | none => rw [ha] at he; exact absurd he (by simp only [Option.map_none, reduceCtorEq, not_false_eq_true])
    | some age =>
      rw [ha] at he
      injection he with he
      subst he
      rcases List.mem_cons.1 hd with h | h
      · rw [h] at hname; exact absurd hname (by decide)
      rcases List.mem_append.1 h with h | h
      · unfold ageEnum at ha
        split at ha
        · injection ha with ha; rw [← ha] at h; exact absurd h (by simp)
        · rename_i al _
          split at ha
          · injection ha with ha; rw [← ha] at h; exact absurd h (by simp)
          · cases hag : ageMembers al with
            | none => rw [hag] at ha; exact absurd ha (by simp only [Option.map_none, reduceCtorEq, not_false_eq_true])
            | some ages =>
              rw [hag] at ha
              injection ha with ha
              rw [← ha, List.mem_singleton] at h
              exact ⟨al, ages, hag, h⟩
      rcases List.mem_append.1 h with h | h
      · obtain ⟨e, he1, he2⟩ := List.mem_filterMap.1 h
        have hel : elsewhere e.1 ≠ true ∧ d.name = e.1 := by
          unfold pvaEnum at he2
          split at he2
          · exact absurd he2 (by simp only [reduceCtorEq, not_false_eq_true])
          split at he2
          · exact absurd he2 (by simp only [reduceCtorEq, not_false_eq_true])
          split at he2
          · exact absurd he2 (by simp only [reduceCtorEq, not_false_eq_true])
          · rename_i h3
            injection he2 with he2
            exact ⟨h3, by rw [← he2]⟩
        rw [hname] at hel
        rw [← hel.2] at hel
        exact absurd (by decide) hel.1
      · simp only [List.mem_cons, List.not_mem_nil, or_false] at h
        rcases h with rfl | rfl | rfl | rfl | rfl
        · exact absurd (show "Core_Property".toList = "Age".toList from hname) (by decide)
        · exact absurd (show "General_Category".toList = "Age".toList from hname) (by decide)
        · exact absurd (show "Script".toList = "Age".toList from hname) (by decide)
        · exact absurd (show "Block".toList = "Age".toList from hname) (by decide)
        · exact absurd (show "EastAsianWidth".toList = "Age".toList from hname) (by decide)
  obtain ⟨al, ages, hag, rfl⟩ := hmem
  obtain ⟨h0, hord⟩ := C50_age_order al ages hag
  obtain ⟨hp, -, -⟩ := C55_print ⟨"Age".toList, ages⟩ hids
  refine ⟨?_, ?_⟩
  · have := (hp 0 "Unassigned".toList h0).1
    rw [show sanitize "Unassigned".toList = "Unassigned".toList by decide] at this
    exact this
  · intro f g m n m' n' i j hf hg hE hfm hgm hi hj
    obtain ⟨i', hi'⟩ := List.mem_iff_getElem?.1 hfm
    obtain ⟨j', hj'⟩ := List.mem_iff_getElem?.1 hgm
    have e1 := (hp i' f hi').1
    have e2 := (hp j' g hj').1
    rw [hi] at e1
    rw [hj] at e2
    injection e1 with e1
    injection e2 with e2
    subst e1 e2
    exact hord _ _ f g m n m' n' hi' hj' hf hg hE

/-! ## What the generated code refers to -/

theorem identifier_self {f : Str} (h : Plainly f) : Identifier f f := (sanitize_iff _ _).1 (sanitize_plain h)

/-- A section with a value other than `Yes` and `No` is not that of a binary property. -/
theorem not_binary {es : List (Str × Str)} {a f : Str} (h : (a, f) ∈ es) (h1 : f ≠ "Yes".toList) (h2 : f ≠ "No".toList) : ¬ Binary es := by
  rintro ⟨x, y, -, -, hall⟩
  rcases hall _ h with e | e
  · exact h1 (congrArg Prod.snd e)
  · exact h2 (congrArg Prod.snd e)

theorem names_mem {al : List (Str × Str)} {v f : Str} (h : Names al v f) : ∃ a, (a, f) ∈ al := by
  rcases h with h | ⟨-, a, h⟩
  · exact ⟨_, h⟩
  · exact ⟨_, h⟩

/-- The names are written into the generated code as they are: they contain no blank and no hyphen. -/
structure PlainNames (U : Contents) (N : ValueNames) : Prop where
  scripts : ∀ e ∈ U.scripts, Plainly e.2.2
  gc : ∀ a f, (a, f) ∈ N.gc → Plainly f
  eaw : ∀ a f, (a, f) ∈ N.eaw → Plainly f
  age : ∀ a f, (a, f) ∈ N.age → Plainly f
  gcb : ∀ a f, (a, f) ∈ N.gcb → Plainly f
  incb : ∀ a f, (a, f) ∈ N.incb → Plainly f
  wb : ∀ a f, (a, f) ∈ N.wb → Plainly f

theorem value_section {U N} (hc : Complete U N) :
    ValueSection U "Grapheme_Cluster_Break".toList N.gcb ∧ ValueSection U "East_Asian_Width".toList N.eaw ∧
    ValueSection U "Indic_Conjunct_Break".toList N.incb ∧ ValueSection U "Word_Break".toList N.wb := by
  obtain ⟨a1, h1⟩ := names_mem (hc.gcbNeeds "Other" (by simp))
  obtain ⟨a2, h2⟩ := names_mem (hc.eawNeeds "Narrow" (by simp))
  obtain ⟨a3, h3⟩ := names_mem hc.incbNeeds
  obtain ⟨a4, h4⟩ := names_mem hc.wbNeeds
  refine ⟨⟨hc.gcbIn, ?_, not_binary h1 (by decide) (by decide), by decide⟩, ⟨hc.eawIn, ?_, not_binary h2 (by decide) (by decide), by decide⟩,
    ⟨hc.incbIn, ?_, not_binary h3 (by decide) (by decide), by decide⟩, ⟨hc.wbIn, ?_, not_binary h4 (by decide) (by decide), by decide⟩⟩
  · intro e; rw [e] at h1; exact absurd h1 (by simp only [List.not_mem_nil, not_false_eq_true])
  · intro e; rw [e] at h2; exact absurd h2 (by simp only [List.not_mem_nil, not_false_eq_true])
  · intro e; rw [e] at h3; exact absurd h3 (by simp only [List.not_mem_nil, not_false_eq_true])
  · intro e; rw [e] at h4; exact absurd h4 (by simp only [List.not_mem_nil, not_false_eq_true])

/-- **C55, the properties table.** Every enumerator in a row of the properties table (C54) is an enumerator of the
generated header. -/
theorem C55_row {U N} (hc : Complete U N) (hp : PlainNames U N) (hage : N.age ≠ []) {c : Nat} {r : Row} (h : Row.Says U N c r) :
    Enumerator U N "Script".toList r.script ∧ Enumerator U N "General_Category".toList r.gc ∧
    Enumerator U N "East_Asian_Width".toList r.eaw ∧ Enumerator U N "Age".toList r.age ∧
    Enumerator U N "Grapheme_Cluster_Break".toList r.gcb ∧ Enumerator U N "Indic_Conjunct_Break".toList r.incb ∧
    Enumerator U N "Word_Break".toList r.wb := by
  obtain ⟨s1, s2, s3, s4⟩ := value_section hc
  have hnamed : ∀ {prop es al} {d v : Str}, ValueSection U prop al → (∀ a f, (a, f) ∈ al → Plainly f) → (∃ a, (a, d) ∈ al) →
      NamedValueOf es al d c v → Enumerator U N prop v := by
    intro prop es al d v hs hpl hd hv
    have : ∃ a, (a, v) ∈ al := by
      rcases hv with ⟨w, -, hw⟩ | ⟨-, rfl⟩
      · exact names_mem hw
      · exact hd
    obtain ⟨a, ha⟩ := this
    exact .value hs ha (identifier_self (hpl _ _ ha))
  refine ⟨?_, ?_, ?_, ?_, ?_, ?_, ?_⟩
  · rcases h.script with ⟨e, he, -, -, hv⟩ | ⟨-, hv⟩
    · rw [← hv]; exact .script he (identifier_self (hp.scripts e he))
    · rw [hv]; exact .scriptFixed (s := "Unknown") (by simp)
  · rcases h.gc with ⟨ab, ⟨e, he, -, -, hv⟩, hg⟩ | ⟨-, hv⟩
    · rw [← hv] at hg
      exact .gc he hg (identifier_self (hp.gc _ _ hg))
    · obtain ⟨e, he, hg⟩ := hc.gcNeeds
      rw [hv]
      exact .gc he hg (identifier_self (hp.gc _ _ hg))
  · exact hnamed s2 hp.eaw (names_mem (hc.eawNeeds "Narrow" (by simp))) h.eaw
  · rcases h.age with ⟨w, -, hw⟩ | ⟨-, hv⟩
    · obtain ⟨a, ha⟩ := names_mem hw
      exact .age ha (identifier_self (hp.age _ _ ha))
    · rw [hv]; exact .unassigned hage
  · exact hnamed s1 hp.gcb (names_mem (hc.gcbNeeds "Other" (by simp))) h.gcb
  · have : ∃ a, (a, r.incb) ∈ N.incb := by
      rcases h.incb with ⟨w, -, hw⟩ | ⟨-, hv⟩
      · exact names_mem hw
      · rw [hv]; exact names_mem hc.incbNeeds
    obtain ⟨a, ha⟩ := this
    exact .value s3 ha (identifier_self (hp.incb _ _ ha))
  · exact hnamed s4 hp.wb (names_mem hc.wbNeeds) h.wb

/-- `search` returns a value of the table. -/
theorem search_mem {α : Type} (tab : List (Tables.Entry α)) (c : Nat) (v : α) (h : Tables.search tab c = .ok (some v)) :
    ∃ e ∈ tab, e.val = v := by
  have at_mem : ∀ i (x : Tables.Entry α), Tables.at? tab i = .ok x → x ∈ tab := by
    intro i x hx
    unfold Tables.at? at hx
    split at hx
    · rename_i y hy
      injection hx with hx
      rw [← hx]; exact List.mem_of_getElem? hy
    · exact absurd hx (by simp only [reduceCtorEq, not_false_eq_true])
  have key : ∀ n a b, b - a = n → Tables.searchLoop tab c a b = .ok (some v) → ∃ e ∈ tab, e.val = v := by
    intro n
    induction n using Nat.strongRecOn with
    | ind n ih =>
      intro a b hn h
      unfold Tables.searchLoop at h
      split at h
      · split at h
        · exact absurd h (by simp only [reduceCtorEq, not_false_eq_true])
        · rename_i I hI
          split at h
          · split at h
            · exact absurd h (by simp)
            · exact ih _ (by omega) _ _ rfl h
          · split at h
            · split at h
              · exact absurd h (by simp)
              · exact ih _ (by omega) _ _ rfl h
            · injection h with h
              injection h with h
              exact ⟨I, at_mem _ _ hI, h⟩
      · split at h
        · split at h
          · exact absurd h (by simp only [reduceCtorEq, not_false_eq_true])
          · rename_i I hI
            split at h
            · injection h with h
              injection h with h
              exact ⟨I, at_mem _ _ hI, h⟩
            · exact absurd h (by simp)
        · exact absurd h (by simp)
  unfold Tables.search at h
  exact key _ _ _ rfl h

theorem valueOr_mem {tab : List (Tables.Entry Str)} {d : Str} {c : Nat} {v : Str} (h : valueOr tab d c = .ok v) :
    v = d ∨ ∃ e ∈ tab, e.val = v := by
  unfold valueOr at h
  cases hs : Tables.search tab c with
  | oob => rw [hs] at h; exact absurd h (by simp only [orElse, reduceCtorEq, not_false_eq_true])
  | ok r =>
    rw [hs] at h
    cases r with
    | none => left; injection h with h; exact h.symm
    | some w => right; injection h with h; rw [← h]; exact search_mem _ _ _ hs

/-- **C55, the query functions.** Whatever a query function of `ucd.h` returns is an enumerator of the generated header -
for every value of `char32_t`, in whatever order the files list their entries. -/
theorem C55_query {F D U N} (hl : Loads F D) (hd : Describes F U) (hc : Complete U N) (hp : PlainNames U N) (c : Nat) :
    (∀ v, apiPlane c = .ok v → Enumerator U N "Plane".toList v) ∧
    (∀ v, apiGc D c = .ok v → Enumerator U N "General_Category".toList v) ∧
    (∀ v, apiScript D c = .ok v → Enumerator U N "Script".toList v) ∧
    (∀ v, apiBlock D c = .ok v → Enumerator U N "Block".toList v) ∧
    (∀ v, apiEaw D c = .ok v → Enumerator U N "EastAsianWidth".toList v) ∧
    (∀ m s v, amFind D.aliases "Age".toList = some m → apiMakeAge m s = some v → Enumerator U N "Age".toList v) := by
  obtain ⟨e1, -⟩ := input_entries hl hd hc
  obtain ⟨g1, g2⟩ := gcats_mem hl hd hc
  refine ⟨fun v h => ?_, fun v h => ?_, fun v h => ?_, fun v h => ?_, fun v h => ?_, fun m s v hm h => ?_⟩
  · have hid : v ∈ planeEnum.identifiers := by
      rcases valueOr_mem h with rfl | ⟨e, he, rfl⟩
      · decide +kernel
      · have : ∀ e ∈ propTable (planes.map fun p => { p with property := sanitize p.property }), e.val ∈ planeEnum.identifiers := by decide +kernel
        exact this e he
    obtain ⟨n, hn, rfl⟩ := (plane_ids v).1 hid
    exact .plane hn
  · rcases valueOr_mem h with rfl | ⟨e, he, rfl⟩
    · exact .gcUnspecified
    · obtain ⟨r, hr, rfl⟩ := List.mem_map.1 he
      obtain ⟨x, hx, -, -, hx3⟩ := g1 _ (List.mem_map.2 ⟨r, hr, rfl⟩)
      exact .gc hx hx3 (identifier_self (hp.gc _ _ hx3))
  · rcases valueOr_mem h with rfl | ⟨e, he, rfl⟩
    · exact .scriptFixed (s := "Unknown") (by simp)
    · obtain ⟨r, hr, rfl⟩ := List.mem_map.1 he
      have := (e1 _).1 (List.mem_map.2 ⟨r, hr, rfl⟩)
      exact .script this (identifier_self (hp.scripts _ this))
  · rcases valueOr_mem h with rfl | ⟨e, he, rfl⟩
    · exact .blockUnspecified
    · obtain ⟨r, hr, rfl⟩ := List.mem_map.1 he
      obtain ⟨b, hb, rfl⟩ := List.mem_map.1 hr
      rw [hl.blocks, loadBlocks_eq hd.blocks] at hb
      obtain ⟨x, hx, rfl⟩ := List.mem_map.1 hb
      exact .block hx ((sanitize_iff _ _).1 rfl)
  · have hw : ∀ a, ∃ w ∈ ["Ambiguous", "FullWidth", "HalfWidth", "Neutral", "Narrow", "Wide", "Unspecified"], widthName a = w.toList := by
      intro a
      unfold widthName
      split
      · exact ⟨"Ambiguous", by simp, rfl⟩
      split
      · exact ⟨"FullWidth", by simp, rfl⟩
      split
      · exact ⟨"HalfWidth", by simp, rfl⟩
      split
      · exact ⟨"Neutral", by simp, rfl⟩
      split
      · exact ⟨"Narrow", by simp, rfl⟩
      split
      · exact ⟨"Wide", by simp, rfl⟩
      · exact ⟨"Unspecified", by simp, rfl⟩
    rcases valueOr_mem h with rfl | ⟨e, he, rfl⟩
    · exact .width (w := "Unspecified") (by simp)
    · obtain ⟨r, hr, rfl⟩ := List.mem_map.1 he
      obtain ⟨b, hb, rfl⟩ := List.mem_map.1 hr
      obtain ⟨w, hw1, hw2⟩ := hw b.property
      show Enumerator U N "EastAsianWidth".toList (widthName b.property)
      rw [hw2]
      exact .width hw1
  · unfold apiMakeAge at h
    have hx := amFind_mem _ _ _ h
    rw [List.mem_filter] at hx
    have hmem : (s, v) ∈ N.age := by
      have := (findPva_spec hl hd hc.titles "Age".toList (by decide) N.age hc.ageIn hc.ageOk.func).1 (s, v)
      unfold findPva at this
      rw [hm] at this
      exact this.1 hx.1
    exact .age hmem (identifier_self (hp.age _ _ hmem))

/-- **C55, script extensions and break values.** If every script of ScriptExtensions.txt also occurs in Scripts.txt, the
scripts `script_extensions` lists are enumerators; if the break file uses the long names, so is what
`grapheme_cluster_break` returns. -/
theorem C55_query_lists {F D U N} (hl : Loads F D) (hd : Describes F U) (hc : Complete U N) (hp : PlainNames U N)
    (al : List (Str × Str)) (hs : ("Script".toList, al) ∈ U.aliases) (hf : Functional al)
    (hw : ∀ e ∈ U.sce, ∃ ws, WordsOf e.2.2 ws ∧ ∀ w ∈ ws, Letters w ∧ ∃ n, (w, n) ∈ al)
    (hused : ∀ w n, (w, n) ∈ al → (∃ e ∈ U.sce, ∃ ws, WordsOf e.2.2 ws ∧ w ∈ ws) → ∃ x ∈ U.scripts, x.2.2 = n)
    (hsep : Separate U.sce) (hne : U.sce ≠ []) (hsize : U.sce.length < 2 ^ 64) (c : Nat) :
    (∃ m, amFind D.aliases "Script".toList = some m ∧
      ∀ l, apiScriptExtensions D m c = .ok (some l) → ∀ s ∈ l, Enumerator U N "Script".toList s) ∧
    ((∀ e ∈ allOf U.gcb, ∃ a, (a, e.2.2) ∈ N.gcb) → ∀ group r v, apiBreak D group c = some r → r = .ok v →
      Enumerator U N "Grapheme_Cluster_Break".toList v) := by
  constructor
  · obtain ⟨m, r, m1, m2, -, m4⟩ := C53_script_extensions hl hd hc.titles al hs hf hsep hne hsize hw c
    refine ⟨m, m1, fun l hl' s hsl => ?_⟩
    rw [m2] at hl'
    injection hl' with hl'
    obtain ⟨v, ws, ns, ⟨e, he, -, -, rfl⟩, hws, hall, hperm⟩ := m4 l hl'
    have hsn := hperm.mem_iff.1 hsl
    obtain ⟨w, hww, hwn⟩ : ∃ w ∈ ws, (w, s) ∈ al := by
      clear m4 hws hperm
      induction hall with
      | nil => exact absurd hsn (by simp)
      | cons h _ ih =>
        rcases List.mem_cons.1 hsn with rfl | hsn
        · exact ⟨_, by simp, h⟩
        · obtain ⟨w, hw, h⟩ := ih hsn
          exact ⟨w, by simp [hw], h⟩
    obtain ⟨x, hx, hxn⟩ := hused w s hwn ⟨e, he, ws, hws, hww⟩
    subst hxn
    exact .script hx (identifier_self (hp.scripts x hx))
  · intro hlong group r v hr hrv
    subst hrv
    unfold apiBreak at hr
    obtain ⟨rs, hrs, hv⟩ := Option.map_eq_some_iff.1 hr
    obtain ⟨s1, -⟩ := value_section hc
    rcases valueOr_mem hv with rfl | ⟨e, he, rfl⟩
    · exact .undefined s1
    · obtain ⟨x, hx, rfl⟩ := List.mem_map.1 he
      have hg : (x.first, x.last, x.property) ∈ gents byValue D.gcb := by
        rw [gents_mem]
        exact ⟨(group, rs), amFind_mem _ _ _ hrs, x, hx, rfl⟩
      have := ((input_entries hl hd hc).2.2.2.2.2.1 _).1 hg
      obtain ⟨a, ha⟩ := hlong _ this
      exact .value s1 ha (identifier_self (hp.gcb _ _ ha))

end Verif.Props.Tg
