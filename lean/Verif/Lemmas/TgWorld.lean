import Verif.Props.TgProgramApi
/-!
# A program with the generated files exists: no name is declared twice

`C71_api` speaks of every program in which the names mean what the files declare.  Here: there is one, if no two tables and no two enumerators of an enumeration have the
same name.
-/

namespace Verif.Tg.World

open Verif Verif.Tg Verif.Props.Tg
open Verif.Spec.Ucd
open Verif.Spec.UcdFile
open Verif.Spec.Cxx (Ident Item Piece Part Consists Means Sig World Val)

/-! ## Linking -/

theorem readSig_scope {scope : List Str} {ts : List Spec.Cxx.Tok} {g : Sig} (h : Spec.Cxx.readSig scope ts = some g) : g.scope = scope := by
  unfold Spec.Cxx.readSig at h
  split at h
  · split at h
    · split at h
      · cases h; rfl
      · cases h
    · split at h
      · cases h; rfl
      · cases h
    · cases h
  · cases h

theorem defines_scope {q : Piece} {g : Sig} (h : q.defines = some g) : g.scope = q.scope := by
  unfold Spec.Cxx.Piece.defines at h
  split at h
  · exact readSig_scope h
  · cases h

/-- Names mean what the file declares if they mean what it was written to declare. -/
theorem linked_of {ps : List Piece} {xs : List Part} (h : List.Forall₂ Means ps xs) {scope : List Str} {W : World}
    (hx : ∀ x ∈ xs, (∃ i, x = .item scope i ∧ W.Has i) ∨ ∃ g code, x = .defined g code ∧ g.scope ≠ scope) : Linked W ps scope := by
  induction h with
  | nil => intro q hq; cases hq
  | @cons a b as bs hab _ ih =>
    intro q hq hs item hu
    rcases List.mem_cons.1 hq with rfl | hq
    · rcases hx b (List.mem_cons_self ..) with ⟨i, rfl, hi⟩ | ⟨g, code, rfl, hg⟩
      · have := Spec.Cxx.unit_unique hab.2 hu
        cases this with
        | cons h1 _ => exact has_same h1 hi
      · exact absurd ((defines_scope hab.1).trans hs) hg
    · exact ih (fun x hx' => hx x (List.mem_cons_of_mem _ hx')) q hq hs item hu

/-! ## The tables of `ucd.cpp` -/

def pairOf (g : Str × List (PRange × Str)) : Str × List Val := (g.1, g.2.map fun r => .list [.num r.1.first, .num r.1.last])

def rowsOf (enum : Str) (rows : List (PRange × Str)) : Str × List Val :=
  (enum, rows.map fun r => .list [.list [.num r.1.first, .num r.1.last], .name ["unicode".toList, enum, r.1.property]])

/-- The tables with their elements, by kind. -/
def kindList (D : UcdData) : TableKind → List (Str × List Val)
  | .fixed => [rowsOf "Plane".toList (D.planes.map fun r => ({ r.1 with property := sanitize r.1.property }, [])), rowsOf "General_Category".toList D.gcats,
      rowsOf "Script".toList D.scripts, ("sce".toList, D.sce.map fun r =>
     .list [.list [.num r.1.first, .num r.1.last], .list [.name [sceKey r.1.props, "data".toList], .name [sceKey r.1.props, "size".toList]]]),
      rowsOf "Block".toList (D.blocks.map fun r => ({ r with property := sanitize r.property }, [])),
      rowsOf "EastAsianWidth".toList ((mergeText D.eaw).map fun m => ({ m.range with property := widthName m.range.property }, [])),
      ("Bidi_Mirrored".toList, D.mirrored.map fun r => .list [.num r.1, .num r.2]), ("Bidi_Mirroring_Glyph".toList, D.glyphs.map fun r => .list [.num r.1, .num r.2])]
  | .core => D.core.map pairOf
  | .category => D.gcMap.map pairOf
  | .breaks => D.breaks.map fun g => rowsOf g.1 g.2
  | .emoji => D.emoji.map pairOf
  | .scripts => (sceArrays D.scriptAliases (D.sce.map (·.1)) []).map fun a => (a.1, a.2.map fun s => .name ["unicode".toList, "Script".toList, s])

def IsTable (D : UcdData) (x : Part) : Prop := ∃ k t n vs, x = .item inTables (.table t n vs) ∧ (n, vs) ∈ kindList D k

def IsFunction (x : Part) : Prop := ∃ g code, x = .defined g code ∧ g.scope ≠ inTables

theorem out_unicode : inUnicode ≠ inTables := by decide
theorem out_category : inCategory ≠ inTables := by decide

theorem parts_kinds (D : UcdData) : ∀ x ∈ sourceParts D, IsTable D x ∨ IsFunction x := by
  have cons : ∀ {x : Part} {l : List Part} {p : Part → Prop}, p x → (∀ y ∈ l, p y) → ∀ y ∈ x :: l, p y := fun h1 h2 => List.forall_mem_cons.2 ⟨h1, h2⟩
  have nil : ∀ {p : Part → Prop}, ∀ y ∈ ([] : List Part), p y := fun y h => by cases h
  have map : ∀ {α : Type} {f : α → Part} {l : List α} {p : Part → Prop}, (∀ a ∈ l, p (f a)) → ∀ y ∈ l.map f, p y := by
    intro α f l p h y hy
    obtain ⟨a, ha, rfl⟩ := List.mem_map.1 hy
    exact h a ha
  have app : ∀ {l m : List Part} {p : Part → Prop}, (∀ y ∈ l, p y) → (∀ y ∈ m, p y) → ∀ y ∈ l ++ m, p y := by
    intro l m p h1 h2 y hy
    rcases List.mem_append.1 hy with h | h
    · exact h1 y h
    · exact h2 y h
  have tab : ∀ k {t n vs}, (n, vs) ∈ kindList D k → IsTable D (.item inTables (.table t n vs)) ∨ IsFunction (.item inTables (.table t n vs)) :=
    fun k {t n vs} h => .inl ⟨k, t, n, vs, rfl, h⟩
  have fn : ∀ {g : Sig} {code : Str}, g.scope ≠ inTables → IsTable D (.defined g code) ∨ IsFunction (.defined g code) := fun {g code} h => .inr ⟨g, code, rfl, h⟩
  have fix : ∀ {t n vs} (i : Nat), (kindList D .fixed)[i]? = some (n, vs) → IsTable D (.item inTables (.table t n vs)) ∨ IsFunction (.item inTables (.table t n vs)) :=
    fun {t n vs} i h => tab .fixed (List.mem_of_getElem? h)
  refine app (app (app (app (app (app (app (app (app (app (app (app (app ?_ ?_) ?_) ?_) ?_) ?_) ?_) ?_) ?_) ?_) ?_) ?_) ?_) ?_
  · exact cons (fix 0 rfl) (cons (fn out_unicode) nil)
  · exact map fun a ha => tab .core (List.mem_map_of_mem ha)
  · exact cons (fn out_unicode) (cons (fix 1 rfl) (cons (fn out_category) nil))
  · exact map fun a ha => tab .category (List.mem_map_of_mem ha)
  · exact cons (fn out_unicode) (cons (fix 2 rfl) (cons (fn out_unicode) nil))
  · exact map fun a ha => tab .scripts (List.mem_map.2 ⟨a, ha, rfl⟩)
  · exact cons (fix 3 rfl) (cons (fn out_unicode) (cons (fix 4 rfl) (cons (fn out_unicode) nil)))
  · exact map fun a ha => tab .breaks (List.mem_map.2 ⟨a, ha, rfl⟩)
  · exact map fun a ha => fn out_unicode
  · exact cons (fix 5 rfl) (cons (fn out_unicode) nil)
  · exact map fun a ha => tab .emoji (List.mem_map_of_mem ha)
  · exact map fun a ha => fn out_unicode
  · exact cons (fix 6 rfl) (cons (fix 7 rfl) (cons (fn out_unicode) (cons (fn out_unicode) nil)))
  · exact map fun a ha => fn out_unicode

/-! ## Their names -/

theorem sceArrays_keys (al : List (Str × Str)) : ∀ (rs : List MRange) (done : List (Str × List Str)), (done.map (·.1)).Nodup →
    ((sceArrays al rs done).map (·.1)).Nodup ∧ ∀ a ∈ sceArrays al rs done, a ∈ done ∨ ∃ r ∈ rs, a.1 = sceKey r.props
  | [], done, h => ⟨h, fun a ha => .inl ha⟩
  | r :: rs, done, h => by
    unfold sceArrays
    split
    · obtain ⟨h1, h2⟩ := sceArrays_keys al rs done h
      exact ⟨h1, fun a ha => (h2 a ha).imp id fun ⟨r', hr, e⟩ => ⟨r', List.mem_cons_of_mem _ hr, e⟩⟩
    · rename_i hn
      have hn' : sceKey r.props ∉ done.map (·.1) := by
        intro hm
        obtain ⟨x, hx, e⟩ := List.mem_map.1 hm
        apply hn
        rw [List.find?_isSome]
        exact ⟨x, hx, by simp only [decide_eq_true_eq]; exact e⟩
      obtain ⟨h1, h2⟩ := sceArrays_keys al rs (done ++ [(sceKey r.props, r.props.map (scriptName al))]) (by
        rw [List.map_append, List.nodup_append]
        refine ⟨h, List.nodup_cons.2 ⟨List.not_mem_nil, List.nodup_nil⟩, ?_⟩
        intro a ha b hb e
        rw [List.map_cons, List.map_nil, List.mem_singleton] at hb
        rw [e, hb] at ha
        exact hn' ha)
      refine ⟨h1, fun a ha => ?_⟩
      rcases h2 a ha with h | ⟨r', hr, e⟩
      · rcases List.mem_append.1 h with h | h
        · exact .inl h
        · rw [List.mem_singleton] at h
          exact .inr ⟨r, List.mem_cons_self .., by rw [h]⟩
      · exact .inr ⟨r', List.mem_cons_of_mem _ hr, e⟩

theorem sceKey_prefix {ws : List Str} (h : ws ≠ []) : ∃ s, sceKey ws = "sce_".toList ++ s := by
  cases ws with
  | nil => exact absurd rfl h
  | cons w r =>
    refine ⟨w ++ r.flatMap fun s => '_' :: s, ?_⟩
    unfold sceKey
    rw [List.flatMap_cons]
    rfl

theorem sce_props {A : AllFiles} {P : ParsedUcd} {U : Contents} {N : ValueNames} {scripts : List (Str × Str)} (hpa : ParsesAll A P) (hd : Describes A.toFiles U)
    (hq : Queryable U N scripts) {r : MRange × Str} (h : r ∈ P.sce) : r.1.props ≠ [] := by
  have h1 := rows_mem hpa.sce.1 h
  have hld := hpa.loads.sce
  rw [sceEntries_eq hd.sce] at hld
  obtain ⟨e, he, e2⟩ := List.mem_map.1 (hld.1.mem_iff.1 h1)
  obtain ⟨ws, w1, w2⟩ := hq.sceWords e he
  have ht : trim e.2.2 = e.2.2 := trim_id _ (words_ends w1).1 (words_ends w1).2.1
  have hk : tokens e.2.2 = ws := tokens_words w1 (fun w hw => (w2 w hw).1) _ (Nat.lt_succ_self _)
  have hp : r.1.props.Perm ws := by
    rw [← e2]
    show (sortStrs (tokens (trim e.2.2))).Perm ws
    rw [ht, hk]
    exact sortStrs_perm ws
  intro h0
  rw [h0] at hp
  have := hp.nil_eq
  subst this
  generalize e.2.2 = v at w1
  cases w1

theorem kind_names {A : AllFiles} {P : ParsedUcd} {U : Contents} {N : ValueNames} {scripts al : List (Str × Str)} (hpa : ParsesAll A P) (hd : Describes A.toFiles U)
    (hr : Release U N) (hq : Queryable U N scripts) (k : TableKind) :
    ((kindList (apiData P al) k).map (·.1)).Nodup ∧ ∀ x ∈ kindList (apiData P al) k, TableName U k x.1 := by
  have hl := hpa.loads
  have keys : ∀ {t : List (Str × List (PRange × Str))} {table : Groups}, t.map (fun g => (g.1, g.2.map (·.1))) = table → (table.map (·.1)).Nodup → ((t.map pairOf).map (·.1)).Nodup := by
    intro t table h hn
    rw [← h, List.map_map] at hn
    rw [List.map_map]
    exact hn
  have mem : ∀ {t : List (Str × List (PRange × Str))} {table : Groups}, t.map (fun g => (g.1, g.2.map (·.1))) = table → ∀ x ∈ t.map pairOf, x.1 ∈ table.map (·.1) := by
    intro t table h x hx
    obtain ⟨g, hg, rfl⟩ := List.mem_map.1 hx
    exact List.mem_map.2 ⟨_, groups_mem h hg, rfl⟩
  have gcbTitle : ∀ n ∈ P.db.gcb.map (·.1), ∃ es, (n, es) ∈ U.gcb := by
    intro n h
    obtain ⟨g, hg, rfl⟩ := List.mem_map.1 h
    obtain ⟨rs, h1, -⟩ := sortedGroups_mem hl.gcb hg
    rw [grouped_eq hd.gcb] at h1
    obtain ⟨es, h3, -⟩ := sections_mem hq.gcbTitles h1
    exact ⟨es, h3⟩
  cases k with
  | fixed =>
    refine ⟨?_, ?_⟩
    · show (["Plane".toList, "General_Category".toList, "Script".toList, "sce".toList, "Block".toList, "EastAsianWidth".toList, "Bidi_Mirrored".toList,
        "Bidi_Mirroring_Glyph".toList]).Nodup
      decide
    · intro x hx
      have : x.1 ∈ (kindList (apiData P al) .fixed).map (·.1) := List.mem_map_of_mem hx
      have e : (kindList (apiData P al) .fixed).map (·.1) = (["Plane", "General_Category", "Script", "sce", "Block", "EastAsianWidth", "Bidi_Mirrored", "Bidi_Mirroring_Glyph"]).map String.toList := rfl
      rw [e] at this
      obtain ⟨n, hn, e⟩ := List.mem_map.1 this
      rw [← e]
      exact .fixed hn
  | core =>
    refine ⟨keys hpa.core.1 ?_, fun x hx => ?_⟩
    · have hs := hl.core
      rw [coreLoop_eq hd.core] at hs
      rw [sortedGroups_keys hs]
      exact amOk_keys (pushAll_spec _ [] List.Pairwise.nil).1
    · obtain ⟨e, he, hw, e2⟩ := (core_keys hl hd (complete_core hr.complete) x.1).1 (mem hpa.core.1 x hx)
      rw [← e2]
      exact .core he hw
  | category =>
    obtain ⟨m, m1, m2, m3, m4⟩ := gc_loaded hl hd hr.complete.titles N.gc hr.complete.gcIn hr.complete.gcOk hq.gc.words
    refine ⟨keys hpa.gcMap.1 ?_, fun x hx => ?_⟩
    · rw [m3]
      exact amOk_keys (sectionsMap_spec _ U.gc [] List.Pairwise.nil).1
    · have := mem hpa.gcMap.1 x hx
      rw [m3] at this
      obtain ⟨g, hg, e⟩ := List.mem_map.1 this
      obtain ⟨es, h, -⟩ := sections_mem hq.gcTitles hg
      rw [← e]
      exact .category h
  | breaks =>
    refine ⟨?_, fun x hx => ?_⟩
    · show ((P.gcb.map fun g => rowsOf g.1 g.2).map (·.1)).Nodup
      have hn : (P.db.gcb.map (·.1)).Nodup := by
        rw [sortedGroups_keys hl.gcb, grouped_eq hd.gcb]
        exact amOk_keys (sectionsMap_spec _ U.gcb [] List.Pairwise.nil).1
      rw [← hpa.gcb.1, List.map_map] at hn
      rw [List.map_map]
      exact hn
    · obtain ⟨g, hg, rfl⟩ := List.mem_map.1 hx
      obtain ⟨es, h⟩ := gcbTitle g.1 (List.mem_map.2 ⟨_, groups_mem hpa.gcb.1 hg, rfl⟩)
      exact .breaks (s := (g.1, es)) h
  | emoji =>
    have hw : Words U.emoji := fun e he => hr.complete.words e (.inr (.inr (.inr (.inr (.inr (.inl he))))))
    refine ⟨keys hpa.emoji.1 ?_, fun x hx => ?_⟩
    · have hs := hl.emoji
      rw [emoji_loaded hd hw] at hs
      rw [sortedGroups_keys hs]
      exact amOk_keys (pushAll_spec _ [] List.Pairwise.nil).1
    · obtain ⟨e, he, e2⟩ := emoji_keys hl hd hw (mem hpa.emoji.1 x hx)
      rw [← e2]
      exact .emoji he
  | scripts =>
    obtain ⟨h1, h2⟩ := sceArrays_keys al (P.sce.map (·.1)) [] List.nodup_nil
    refine ⟨?_, fun x hx => ?_⟩
    · show (((sceArrays al (P.sce.map (·.1)) []).map fun a => (a.1, a.2.map fun s => Val.name ["unicode".toList, "Script".toList, s])).map (·.1)).Nodup
      rw [List.map_map]
      exact h1
    · obtain ⟨a, ha, rfl⟩ := List.mem_map.1 hx
      rcases h2 a ha with h | ⟨r, hr', e⟩
      · cases h
      · obtain ⟨r', hr2, rfl⟩ := List.mem_map.1 hr'
        obtain ⟨s, hs⟩ := sceKey_prefix (sce_props hpa hd hq hr2)
        show TableName U .scripts a.1
        rw [e, hs]
        exact .scripts

theorem nodup_keys_inj {α β : Type} {l : List (α × β)} (h : (l.map (·.1)).Nodup) {a : α} {b c : β} (h1 : (a, b) ∈ l) (h2 : (a, c) ∈ l) : b = c := by
  induction l with
  | nil => cases h1
  | cons x l ih =>
    rw [List.map_cons, List.nodup_cons] at h
    rcases List.mem_cons.1 h1 with e1 | h1 <;> rcases List.mem_cons.1 h2 with e2 | h2
    · rw [← e1] at e2; exact (Prod.mk.inj e2).2.symm
    · exact absurd (List.mem_map.2 ⟨_, h2, by rw [← e1]⟩) h.1
    · exact absurd (List.mem_map.2 ⟨_, h1, by rw [← e2]⟩) h.1
    · exact ih h.2 h1 h2

open Classical in
/-- There is a program in which every name means what the two files declare. -/
theorem linked_exists {A : AllFiles} {P : ParsedUcd} {U : Contents} {N : ValueNames} {scripts al : List (Str × Str)} (hpa : ParsesAll A P) (hd : Describes A.toFiles U)
    (hr : Release U N) (hq : Queryable U N scripts) (ha : TablesApart U) {enums : List EnumDef} (hn : (enums.map (·.name)).Nodup) (hi : ∀ d ∈ enums, d.identifiers.Nodup)
    {ps es : List Piece} (hps : List.Forall₂ Means ps (sourceParts (apiData P al)))
    (hes : List.Forall₂ Means es (enumParts (fun d => minimalUintText d.members.length) enums)) (f : Nat → Nat → Spec.Cxx.Res Spec.Cxx.Value) :
    ∃ W, W.category = f ∧ Linked W ps inTables ∧ Linked W es inUnicode := by
  let T : Str → List Val → Prop := fun n vs => ∃ k, (n, vs) ∈ kindList (apiData P al) k
  let E : List Str → Nat → Prop := fun p i => ∃ d ∈ enums, ∃ id, p = [d.name, id] ∧ (id, i) ∈ d.identifiers.zipIdx
  have hT : ∀ n vs vs', T n vs → T n vs' → vs = vs' := by
    rintro n vs vs' ⟨k, h1⟩ ⟨k', h2⟩
    obtain ⟨n1, n2⟩ := kind_names (al := al) hpa hd hr hq k
    have := ha k k' n (n2 _ h1) ((kind_names (al := al) hpa hd hr hq k').2 _ h2)
    subst this
    exact nodup_keys_inj n1 h1 h2
  have hE : ∀ p i j, E p i → E p j → i = j := by
    rintro p i j ⟨d, h1, id, rfl, h2⟩ ⟨d', h3, id', e, h4⟩
    obtain ⟨e1, e2⟩ := List.cons.inj e
    have e3 := (List.cons.inj e2).1
    subst e3
    have : d = d' := by
      refine nodup_keys_inj (l := enums.map fun d => (d.name, d)) (a := d.name) ?_ (List.mem_map.2 ⟨d, h1, rfl⟩) (List.mem_map.2 ⟨d', h3, by rw [e1]⟩)
      rw [List.map_map]
      exact hn
    subst this
    refine nodup_keys_inj (l := d.identifiers.zipIdx) ?_ h2 h4
    rw [List.zipIdx_map_fst]
    exact hi d h1
  refine ⟨{ number := fun p => if h : ∃ i, E p i then some h.choose else none, table := fun n => if h : ∃ vs, T n vs then some h.choose else none, category := f }, rfl, ?_, ?_⟩
  · refine linked_of hps fun x hx => ?_
    rcases parts_kinds _ x hx with ⟨k, t, n, vs, rfl, h⟩ | ⟨g, code, rfl, h⟩
    · refine .inl ⟨_, rfl, ?_⟩
      have hex : ∃ vs, T n vs := ⟨vs, k, h⟩
      show (if h : ∃ vs, T n vs then some h.choose else none) = some vs
      rw [dif_pos hex]
      exact congrArg some (hT _ _ _ hex.choose_spec ⟨k, h⟩)
    · exact .inr ⟨g, code, rfl, h⟩
  · refine linked_of hes fun x hx => ?_
    obtain ⟨d, hdm, rfl⟩ := List.mem_map.1 hx
    refine .inl ⟨_, rfl, ?_⟩
    intro e he
    have hex : ∃ i, E [d.name, e.1] i := ⟨e.2, d, hdm, e.1, rfl, he⟩
    show (if h : ∃ i, E [d.name, e.1] i then some h.choose else none) = some e.2
    rw [dif_pos hex]
    exact congrArg some (hE _ _ _ hex.choose_spec ⟨d, hdm, e.1, rfl, he⟩)

end Verif.Tg.World
