import Verif.Lemmas.TgComment
import Verif.Props.TgProgramEnums
import Verif.Props.TgCodeFiles
import Verif.Props.TgUcd
/-!
# The data of the parser meets what C67 asks for
-/

namespace Verif.Props.Tg

open Verif Verif.Tg
open Verif.Tg.Comment (Unspliced)
open Verif.Spec.Ucd
open Verif.Spec.UcdFile
open Verif.Spec.Cxx (Ident)

/-- What the files list is in order: the ranges in a file do not overlap, every file lists something, no section comes twice. -/
structure Queryable (U : Contents) (N : ValueNames) (scripts : List (Str × Str)) : Prop where
  script : Plain U.scripts
  gc : Plain (allOf U.gc)
  gcTitles : (U.gc.map (·.1)).Nodup
  gcTitled : ∀ s ∈ U.gc, ∀ e ∈ s.2, (e.2.2, s.1) ∈ N.gc
  gcSections : ∀ s ∈ U.gc, s.2 ≠ [] ∧ Ascending s.2 ∧ s.2.length < 2 ^ 64
  eaw : Plain U.eaw
  eawValues : ∀ e ∈ U.eaw, ∃ p ∈ widths, e.2.2 = p.1.toList
  blocks : Ascending U.blocks
  blocksNonempty : U.blocks ≠ []
  blocksSize : U.blocks.length < 2 ^ 64
  emojiSize : U.emoji.length < 2 ^ 64
  emoji : ∀ p, Separate (withValue U.emoji p)
  coreSize : U.core.length < 2 ^ 64
  core : ∀ p, Separate (withValue U.core p)
  gcbTitles : (U.gcb.map (·.1)).Nodup
  gcb : ∀ s ∈ U.gcb, Plain s.2
  mirrored : (U.mirrored.map (·.1)).Nodup
  mirroredSome : ∃ c, (c, true) ∈ U.mirrored
  mirroredSize : U.mirrored.length < 2 ^ 64
  glyphs : (U.glyphs.map (·.1)).Nodup
  scriptsIn : ("Script".toList, scripts) ∈ U.aliases
  sce : Separate U.sce
  sceNonempty : U.sce ≠ []
  sceSize : U.sce.length < 2 ^ 64
  sceWords : ∀ e ∈ U.sce, ∃ ws, WordsOf e.2.2 ws ∧ ∀ w ∈ ws, Letters w ∧ ∃ n, (w, n) ∈ scripts

/-- The names that become names of C++ are identifiers; the sections of the break properties are not called like something else in the generated code. -/
structure Namable (U : Contents) (N : ValueNames) (al : List (Str × Str)) : Prop where
  core : ∀ e ∈ U.core, Spec.UcdFile.Word e.2.2 → Ident e.2.2
  emoji : ∀ e ∈ U.emoji, Ident e.2.2
  blocks : ∀ e ∈ U.blocks, ∀ id, Identifier e.2.2 id → Ident id
  gc : ∀ s ∈ U.gc, Ident s.1
  gcb : ∀ s ∈ U.gcb, Ident s.1 ∧ Unreserved s.1 ∧ s.1 ≠ "inline".toList ∧ ∀ e ∈ s.2, Ident e.2.2
  scripts : ∀ p ∈ al, Ident p.2
  ages : ∀ p ∈ N.age, ∀ c ∈ p.1, c ≠ '"' ∧ c ≠ '\\' ∧ c ≠ '\n'

/-- No comment of the files that comments are taken from ends in a backslash. -/
def Comments (A : AllFiles) : Prop :=
  ∀ ls ∈ [A.core, A.gc, A.scripts, A.sce, A.gcb, A.eaw, A.emoji], Unspliced ls

theorem groups_mem {t : List (Str × List (PRange × Str))} {table : Groups} (h : t.map (fun g => (g.1, g.2.map (·.1))) = table) {g : Str × List (PRange × Str)} (hg : g ∈ t) :
    (g.1, g.2.map (·.1)) ∈ table := h ▸ List.mem_map_of_mem (f := fun g => (g.1, g.2.map (·.1))) hg

theorem rows_mem {α : Type} {t : List (α × Str)} {table : List α} (h : t.map (·.1) = table) {r : α × Str} (hr : r ∈ t) : r.1 ∈ table := h ▸ List.mem_map_of_mem hr

/-- a range in a sorted group stands in the group -/
theorem sortedGroups_mem {gs out : Groups} (h : SortedGroups gs out) {g : Str × List PRange} (hg : g ∈ out) : ∃ rs, (g.1, rs) ∈ gs ∧ SortedBy PRange.first rs g.2 := by
  unfold SortedGroups at h
  induction h with
  | nil => cases hg
  | @cons a b as bs hab _ ih =>
    rcases List.mem_cons.1 hg with rfl | hg
    · exact ⟨a.2, hab.1 ▸ List.mem_cons_self .., hab.2⟩
    · obtain ⟨rs, h1, h2⟩ := ih hg
      exact ⟨rs, List.mem_cons_of_mem _ h1, h2⟩

theorem sortedGroups_keys {gs out : Groups} (h : SortedGroups gs out) : out.map (·.1) = gs.map (·.1) := by
  unfold SortedGroups at h
  induction h with
  | nil => rfl
  | cons hab _ ih => rw [List.map_cons, List.map_cons, ih, hab.1]

/-- The sections of a file with sections. -/
theorem sections_mem {rng : Entry → PRange} {secs : List (Str × List Entry)} (hn : (secs.map (·.1)).Nodup) {g : Str × List PRange}
    (hg : g ∈ sectionsMap rng secs []) : ∃ es, (g.1, es) ∈ secs ∧ g.2 = es.map rng := by
  obtain ⟨hok, h2⟩ := sectionsMap_spec rng secs [] List.Pairwise.nil
  have hf := (mem_amFind _ hok g.1 g.2).1 hg
  have : (amFind (sectionsMap rng secs []) g.1).isSome := by rw [hf]; rfl
  rcases (h2 g.1).2.1 this with h | ⟨s, hs, e⟩
  · cases h
  · refine ⟨s.2, e ▸ hs, ?_⟩
    have := sectionsMap_find rng secs hn g.1 s.2 (e ▸ hs)
    rw [hf] at this
    exact Option.some.inj this

theorem emoji_keys {F D U} (hl : Loads F D) (hd : Describes F U) (hw : Words U.emoji) {k : Str} (h : k ∈ D.emoji.map (·.1)) : ∃ e ∈ U.emoji, e.2.2 = k := by
  have hs := hl.emoji
  rw [emoji_loaded hd hw] at hs
  rw [sortedGroups_keys hs] at h
  obtain ⟨g, hg, rfl⟩ := List.mem_map.1 h
  have hok := (pushAll_spec (U.emoji.map fun e => (e.2.2, (⟨e.1, e.2.1, e.2.2⟩ : PRange))) [] List.Pairwise.nil).1
  have hf := (mem_amFind _ hok g.1 g.2).1 hg
  rw [pushAll_find] at hf
  split at hf
  · rename_i hx
    obtain ⟨x, hx, e⟩ := hx
    obtain ⟨y, hy, rfl⟩ := List.mem_map.1 hx
    exact ⟨y, hy, e⟩
  · cases hf

theorem alpha_word {c : Char} (h : c.isAlpha = true) : Spec.Cxx.isWord c = true := by
  unfold Spec.Cxx.isWord
  unfold Char.isAlpha Char.isUpper Char.isLower at h
  rcases Bool.or_eq_true _ _ ▸ h with h | h
  · have h1 : ('A' ≤ c && c ≤ 'Z') = true := by
      have := of_decide_eq_true h
      simp only [Bool.and_eq_true, decide_eq_true_eq]
      exact this
    rw [h1, Bool.or_true, Bool.true_or, Bool.true_or]
  · have h1 : ('a' ≤ c && c ≤ 'z') = true := by
      simp only [Bool.and_eq_true, decide_eq_true_eq] at h ⊢
      exact h
    rw [h1, Bool.or_true, Bool.true_or]

theorem sceKey_ident {ws : List Str} (h : ∀ w ∈ ws, Letters w) : Ident (sceKey ws) := by
  unfold sceKey
  refine ⟨(fun h => nomatch h), ?_, ?_⟩
  · intro c hc
    rcases List.mem_append.1 hc with hc | hc
    · have : ∀ c ∈ "sce".toList, Spec.Cxx.isWord c = true := by decide
      exact this c hc
    · obtain ⟨w, hw, hc⟩ := List.mem_flatMap.1 hc
      rcases List.mem_cons.1 hc with rfl | hc
      · decide
      · exact alpha_word ((h w hw).2 c hc)
  · exact (ident_of (w := "sce".toList) (by decide)).2.2

/-- What the parser leaves is fit for the generated files. -/
theorem ucdOk_of {A : AllFiles} {P : ParsedUcd} {U : Contents} {N : ValueNames} {scripts al : List (Str × Str)} (hpa : ParsesAll A P) (hd : Describes A.toFiles U)
    (hr : Release U N) (hq : Queryable U N scripts) (hn : Namable U N scripts)
    (hcl : ∀ ls ∈ [A.core, A.gc, A.scripts, A.sce, A.gcb, A.eaw, A.emoji], CleanLines ls) (hc : Comments A)
    (hal : amFind P.db.aliases "Script".toList = some al) : UcdOk (apiData P al) := by
  have hl := hpa.loads
  have one : ∀ ls ∈ [A.core, A.gc, A.scripts, A.sce, A.gcb, A.eaw, A.emoji], ∀ s, CommentIn ls s → OneLine s := fun ls h s hs => Verif.Tg.Comment.oneLine_of (hcl ls h) (hc ls h) hs
  obtain ⟨o1, one⟩ := List.forall_mem_cons.1 one
  obtain ⟨o2, one⟩ := List.forall_mem_cons.1 one
  obtain ⟨o3, one⟩ := List.forall_mem_cons.1 one
  obtain ⟨o4, one⟩ := List.forall_mem_cons.1 one
  obtain ⟨o5, one⟩ := List.forall_mem_cons.1 one
  obtain ⟨o6, one⟩ := List.forall_mem_cons.1 one
  obtain ⟨o7, -⟩ := List.forall_mem_cons.1 one
  obtain ⟨m, m1, m2, m3, m4⟩ := gc_loaded hl hd hr.complete.titles N.gc hr.complete.gcIn hr.complete.gcOk hq.gc.words
  have fullIdent : ∀ e ∈ allOf U.gc, Ident (gcRange m e).property := fun e he => hr.names.gc _ (m2 e he)
  obtain ⟨al', a1, a2⟩ := C53_aliases hl hd hr.complete.titles "Script".toList (by decide) scripts hq.scriptsIn (hr.functional _ hq.scriptsIn)
  rw [hal] at a1
  obtain rfl := Option.some.inj a1
  refine ⟨?_, ?_, ?_, ?_, ?_, ?_, ?_, ?_, ?_, ?_, ?_⟩
  · have : ∀ r ∈ planeData, identB (sanitize r.1.property) = true ∧ ('\n' ∉ r.2.2 ∧ r.2.2.getLast? ≠ some '\\') := by decide +kernel
    exact fun r h => ⟨ident_of (this r h).1, (this r h).2⟩
  · intro g hg
    refine ⟨?_, fun r h => o1 _ (hpa.core.2 g hg r h)⟩
    obtain ⟨e, he, hw, e2⟩ := (core_keys hl hd (complete_core hr.complete) g.1).1 (List.mem_map_of_mem (groups_mem hpa.core.1 hg))
    exact e2 ▸ hn.core e he hw
  · intro r h
    refine ⟨?_, o2 _ (hpa.gcats.2 r h)⟩
    obtain ⟨e, he, e2⟩ := List.mem_map.1 (m4.1.mem_iff.1 (rows_mem hpa.gcats.1 h))
    exact e2 ▸ fullIdent e he
  · intro g hg
    refine ⟨?_, fun r h => o2 _ (hpa.gcMap.2 g hg r h)⟩
    obtain ⟨es, h1, -⟩ := sections_mem hq.gcTitles (m3 ▸ groups_mem hpa.gcMap.1 hg)
    exact hn.gc _ h1
  · intro r h
    refine ⟨?_, o3 _ (hpa.scripts.2 r h)⟩
    have h1 := hl.scripts.1.mem_iff.1 (rows_mem hpa.scripts.1 h)
    have h2 : (r.1.first, r.1.last, r.1.property) ∈ ents (genericEntries A.scripts) := List.mem_map_of_mem (f := fun r : PRange => (r.first, r.last, r.property)) h1
    rw [generic_ents hd.scripts hq.script.words] at h2
    exact hr.names.scripts _ h2
  · intro r h
    have h1 := rows_mem hpa.sce.1 h
    have hld := hl.sce
    rw [sceEntries_eq hd.sce] at hld
    obtain ⟨e, he, e2⟩ := List.mem_map.1 (hld.1.mem_iff.1 h1)
    obtain ⟨ws, w1, w2⟩ := hq.sceWords e he
    have ht : trim e.2.2 = e.2.2 := trim_id _ (words_ends w1).1 (words_ends w1).2.1
    have hk : tokens e.2.2 = ws := tokens_words w1 (fun w hw => (w2 w hw).1) _ (Nat.lt_succ_self _)
    have hp : r.1.props.Perm ws := by
      rw [← e2]
      show (sortStrs (tokens (trim e.2.2))).Perm ws
      rw [ht, hk]
      exact sortStrs_perm ws
    refine ⟨sceKey_ident fun w hw => (w2 w (hp.mem_iff.1 hw)).1, ?_, o4 _ (hpa.sce.2 r h)⟩
    intro s hs
    obtain ⟨-, n, hn'⟩ := w2 s (hp.mem_iff.1 hs)
    show Ident ((amFind al s).getD s)
    rw [(a2 s n).2 hn']
    exact hn.scripts _ hn'
  · intro r h
    have h' : r ∈ P.db.blocks := h
    rw [hl.blocks, loadBlocks_eq hd.blocks] at h'
    obtain ⟨e, he, rfl⟩ := List.mem_map.1 h'
    exact hn.blocks e he _ ((sanitize_identifier _ _).1 rfl)
  · intro g hg
    have hs := hl.gcb
    obtain ⟨rs, h1, h2⟩ := sortedGroups_mem hs (groups_mem hpa.gcb.1 hg)
    rw [grouped_eq hd.gcb] at h1
    obtain ⟨es, h3, h4⟩ := sections_mem hq.gcbTitles h1
    obtain ⟨n1, n2, n3, n4⟩ := hn.gcb _ h3
    refine ⟨n1, n3, n2.1, fun r h => ⟨?_, o5 _ (hpa.gcb.2 g hg r h)⟩⟩
    have h5 : r.1 ∈ rs := h2.1.mem_iff.1 (List.mem_map_of_mem h)
    have h4' : rs = es.map wordRange := h4
    rw [h4'] at h5
    obtain ⟨e, he, e2⟩ := List.mem_map.1 h5
    rw [← e2]
    show Ident (firstWord e.2.2)
    rw [firstWord_word (hr.complete.words e (by
      have : e ∈ allOf U.gcb := List.mem_flatMap.2 ⟨_, h3, he⟩
      tauto))]
    exact n4 e he
  · exact fun r h => o6 _ (hpa.eaw.2 r h)
  · intro g hg
    refine ⟨?_, fun r h => o7 _ (hpa.emoji.2 g hg r h)⟩
    obtain ⟨e, he, e2⟩ := emoji_keys hl hd (fun e he => hr.complete.words e (by tauto)) (List.mem_map_of_mem (groups_mem hpa.emoji.1 hg))
    exact e2 ▸ hn.emoji e he
  · intro al' h e he
    have h' : amFind P.db.aliases "Age".toList = some al' := h
    obtain ⟨m, m1, m2⟩ := C53_aliases hl hd hr.complete.titles "Age".toList (by decide) N.age hr.complete.ageIn (hr.functional _ hr.complete.ageIn)
    rw [h'] at m1
    obtain rfl := Option.some.inj m1
    have hx : e ∈ N.age := by
      refine (m2 e.1 e.2).1 ((mem_amFind _ ?_ _ _).1 he)
      rw [hl.aliases, loadAliases_eq hd.aliases, aliases_find _ hr.complete.titles ([], []) List.Pairwise.nil, if_neg (by decide)] at h'
      split at h'
      · injection h' with h'; rw [← h']; exact aliasMap_ok _ _ List.Pairwise.nil
      · cases h'
    exact ⟨hn.ages e hx, hr.names.age e hx⟩

end Verif.Props.Tg
