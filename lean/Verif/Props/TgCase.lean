import Verif.Lemmas.TgFields
import Verif.Spec.CaseFiles
import Verif.Props.Case
import Verif.Lemmas.TgRender
/-!
# C51: case mapping follows the UCD files
-/

namespace Verif.Props.Tg
open Verif.Tg Verif.Spec.UcdFile Verif.Case Verif.Spec.Case
open Verif.Props.Tables (Sorted)
open Verif.Props.Case (TablesSorted upperOf lowerOf titleOf foldOf)

/-! ## The tables are sorted, whatever the files contain -/

theorem foldl_inv {S E : Type} (P : S → Prop) (f : S → E → S) (h : ∀ s e, P s → P (f s e)) (es : List E) (s : S) (hs : P s) :
    P (es.foldl f s) := by
  induction es generalizing s with
  | nil => exact hs
  | cons e es ih => exact ih _ (h s e hs)

structure UdSorted (u : Ud) : Prop where
  ccc : Sorted (·.1) u.ccc
  decomps : Sorted (·.1) u.decomps
  upper : Sorted (·.1) u.upper
  lower : Sorted (·.1) u.lower
  title : Sorted (·.1) u.title

theorem udSorted (lines : List Str) : UdSorted (loadUnicodeData lines) := by
  refine foldl_inv UdSorted udLine (fun u l h => ?_) lines {} ⟨.nil, .nil, .nil, .nil, .nil⟩
  unfold udLine
  split
  · exact h
  · split
    · exact h
    · exact ⟨sorted_nSetOpt _ _ _ h.ccc, sorted_nSetOpt _ _ _ h.decomps, sorted_nSetOpt _ _ _ h.upper, sorted_nSetOpt _ _ _ h.lower,
        sorted_nSetOpt _ _ _ h.title⟩

theorem sorted_setSimple (c : Nat) (x : List Nat) (m : List (Nat × Nat)) (h : Sorted (·.1) m) : Sorted (·.1) (setSimple c x m) := by
  rw [setSimple_eq]; exact sorted_nSetOpt _ _ _ h

theorem cfSorted (lines : List Str) : Sorted (·.1) (loadCaseFolding lines).simple ∧ Sorted (·.1) (loadCaseFolding lines).full := by
  refine foldl_inv (fun u : Folds => Sorted (·.1) u.simple ∧ Sorted (·.1) u.full) cfLine (fun u l h => ?_) lines {} ⟨.nil, .nil⟩
  unfold cfLine
  split
  · exact h
  · split
    · exact h
    · unfold cfFields
      split
      · exact ⟨sorted_setSimple _ _ _ h.1, sorted_nSet _ _ _ h.2⟩
      · split
        · exact ⟨sorted_setSimple _ _ _ h.1, h.2⟩
        · split
          · exact ⟨h.1, sorted_nSet _ _ _ h.2⟩
          · exact h

theorem sorted_setSpecial (c : Nat) (x : List Nat) (t : List (Nat × Nat)) (m : List (Nat × List Nat)) (h : Sorted (·.1) m) :
    Sorted (·.1) (setSpecial c x t m) := by
  unfold setSpecial
  split
  · exact sorted_nSet _ _ _ h
  · exact h

theorem scSorted (u : Ud) (lines : List Str) : Sorted (·.1) (loadSpecialCasing u lines).lower
    ∧ Sorted (·.1) (loadSpecialCasing u lines).title ∧ Sorted (·.1) (loadSpecialCasing u lines).upper := by
  refine foldl_inv (fun s : Special => Sorted (·.1) s.lower ∧ Sorted (·.1) s.title ∧ Sorted (·.1) s.upper) (scLine u)
    (fun s l h => ?_) lines {} ⟨.nil, .nil, .nil⟩
  unfold scLine
  split
  · exact h
  · split
    · exact h
    · split
      · exact h
      · exact ⟨sorted_setSpecial _ _ _ _ h.1, sorted_setSpecial _ _ _ _ h.2.1, sorted_setSpecial _ _ _ _ h.2.2⟩

theorem sorted_visible (m : List (Nat × List Nat)) (h : Sorted (·.1) m) : Sorted (·.1) (visible (writeFull m)) := by
  unfold visible writeFull
  rw [List.map_map]
  exact List.pairwise_map.2 h

/-- **C51.** Whatever the three files contain, the eight generated case tables are strictly sorted by source. -/
theorem C51_tables_sorted (udLines scLines cfLines : List Str) :
    TablesSorted (caseTables (loadUnicodeData udLines) (loadCaseFolding cfLines)
      (loadSpecialCasing (loadUnicodeData udLines) scLines)) :=
  ⟨(udSorted udLines).upper, (udSorted udLines).lower, (udSorted udLines).title, (cfSorted cfLines).1,
    sorted_visible _ (scSorted _ scLines).2.2, sorted_visible _ (scSorted _ scLines).1, sorted_visible _ (scSorted _ scLines).2.1,
    sorted_visible _ (cfSorted cfLines).2⟩

/-! ## The three-cell entries of the full tables -/

theorem visible_writeFull (m : List (Nat × List Nat)) (h : ∀ e ∈ m, e.2.length ≤ 3) : visible (writeFull m) = m := by
  unfold visible writeFull
  rw [List.map_map]
  conv => rhs; rw [← List.map_id m]
  refine List.map_congr_left fun e he => ?_
  have := h e he
  simp only [Function.comp, id, pad]
  rw [List.take_take, Nat.min_eq_left this, List.take_append_of_le_length (Nat.le_refl _), List.take_length]

/-- **C51.** `lookup_full` on a generated table: the listed mapping if it has at most three codepoints, an access outside the
three cells if it has more, the empty mapping for a codepoint that is not listed. -/
theorem C51_full_lookup (m : List (Nat × List Nat)) (hs : Sorted (·.1) m) (c : Nat) :
    (∀ ds, (c, ds) ∈ m → ds.length ≤ 3 → lookupFull (writeFull m) c = .ok ds)
    ∧ (∀ ds, (c, ds) ∈ m → 3 < ds.length → lookupFull (writeFull m) c = .oob)
    ∧ ((∀ ds, (c, ds) ∉ m) → lookupFull (writeFull m) c = .ok []) := by
  have hw : Sorted (·.source) (writeFull m) := by
    unfold writeFull; exact List.pairwise_map.2 hs
  obtain ⟨r, hr, h1, h2⟩ := Tables.C36_lookup_exact (writeFull m) (·.source) hw c
  have hmem : ∀ ds, (c, ds) ∈ m → (⟨c, (pad 3 ds).take 3, ds.length⟩ : FullEntry) ∈ writeFull m := fun ds h =>
    List.mem_map.2 ⟨(c, ds), h, rfl⟩
  have hlook : ∀ ds, (c, ds) ∈ m → lookupFull (writeFull m) c = copyTargets ⟨c, (pad 3 ds).take 3, ds.length⟩ := by
    intro ds h
    unfold lookupFull
    rw [hr, (h1 _).2 ⟨hmem ds h, rfl⟩]
  refine ⟨fun ds h h3 => ?_, fun ds h h3 => ?_, fun h => ?_⟩
  · rw [hlook ds h]
    unfold copyTargets
    rw [if_pos ⟨h3, by simp [pad]; omega⟩]
    congr 1
    unfold pad
    rw [List.take_take, Nat.min_eq_left h3, List.take_append_of_le_length (Nat.le_refl _), List.take_length]
  · rw [hlook ds h]
    unfold copyTargets
    rw [if_neg (fun hh => absurd hh.1 (by show ¬ ds.length ≤ 3; omega))]
  · unfold lookupFull
    rw [hr, h2.2 (fun e he hc => ?_)]
    obtain ⟨x, hx, rfl⟩ := List.mem_map.1 he
    subst hc
    exact h x.2 hx

/-! ## Exactness -/

theorem caseMaps_unique {full : Nat → List Nat → Prop} {simple : Nat → Nat → Prop} {c : Nat}
    (hf : ∀ x y, full c x → full c y → x = y) (hs : ∀ x y, simple c x → simple c y → x = y) {x y : List Nat}
    (hx : CaseMaps full simple c x) (hy : CaseMaps full simple c y) : x = y := by
  cases hx with
  | full h1 h2 =>
    cases hy with
    | full h3 _ => exact hf _ _ h1 h3
    | simple h3 _ => exact absurd (h3 _ h1) h2
    | same h3 _ => exact absurd (h3 _ h1) h2
  | simple h1 h2 =>
    cases hy with
    | full h3 h4 => exact absurd (h1 _ h3) h4
    | simple _ h4 => rw [hs _ _ h2 h4]
    | same _ h4 => exact absurd h2 (h4 _)
  | same h1 h2 =>
    cases hy with
    | full h3 h4 => exact absurd (h1 _ h3) h4
    | simple _ h4 => exact absurd h4 (h2 _)
    | same _ _ => rfl

/-- What a table gives against what the files say: a full mapping that is not in the table does what the simple mapping does. -/
theorem caseMaps_of {ascii : Nat → Option Nat} {ftab : List (Nat × List Nat)} {stab : List (Nat × Nat)}
    {full : Nat → List Nat → Prop} {simple : Nat → Nat → Prop} {c : Nat} {out : List Nat} (hm : MapsTo ascii ftab stab c out)
    (hf1 : ∀ ds, Listed ftab c ds → full c ds)
    (hf2 : ∀ ds, full c ds → ds ≠ [] → Listed ftab c ds ∨ ∃ d, ds = [d] ∧ (simple c d ∨ d = c ∧ ∀ d', ¬ simple c d'))
    (hs : ∀ d, simple c d ↔ Listed stab c d) (hu : ∀ x y, simple c x → simple c y → x = y)
    (ha : ∀ d, ascii c = some d → simple c d) : CaseMaps full simple c out := by
  have main : ∀ d, (∀ ds, Listed ftab c ds → ds = []) → simple c d → CaseMaps full simple c [d] := by
    intro d h0 hd
    by_cases hex : ∃ ds, full c ds ∧ ds ≠ []
    · obtain ⟨ds, h1, h2⟩ := hex
      rcases hf2 ds h1 h2 with h3 | ⟨d', rfl, h3 | ⟨_, h3⟩⟩
      · exact absurd (h0 _ h3) h2
      · rw [hu d d' hd h3]; exact .full h1 h2
      · exact absurd hd (h3 d)
    · exact .simple (fun ds h => by_contra fun h' => hex ⟨ds, h, h'⟩) hd
  cases hm with
  | full h1 h2 => exact .full (hf1 _ h1) h2
  | ascii h1 h2 => exact main _ h1 (ha _ h2)
  | one h1 _ h2 => exact main _ h1 ((hs _).2 h2)
  | same h1 _ h2 =>
    by_cases hex : ∃ ds, full c ds ∧ ds ≠ []
    · obtain ⟨ds, h3, h4⟩ := hex
      rcases hf2 ds h3 h4 with h5 | ⟨d', rfl, h5 | ⟨rfl, _⟩⟩
      · exact absurd (h1 _ h5) h4
      · exact absurd ((hs _).1 h5) (h2 _)
      · exact .full h3 h4
    · exact .same (fun ds h => by_contra fun h' => hex ⟨ds, h, h'⟩) (fun d hd => h2 d ((hs d).1 hd))

/-- The simple tables hold what UnicodeData.txt gives. -/
theorem simple_listed (ud : List UdEntry) (hone : ∀ e ∈ ud, ∀ e' ∈ ud, e.cp = e'.cp → e = e') (get : UdEntry → Option Nat) (c d : Nat) :
    UdSays ud get c d ↔ Listed (ud.foldl (fun m e => nSetOpt e.cp (get e) m) []) c d := by
  unfold Listed
  rw [mem_iff_nFind _ (sorted_build _ _ _ _ .nil), nFind_build_iff]
  · rfl
  · intro e he e' he' x y hk hx hy
    rw [hone e he e' he' hk, hy] at hx; injection hx with hx; exact hx.symm

theorem udSays_unique (ud : List UdEntry) (hone : ∀ e ∈ ud, ∀ e' ∈ ud, e.cp = e'.cp → e = e') (get : UdEntry → Option Nat) (c x y : Nat)
    (hx : UdSays ud get c x) (hy : UdSays ud get c y) : x = y := by
  obtain ⟨e, he, hk, hv⟩ := hx
  obtain ⟨e', he', hk', hv'⟩ := hy
  rw [hone e he e' he' (hk.trans hk'.symm), hv'] at hv; injection hv with hv; exact hv.symm

/-- The full tables hold the unconditional special mappings that differ from the simple one. -/
theorem special_listed (sp : List SpecialEntry)
    (hone : ∀ e ∈ sp, ∀ e' ∈ sp, e.cp = e'.cp → e.conditional = false → e'.conditional = false → e = e')
    (simple : List (Nat × Nat)) (get : SpecialEntry → List Nat) (c : Nat) (ds : List Nat) :
    Listed (sp.foldl (fun m e => nSetOpt e.cp (special simple get e) m) []) c ds ↔
      SpecialSays sp get c ds ∧ nontrivial ds ((nFind simple c).getD c) = true := by
  have hsp : ∀ e x, special simple get e = some x ↔
      e.conditional = false ∧ get e = x ∧ nontrivial (get e) ((nFind simple e.cp).getD e.cp) = true := by
    intro e x
    unfold special
    by_cases h1 : e.conditional = true
    · rw [if_pos h1]; simp [h1]
    · rw [if_neg h1]
      by_cases h2 : nontrivial (get e) ((nFind simple e.cp).getD e.cp) = true
      · rw [if_pos h2]; simp [h1, h2]
      · rw [if_neg h2]; simp [h2]
  unfold Listed
  rw [mem_iff_nFind _ (sorted_build _ _ _ _ .nil), nFind_build_iff]
  · constructor
    · rintro ⟨e, he, rfl, hv⟩
      obtain ⟨h1, rfl, h3⟩ := (hsp e ds).1 hv
      exact ⟨⟨e, he, rfl, h1, rfl⟩, h3⟩
    · rintro ⟨⟨e, he, rfl, h1, rfl⟩, h3⟩
      exact ⟨e, he, rfl, (hsp e _).2 ⟨h1, rfl, h3⟩⟩
  · intro e he e' he' x y hk hx hy
    obtain ⟨h1, rfl, _⟩ := (hsp e x).1 hx
    obtain ⟨h2, rfl, _⟩ := (hsp e' y).1 hy
    rw [hone e he e' he' hk h1 h2]

theorem trivial_special (simple : List (Nat × Nat)) (c : Nat) (ds : List Nat) (hne : ds ≠ [])
    (h : ¬ nontrivial ds ((nFind simple c).getD c) = true) : ∃ d, ds = [d] ∧ d = (nFind simple c).getD c := by
  match ds with
  | [] => exact absurd rfl hne
  | [d] => exact ⟨d, rfl, by simpa [nontrivial] using h⟩
  | _ :: _ :: _ => exact absurd rfl h

theorem special_short (sp : List SpecialEntry) (simple : List (Nat × Nat)) (get : SpecialEntry → List Nat)
    (h3 : ∀ e ∈ sp, e.conditional = false → (get e).length ≤ 3) :
    ∀ x ∈ sp.foldl (fun m e => nSetOpt e.cp (special simple get e) m) [], x.2.length ≤ 3 := by
  rintro ⟨c, ds⟩ hx
  rw [mem_iff_nFind _ (sorted_build _ _ _ _ .nil)] at hx
  rcases (nFind_build (fun e : SpecialEntry => e.cp) (special simple get) sp [] c).1 ds hx with ⟨e, he, _, hv⟩ | h
  · unfold special at hv
    split at hv
    · simp at hv
    · rename_i hc
      split at hv
      · injection hv with hv; rw [← hv]; exact h3 e he (by simpa using hc)
      · simp at hv
  · simp [nFind_nil] at h

/-- One direction (lower, title or upper): the generated tables against the files. -/
theorem special_maps (ud : List UdEntry) (sp : List SpecialEntry) (hud : ∀ e ∈ ud, ∀ e' ∈ ud, e.cp = e'.cp → e = e')
    (hsp : ∀ e ∈ sp, ∀ e' ∈ sp, e.cp = e'.cp → e.conditional = false → e'.conditional = false → e = e')
    (getU : UdEntry → Option Nat) (getS : SpecialEntry → List Nat) (ascii : Nat → Option Nat)
    (ha : ∀ c d, ascii c = some d → UdSays ud getU c d) (c : Nat) (out : List Nat)
    (hm : MapsTo ascii (sp.foldl (fun m e => nSetOpt e.cp (special (ud.foldl (fun m e => nSetOpt e.cp (getU e) m) []) getS e) m) [])
      (ud.foldl (fun m e => nSetOpt e.cp (getU e) m) []) c out) (x : List Nat) :
    CaseMaps (SpecialSays sp getS) (UdSays ud getU) c x ↔ x = out := by
  have hmap : CaseMaps (SpecialSays sp getS) (UdSays ud getU) c out := by
    refine caseMaps_of hm (fun ds h => ((special_listed sp hsp _ getS c ds).1 h).1) (fun ds h hne => ?_)
      (simple_listed ud hud getU c) (udSays_unique ud hud getU c) (ha c)
    by_cases hn : nontrivial ds ((nFind (ud.foldl (fun m e => nSetOpt e.cp (getU e) m) []) c).getD c) = true
    · exact Or.inl ((special_listed sp hsp _ getS c ds).2 ⟨h, hn⟩)
    · obtain ⟨d, rfl, hd⟩ := trivial_special _ c ds hne hn
      refine Or.inr ⟨d, rfl, ?_⟩
      cases hf : nFind (ud.foldl (fun m e => nSetOpt e.cp (getU e) m) []) c with
      | some y =>
        rw [hf] at hd
        left
        rw [simple_listed ud hud]
        unfold Listed
        rw [mem_iff_nFind _ (sorted_build _ _ _ _ .nil), hf, hd]; rfl
      | none =>
        rw [hf] at hd
        right
        refine ⟨hd, fun d' hd' => ?_⟩
        rw [simple_listed ud hud] at hd'
        unfold Listed at hd'
        rw [mem_iff_nFind _ (sorted_build _ _ _ _ .nil), hf] at hd'
        simp at hd'
  constructor
  · intro hx
    refine caseMaps_unique (fun a b h1 h2 => ?_) (udSays_unique ud hud getU c) hx hmap
    obtain ⟨e, he, hk, hc, rfl⟩ := h1
    obtain ⟨e', he', hk', hc', rfl⟩ := h2
    rw [hsp e he e' he' (hk.trans hk'.symm) hc hc']
  · rintro rfl; exact hmap

/-- The generated case tables of three files. -/
def caseTablesOf (udLines scLines cfLines : List Str) : CaseTables :=
  caseTables (loadUnicodeData udLines) (loadCaseFolding cfLines) (loadSpecialCasing (loadUnicodeData udLines) scLines)

theorem tables_eq {udLines scLines cfLines : List Str} {ud : List UdEntry} {sp : List SpecialEntry} {cf : List FoldEntry}
    (h1 : FileWith UdLine udLines ud) (h2 : FileWith SpecialLine scLines sp) (h3 : FileWith FoldLine cfLines cf)
    (hc : CaseFiles ud sp cf) :
    caseTablesOf udLines scLines cfLines =
      { simpleUpper := ud.foldl (fun m e => nSetOpt e.cp e.upper m) []
        simpleLower := ud.foldl (fun m e => nSetOpt e.cp e.lower m) []
        simpleTitle := ud.foldl (fun m e => nSetOpt e.cp e.title m) []
        simpleFold := cf.foldl (fun m e => nSetOpt e.cp (foldSimple e) m) []
        fullUpper := sp.foldl (fun m e => nSetOpt e.cp (special (ud.foldl (fun m e => nSetOpt e.cp e.upper m) []) (·.upper) e) m) []
        fullLower := sp.foldl (fun m e => nSetOpt e.cp (special (ud.foldl (fun m e => nSetOpt e.cp e.lower m) []) (·.lower) e) m) []
        fullTitle := sp.foldl (fun m e => nSetOpt e.cp (special (ud.foldl (fun m e => nSetOpt e.cp e.title m) []) (·.title) e) m) []
        fullFold := cf.foldl (fun m e => nSetOpt e.cp (foldFull e) m) [] } := by
  unfold caseTablesOf caseTables writeMap
  rw [loadSpecialCasing_eq _ h2, loadCaseFolding_eq h3, loadUnicodeData_eq h1]
  obtain ⟨_, _, u1, u2, u3⟩ := udFold_fields ud {}
  obtain ⟨s1, s2, s3⟩ := scFold_fields (ud.foldl udApply {}) sp {}
  obtain ⟨f1, f2⟩ := cfFold_fields cf {}
  rw [s1, s2, s3, f1, f2, u1, u2, u3]
  rw [visible_writeFull, visible_writeFull, visible_writeFull, visible_writeFull]
  · rintro ⟨c, ds⟩ hx
    rw [mem_iff_nFind _ (sorted_build _ _ _ _ .nil)] at hx
    rcases (nFind_build (fun e : FoldEntry => e.cp) foldFull cf [] c).1 ds hx with ⟨e, he, _, hv⟩ | h
    · unfold foldFull at hv
      split at hv
      · injection hv with hv; rw [← hv]; exact hc.cfShort e he
      · simp at hv
    · simp [nFind_nil] at h
  · exact special_short sp _ _ (fun e he hcc => (hc.spShort e he hcc).2.1)
  · exact special_short sp _ _ (fun e he hcc => (hc.spShort e he hcc).1)
  · exact special_short sp _ _ (fun e he hcc => (hc.spShort e he hcc).2.2)

theorem foldSays_full (cf : List FoldEntry)
    (hone : ∀ e ∈ cf, ∀ e' ∈ cf, e.cp = e'.cp → e.status ∈ ['C', 'F'] → e'.status ∈ ['C', 'F'] → e = e') (c : Nat) (ds : List Nat) :
    FoldSays cf ['C', 'F'] c ds ↔ Listed (cf.foldl (fun m e => nSetOpt e.cp (foldFull e) m) []) c ds := by
  have hst : ∀ (e : FoldEntry) x, foldFull e = some x ↔ e.status ∈ ['C', 'F'] ∧ e.mapping = x := by
    intro e x
    unfold foldFull
    by_cases h : e.status = 'C' ∨ e.status = 'F'
    · rw [if_pos h]; simp [h]
    · rw [if_neg h]; simp [h]
  unfold Listed
  rw [mem_iff_nFind _ (sorted_build _ _ _ _ .nil), nFind_build_iff]
  · constructor
    · rintro ⟨e, he, hk, h1, h2⟩; exact ⟨e, he, hk, (hst e ds).2 ⟨h1, h2⟩⟩
    · rintro ⟨e, he, hk, h1⟩; exact ⟨e, he, hk, (hst e ds).1 h1⟩
  · intro e he e' he' x y hk hx hy
    obtain ⟨h1, rfl⟩ := (hst e x).1 hx
    obtain ⟨h2, rfl⟩ := (hst e' y).1 hy
    rw [hone e he e' he' hk h1 h2]

theorem foldSays_simple (cf : List FoldEntry)
    (hone : ∀ e ∈ cf, ∀ e' ∈ cf, e.cp = e'.cp → e.status ∈ ['C', 'S'] → e'.status ∈ ['C', 'S'] → e = e') (c d : Nat) :
    FoldSays cf ['C', 'S'] c [d] ↔ Listed (cf.foldl (fun m e => nSetOpt e.cp (foldSimple e) m) []) c d := by
  have hst : ∀ (e : FoldEntry) x, foldSimple e = some x ↔ e.status ∈ ['C', 'S'] ∧ e.mapping = [x] := by
    intro e x
    unfold foldSimple
    by_cases h : e.status = 'C' ∨ e.status = 'S'
    · rw [if_pos h]
      match hm : e.mapping with
      | [] => simp
      | [y] => simp [h]
      | _ :: _ :: _ => simp
    · rw [if_neg h]; simp [h]
  unfold Listed
  rw [mem_iff_nFind _ (sorted_build _ _ _ _ .nil), nFind_build_iff]
  · constructor
    · rintro ⟨e, he, hk, h1, h2⟩; exact ⟨e, he, hk, (hst e d).2 ⟨h1, h2⟩⟩
    · rintro ⟨e, he, hk, h1⟩; exact ⟨e, he, hk, (hst e d).1 h1⟩
  · intro e he e' he' x y hk hx hy
    obtain ⟨h1, h2⟩ := (hst e x).1 hx
    obtain ⟨h3, h4⟩ := (hst e' y).1 hy
    rw [hone e he e' he' hk h1 h3, h4] at h2
    injection h2 with h2; exact h2.symm

theorem asciiUp_some {c d : Nat} (h : asciiUp c = some d) : 0x61 ≤ c ∧ c ≤ 0x7A ∧ d = c - 32 := by
  unfold asciiUp at h
  split at h
  · rename_i hh; injection h with h; exact ⟨hh.1, hh.2, h.symm⟩
  · simp at h

theorem asciiDown_some {c d : Nat} (h : asciiDown c = some d) : 0x41 ≤ c ∧ c ≤ 0x5A ∧ d = c + 32 := by
  unfold asciiDown at h
  split at h
  · rename_i hh; injection h with h; exact ⟨hh.1, hh.2, h.symm⟩
  · simp at h

/-- **C51, one codepoint.** For all well-formed UnicodeData, SpecialCasing and CaseFolding files, the generated tables make
`full_uppercase`, `full_lowercase`, `full_titlecase` and `full_casefold` (an empty result read as "unchanged") return
exactly the mapping the files give. -/
theorem C51_codepoint {udLines scLines cfLines : List Str} {ud : List UdEntry} {sp : List SpecialEntry} {cf : List FoldEntry}
    (h1 : FileWith UdLine udLines ud) (h2 : FileWith SpecialLine scLines sp) (h3 : FileWith FoldLine cfLines cf)
    (hc : CaseFiles ud sp cf) (c : Nat) (x : List Nat) :
    (CaseMaps (SpecialSays sp (·.upper)) (UdSays ud (·.upper)) c x ↔ x = upperOf (caseTablesOf udLines scLines cfLines) c)
    ∧ (CaseMaps (SpecialSays sp (·.lower)) (UdSays ud (·.lower)) c x ↔ x = lowerOf (caseTablesOf udLines scLines cfLines) c)
    ∧ (CaseMaps (SpecialSays sp (·.title)) (UdSays ud (·.title)) c x ↔ x = titleOf (caseTablesOf udLines scLines cfLines) c)
    ∧ (CaseMaps (FoldSays cf ['C', 'F']) (fun c d => FoldSays cf ['C', 'S'] c [d]) c x ↔
        x = foldOf (caseTablesOf udLines scLines cfLines) c) := by
  obtain ⟨m1, m2, m3, m4⟩ := Case.C33_codepoint (caseTablesOf udLines scLines cfLines)
    (C51_tables_sorted udLines scLines cfLines) c
  have ht := tables_eq h1 h2 h3 hc
  generalize caseTablesOf udLines scLines cfLines = T at m1 m2 m3 m4 ht ⊢
  have mU : MapsTo asciiUp _ _ c (upperOf T c) := m1
  have mL : MapsTo asciiDown _ _ c (lowerOf T c) := m2
  have mT : MapsTo asciiUp _ _ c (titleOf T c) := m3
  have mF : MapsTo asciiDown _ _ c (foldOf T c) := m4
  rw [show T.fullUpper = _ from congrArg CaseTables.fullUpper ht, show T.simpleUpper = _ from congrArg CaseTables.simpleUpper ht] at mU
  rw [show T.fullLower = _ from congrArg CaseTables.fullLower ht, show T.simpleLower = _ from congrArg CaseTables.simpleLower ht] at mL
  rw [show T.fullTitle = _ from congrArg CaseTables.fullTitle ht, show T.simpleTitle = _ from congrArg CaseTables.simpleTitle ht] at mT
  rw [show T.fullFold = _ from congrArg CaseTables.fullFold ht, show T.simpleFold = _ from congrArg CaseTables.simpleFold ht] at mF
  refine ⟨?_, ?_, ?_, ?_⟩
  · refine special_maps ud sp hc.udOne hc.spOne (·.upper) (·.upper) asciiUp (fun c d h => ?_) c _ mU x
    obtain ⟨a, b, rfl⟩ := asciiUp_some h
    obtain ⟨e, he, hk, hu, _⟩ := hc.asciiLower c a b
    exact ⟨e, he, hk, hu⟩
  · refine special_maps ud sp hc.udOne hc.spOne (·.lower) (·.lower) asciiDown (fun c d h => ?_) c _ mL x
    obtain ⟨a, b, rfl⟩ := asciiDown_some h
    exact hc.asciiUpper c a b
  · refine special_maps ud sp hc.udOne hc.spOne (·.title) (·.title) asciiUp (fun c d h => ?_) c _ mT x
    obtain ⟨a, b, rfl⟩ := asciiUp_some h
    obtain ⟨e, he, hk, _, hu⟩ := hc.asciiLower c a b
    exact ⟨e, he, hk, hu⟩
  · have hsu : ∀ a b, FoldSays cf ['C', 'S'] c [a] → FoldSays cf ['C', 'S'] c [b] → a = b := by
      rintro a b ⟨e, he, hk, hs, hv⟩ ⟨e', he', hk', hs', hv'⟩
      rw [hc.cfSimple e he e' he' (hk.trans hk'.symm) hs hs', hv'] at hv
      injection hv with hv; exact hv.symm
    have hmap : CaseMaps (FoldSays cf ['C', 'F']) (fun c d => FoldSays cf ['C', 'S'] c [d]) c (foldOf T c) := by
      refine caseMaps_of mF (fun ds h => (foldSays_full cf hc.cfFull c ds).2 h) (fun ds h _ => Or.inl ((foldSays_full cf hc.cfFull c ds).1 h))
        (foldSays_simple cf hc.cfSimple c) hsu (fun d h => ?_)
      obtain ⟨a, b, rfl⟩ := asciiDown_some h
      obtain ⟨e, he, hk, hs, hv⟩ := hc.asciiFold c a b
      exact ⟨e, he, hk, by simp at hs; simp [hs], hv⟩
    constructor
    · intro hx
      refine caseMaps_unique (fun a b ha hb => ?_) hsu hx hmap
      obtain ⟨e, he, hk, hs, rfl⟩ := ha
      obtain ⟨e', he', hk', hs', rfl⟩ := hb
      rw [hc.cfFull e he e' he' (hk.trans hk'.symm) hs hs']
    · rintro rfl; exact hmap

/-- **C51, texts.** `to_uppercase`, `to_lowercase` and `casefold` of a text replace every codepoint by the mapping the files
give, and no other result is possible. -/
theorem C51_text {udLines scLines cfLines : List Str} {ud : List UdEntry} {sp : List SpecialEntry} {cf : List FoldEntry}
    (h1 : FileWith UdLine udLines ud) (h2 : FileWith SpecialLine scLines sp) (h3 : FileWith FoldLine cfLines cf)
    (hc : CaseFiles ud sp cf) (text out : List Nat) :
    (MapsText (CaseMaps (SpecialSays sp (·.upper)) (UdSays ud (·.upper))) text out ↔
      out = toUppercase (caseTablesOf udLines scLines cfLines) text)
    ∧ (MapsText (CaseMaps (SpecialSays sp (·.lower)) (UdSays ud (·.lower))) text out ↔
      out = toLowercase (caseTablesOf udLines scLines cfLines) text)
    ∧ (MapsText (CaseMaps (FoldSays cf ['C', 'F']) (fun c d => FoldSays cf ['C', 'S'] c [d])) text out ↔
      out = casefold (caseTablesOf udLines scLines cfLines) text) := by
  have key := fun c x => C51_codepoint h1 h2 h3 hc c x
  rw [Case.toUppercase_eq, Case.toLowercase_eq, Case.casefold_eq]
  exact ⟨Case.mapsText_iff _ _ (fun c => (key c _).1.2 rfl) (fun c x y hx hy => by rw [(key c x).1.1 hx, (key c y).1.1 hy]) _ _,
    Case.mapsText_iff _ _ (fun c => (key c _).2.1.2 rfl) (fun c x y hx hy => by rw [(key c x).2.1.1 hx, (key c y).2.1.1 hy]) _ _,
    Case.mapsText_iff _ _ (fun c => (key c _).2.2.2.2 rfl) (fun c x y hx hy => by rw [(key c x).2.2.2.1 hx, (key c y).2.2.2.1 hy]) _ _⟩

theorem simpleMaps_of {gives : Nat → Nat → Prop} {stab : List (Nat × Nat)} (hs : Sorted (·.1) stab) {c s : Nat}
    (hl : ∀ d, gives c d ↔ Listed stab c d) (hu : ∀ x y, gives c x → gives c y → x = y)
    (hsim : (∃ d, gives c d ∧ s = d) ∨ s = simple stab c) (x : Nat) : SimpleMaps gives c x ↔ x = s := by
  have main : SimpleMaps gives c s := by
    rcases hsim with ⟨d, h, rfl⟩ | rfl
    · exact .listed h
    · rcases Case.simple_cases stab hs c with ⟨d, h1, h2⟩ | ⟨h1, h2⟩
      · rw [h2]; exact .listed ((hl d).2 h1)
      · rw [h2]; exact .same (fun d h => h1 d ((hl d).1 h))
  constructor
  · intro hx
    cases hx with
    | listed h1 =>
      cases main with
      | listed h2 => exact hu _ _ h1 h2
      | same h2 => exact absurd h1 (h2 _)
    | same h1 =>
      generalize hs' : s = s' at main
      cases main with
      | listed h2 => exact absurd h2 (h1 _)
      | same _ => rfl
  · rintro rfl; exact main

/-- **C51, simple mappings.** `simple_uppercase`, `simple_lowercase`, `simple_titlecase` and `simple_casefold` return the codepoint
the files list, otherwise the codepoint itself. -/
theorem C51_simple {udLines scLines cfLines : List Str} {ud : List UdEntry} {sp : List SpecialEntry} {cf : List FoldEntry}
    (h1 : FileWith UdLine udLines ud) (h2 : FileWith SpecialLine scLines sp) (h3 : FileWith FoldLine cfLines cf)
    (hc : CaseFiles ud sp cf) (c x : Nat) :
    (SimpleMaps (UdSays ud (·.upper)) c x ↔ x = simpleUppercase (caseTablesOf udLines scLines cfLines) c)
    ∧ (SimpleMaps (UdSays ud (·.lower)) c x ↔ x = simpleLowercase (caseTablesOf udLines scLines cfLines) c)
    ∧ (SimpleMaps (UdSays ud (·.title)) c x ↔ x = simpleTitlecase (caseTablesOf udLines scLines cfLines) c)
    ∧ (SimpleMaps (fun c d => FoldSays cf ['C', 'S'] c [d]) c x ↔ x = simpleCasefold (caseTablesOf udLines scLines cfLines) c) := by
  have ht := tables_eq h1 h2 h3 hc
  generalize caseTablesOf udLines scLines cfLines = T at ht ⊢
  subst ht
  refine ⟨?_, ?_, ?_, ?_⟩
  · refine simpleMaps_of (sorted_build _ _ _ _ .nil) (simple_listed ud hc.udOne (·.upper) c) (udSays_unique ud hc.udOne (·.upper) c) ?_ x
    rcases Case.upper_sim _ c _ rfl with ⟨d, ha, hd, _⟩ | ⟨_, hd⟩
    · obtain ⟨a, b, rfl⟩ := asciiUp_some ha
      obtain ⟨e, he, hk, hu, _⟩ := hc.asciiLower c a b
      exact Or.inl ⟨_, ⟨e, he, hk, hu⟩, hd⟩
    · exact Or.inr hd
  · refine simpleMaps_of (sorted_build _ _ _ _ .nil) (simple_listed ud hc.udOne (·.lower) c) (udSays_unique ud hc.udOne (·.lower) c) ?_ x
    rcases Case.lower_sim _ c _ rfl with ⟨d, ha, hd, _⟩ | ⟨_, hd⟩
    · obtain ⟨a, b, rfl⟩ := asciiDown_some ha
      exact Or.inl ⟨_, hc.asciiUpper c a b, hd⟩
    · exact Or.inr hd
  · refine simpleMaps_of (sorted_build _ _ _ _ .nil) (simple_listed ud hc.udOne (·.title) c) (udSays_unique ud hc.udOne (·.title) c) ?_ x
    rcases Case.upper_sim _ c _ rfl with ⟨d, ha, hd, _⟩ | ⟨_, hd⟩
    · obtain ⟨a, b, rfl⟩ := asciiUp_some ha
      obtain ⟨e, he, hk, _, hu⟩ := hc.asciiLower c a b
      exact Or.inl ⟨_, ⟨e, he, hk, hu⟩, hd⟩
    · exact Or.inr hd
  · refine simpleMaps_of (sorted_build _ _ _ _ .nil) (foldSays_simple cf hc.cfSimple c) ?_ ?_ x
    · rintro a b ⟨e, he, hk, hs, hv⟩ ⟨e', he', hk', hs', hv'⟩
      rw [hc.cfSimple e he e' he' (hk.trans hk'.symm) hs hs', hv'] at hv
      injection hv with hv; exact hv.symm
    · rcases Case.lower_sim _ c _ rfl with ⟨d, ha, hd, _⟩ | ⟨_, hd⟩
      · obtain ⟨a, b, rfl⟩ := asciiDown_some ha
        obtain ⟨e, he, hk, hs, hv⟩ := hc.asciiFold c a b
        exact Or.inl ⟨_, ⟨e, he, hk, by simp at hs; simp [hs], hv⟩, hd⟩
      · exact Or.inr hd

/-- **C51.** With mappings of at most three codepoints no look-up of a generated full table leaves its cells, and it returns
what `caseTablesOf` holds. -/
theorem C51_full_tables_safe {udLines scLines cfLines : List Str} {ud : List UdEntry} {sp : List SpecialEntry} {cf : List FoldEntry}
    (h2 : FileWith SpecialLine scLines sp) (h3 : FileWith FoldLine cfLines cf)
    (hc : CaseFiles ud sp cf) (c : Nat) :
    let s := loadSpecialCasing (loadUnicodeData udLines) scLines
    let T := caseTablesOf udLines scLines cfLines
    lookupFull (writeFull s.upper) c = .ok (full T.fullUpper c) ∧ lookupFull (writeFull s.lower) c = .ok (full T.fullLower c)
    ∧ lookupFull (writeFull s.title) c = .ok (full T.fullTitle c)
    ∧ lookupFull (writeFull (loadCaseFolding cfLines).full) c = .ok (full T.fullFold c) := by
  intro s T
  have key : ∀ m : List (Nat × List Nat), Sorted (·.1) m → (∀ e ∈ m, e.2.length ≤ 3) →
      lookupFull (writeFull m) c = .ok (full (visible (writeFull m)) c) := by
    intro m hm h
    obtain ⟨l1, _, l3⟩ := C51_full_lookup m hm c
    rw [visible_writeFull m h]
    rcases Case.full_cases m hm c with ⟨ds, h4, h5⟩ | ⟨h4, h5⟩
    · rw [h5]; exact l1 ds h4 (h _ h4)
    · rw [h5]; exact l3 h4
  have hs : s = sp.foldl (scApply (loadUnicodeData udLines)) {} := loadSpecialCasing_eq _ h2
  obtain ⟨s1, s2, s3⟩ := scFold_fields (loadUnicodeData udLines) sp {}
  obtain ⟨_, f2⟩ := cfFold_fields cf {}
  refine ⟨key _ (scSorted _ scLines).2.2 ?_, key _ (scSorted _ scLines).1 ?_, key _ (scSorted _ scLines).2.1 ?_,
    key _ (cfSorted cfLines).2 ?_⟩
  · rw [hs, s3]; exact special_short sp _ _ (fun e he hcc => (hc.spShort e he hcc).2.2)
  · rw [hs, s1]; exact special_short sp _ _ (fun e he hcc => (hc.spShort e he hcc).1)
  · rw [hs, s2]; exact special_short sp _ _ (fun e he hcc => (hc.spShort e he hcc).2.1)
  · rw [loadCaseFolding_eq h3, f2]
    rintro ⟨c, ds⟩ hx
    rw [mem_iff_nFind _ (sorted_build _ _ _ _ .nil)] at hx
    rcases (nFind_build (fun e : FoldEntry => e.cp) foldFull cf [] c).1 ds hx with ⟨e, he, _, hv⟩ | h
    · unfold foldFull at hv
      split at hv
      · injection hv with hv; rw [← hv]; exact hc.cfShort e he
      · simp at hv
    · simp [nFind_nil] at h

/-! ### Limits -/

/-- A mapping to four codepoints makes the look-up read and write outside the three cells. -/
theorem C51_fails_four_targets :
    lookupFull (writeFull (loadSpecialCasing {} ["00DF; 00DF; 0053 0073; 0041 0042 0043 0044; # FOUR".toList]).upper) 0xDF = .oob := by
  decide +kernel

/-- A conditional mapping without a comment is taken for an unconditional one. -/
theorem C51_fails_conditional_without_comment :
    (loadSpecialCasing {} ["03A3; 03C2; 03A3; 03A3; Final_Sigma;".toList]).lower = [(0x3A3, [0x3C2])]
    ∧ (loadSpecialCasing {} ["03A3; 03C2; 03A3; 03A3; Final_Sigma; # GREEK".toList]).lower = [] := by
  decide +kernel

/-- UAX #44: an empty titlecase field means that the titlecase mapping is the uppercase mapping.  The library leaves the
codepoint unchanged. -/
theorem C51_fails_title_default :
    simpleTitlecase (caseTablesOf ["00E9;E ACUTE;Ll;0;L;;;;;N;;;00C9;;".toList] [] []) 0xE9 = 0xE9
    ∧ simpleUppercase (caseTablesOf ["00E9;E ACUTE;Ll;0;L;;;;;N;;;00C9;;".toList] [] []) 0xE9 = 0xC9 := by
  decide +kernel

/-! ### A concrete instance -/

/-- ASCII letters, é/É, ß, ŉ. -/
def sampleUd : List UdEntry :=
  (List.range 26).map (fun i => ⟨0x41 + i, 0, .none, none, some (0x61 + i), none⟩)
  ++ (List.range 26).map (fun i => ⟨0x61 + i, 0, .none, some (0x41 + i), none, some (0x41 + i)⟩)
  ++ [⟨0xC9, 0, .canonical [0x45, 0x301], none, some 0xE9, none⟩, ⟨0xE9, 0, .canonical [0x65, 0x301], some 0xC9, none, some 0xC9⟩,
    ⟨0x149, 0, .compat "compat".toList [0x2BC, 0x6E], none, none, none⟩, ⟨0x301, 230, .none, none, none, none⟩]

def sampleSp : List SpecialEntry :=
  [⟨0xDF, [0xDF], [0x53, 0x73], [0x53, 0x53], false⟩, ⟨0x149, [0x149], [0x2BC, 0x4E], [0x2BC, 0x4E], false⟩,
    ⟨0x3A3, [0x3C2], [0x3A3], [0x3A3], true⟩]

def sampleCf : List FoldEntry :=
  (List.range 26).map (fun i => ⟨0x41 + i, 'C', [0x61 + i]⟩)
  ++ [⟨0x49, 'T', [0x131]⟩, ⟨0xC9, 'C', [0xE9]⟩, ⟨0xDF, 'F', [0x73, 0x73]⟩, ⟨0x1E9E, 'F', [0x73, 0x73]⟩, ⟨0x1E9E, 'S', [0xDF]⟩]

theorem sample_files : CaseFiles sampleUd sampleSp sampleCf := by
  have lo : ∀ c, 0x61 ≤ c → c ≤ 0x7A → ∃ i ∈ List.range 26, c = 0x61 + i := fun c h1 h2 =>
    ⟨c - 0x61, by rw [List.mem_range]; omega, by omega⟩
  have up : ∀ c, 0x41 ≤ c → c ≤ 0x5A → ∃ i ∈ List.range 26, c = 0x41 + i := fun c h1 h2 =>
    ⟨c - 0x41, by rw [List.mem_range]; omega, by omega⟩
  refine ⟨by decide +kernel, by decide +kernel, by decide +kernel, by decide +kernel, by decide +kernel, by decide +kernel, ?_, ?_, ?_⟩
  · intro c h1 h2
    obtain ⟨i, hi, rfl⟩ := lo c h1 h2
    revert i; decide +kernel
  · intro c h1 h2
    obtain ⟨i, hi, rfl⟩ := up c h1 h2
    revert i; decide +kernel
  · intro c h1 h2
    obtain ⟨i, hi, rfl⟩ := up c h1 h2
    have : ∀ i ∈ List.range 26, (⟨0x41 + i, 'C', [0x61 + i]⟩ : FoldEntry) ∈ sampleCf := by decide +kernel
    refine ⟨_, this i hi, rfl, by simp, ?_⟩
    show [0x61 + i] = [0x41 + i + 32]
    congr 1; omega

/-- The files exist. -/
theorem sample_lines : FileWith UdLine (sampleUd.map udRender) sampleUd ∧ FileWith SpecialLine (sampleSp.map spRender) sampleSp
    ∧ FileWith FoldLine (sampleCf.map cfRender) sampleCf :=
  ⟨fileWith_map udRender _ (fun e he => udRender_ok e (by revert e; decide +kernel)),
    fileWith_map spRender _ (fun e he => spRender_ok e (by revert e; decide +kernel)),
    fileWith_map cfRender _ (fun e he => cfRender_ok e (by revert e; decide +kernel))⟩

/-- "straße" becomes "STRASSE". -/
example : toUppercase (caseTablesOf (sampleUd.map udRender) (sampleSp.map spRender) (sampleCf.map cfRender))
    [0x73, 0x74, 0x72, 0x61, 0xDF, 0x65] = [0x53, 0x54, 0x52, 0x41, 0x53, 0x53, 0x45] := by
  decide +kernel

example (text out : List Nat) : MapsText (CaseMaps (SpecialSays sampleSp (·.upper)) (UdSays sampleUd (·.upper))) text out ↔
    out = toUppercase (caseTablesOf (sampleUd.map udRender) (sampleSp.map spRender) (sampleCf.map cfRender)) text :=
  (C51_text sample_lines.1 sample_lines.2.1 sample_lines.2.2 sample_files text out).1

example : String.ofList (udRender ⟨0xE9, 0, .canonical [0x65, 0x301], some 0xC9, none, some 0xC9⟩) =
    "00E9;NAME;XX;000;L;0065 0301;;;;N;;;00C9;;00C9" := by decide +kernel
example : String.ofList (spRender ⟨0x3A3, [0x3C2], [0x3A3], [0x3A3], true⟩) = "03A3; 03C2; 03A3; 03A3; Cond; # NAME" := by decide +kernel
example : String.ofList (cfRender ⟨0x1E9E, 'F', [0x73, 0x73]⟩) = "1E9E; F; 0073 0073; # NAME" := by decide +kernel

end Verif.Props.Tg
