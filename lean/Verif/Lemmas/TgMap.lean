import Verif.Model.TgRecords
import Verif.Spec.UcdAssign
import Mathlib.Data.List.Nodup
/-!
# Lemmas about the string sets, maps and index builders of the table generator
-/

namespace Verif.Tg
open Verif.Spec.Ucd (GoodAliases)

theorem char_ext {a b : Char} (h : a.toNat = b.toNat) : a = b := by
  apply Char.ext
  exact UInt32.toNat_inj.1 h

theorem strLt_irrefl (a : Str) : strLt a a = false := by
  induction a with
  | nil => rfl
  | cons x xs ih => simp [strLt, ih]

theorem strLt_trans (a b c : Str) (h1 : strLt a b = true) (h2 : strLt b c = true) : strLt a c = true := by
  induction a generalizing b c with
  | nil =>
    cases b with
    | nil => simp [strLt] at h1
    | cons y ys =>
      cases c with
      | nil => simp [strLt] at h2
      | cons z zs => rfl
  | cons x xs ih =>
    cases b with
    | nil => simp [strLt] at h1
    | cons y ys =>
      cases c with
      | nil => simp [strLt] at h2
      | cons z zs =>
        unfold strLt at h1 h2 ⊢
        by_cases a1 : x.toNat < y.toNat
        · by_cases a2 : y.toNat < z.toNat
          · rw [if_pos (by omega)]
          · by_cases a3 : z.toNat < y.toNat
            · rw [if_neg a2, if_pos a3] at h2; simp at h2
            · rw [if_pos (by omega)]
        · rw [if_neg a1] at h1
          by_cases a2 : y.toNat < x.toNat
          · rw [if_pos a2] at h1; simp at h1
          · rw [if_neg a2] at h1
            by_cases a3 : y.toNat < z.toNat
            · rw [if_pos (by omega)]
            · rw [if_neg a3] at h2
              by_cases a4 : z.toNat < y.toNat
              · rw [if_pos a4] at h2; simp at h2
              · rw [if_neg a4] at h2
                rw [if_neg (by omega), if_neg (by omega)]
                exact ih _ _ h1 h2

theorem strLt_tri (a b : Str) (h1 : strLt a b = false) (h2 : strLt b a = false) : a = b := by
  induction a generalizing b with
  | nil =>
    cases b with
    | nil => rfl
    | cons y ys => simp [strLt] at h1
  | cons x xs ih =>
    cases b with
    | nil => simp [strLt] at h2
    | cons y ys =>
      unfold strLt at h1 h2
      by_cases a1 : x.toNat < y.toNat
      · rw [if_pos a1] at h1; simp at h1
      · rw [if_neg a1] at h1
        by_cases a2 : y.toNat < x.toNat
        · rw [if_pos a2] at h2; simp at h2
        · rw [if_neg a2] at h1 h2
          rw [if_neg a1] at h2
          rw [char_ext (show x.toNat = y.toNat by omega), ih _ h1 h2]

/-! ## Sets -/

def SetOk (s : List Str) : Prop := s.Pairwise fun a b => strLt a b = true

theorem mem_setInsert (k x : Str) (s : List Str) : x ∈ setInsert k s ↔ x = k ∨ x ∈ s := by
  induction s with
  | nil => simp [setInsert]
  | cons y ys ih =>
    unfold setInsert
    by_cases h : k = y
    · rw [if_pos h]; subst h
      constructor
      · intro hx; exact Or.inr hx
      · rintro (rfl | hx)
        · simp
        · exact hx
    · rw [if_neg h]
      by_cases h2 : strLt k y = true
      · rw [if_pos h2]; simp
      · rw [if_neg h2]
        simp only [List.mem_cons, ih]
        tauto

theorem setInsert_ok (k : Str) (s : List Str) (h : SetOk s) : SetOk (setInsert k s) := by
  induction s with
  | nil => simp [setInsert, SetOk]
  | cons y ys ih =>
    unfold setInsert
    by_cases h1 : k = y
    · rw [if_pos h1]; exact h
    · rw [if_neg h1]
      have hy := List.pairwise_cons.1 h
      by_cases h2 : strLt k y = true
      · rw [if_pos h2]
        refine List.pairwise_cons.2 ⟨?_, h⟩
        intro z hz
        rcases List.mem_cons.1 hz with rfl | hz
        · exact h2
        · exact strLt_trans _ _ _ h2 (hy.1 z hz)
      · rw [if_neg h2]
        refine List.pairwise_cons.2 ⟨?_, ih hy.2⟩
        intro z hz
        rcases (mem_setInsert k z ys).1 hz with rfl | hz
        · by_contra h3
          exact h1 (strLt_tri _ _ (by simpa using h2) (by simpa using h3))
        · exact hy.1 z hz

theorem setOk_nodup (s : List Str) (h : SetOk s) : s.Nodup := by
  unfold List.Nodup
  refine List.Pairwise.imp ?_ h
  rintro a b hab rfl
  rw [strLt_irrefl] at hab; simp at hab

theorem mkSet_aux (xs s : List Str) (h : SetOk s) :
    SetOk (xs.foldl (fun s x => setInsert x s) s) ∧
      ∀ x, x ∈ xs.foldl (fun s x => setInsert x s) s ↔ x ∈ xs ∨ x ∈ s := by
  induction xs generalizing s with
  | nil => simpa using h
  | cons y ys ih =>
    rw [List.foldl_cons]
    obtain ⟨h1, h2⟩ := ih (setInsert y s) (setInsert_ok y s h)
    refine ⟨h1, ?_⟩
    intro x
    rw [h2, mem_setInsert, List.mem_cons]
    tauto

theorem mkSet_ok (xs : List Str) : SetOk (mkSet xs) := (mkSet_aux xs [] List.Pairwise.nil).1
theorem mem_mkSet (xs : List Str) (x : Str) : x ∈ mkSet xs ↔ x ∈ xs := by
  have := (mkSet_aux xs [] List.Pairwise.nil).2 x
  simpa [mkSet] using this
theorem mkSet_nodup (xs : List Str) : (mkSet xs).Nodup := setOk_nodup _ (mkSet_ok xs)

theorem mem_sortInsert (k x : Str) (s : List Str) : x ∈ sortInsert k s ↔ x = k ∨ x ∈ s := by
  induction s with
  | nil => simp [sortInsert]
  | cons y ys ih =>
    unfold sortInsert
    split
    · simp only [List.mem_cons, ih]; tauto
    · simp

theorem mem_sortStrs (xs : List Str) (x : Str) : x ∈ sortStrs xs ↔ x ∈ xs := by
  unfold sortStrs
  induction xs with
  | nil => simp
  | cons y ys ih => rw [List.foldr_cons, mem_sortInsert, ih, List.mem_cons]

theorem length_sortInsert (k : Str) (s : List Str) : (sortInsert k s).length = s.length + 1 := by
  induction s with
  | nil => rfl
  | cons y ys ih =>
    unfold sortInsert
    split
    · simp [ih]
    · simp

theorem length_sortStrs (xs : List Str) : (sortStrs xs).length = xs.length := by
  unfold sortStrs
  induction xs with
  | nil => rfl
  | cons y ys ih => rw [List.foldr_cons, length_sortInsert, ih, List.length_cons]

/-! ## Maps -/

theorem mapFind_nil (k : Str) : mapFind [] k = none := rfl

theorem mapFind_cons (k k' : Str) (v : Nat) (m : Map) :
    mapFind ((k', v) :: m) k = if k' = k then some v else mapFind m k := by
  unfold mapFind
  rw [List.find?_cons]
  by_cases h : k' = k
  · simp [h]
  · simp [h]

theorem mapFind_set (k k' : Str) (v : Nat) (m : Map) :
    mapFind (mapSet k v m) k' = if k = k' then some v else mapFind m k' := by
  induction m with
  | nil => rw [mapSet, mapFind_cons]
  | cons e m ih =>
    obtain ⟨a, b⟩ := e
    unfold mapSet
    by_cases h : k = a
    · rw [if_pos h, mapFind_cons, mapFind_cons, h]
      by_cases h' : a = k' <;> simp [h']
    · rw [if_neg h]
      by_cases h2 : strLt k a = true
      · rw [if_pos h2, mapFind_cons]
      · rw [if_neg h2, mapFind_cons, ih, mapFind_cons]
        by_cases h3 : a = k'
        · rw [if_pos h3, if_pos h3, if_neg (fun e => h (e.trans h3.symm))]
        · rw [if_neg h3, if_neg h3]

def MapOk (m : Map) : Prop := m.Pairwise fun a b => strLt a.1 b.1 = true

theorem mem_mapSet (k : Str) (v : Nat) (m : Map) (e : Str × Nat) (h : e ∈ mapSet k v m) : e = (k, v) ∨ e ∈ m := by
  induction m with
  | nil => simpa [mapSet] using h
  | cons x xs ih =>
    obtain ⟨a, b⟩ := x
    unfold mapSet at h
    split at h
    · rcases List.mem_cons.1 h with h | h
      · exact Or.inl h
      · exact Or.inr (by simp [h])
    · split at h
      · rcases List.mem_cons.1 h with h | h
        · exact Or.inl h
        · exact Or.inr h
      · rcases List.mem_cons.1 h with h | h
        · exact Or.inr (by simp [h])
        · rcases ih h with h | h
          · exact Or.inl h
          · exact Or.inr (by simp [h])

theorem mapSet_ok (k : Str) (v : Nat) (m : Map) (h : MapOk m) : MapOk (mapSet k v m) := by
  induction m with
  | nil => simp [mapSet, MapOk]
  | cons e m ih =>
    obtain ⟨a, b⟩ := e
    have hy := List.pairwise_cons.1 h
    unfold mapSet
    by_cases h1 : k = a
    · rw [if_pos h1]; subst h1
      exact List.pairwise_cons.2 ⟨hy.1, hy.2⟩
    · rw [if_neg h1]
      by_cases h2 : strLt k a = true
      · rw [if_pos h2]
        refine List.pairwise_cons.2 ⟨?_, h⟩
        intro z hz
        rcases List.mem_cons.1 hz with rfl | hz
        · exact h2
        · exact strLt_trans _ _ _ h2 (hy.1 z hz)
      · rw [if_neg h2]
        refine List.pairwise_cons.2 ⟨?_, ih hy.2⟩
        intro z hz
        rcases mem_mapSet _ _ _ _ hz with rfl | hz
        · by_contra h3
          exact h1 (strLt_tri _ _ (by simpa using h2) (by simpa using h3))
        · exact hy.1 z hz

theorem mapFind_mem (m : Map) (k : Str) (v : Nat) (h : mapFind m k = some v) : (k, v) ∈ m := by
  induction m with
  | nil => simp [mapFind_nil] at h
  | cons e m ih =>
    obtain ⟨a, b⟩ := e
    rw [mapFind_cons] at h
    by_cases h1 : a = k
    · rw [if_pos h1] at h; simp at h; simp [h1, h]
    · rw [if_neg h1] at h; simp [ih h]

theorem mem_mapFind (m : Map) (hm : MapOk m) (k : Str) (v : Nat) (h : (k, v) ∈ m) : mapFind m k = some v := by
  induction m with
  | nil => simp at h
  | cons e m ih =>
    obtain ⟨a, b⟩ := e
    have hy := List.pairwise_cons.1 hm
    rw [mapFind_cons]
    rcases List.mem_cons.1 h with h | h
    · simp at h; simp [h]
    · rw [if_neg, ih hy.2 h]
      rintro rfl
      have := hy.1 _ h
      rw [strLt_irrefl] at this; simp at this

/-! ## Consecutive numbering -/

theorem addFrom_notin (idx : Nat) (ss : List Str) (m : Map) (s : Str) (h : s ∉ ss) :
    mapFind (addFrom idx ss m) s = mapFind m s := by
  induction ss generalizing idx m with
  | nil => rfl
  | cons x xs ih =>
    simp only [List.mem_cons, not_or] at h
    unfold addFrom
    rw [ih _ _ h.2, mapFind_set, if_neg (fun e => h.1 e.symm)]

theorem addFrom_at (idx : Nat) (ss : List Str) (m : Map) (hn : ss.Nodup) (hl : idx + ss.length ≤ 256) (p : Nat) (s : Str)
    (h : ss[p]? = some s) : mapFind (addFrom idx ss m) s = some (idx + p) := by
  induction ss generalizing idx m p with
  | nil => simp at h
  | cons x xs ih =>
    have hn' := List.nodup_cons.1 hn
    simp only [List.length_cons] at hl
    unfold addFrom
    cases p with
    | zero =>
      simp at h; subst h
      rw [addFrom_notin _ _ _ _ hn'.1, mapFind_set, if_pos rfl]; rfl
    | succ p =>
      simp at h
      have hp := (List.getElem?_eq_some_iff.1 h).1
      rw [Nat.mod_eq_of_lt (by omega), ih (idx + 1) _ hn'.2 (by omega) p h]
      congr 1; omega

/-- `scriptNames[scriptIndex[s]] = s` for every script that occurs in the data. -/
theorem scriptIndex_names (props : List Str) (hl : (mkSet props).length ≤ 253) (s : Str) (hs : s ∈ props) :
    ∃ i, mapFind (scriptIndex props) s = some i ∧ i < 256 ∧ (scriptNames props)[i]? = some s := by
  have hn : (otherScripts props).Nodup := (mkSet_nodup props).filter _
  have hlen : (otherScripts props).length ≤ 253 := Nat.le_trans (List.length_filter_le _ _) hl
  by_cases hc : s = "Common".toList
  · subst hc
    refine ⟨2, ?_, by omega, rfl⟩
    unfold scriptIndex
    rw [addFrom_notin, mapFind_set, if_pos rfl]
    simp [otherScripts]
  · have hm : s ∈ otherScripts props := by
      simp only [otherScripts, List.mem_filter, mem_mkSet]
      exact ⟨hs, by simpa using hc⟩
    obtain ⟨p, hp⟩ := List.getElem?_of_mem hm
    have hlt := (List.getElem?_eq_some_iff.1 hp).1
    refine ⟨3 + p, addFrom_at 3 _ _ hn (by omega) p s hp, by omega, ?_⟩
    unfold scriptNames
    rw [show 3 + p = p + 1 + 1 + 1 by omega, List.getElem?_cons_succ, List.getElem?_cons_succ, List.getElem?_cons_succ, hp]

/-- The default script. -/
theorem scriptIndex_unknown (props : List Str) (hl : (mkSet props).length ≤ 253) :
    ∃ i, mapFind (scriptIndex props) "Unknown".toList = some i ∧ (scriptNames props)[i]? = some "Unknown".toList := by
  by_cases h : "Unknown".toList ∈ props
  · obtain ⟨i, h1, -, h2⟩ := scriptIndex_names props hl _ h
    exact ⟨i, h1, h2⟩
  · refine ⟨1, ?_, rfl⟩
    unfold scriptIndex
    rw [addFrom_notin, mapFind_set, if_neg (by decide), mapFind_set, if_pos rfl]
    intro h'
    simp only [otherScripts, List.mem_filter, mem_mkSet] at h'
    exact h h'.1

theorem gcIndex_names (props : List Str) (hl : (mkSet props).length ≤ 255) (s : Str) (hs : s ∈ props) :
    ∃ i, mapFind (gcIndex props) s = some i ∧ (gcNames props)[i]? = some s := by
  obtain ⟨p, hp⟩ := List.getElem?_of_mem ((mem_mkSet props s).2 hs)
  have hlt := (List.getElem?_eq_some_iff.1 hp).1
  refine ⟨1 + p, addFrom_at 1 _ _ (mkSet_nodup props) (by omega) p s hp, ?_⟩
  unfold gcNames
  rw [Nat.add_comm, List.getElem?_cons_succ, hp]

theorem gcIndex_find (props : List Str) (hl : (mkSet props).length ≤ 255) (s : Str) (i : Nat)
    (h : mapFind (gcIndex props) s = some i) : (gcNames props)[i]? = some s ∧ (s ∈ props ∨ s = "Unspecified".toList) := by
  by_cases hs : s ∈ props
  · obtain ⟨j, h1, h2⟩ := gcIndex_names props hl s hs
    rw [h1] at h; simp at h; subst h
    exact ⟨h2, Or.inl hs⟩
  · unfold gcIndex at h
    rw [addFrom_notin _ _ _ _ (fun e => hs ((mem_mkSet _ _).1 e)), mapFind_set] at h
    by_cases h1 : "Unspecified".toList = s
    · rw [if_pos h1] at h; simp at h; subst h
      exact ⟨by rw [← h1]; rfl, Or.inr h1.symm⟩
    · rw [if_neg h1, mapFind_nil] at h; simp at h

/-! ## Alias based indices -/

/-- What the numbering of the full names guarantees. -/
structure Numbered (m : Map) (names : List Str) : Prop where
  ok : MapOk m
  keys : ∀ k i, mapFind m k = some i → k ∈ names
  total : ∀ k ∈ names, ∃ i, mapFind m k = some i
  inj : ∀ k k' i, mapFind m k = some i → mapFind m k' = some i → k = k'

theorem numbered_step {m : Map} {names : List Str} {v : Str} {idx : Nat} (hm : Numbered m names) (h : mapFind m v = none)
    (hb : ∀ k i, mapFind m k = some i → i < idx) : Numbered (mapSet v idx m) (names ++ [v]) := by
  refine ⟨mapSet_ok _ _ _ hm.ok, ?_, ?_, ?_⟩
  · intro k i hk
    rw [mapFind_set] at hk
    by_cases h1 : v = k
    · simp [h1]
    · rw [if_neg h1] at hk
      simp [hm.keys k i hk]
  · intro k hk
    rw [mapFind_set]
    by_cases h1 : v = k
    · rw [if_pos h1]; exact ⟨_, rfl⟩
    · rw [if_neg h1]
      rcases List.mem_append.1 hk with hk | hk
      · exact hm.total k hk
      · simp at hk; exact absurd hk.symm h1
  · intro k k' i hk hk'
    rw [mapFind_set] at hk hk'
    by_cases h1 : v = k
    · rw [if_pos h1] at hk; simp at hk
      by_cases h2 : v = k'
      · exact h1.symm.trans h2
      · rw [if_neg h2] at hk'
        have := hb k' i hk'; omega
    · rw [if_neg h1] at hk
      by_cases h2 : v = k'
      · rw [if_pos h2] at hk'; simp at hk'
        have := hb k i hk; omega
      · rw [if_neg h2] at hk'
        exact hm.inj _ _ _ hk hk'

theorem pvaAdd_spec (vs : List Str) (idx : Nat) (m : Map) (names : List Str) (hm : Numbered m names)
    (hb : ∀ k i, mapFind m k = some i → i < idx) (hl : idx + vs.length ≤ 256) :
    Numbered (pvaAdd vs idx m) (names ++ vs) := by
  induction vs generalizing idx m names with
  | nil => simpa [pvaAdd] using hm
  | cons v vs ih =>
    simp only [List.length_cons] at hl
    unfold pvaAdd
    by_cases h : mapFind m v = none
    · rw [if_pos h, show names ++ v :: vs = (names ++ [v]) ++ vs by simp]
      by_cases hlast : vs = []
      · subst hlast
        rw [pvaAdd, List.append_nil]
        exact numbered_step hm h hb
      · have : 0 < vs.length := List.length_pos_iff.2 hlast
        rw [Nat.mod_eq_of_lt (by omega)]
        apply ih
        · exact numbered_step hm h hb
        · intro k i hk
          rw [mapFind_set] at hk
          by_cases h1 : v = k
          · rw [if_pos h1] at hk; simp at hk; omega
          · rw [if_neg h1] at hk
            have := hb k i hk; omega
        · omega
    · rw [if_neg h]
      have h2 := ih idx m names hm hb (by omega)
      have hv : v ∈ names := by
        obtain ⟨i, hi⟩ := Option.ne_none_iff_exists'.1 h
        exact hm.keys v i hi
      refine ⟨h2.ok, fun k i hk => ?_, fun k hk => h2.total k ?_, h2.inj⟩
      · have := h2.keys k i hk
        simp only [List.mem_append, List.mem_cons] at this ⊢
        tauto
      · simp only [List.mem_append, List.mem_cons] at hk ⊢
        rcases hk with hk | rfl | hk
        · exact Or.inl hk
        · exact Or.inl hv
        · exact Or.inr hk
/-- The names that are numbered. -/
def fullNames (al : List (Str × Str)) (first : Option Str) : List Str := first.toList ++ al.map (·.2)

/-- The map before the abbreviations are added. -/
def baseMap (al : List (Str × Str)) (first : Option Str) : Map :=
  match first with
  | some f => pvaAdd (sortStrs (al.map (·.2))) 1 (mapSet f 0 [])
  | none => pvaAdd (sortStrs (al.map (·.2))) 0 []

theorem numbered_base (al : List (Str × Str)) (first : Option Str) (h : al.length + 1 ≤ 256) :
    Numbered (baseMap al first) (fullNames al first) := by
  have conv : ∀ m, Numbered m (first.toList ++ sortStrs (al.map (·.2))) → Numbered m (fullNames al first) := by
    intro m hm
    refine ⟨hm.ok, fun k i hk => ?_, fun k hk => hm.total k ?_, hm.inj⟩
    · have := hm.keys k i hk
      simpa [fullNames, List.mem_append, mem_sortStrs] using this
    · simpa [fullNames, List.mem_append, mem_sortStrs] using hk
  apply conv
  unfold baseMap
  cases first with
  | none =>
    simp only [Option.toList_none, List.nil_append]
    have := pvaAdd_spec (sortStrs (al.map (·.2))) 0 [] [] ⟨List.Pairwise.nil, by simp [mapFind_nil], by simp, by simp [mapFind_nil]⟩
      (by simp [mapFind_nil]) (by rw [length_sortStrs, List.length_map]; omega)
    simpa using this
  | some f =>
    simp only [Option.toList_some]
    have hb : Numbered (mapSet f 0 []) [f] := by
      have := numbered_step (v := f) (idx := 0) (m := []) (names := [])
        ⟨List.Pairwise.nil, by simp [mapFind_nil], by simp, by simp [mapFind_nil]⟩ rfl (by simp [mapFind_nil])
      simpa using this
    exact pvaAdd_spec (sortStrs (al.map (·.2))) 1 _ [f] hb
      (by intro k i hk; rw [mapFind_set, mapFind_nil] at hk; split at hk <;> simp at hk; omega)
      (by rw [length_sortStrs, List.length_map]; omega)

/-- Adding the abbreviations: every name keeps its number, every abbreviation gets that of its full name, and there are
no other keys. -/
theorem addAbbrevs_spec (al : List (Str × Str)) (m0 m : Map) (names : List Str) (h0 : Numbered m0 names)
    (hal : ∀ a f, (a, f) ∈ al → f ∈ names)
    (hfun : ∀ a f f', (a, f) ∈ al → (a, f') ∈ al → f = f')
    (hnc : ∀ a f, (a, f) ∈ al → a ∈ names → a = f)
    (hok : MapOk m)
    (hm : ∀ k ∈ names, mapFind m k = mapFind m0 k)
    (hother : ∀ k, k ∉ names → mapFind m k ≠ none → (∃ f, f ∈ names ∧ mapFind m k = mapFind m0 f ∧
      (∀ f', (k, f') ∈ al → f' = f))) :
    MapOk (addAbbrevs al m) ∧ (∀ k ∈ names, mapFind (addAbbrevs al m) k = mapFind m0 k) ∧
      (∀ a f, (a, f) ∈ al → mapFind (addAbbrevs al m) a = mapFind m0 f) ∧
      (∀ k, (∀ f, (k, f) ∉ al) → mapFind (addAbbrevs al m) k = mapFind m k) := by
  induction al generalizing m with
  | nil => exact ⟨hok, hm, by simp, by simp [addAbbrevs]⟩
  | cons e al ih =>
    obtain ⟨a, f⟩ := e
    have hf : f ∈ names := hal a f (by simp)
    obtain ⟨i, hi⟩ := h0.total f hf
    have hmi : mapFind m f = some i := by rw [hm f hf, hi]
    unfold addAbbrevs
    rw [hmi]
    simp only
    have names_keep : ∀ k ∈ names, mapFind (mapSet a i m) k = mapFind m0 k := by
      intro k hk
      rw [mapFind_set]
      by_cases h1 : a = k
      · have : a = f := hnc a f (by simp) (h1 ▸ hk)
        rw [if_pos h1, ← h1, this, hi]
      · rw [if_neg h1, hm k hk]
    have := ih (mapSet a i m) (fun a f h => hal a f (by simp [h])) (fun a f f' h h' => hfun a f f' (by simp [h]) (by simp [h']))
      (fun a f h => hnc a f (by simp [h])) (mapSet_ok _ _ _ hok) names_keep
      (by
        intro k hk hne
        rw [mapFind_set] at hne ⊢
        by_cases h1 : a = k
        · rw [if_pos h1]
          exact ⟨f, hf, hi.symm, fun f' h' => hfun k f' f (by simp [h']) (by simp [h1])⟩
        · rw [if_neg h1] at hne ⊢
          obtain ⟨f2, p1, p2, p3⟩ := hother k hk hne
          exact ⟨f2, p1, p2, fun f' h' => p3 f' (by simp [h'])⟩)
    obtain ⟨q1, q2, q3, q4⟩ := this
    refine ⟨q1, q2, ?_, ?_⟩
    · intro b g hb
      rcases List.mem_cons.1 hb with hb | hb
      · simp at hb
        obtain ⟨rfl, rfl⟩ := hb
        by_cases hin : ∃ f', (b, f') ∈ al
        · obtain ⟨f', hf'⟩ := hin
          rw [q3 b f' hf', hfun b f' g (by simp [hf']) (by simp)]
        · rw [q4 b (by simpa using hin), mapFind_set, if_pos rfl, hi]
      · exact q3 b g hb
    · intro k hk
      rw [q4 k (fun f hf => hk f (by simp [hf])), mapFind_set, if_neg]
      rintro rfl
      exact hk f (by simp)

/-- The complete index: a name is looked up to the number of the full name it stands for. -/
theorem pvaIndex_spec (al : List (Str × Str)) (first : Option Str) (h : GoodAliases al first) :
    ∃ num : Str → Nat, (∀ f ∈ fullNames al first, ∀ g ∈ fullNames al first, num f = num g → f = g) ∧
      (∀ f ∈ fullNames al first, mapFind (pvaIndex al first) f = some (num f)) ∧
      (∀ a f, (a, f) ∈ al → mapFind (pvaIndex al first) a = some (num f)) ∧
      (∀ k i, mapFind (pvaIndex al first) k = some i →
        ∃ f ∈ fullNames al first, num f = i ∧ (k = f ∨ (k, f) ∈ al)) ∧
      MapOk (pvaIndex al first) := by
  have hb := numbered_base al first h.small
  have key := addAbbrevs_spec al _ _ (fullNames al first) hb
    (fun a f hf => by simp only [fullNames, List.mem_append, List.mem_map]; exact Or.inr ⟨_, hf, rfl⟩)
    h.func
    (fun a f hf ha => h.noCapture a f hf (by
      simp only [fullNames, List.mem_append, Option.mem_toList] at ha
      rcases ha with ha | ha
      · exact Or.inr ha
      · exact Or.inl ha))
    hb.ok (fun k _ => rfl) (fun k hk hne => by
      obtain ⟨i, hi⟩ := Option.ne_none_iff_exists'.1 hne
      exact absurd (hb.keys k i hi) hk)
  have e : addAbbrevs al (baseMap al first) = pvaIndex al first := rfl
  rw [e] at key
  generalize baseMap al first = m0 at hb key
  obtain ⟨k1, k2, k3, k4⟩ := key
  have hnum : ∀ f ∈ fullNames al first, mapFind m0 f = some ((mapFind m0 f).getD 0) := by
    intro f hf
    obtain ⟨i, hi⟩ := hb.total f hf
    rw [hi]; rfl
  have halm : ∀ a f, (a, f) ∈ al → f ∈ fullNames al first := by
    intro a f hf
    simp only [fullNames, List.mem_append, List.mem_map]; exact Or.inr ⟨_, hf, rfl⟩
  refine ⟨fun f => (mapFind m0 f).getD 0, ?_, ?_, ?_, ?_, k1⟩
  · intro f hf g hg hfg
    have h1 := hnum f hf
    have h2 := hnum g hg
    simp only at hfg
    rw [hfg] at h1
    exact hb.inj f g _ h1 h2
  · intro f hf
    rw [k2 f hf]; exact hnum f hf
  · intro a f hf
    rw [k3 a f hf]; exact hnum f (halm a f hf)
  · intro k i hk
    by_cases hin : ∃ f, (k, f) ∈ al
    · obtain ⟨f, hf⟩ := hin
      refine ⟨f, halm k f hf, ?_, Or.inr hf⟩
      rw [k3 k f hf] at hk
      simp [hk]
    · rw [k4 k (by simpa using hin)] at hk
      exact ⟨k, hb.keys k i hk, by simp [hk], Or.inl rfl⟩

/-- The longest key of a number is its full name. -/
theorem longest_aux (l : Map) (value : Nat) (f best : Str) (hf : (f, value) ∈ l ∨ best = f)
    (hbest : best = f ∨ best.length < f.length)
    (hl : ∀ k, (k, value) ∈ l → k = f ∨ k.length < f.length) :
    l.foldl (fun best e => if e.2 = value ∧ e.1.length > best.length then e.1 else best) best = f := by
  induction l generalizing best with
  | nil =>
    rcases hf with hf | hf
    · simp at hf
    · exact hf
  | cons e l ih =>
    obtain ⟨k, v⟩ := e
    rw [List.foldl_cons]
    have hl' : ∀ k, (k, value) ∈ l → k = f ∨ k.length < f.length := fun k hk => hl k (by simp [hk])
    by_cases hc : v = value ∧ k.length > best.length
    · rw [if_pos hc]
      have hk := hl k (by simp [hc.1])
      refine ih k ?_ hk hl'
      rcases hk with hk | hk
      · exact Or.inr hk
      · rcases hf with hf | hf
        · rcases List.mem_cons.1 hf with hf | hf
          · simp at hf; rw [hf.1] at hk; omega
          · exact Or.inl hf
        · rw [hf] at hc; omega
    · rw [if_neg hc]
      refine ih best ?_ hbest hl'
      rcases hf with hf | hf
      · rcases List.mem_cons.1 hf with hf | hf
        · simp at hf
          rcases hbest with hb | hb
          · exact Or.inr hb
          · exact absurd ⟨hf.2.symm, by rw [← hf.1]; omega⟩ hc
        · exact Or.inl hf
      · exact Or.inr hf

theorem reverseLookup_spec (al : List (Str × Str)) (first : Option Str) (h : GoodAliases al first) (k f d : Str)
    (hf : f ∈ fullNames al first) (hne : f ≠ []) (hk : k = f ∨ (k, f) ∈ al) :
    ∃ i, mapFind (pvaIndex al first) k = some i ∧ mapFind (pvaIndex al first) f = some i ∧
      reverseLookup (pvaIndex al first) i d = f := by
  obtain ⟨num, n1, n2, n3, n4, n5⟩ := pvaIndex_spec al first h
  refine ⟨num f, ?_, n2 f hf, ?_⟩
  · rcases hk with rfl | hk
    · exact n2 _ hf
    · exact n3 k f hk
  · have hlen : 0 < f.length := List.length_pos_iff.2 hne
    have : (pvaIndex al first).foldl (fun best e => if e.2 = num f ∧ e.1.length > best.length then e.1 else best) [] = f := by
      apply longest_aux
      · exact Or.inl (mapFind_mem _ _ _ (n2 f hf))
      · exact Or.inr hlen
      · intro k' hk'
        obtain ⟨g, g1, g2, g3⟩ := n4 k' _ (mem_mapFind _ n5 _ _ hk')
        have hg : g = f := n1 g g1 f hf g2
        subst hg
        rcases g3 with rfl | g3
        · exact Or.inl rfl
        · exact h.shorter k' g g3
    unfold reverseLookup
    simp only [this]
    rw [if_neg hne]

end Verif.Tg
