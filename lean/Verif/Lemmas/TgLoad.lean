import Verif.Model.TgApi
import Verif.Spec.UcdApi
import Verif.Lemmas.TgFields
import Verif.Lemmas.TgMap
import Verif.Lemmas.TgFill
import Verif.Props.Tables
/-!
# Lemmas about the loaders
-/

namespace Verif.Props.Tg
open Verif.Tg
open Verif.Spec.UcdFile
open Verif.Spec.Ucd

variable {V : Type}

/-- Strictly ascending keys. -/
def AmOk (m : List (Str × V)) : Prop := m.Pairwise fun a b => strLt a.1 b.1 = true

theorem amFind_cons (k : Str) (e : Str × V) (m : List (Str × V)) :
    amFind (e :: m) k = if e.1 = k then some e.2 else amFind m k := by
  unfold amFind
  rw [List.find?_cons]
  by_cases h : e.1 = k
  · simp [h]
  · simp [h]

theorem amFind_none_of_lt (k : Str) (m : List (Str × V)) (h : ∀ e ∈ m, strLt k e.1 = true) : amFind m k = none := by
  induction m with
  | nil => rfl
  | cons e m ih =>
    rw [amFind_cons, if_neg, ih (fun x hx => h x (by simp [hx]))]
    intro e'
    have := h e (by simp)
    rw [e', strLt_irrefl] at this
    exact absurd this (by simp)

theorem amFind_upd (k j : Str) (f : Option V → V) (m : List (Str × V)) (hm : AmOk m) :
    amFind (amUpd k f m) j = if k = j then some (f (amFind m k)) else amFind m j := by
  induction m with
  | nil => rw [amUpd, amFind_cons]; rfl
  | cons e m ih =>
    obtain ⟨x, v⟩ := e
    unfold AmOk at hm
    rw [List.pairwise_cons] at hm
    rw [amUpd]
    by_cases h : x = k
    · subst h
      rw [if_pos rfl, amFind_cons, amFind_cons, amFind_cons, if_pos rfl]
      split
      · rfl
      · rfl
    · rw [if_neg h]
      by_cases hlt : strLt k x = true
      · rw [if_pos hlt, amFind_cons]
        have : amFind ((x, v) :: m) k = none := amFind_none_of_lt _ _ (by
          intro e he
          rcases List.mem_cons.1 he with rfl | he
          · exact hlt
          · exact strLt_trans _ _ _ hlt (hm.1 e he))
        rw [this]
      · rw [if_neg hlt, amFind_cons, ih hm.2, amFind_cons, amFind_cons]
        rw [if_neg h]
        by_cases hk : k = j
        · subst hk; simp [h]
        · simp [hk]

theorem mem_amUpd (k : Str) (f : Option V → V) (m : List (Str × V)) (e : Str × V) (h : e ∈ amUpd k f m) : e.1 = k ∨ e ∈ m := by
  induction m with
  | nil => rw [amUpd] at h; simp at h; left; rw [h]
  | cons x m ih =>
    obtain ⟨x, v⟩ := x
    rw [amUpd] at h
    split at h
    · rename_i hx
      rcases List.mem_cons.1 h with rfl | h
      · left; exact hx
      · right; simp [h]
    · split at h
      · rcases List.mem_cons.1 h with rfl | h
        · left; rfl
        · right; exact h
      · rcases List.mem_cons.1 h with rfl | h
        · right; simp
        · rcases ih h with h | h
          · left; exact h
          · right; simp [h]

theorem amUpd_ok (k : Str) (f : Option V → V) (m : List (Str × V)) (hm : AmOk m) : AmOk (amUpd k f m) := by
  induction m with
  | nil => rw [amUpd]; exact List.pairwise_singleton _ _
  | cons x m ih =>
    obtain ⟨x, v⟩ := x
    unfold AmOk at hm ih ⊢
    rw [List.pairwise_cons] at hm
    rw [amUpd]
    split
    · rename_i hx; subst hx; rw [List.pairwise_cons]; exact hm
    · rename_i hx
      split
      · rename_i hlt
        rw [List.pairwise_cons]
        refine ⟨?_, List.pairwise_cons.2 hm⟩
        intro e he
        rcases List.mem_cons.1 he with rfl | he
        · exact hlt
        · exact strLt_trans _ _ _ hlt (hm.1 e he)
      · rename_i hlt
        rw [List.pairwise_cons]
        refine ⟨?_, ih hm.2⟩
        intro e he
        rcases mem_amUpd _ _ _ _ he with h | h
        · rw [h]
          by_contra hc
          exact hx (strLt_tri _ _ (by simpa using hc) (by simpa using hlt))
        · exact hm.1 e h

theorem amFind_mem (m : List (Str × V)) (k : Str) (v : V) (h : amFind m k = some v) : (k, v) ∈ m := by
  induction m with
  | nil => simp [amFind] at h
  | cons e m ih =>
    rw [amFind_cons] at h
    split at h
    · rename_i hk
      simp at h
      subst hk; subst h
      simp
    · simp [ih h]

theorem mem_amFind (m : List (Str × V)) (hm : AmOk m) (k : Str) (v : V) : (k, v) ∈ m ↔ amFind m k = some v := by
  refine ⟨?_, amFind_mem m k v⟩
  intro h
  induction m with
  | nil => simp at h
  | cons e m ih =>
    unfold AmOk at hm
    rw [List.pairwise_cons] at hm
    rw [amFind_cons]
    rcases List.mem_cons.1 h with rfl | h
    · simp
    · rw [if_neg, ih hm.2 h]
      intro he
      have := hm.1 _ h
      rw [he, strLt_irrefl] at this
      exact absurd this (by simp)

/-! ## Groups -/

theorem amFind_push (k j : Str) (r : PRange) (gs : Groups) (h : AmOk gs) :
    (amFind (groupPush k r gs) j).getD [] = (amFind gs j).getD [] ++ (if k = j then [r] else []) ∧
      ((amFind (groupPush k r gs) j).isSome ↔ (amFind gs j).isSome ∨ k = j) := by
  unfold groupPush
  rw [amFind_upd _ _ _ _ h]
  by_cases hk : k = j
  · subst hk; simp
  · simp [hk]

theorem amFind_open (k j : Str) (gs : Groups) (h : AmOk gs) :
    (amFind (groupOpen k gs) j).getD [] = (amFind gs j).getD [] ∧
      ((amFind (groupOpen k gs) j).isSome ↔ (amFind gs j).isSome ∨ k = j) := by
  unfold groupOpen
  rw [amFind_upd _ _ _ _ h]
  by_cases hk : k = j
  · subst hk; simp
  · simp [hk]

/-- Pushing a list of ranges, each to its group. -/
def pushAll (kr : List (Str × PRange)) (gs : Groups) : Groups := kr.foldl (fun gs e => groupPush e.1 e.2 gs) gs

theorem pushAll_spec (kr : List (Str × PRange)) (gs : Groups) (h : AmOk gs) :
    AmOk (pushAll kr gs) ∧ ∀ j,
      (amFind (pushAll kr gs) j).getD [] = (amFind gs j).getD [] ++ (kr.filter fun e => decide (e.1 = j)).map (·.2) ∧
      ((amFind (pushAll kr gs) j).isSome ↔ (amFind gs j).isSome ∨ ∃ e ∈ kr, e.1 = j) := by
  induction kr generalizing gs with
  | nil => exact ⟨h, fun j => ⟨by simp [pushAll], by simp [pushAll]⟩⟩
  | cons e kr ih =>
    obtain ⟨h1, h2⟩ := ih (groupPush e.1 e.2 gs) (amUpd_ok _ _ _ h)
    refine ⟨h1, fun j => ?_⟩
    obtain ⟨h3, h4⟩ := h2 j
    obtain ⟨h5, h6⟩ := amFind_push e.1 j e.2 gs h
    have e0 : pushAll (e :: kr) gs = pushAll kr (groupPush e.1 e.2 gs) := rfl
    constructor
    · rw [e0, h3, h5, List.filter_cons]
      by_cases hj : e.1 = j
      · simp [hj]
      · simp [hj]
    · rw [e0, h4, h6]
      simp only [List.mem_cons, exists_eq_or_imp, or_assoc]

/-- The group of `j`, when there is one. -/
theorem pushAll_find (kr : List (Str × PRange)) (j : Str) :
    amFind (pushAll kr []) j = if ∃ e ∈ kr, e.1 = j then some ((kr.filter fun e => decide (e.1 = j)).map (·.2)) else none := by
  obtain ⟨-, h⟩ := pushAll_spec kr [] List.Pairwise.nil
  obtain ⟨h1, h2⟩ := h j
  have e0 : amFind ([] : Groups) j = none := rfl
  rw [e0] at h1 h2
  simp at h1 h2
  cases hf : amFind (pushAll kr []) j with
  | none =>
    rw [hf] at h2
    rw [if_neg]
    rintro ⟨e, he, hj⟩
    have := h2.2 ⟨e.2, by rw [← hj]; exact he⟩
    simp at this
  | some rs =>
    rw [hf] at h1 h2
    simp at h1
    rw [if_pos, h1]
    obtain ⟨x, hx⟩ := h2.1 rfl
    exact ⟨_, hx, rfl⟩

theorem sortedGroups_find {gs out : Groups} (h : SortedGroups gs out) (j : Str) :
    (amFind gs j = none → amFind out j = none) ∧
      (∀ rs, amFind gs j = some rs → ∃ rs', amFind out j = some rs' ∧ SortedBy PRange.first rs rs') := by
  unfold SortedGroups at h
  induction h with
  | nil => exact ⟨fun _ => rfl, fun rs h => by simp [amFind] at h⟩
  | @cons a b gs out hab _ ih =>
    rw [amFind_cons, amFind_cons, hab.1]
    by_cases hj : a.1 = j
    · rw [if_pos hj, if_pos hj]
      refine ⟨by simp, ?_⟩
      intro rs e
      simp at e
      subst e
      exact ⟨_, rfl, hab.2⟩
    · rw [if_neg hj, if_neg hj]; exact ih

/-! ## Sections -/

theorem sections_fold {E S : Type} {Plain : Str → Prop} {Header : Str → Str → Prop} {Line : Str → E → Prop}
    (step : S → Str → S) (open' : S → Str → S) (app : S → E → S)
    (hskip : ∀ st line stored, Plain line → Stored line stored → step st stored = st)
    (hhead : ∀ st line stored name, Header line name → Stored line stored → step st stored = open' st name)
    (hdata : ∀ st line stored e, Line line e → Stored line stored → step st stored = app st e)
    {lines : List Str} {pre : List E} {secs : List (Str × List E)} (h : Sections Plain Header Line lines pre secs) (st : S) :
    lines.foldl step st = secs.foldl (fun st s => s.2.foldl app (open' st s.1)) (pre.foldl app st) := by
  induction h generalizing st with
  | nil => rfl
  | skip h1 h2 _ ih => rw [List.foldl_cons, hskip _ _ _ h1 h2]; exact ih st
  | header h1 h2 _ ih => rw [List.foldl_cons, hhead _ _ _ _ h1 h2]; exact ih _
  | data h1 h2 _ ih => rw [List.foldl_cons, hdata _ _ _ _ h1 h2]; exact ih _

/-! ## Words -/

theorem word_ws {s : Str} (h : Word s) : ∀ c ∈ s, isWs c = false ∧ c ≠ ';' := by
  intro c hc
  obtain ⟨h1, h2, h3, h4, h5, -⟩ := h.2 c hc
  exact ⟨by simp [isWs, h1, h2, h3, h4], h5⟩

theorem firstWord_word {s : Str} (h : Word s) : firstWord s = s := by
  have := C48_first_word s [] (word_ws h) h.1 (Or.inl rfl)
  rwa [List.append_nil] at this

theorem trim_word {s : Str} (h : Word s) : trim s = s :=
  trim_id s (fun c hc => (word_ws h c (List.mem_of_mem_head? hc)).1) (fun c hc => (word_ws h c (List.mem_of_getLast? hc)).1)

/-! ## Lines -/

theorem parse_rangeLine {line stored : Str} {e : Entry} (h : RangeLine line e) (hs : Stored line stored) :
    ∃ p, parseStandardLine stored = some p ∧ p.first = e.1 ∧ p.last = e.2.1 ∧ p.property = e.2.2 := by
  have := C48_line_exact _ _ _ _ _ h.1 hs (by have := h.2; omega) (by have := h.2; omega)
  rw [if_pos h.2] at this
  cases hp : parseStandardLine stored with
  | none => rw [hp] at this; simp at this
  | some p => rw [hp] at this; simp at this; exact ⟨p, rfl, this⟩

/-- A line with data does not look like a comment. -/
theorem trim_not_hash {line stored value : Str} {a b : Nat} (h : DataLine line a b value) (hs : Stored line stored) :
    (trim stored).head? ≠ some '#' := by
  have key : ∀ w h' rest, Blank w → (∃ n, HexOf h' n) → line = w ++ h' ++ rest → (trim stored).head? ≠ some '#' := by
    rintro w h' rest hw ⟨n, hh⟩ rfl
    obtain ⟨n1, -, f1⟩ := hexOf_facts _ _ hh
    cases h' with
    | nil => exact absurd rfl n1
    | cons x xs =>
      have hx := f1 x (by simp)
      have e : ∃ r, stored = w ++ x :: r := by
        rcases hs with rfl | rfl
        · exact ⟨xs ++ rest, by simp⟩
        · exact ⟨xs ++ rest ++ ['\r'], by simp⟩
      obtain ⟨r, rfl⟩ := e
      unfold trim trimBy
      rw [dropWhile_all w (x :: r) (blank_ws hw) (by intro c hc; simp at hc; subst hc; exact hx.2.1)]
      have : ∀ (t : Str) (y : Char), isWs y = false → ((y :: t).reverse.dropWhile isWs).reverse.head? = some y := by
        intro t y hy
        rw [List.head?_reverse, List.reverse_cons]
        have hd : ∀ u : Str, ((u ++ [y]).dropWhile isWs).getLast? = some y := by
          intro u
          induction u with
          | nil => simp [hy]
          | cons z u ih =>
            rw [List.cons_append, List.dropWhile_cons]
            split
            · exact ih
            · rw [← List.cons_append, List.getLast?_concat]
        exact hd _
      rw [this r x hx.2.1]
      intro e
      simp at e
      exact hx.2.2.2.2.2.1 e
  cases h with
  | @range w₁ h₁ h₂ w₂ w₃ value w₄ tail a b hw1 hh1 =>
    exact key w₁ h₁ (['.', '.'] ++ h₂ ++ w₂ ++ [';'] ++ w₃ ++ value ++ w₄ ++ tail) hw1 ⟨_, hh1⟩ (by simp)
  | @single w₁ h w₂ w₃ value w₄ tail a hw1 hh =>
    exact key w₁ h (w₂ ++ [';'] ++ w₃ ++ value ++ w₄ ++ tail) hw1 ⟨_, hh⟩ (by simp)

theorem fileOf_filterMap {A : Type} (f : Str → Option A) (g : Entry → Option A)
    (hskip : ∀ line stored, NoData line → Stored line stored → f stored = none)
    (hdata : ∀ line stored e, RangeLine line e → Stored line stored → f stored = g e)
    {lines : List Str} {es : List Entry} (h : FileOf lines es) : lines.filterMap f = es.filterMap g := by
  induction h with
  | nil => rfl
  | skip h1 h2 _ ih => rw [List.filterMap_cons, hskip _ _ h1 h2]; exact ih
  | @data line stored lines es a b value h1 h2 h3 h4 _ ih =>
    rw [List.filterMap_cons, List.filterMap_cons, hdata _ _ (a, b, value) ⟨h1, h3, h4⟩ h2, ih]

theorem fileOf_fold {S : Type} (step : S → Str → S) (app : S → Entry → S)
    (hskip : ∀ st line stored, NoData line → Stored line stored → step st stored = st)
    (hdata : ∀ st line stored e, RangeLine line e → Stored line stored → step st stored = app st e)
    {lines : List Str} {es : List Entry} (h : FileOf lines es) (st : S) : lines.foldl step st = es.foldl app st := by
  induction h generalizing st with
  | nil => rfl
  | skip h1 h2 _ ih => rw [List.foldl_cons, hskip _ _ _ h1 h2]; exact ih _
  | @data line stored lines es a b value h1 h2 h3 h4 _ ih =>
    rw [List.foldl_cons, List.foldl_cons, hdata _ _ _ (a, b, value) ⟨h1, h3, h4⟩ h2]; exact ih _

theorem fileOf_valid {lines : List Str} {es : List Entry} (h : FileOf lines es) : ∀ e ∈ es, e.1 ≤ e.2.1 ∧ e.2.1 ≤ 0x10FFFF := by
  induction h with
  | nil => simp
  | skip _ _ _ ih => exact ih
  | data _ _ h3 h4 _ ih =>
    intro e he
    rcases List.mem_cons.1 he with rfl | he
    · exact ⟨h3, h4⟩
    · exact ih e he

/-! ## Interval tables -/

theorem ascending_of_sorted {es es' : List Entry} (hp : es'.Perm es) (ho : es'.Pairwise fun a b => a.1 ≤ b.1)
    (hs : Separate es) (hv : ∀ e ∈ es, e.1 ≤ e.2.1) : Ascending es' := by
  have hs' : es'.Pairwise fun a b => a.2.1 < b.1 ∨ b.2.1 < a.1 :=
    (hp.pairwise_iff (fun {a b} h => h.symm)).2 hs
  have := List.Pairwise.and ho hs'
  refine List.Pairwise.imp_of_mem ?_ this
  intro a b ha hb h
  have := hv b (hp.mem_iff.1 hb)
  rcases h.2 with h | h
  · exact h
  · omega

open Verif.Utf8 (Mem)
open Verif.Props.Tables

theorem intervals_of {α : Type} (f : Entry → α) (es : List Entry) (ha : Ascending es) (hv : ∀ e ∈ es, e.1 ≤ e.2.1) :
    Intervals (es.map fun e => (⟨e.1, e.2.1, f e⟩ : Verif.Tables.Entry α)) :=
  ⟨List.pairwise_map.2 ha, by intro x hx; obtain ⟨e, he, rfl⟩ := List.mem_map.1 hx; exact hv e he⟩

theorem search_exact {α : Type} (f : Entry → α) (es : List Entry) (ha : Ascending es) (hv : ∀ e ∈ es, e.1 ≤ e.2.1) (hne : es ≠ [])
    (hl : es.length < 2 ^ 64) (c : Nat) (tab : List (Verif.Tables.Entry α)) (ht : tab = es.map fun e => ⟨e.1, e.2.1, f e⟩) :
    ∃ r, Verif.Tables.search tab c = .ok r ∧
      (∀ v, r = some v ↔ ∃ e ∈ es, e.1 ≤ c ∧ c ≤ e.2.1 ∧ f e = v) ∧ (r = none ↔ ∀ e ∈ es, ¬ (e.1 ≤ c ∧ c ≤ e.2.1)) := by
  subst ht
  obtain ⟨r, h1, h2, h3⟩ := C37_search _ (intervals_of f es ha hv) (by simpa using hne) (by simpa using hl) c
  refine ⟨r, h1, ?_, ?_⟩
  · intro v; rw [h2]; simp only [List.mem_map]
    constructor
    · rintro ⟨x, ⟨e, he, rfl⟩, h⟩; exact ⟨e, he, h⟩
    · rintro ⟨e, he, h⟩; exact ⟨_, ⟨e, he, rfl⟩, h⟩
  · rw [h3]; simp only [List.mem_map]
    constructor
    · intro h e he; exact h _ ⟨e, he, rfl⟩
    · rintro h x ⟨e, he, rfl⟩; exact h e he

theorem orElse_exact (es : List Entry) (c : Nat) (d v : Str) (r : Option Str)
    (h2 : ∀ v, r = some v ↔ ∃ e ∈ es, e.1 ≤ c ∧ c ≤ e.2.1 ∧ e.2.2 = v) (h3 : r = none ↔ ∀ e ∈ es, ¬ (e.1 ≤ c ∧ c ≤ e.2.1)) :
    orElse d (.ok r) = .ok v ↔ ValueOf es d c v := by
  unfold ValueOf Assigns
  cases r with
  | some w =>
    have hw := (h2 w).1 rfl
    have hn : ¬ ∀ w', ¬ ∃ e ∈ es, e.1 ≤ c ∧ c ≤ e.2.1 ∧ e.2.2 = w' := fun h => h w hw
    have := h2 v
    simp only [Option.some.injEq] at this
    simp only [orElse, Mem.ok.injEq, this]
    constructor
    · exact Or.inl
    · rintro (h | h)
      · exact h
      · exact absurd h.1 hn
  | none =>
    have hn := h3.1 rfl
    have hn' : ∀ w', ¬ ∃ e ∈ es, e.1 ≤ c ∧ c ≤ e.2.1 ∧ e.2.2 = w' := by
      rintro w' ⟨e, he, h4, h5, -⟩; exact hn e he ⟨h4, h5⟩
    simp only [orElse, Mem.ok.injEq]
    constructor
    · rintro rfl; exact Or.inr ⟨hn', rfl⟩
    · rintro (h | h)
      · exact absurd h (hn' v)
      · exact h.2.symm

/-- `search(…).value_or(d)` on ascending entries. -/
theorem valueOr_exact (es : List Entry) (ha : Ascending es) (hv : ∀ e ∈ es, e.1 ≤ e.2.1) (hne : es ≠ [])
    (hl : es.length < 2 ^ 64) (d : Str) (c : Nat) (v : Str) (tab : List (Verif.Tables.Entry Str))
    (ht : tab = es.map fun e => ⟨e.1, e.2.1, e.2.2⟩) : valueOr tab d c = .ok v ↔ ValueOf es d c v := by
  obtain ⟨r, h1, h2, h3⟩ := search_exact (α := Str) (fun e => e.2.2) es ha hv hne hl c tab ht
  have e : valueOr tab d c = orElse d (Verif.Tables.search tab c) := rfl
  rw [e, h1]
  exact orElse_exact es c d v r h2 h3

/-- `contains` on ascending entries. -/
theorem contains_exact (es : List Entry) (ha : Ascending es) (hv : ∀ e ∈ es, e.1 ≤ e.2.1) (hne : es ≠ [])
    (hl : es.length < 2 ^ 64) (c : Nat) (tab : List (Verif.Tables.Entry Unit)) (ht : tab = es.map fun e => ⟨e.1, e.2.1, ()⟩) :
    ∃ b, Verif.Tables.contains tab c = .ok b ∧
      (b = true ↔ ∃ e ∈ es, e.1 ≤ c ∧ c ≤ e.2.1) := by
  subst ht
  obtain ⟨b, h1, h2⟩ := C37_contains _ (intervals_of (fun _ => ()) es ha hv) (by simpa using hne) (by simpa using hl) c
  refine ⟨b, h1, ?_⟩
  rw [h2]; simp only [List.mem_map]
  constructor
  · rintro ⟨x, ⟨e, he, rfl⟩, h⟩; exact ⟨e, he, h⟩
  · rintro ⟨e, he, h⟩; exact ⟨_, ⟨e, he, rfl⟩, h⟩

theorem propTable_ents (rs : List PRange) : propTable rs = (ents rs).map fun e => ⟨e.1, e.2.1, e.2.2⟩ := by
  unfold propTable ents; rw [List.map_map]; rfl

theorem intervalTable_ents (rs : List PRange) : intervalTable rs = (ents rs).map fun e => ⟨e.1, e.2.1, ()⟩ := by
  unfold intervalTable ents; rw [List.map_map]; rfl

/-- The sorted ranges of a list of entries. -/
theorem ents_sorted {inp rs : List PRange} (h : SortedBy PRange.first inp rs) (hs : Separate (ents inp))
    (hv : ∀ e ∈ ents inp, e.1 ≤ e.2.1) :
    Ascending (ents rs) ∧ (∀ e ∈ ents rs, e.1 ≤ e.2.1) ∧ (ents rs).length = (ents inp).length ∧
      ∀ e, e ∈ ents rs ↔ e ∈ ents inp := by
  have hp : (ents rs).Perm (ents inp) := h.1.map _
  refine ⟨ascending_of_sorted hp ?_ hs hv, fun e he => hv e (hp.mem_iff.1 he), hp.length_eq, fun e => hp.mem_iff⟩
  exact List.pairwise_map.2 h.2

theorem assigns_congr {es es' : List Entry} (h : ∀ e, e ∈ es ↔ e ∈ es') (c : Nat) (v : Str) : Assigns es c v ↔ Assigns es' c v := by
  unfold Assigns; simp only [h]

theorem valueOf_congr {es es' : List Entry} (h : ∀ e, e ∈ es ↔ e ∈ es') (d : Str) (c : Nat) (v : Str) :
    ValueOf es d c v ↔ ValueOf es' d c v := by
  unfold ValueOf; simp only [assigns_congr h]

end Verif.Props.Tg
