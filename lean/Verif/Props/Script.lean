import Verif.Model.Script
import Verif.Lemmas.Ranges

/-! Property C22: script segmentation. -/

namespace Verif.Props.Script
open Verif.Script Verif.Spec

/-! ## Specification -/

/-- The scripts a codepoint may be set in: its own and its script extensions. -/
def HasScript (D : Data) (c : Nat) (s : Script) : Prop := s = D.script c ∨ ∃ es, D.exts c = some es ∧ s ∈ es

/-- A script proper: neither Common nor Inherited (nor no script at all). -/
def Proper (s : Script) : Prop := s ≠ .Common ∧ s ≠ .Inherited ∧ s ≠ .Invalid

theorem proper_iff (s : Script) : Proper s ↔ isPreferred s = true := by
  cases s <;> simp [Proper, isPreferred]

/-- A codepoint with a script of its own (neither Common nor Inherited). -/
def Strong (D : Data) (c : Nat) : Prop := Proper (D.script c)

theorem strong_iff (D : Data) (c : Nat) : Strong D c ↔ isPreferred (D.script c) = true := proper_iff _

/-- `s` can be used for all codepoints of `l` that have a script of their own. -/
def SharedBy (D : Data) (l : List Nat) (s : Script) : Prop := ∀ c ∈ l, Strong D c → HasScript D c s

/-- True of the UCD: the extensions of a codepoint with a script of its own are proper scripts. -/
def StrongOk (D : Data) : Prop :=
  ∀ c, Strong D c → ∀ es, D.exts c = some es → ∀ s ∈ es, Proper s

/-- Data without Common/Inherited codepoints that carry extensions, and with lists that fit the fixed array. -/
structure CleanData (D : Data) : Prop where
  strong : StrongOk D
  weak : ∀ c, ¬ Strong D c → D.exts c = none
  fits : ∀ c es, D.exts c = some es → es.length < 32

/-! ## `getScriptsFor` -/

theorem push_ne_nil (l : List Script) (s : Script) : push l s ≠ [] := by
  unfold push; split
  · simp
  · intro h; simp [h] at *

theorem mem_push {l : List Script} {s x : Script} (h : x ∈ push l s) : x ∈ l ∨ x = s := by
  unfold push at h; split at h
  · simpa using h
  · exact Or.inl h

theorem mem_foldl_push {es : List Script} {l : List Script} {x : Script} (h : x ∈ es.foldl push l) : x ∈ l ∨ x ∈ es := by
  induction es generalizing l with
  | nil => exact Or.inl h
  | cons e es ih =>
    rcases ih h with h | h
    · rcases mem_push h with h | h
      · exact Or.inl h
      · exact Or.inr (by simp [h])
    · exact Or.inr (by simp [h])

theorem foldl_push_eq {es l : List Script} (h : l.length + es.length ≤ 32) : es.foldl push l = l ++ es := by
  induction es generalizing l with
  | nil => simp
  | cons e es ih =>
    simp at h
    have hp : push l e = l ++ [e] := by unfold push; rw [if_pos (by omega)]
    simp only [List.foldl_cons, hp]
    rw [ih (by simp; omega)]
    simp

theorem mem_swapFront {l : List Script} {i : Nat} (hi : i < l.length) {x : Script} : x ∈ swapFront l i ↔ x ∈ l := by
  cases l with
  | nil => simp at hi
  | cons a xs =>
    cases i with
    | zero => simp [swapFront]
    | succ i =>
      simp at hi
      simp only [swapFront, List.getD_eq_getElem?_getD, List.getElem?_eq_getElem hi, Option.getD_some]
      simp only [List.mem_cons]
      have hmem : xs[i] ∈ xs := List.getElem_mem hi
      constructor
      · rintro (h | h)
        · right; rw [h]; exact hmem
        · rcases List.mem_or_eq_of_mem_set h with h | h
          · exact Or.inr h
          · exact Or.inl h
      · rintro (h | h)
        · right; rw [h]; exact List.mem_set hi a
        · obtain ⟨j, hj, rfl⟩ := List.mem_iff_getElem.1 h
          by_cases hij : i = j
          · left; subst hij; rfl
          · right
            refine List.mem_iff_getElem.2 ⟨j, by simpa using hj, ?_⟩
            rw [List.getElem_set_ne hij]

theorem swapFront_ne_nil {l : List Script} {i : Nat} (h : l ≠ []) : swapFront l i ≠ [] := by
  cases l with
  | nil => exact absurd rfl h
  | cons a xs => cases i <;> simp [swapFront]

theorem getScriptsFor_ne_nil (D : Data) (c : Nat) : getScriptsFor D c ≠ [] := by
  unfold getScriptsFor
  split
  · exact swapFront_ne_nil (fun h => by simp_all)
  · exact push_ne_nil _ _

theorem mem_collected {D : Data} {c : Nat} {s : Script} (h : s ∈ collected D c) : HasScript D c s := by
  unfold collected at h
  split at h
  · rename_i es he
    rcases mem_foldl_push h with h | h
    · simp at h
    · exact Or.inr ⟨es, he, h⟩
  · rcases mem_push h with h | h
    · simp at h
    · exact Or.inl h

theorem mem_getScriptsFor {D : Data} {c : Nat} {s : Script} (h : s ∈ getScriptsFor D c) : HasScript D c s := by
  unfold getScriptsFor at h
  split at h
  · rename_i hm
    exact mem_collected ((mem_swapFront (List.idxOf_lt_length_of_mem hm)).1 h)
  · rcases mem_push h with h | h
    · exact mem_collected h
    · exact Or.inl h

theorem mem_getScriptsFor_iff {D : Data} (hD : CleanData D) {c : Nat} {s : Script} :
    s ∈ getScriptsFor D c ↔ HasScript D c s := by
  refine ⟨mem_getScriptsFor, fun h => ?_⟩
  have hlen : (collected D c).length < 32 := by
    unfold collected
    split
    · rename_i es he
      have := hD.fits c es he
      rw [foldl_push_eq (by simp; omega)]; simpa using this
    · simp [push]
  have hsub : s = D.script c ∨ s ∈ collected D c := by
    rcases h with h | ⟨es, he, h⟩
    · exact Or.inl h
    · right
      unfold collected
      rw [he]
      have := hD.fits c es he
      simp only
      rw [foldl_push_eq (by simp; omega)]; simpa using h
  unfold getScriptsFor
  split
  · rename_i hm
    rw [mem_swapFront (List.idxOf_lt_length_of_mem hm)]
    rcases hsub with rfl | h
    · exact hm
    · exact h
  · unfold push
    rw [if_pos hlen]
    rcases hsub with rfl | h
    · simp
    · simp [h]

theorem getScriptsFor_weak {D : Data} (hD : CleanData D) {c : Nat} (h : ¬ Strong D c) :
    getScriptsFor D c = [D.script c] := by
  have := hD.weak c h
  simp [getScriptsFor, collected, this, push, swapFront]

theorem getScriptsFor_strong {D : Data} (hD : StrongOk D) {c : Nat} (h : Strong D c) {s : Script}
    (hs : s ∈ getScriptsFor D c) : isPreferred s = true := by
  rcases mem_getScriptsFor hs with rfl | ⟨es, he, hm⟩
  · exact (strong_iff D c).1 h
  · exact (proper_iff s).1 (hD c h es he s hm)

/-! ## `mergeSets` -/

/-- The first element of a (non-empty) set is a proper script. -/
def HeadPref (l : List Script) : Prop := ∃ x xs, l = x :: xs ∧ isPreferred x = true

theorem written_mem_true {p : Script} {ps next : List Script} (hn : next ≠ []) (s : Script) :
    s ∈ written true p ps next ↔ s = p ∨ (s ∈ ps ∧ s ∈ next) := by
  simp [written, hn]

theorem written_mem_next {n0 : Script} {ps ns : List Script} (s : Script) :
    s ∈ written (decide (n0 ∈ ps)) n0 ps ns ↔ s ∈ ps ∧ s ∈ n0 :: ns := by
  unfold written
  by_cases h : n0 ∈ ps <;> by_cases hn : ns = []
  · simp [h, hn]
    rintro rfl; exact h
  · simp [h, hn]
    constructor
    · rintro (rfl | h')
      · exact ⟨h, Or.inl rfl⟩
      · exact ⟨h'.1, Or.inr h'.2⟩
    · rintro ⟨h1, h2 | h2⟩
      · exact Or.inl h2
      · exact Or.inr ⟨h1, h2⟩
  · simp [h, hn]
    rintro h1 rfl; exact h h1
  · simp [h, hn]
    rintro h1 rfl; exact absurd h1 h

/-- All that is needed about `mergeSets`. -/
theorem mergeSets_spec {next cur : List Script} (hn : next ≠ []) (hc : cur ≠ []) (pref : Script) :
    (mergeSets next cur pref).cur ≠ [] ∧
    ((mergeSets next cur pref).ok = false →
      HeadPref next ∧ HeadPref cur ∧ (mergeSets next cur pref).cur = cur ∧
        (mergeSets next cur pref).pref = pref ∧ ∀ s, ¬ (s ∈ cur ∧ s ∈ next)) ∧
    ((mergeSets next cur pref).ok = true →
      (¬ HeadPref next ∧ (mergeSets next cur pref).cur = cur) ∨
      (HeadPref next ∧ ¬ HeadPref cur ∧ (mergeSets next cur pref).cur = next) ∨
      (HeadPref next ∧ HeadPref cur ∧ ∀ s, s ∈ (mergeSets next cur pref).cur ↔ s ∈ cur ∧ s ∈ next)) := by
  obtain ⟨n0, ns, rfl⟩ := List.exists_cons_of_ne_nil hn
  obtain ⟨p, ps, rfl⟩ := List.exists_cons_of_ne_nil hc
  have hpn : HeadPref (n0 :: ns) ↔ isPreferred n0 = true := by
    constructor
    · rintro ⟨_, _, h, h2⟩; simp at h; rw [h.1]; exact h2
    · exact fun h => ⟨_, _, rfl, h⟩
  have hpc : HeadPref (p :: ps) ↔ isPreferred p = true := by
    constructor
    · rintro ⟨_, _, h, h2⟩; simp at h; rw [h.1]; exact h2
    · exact fun h => ⟨_, _, rfl, h⟩
  rw [hpn, hpc]
  simp only [mergeSets]
  by_cases h0 : isPreferred n0 = false
  · rw [if_pos h0]
    by_cases h2 : (n0 :: ns).length = 2 ∧ isPreferred p = false ∧ pref = .Common
    · simp [h2, h0]
    · rw [if_neg h2]; simp [h0]
  rw [if_neg h0]
  by_cases h1 : isPreferred p = false
  · simp [h1, h0]
  rw [if_neg h1]
  simp only [Bool.not_eq_false] at h0 h1
  by_cases h2 : ps = []
  · subst h2
    simp only [if_true]
    by_cases hm : p ∈ n0 :: ns
    · refine ⟨by simp, by simp [hm], fun _ => Or.inr (Or.inr ⟨h0, h1, ?_⟩)⟩
      intro s; simp; rintro rfl; simpa using hm
    · refine ⟨by simp, fun _ => ⟨h0, h1, trivial, trivial, ?_⟩, by simp [hm]⟩
      rintro s ⟨hs, hs'⟩; simp at hs; subst hs; exact hm hs'
  rw [if_neg h2]
  by_cases hm : p ∈ n0 :: ns
  · rw [if_pos hm]
    have hw := fun s => written_mem_true (p := p) (ps := ps) hn s
    have hne : written true p ps (n0 :: ns) ≠ [] := by simp [written]
    simp only [finish, hne, if_false]
    refine ⟨hne, by simp, fun _ => Or.inr (Or.inr ⟨h0, h1, ?_⟩)⟩
    intro s
    rw [hw]
    constructor
    · rintro (rfl | ⟨a, b⟩)
      · exact ⟨by simp, hm⟩
      · exact ⟨by simp [a], b⟩
    · rintro ⟨a, b⟩
      rcases List.mem_cons.1 a with a | a
      · exact Or.inl a
      · exact Or.inr ⟨a, b⟩
  · rw [if_neg hm]
    have hw := fun s => written_mem_next (n0 := n0) (ps := ps) (ns := ns) s
    have hiff : ∀ s, s ∈ ps ∧ s ∈ n0 :: ns ↔ s ∈ p :: ps ∧ s ∈ n0 :: ns := by
      intro s
      constructor
      · exact fun h => ⟨by simp [h.1], h.2⟩
      · rintro ⟨a, b⟩
        rcases List.mem_cons.1 a with rfl | a
        · exact absurd b hm
        · exact ⟨a, b⟩
    unfold finish
    split
    · rename_i he
      refine ⟨by simp, fun _ => ⟨h0, h1, rfl, rfl, ?_⟩, by simp⟩
      intro s hs
      have := (hw s).2 ((hiff s).2 hs)
      rw [he] at this; simp at this
    · rename_i he
      exact ⟨he, by simp, fun _ => Or.inr (Or.inr ⟨h0, h1, fun s => (hw s).trans (hiff s)⟩)⟩

/-- A set always merges with itself. -/
theorem mergeSets_self {l : List Script} (h : l ≠ []) (pref : Script) :
    (mergeSets l l pref).ok = true ∧ ∀ s, s ∈ (mergeSets l l pref).cur ↔ s ∈ l := by
  have hs := mergeSets_spec h h pref
  by_cases hok : (mergeSets l l pref).ok = true
  · refine ⟨hok, ?_⟩
    rcases hs.2.2 hok with h1 | h1 | h1
    · simp [h1.2]
    · exact absurd h1.1 h1.2.1
    · intro s; rw [h1.2.2]; simp
  · have := (hs.2.1 (by simpa using hok)).2.2.2.2
    obtain ⟨x, xs, rfl⟩ := List.exists_cons_of_ne_nil h
    exact absurd ⟨by simp, by simp⟩ (this x)

/-! ## The loop -/

/-- Invariant: `cur` is non-empty, and its members are scripts of every strong codepoint read. -/
structure Inv (D : Data) (cur : List Script) (seen : List Nat) : Prop where
  ne : cur ≠ []
  sub : ∀ c ∈ seen, Strong D c → ∀ s ∈ cur, isPreferred s = true ∧ HasScript D c s

/-- Exactness, for clean data: `cur` is the set of shared scripts, once a strong codepoint has been read. -/
structure Exact (D : Data) (cur : List Script) (seen : List Nat) : Prop where
  weak : (∀ c ∈ seen, ¬ Strong D c) → ¬ HeadPref cur
  strong : (∃ c ∈ seen, Strong D c) → ∀ s, s ∈ cur ↔ SharedBy D seen s

theorem headPref_of_all {l : List Script} (h : l ≠ []) (ha : ∀ s ∈ l, isPreferred s = true) : HeadPref l := by
  obtain ⟨x, xs, rfl⟩ := List.exists_cons_of_ne_nil h
  exact ⟨x, xs, rfl, ha x (by simp)⟩

theorem headPref_strong {D : Data} (hD : StrongOk D) {c : Nat} (h : Strong D c) : HeadPref (getScriptsFor D c) :=
  headPref_of_all (getScriptsFor_ne_nil D c) (fun _ hs => getScriptsFor_strong hD h hs)

theorem Inv.step {D : Data} (hD : StrongOk D) {cur : List Script} {seen : List Nat} {c : Nat} {pref : Script}
    (h : Inv D cur seen) (hok : (mergeSets (getScriptsFor D c) cur pref).ok = true) :
    Inv D (mergeSets (getScriptsFor D c) cur pref).cur (seen ++ [c]) := by
  have hs := mergeSets_spec (getScriptsFor_ne_nil D c) h.ne pref
  refine ⟨hs.1, ?_⟩
  intro c' hc' hst s hsm
  rcases List.mem_append.1 hc' with hc' | hc'
  · -- an earlier codepoint
    have hcur := h.sub c' hc' hst
    have hp : HeadPref cur := headPref_of_all h.ne (fun s hs => (hcur s hs).1)
    rcases hs.2.2 hok with h1 | h1 | h1
    · rw [h1.2] at hsm; exact hcur s hsm
    · exact absurd hp h1.2.1
    · exact hcur s ((h1.2.2 s).1 hsm).1
  · simp at hc'; subst hc'
    have hp := headPref_strong hD hst
    have hin : s ∈ getScriptsFor D c' := by
      rcases hs.2.2 hok with h1 | h1 | h1
      · exact absurd hp h1.1
      · rwa [h1.2.2] at hsm
      · exact ((h1.2.2 s).1 hsm).2
    exact ⟨getScriptsFor_strong hD hst hin, mem_getScriptsFor hin⟩

theorem Exact.step {D : Data} (hD : CleanData D) {cur : List Script} {seen : List Nat} {c : Nat} {pref : Script}
    (hi : Inv D cur seen) (h : Exact D cur seen) (hok : (mergeSets (getScriptsFor D c) cur pref).ok = true) :
    Exact D (mergeSets (getScriptsFor D c) cur pref).cur (seen ++ [c]) := by
  have hs := (mergeSets_spec (getScriptsFor_ne_nil D c) hi.ne pref).2.2 hok
  by_cases hst : Strong D c
  · have hp := headPref_strong hD.strong hst
    refine ⟨fun hw => absurd hst (hw c (by simp)), fun _ s => ?_⟩
    by_cases hex : ∃ c' ∈ seen, Strong D c'
    · have hcur := h.strong hex
      obtain ⟨c', hc', hst'⟩ := hex
      have hpc : HeadPref cur := headPref_of_all hi.ne (fun s hs => (hi.sub c' hc' hst' s hs).1)
      rcases hs with h1 | h1 | h1
      · exact absurd hp h1.1
      · exact absurd hpc h1.2.1
      · rw [h1.2.2, hcur, mem_getScriptsFor_iff hD]
        constructor
        · rintro ⟨a, b⟩ x hx hxs
          rcases List.mem_append.1 hx with hx | hx
          · exact a x hx hxs
          · simp at hx; subst hx; exact b
        · exact fun a => ⟨fun x hx => a x (by simp [hx]), a c (by simp) hst⟩
    · have hw : ∀ c' ∈ seen, ¬ Strong D c' := fun c' hc' hst' => hex ⟨c', hc', hst'⟩
      have hpc := h.weak hw
      rcases hs with h1 | h1 | h1
      · exact absurd hp h1.1
      · rw [h1.2.2, mem_getScriptsFor_iff hD]
        constructor
        · intro a x hx hxs
          rcases List.mem_append.1 hx with hx | hx
          · exact absurd hxs (hw x hx)
          · simp at hx; subst hx; exact a
        · exact fun a => a c (by simp) hst
      · exact absurd h1.2.1 hpc
  · have hcur : (mergeSets (getScriptsFor D c) cur pref).cur = cur := by
      have hnp : ¬ HeadPref (getScriptsFor D c) := by
        rw [getScriptsFor_weak hD hst]
        rintro ⟨_, _, h1, h2⟩; simp at h1; rw [← h1.1] at h2; exact hst ((strong_iff D c).2 h2)
      rcases hs with h1 | h1 | h1
      · exact h1.2
      · exact absurd h1.1 hnp
      · exact absurd h1.1 hnp
    rw [hcur]
    refine ⟨fun hw => h.weak (fun c' hc' => hw c' (by simp [hc'])), ?_⟩
    rintro ⟨x, hx, hxs⟩ s
    have hx' : x ∈ seen := by
      rcases List.mem_append.1 hx with hx | hx
      · exact hx
      · simp at hx; subst hx; exact absurd hxs hst
    rw [h.strong ⟨x, hx', hxs⟩]
    constructor
    · intro a y hy hys
      rcases List.mem_append.1 hy with hy | hy
      · exact a y hy hys
      · simp at hy; subst hy; exact absurd hys hst
    · exact fun a y hy => a y (by simp [hy])

theorem resolve_mem {cur : List Script} {pref : Script} (hne : cur ≠ []) (ha : ∀ s ∈ cur, isPreferred s = true) :
    resolve cur pref ∈ cur := by
  obtain ⟨x, xs, rfl⟩ := List.exists_cons_of_ne_nil hne
  have := ha x (by simp)
  unfold resolve
  rw [if_neg]
  · simp
  · simp; rintro rfl; simp [isPreferred] at this

/-- One pass of `consume`, from the middle of a segment of which `seen` has been read. -/
theorem consumeLoop_spec {D : Data} (hD : StrongOk D) (rest : List Nat) :
    ∀ (s : St) (seen : List Nat), Inv D s.cur seen →
      ∃ seg rest' lbl s', consumeLoop D s rest = ((lbl, s.offset + seg.length), s', rest') ∧ rest = seg ++ rest' ∧
        s'.offset = s.offset + seg.length ∧
        SharedBy D (seen ++ seg) lbl ∧
        (∀ c cs, rest' = c :: cs → s'.cur = getScriptsFor D c ∧
          (seg = [] → (mergeSets (getScriptsFor D c) s.cur s.pref).ok = false) ∧
          (CleanData D → Exact D s.cur seen → Strong D c ∧ ¬ ∃ x, SharedBy D (seen ++ seg ++ [c]) x)) := by
  induction rest with
  | nil =>
    intro s seen hi
    refine ⟨[], [], resolve s.cur s.pref, { s with cur := [] }, by simp [consumeLoop], by simp, by simp, ?_,
      by simp⟩
    simp only [List.append_nil]
    intro c hc hst
    have hsub := hi.sub c hc hst
    exact (hsub _ (resolve_mem hi.ne (fun s hs => (hsub s hs).1))).2
  | cons c cs ih =>
    intro s seen hi
    by_cases hok : (mergeSets (getScriptsFor D c) s.cur s.pref).ok = true
    · have hi' := hi.step hD hok
      obtain ⟨seg, rest', lbl, s', h1, h2, h3, h4, h5⟩ :=
        ih ⟨s.offset + 1, (mergeSets (getScriptsFor D c) s.cur s.pref).cur,
          (mergeSets (getScriptsFor D c) s.cur s.pref).pref⟩ (seen ++ [c]) hi'
      refine ⟨c :: seg, rest', lbl, s', ?_, by simp [h2], by simp [h3]; omega, by simpa using h4, ?_⟩
      · rw [consumeLoop, if_pos hok, h1]
        simp; omega
      · intro c' cs' hr
        obtain ⟨h6, _, h8⟩ := h5 c' cs' hr
        refine ⟨h6, by simp, fun hC hE => ?_⟩
        have := h8 hC (hE.step hC hi hok)
        simpa using this
    · have hok' : (mergeSets (getScriptsFor D c) s.cur s.pref).ok = false := by simpa using hok
      have hs := (mergeSets_spec (getScriptsFor_ne_nil D c) hi.ne s.pref).2.1 hok'
      refine ⟨[], c :: cs, resolve s.cur s.pref, ⟨s.offset, getScriptsFor D c, s.pref⟩, ?_, by simp, by simp, ?_, ?_⟩
      · rw [consumeLoop, if_neg hok, hs.2.2.1, hs.2.2.2.1]; simp
      · simp only [List.append_nil]
        intro c' hc' hst
        have hsub := hi.sub c' hc' hst
        exact (hsub _ (resolve_mem hi.ne (fun s hs => (hsub s hs).1))).2
      · intro c' cs' hr
        simp at hr
        obtain ⟨rfl, rfl⟩ := hr
        refine ⟨rfl, fun _ => hok', fun hC hE => ?_⟩
        have hst : Strong D c := by
          refine Classical.byContradiction fun hst => ?_
          obtain ⟨x, xs, h1, h2⟩ := hs.1
          rw [getScriptsFor_weak hC hst] at h1
          simp at h1; rw [← h1.1] at h2; exact hst ((strong_iff D c).2 h2)
        refine ⟨hst, ?_⟩
        rintro ⟨x, hx⟩
        have hex : ∃ c' ∈ seen, Strong D c' := by
          refine Classical.byContradiction fun hex => ?_
          exact hE.weak (fun c' hc' hst' => hex ⟨c', hc', hst'⟩) hs.2.1
        refine hs.2.2.2.2 x ⟨(hE.strong hex x).2 (fun y hy => hx y (by simp [hy])), ?_⟩
        exact (mem_getScriptsFor_iff hC).2 (hx c (by simp) hst)

/-- The state in which `consume` is called: fresh, or stopped at the head of the rest. -/
def Start (D : Data) (s : St) (rest : List Nat) : Prop :=
  s.cur = [.Common] ∨ ∃ c cs, rest = c :: cs ∧ s.cur = getScriptsFor D c

/-- A segment with its label as the theorems describe it. -/
def GoodSeg (D : Data) (x : Script × List Nat) : Prop := x.2 ≠ [] ∧ SharedBy D x.2 x.1

/-- Segment borders are forced (for clean data). -/
def ForcedBorders (D : Data) (segs : List (Script × List Nat)) : Prop :=
  ∀ A x y B, segs = A ++ x :: y :: B →
    ∃ c cs, y.2 = c :: cs ∧ Strong D c ∧ ¬ ∃ s, SharedBy D (x.2 ++ [c]) s

theorem consume_spec {D : Data} (hD : StrongOk D) (s : St) (c : Nat) (cs : List Nat) (h : Start D s (c :: cs)) :
    ∃ seg rest' lbl s', consume D s (c :: cs) = some ((lbl, s.offset + seg.length), s', rest') ∧
      c :: cs = seg ++ rest' ∧ seg ≠ [] ∧ s'.offset = s.offset + seg.length ∧ SharedBy D seg lbl ∧
      (Start D s' rest' ∨ rest' = []) ∧
      (∀ c' cs', rest' = c' :: cs' → CleanData D → Strong D c' ∧ ¬ ∃ x, SharedBy D (seg ++ [c']) x) := by
  simp only [consume]
  have hcomm : ¬ HeadPref [Script.Common] := by
    rintro ⟨_, _, h1, h2⟩; simp at h1; rw [← h1.1] at h2; simp [isPreferred] at h2
  rcases h with h | ⟨c0, cs0, h0, h⟩
  · have hi : Inv D s.cur [] := ⟨by simp [h], by simp⟩
    obtain ⟨seg, rest', lbl, s', h1, h2, h3, h4, h5⟩ := consumeLoop_spec hD (c :: cs) s [] hi
    have hne : seg ≠ [] := by
      rintro rfl
      simp at h2
      have := (h5 c cs h2.symm).2.1 rfl
      have hs := (mergeSets_spec (getScriptsFor_ne_nil D c) hi.ne s.pref).2.1 this
      rw [h] at hs
      exact hcomm hs.2.1
    refine ⟨seg, rest', lbl, s', by rw [h1], h2, hne, h3, by simpa using h4, ?_, ?_⟩
    · cases rest' with
      | nil => exact Or.inr rfl
      | cons c' cs' => exact Or.inl (Or.inr ⟨c', cs', rfl, (h5 c' cs' rfl).1⟩)
    · intro c' cs' hr hC
      have := (h5 c' cs' hr).2.2 hC ⟨fun _ => by rw [h]; exact hcomm, by simp⟩
      simpa using this
  · simp at h0
    obtain ⟨rfl, rfl⟩ := h0
    have hself := mergeSets_self (getScriptsFor_ne_nil D c) s.pref
    have hok : (mergeSets (getScriptsFor D c) s.cur s.pref).ok = true := by rw [h]; exact hself.1
    have hmem : ∀ x, x ∈ (mergeSets (getScriptsFor D c) s.cur s.pref).cur ↔ x ∈ getScriptsFor D c := by
      rw [h]; exact hself.2
    have hne0 : (mergeSets (getScriptsFor D c) s.cur s.pref).cur ≠ [] :=
      (mergeSets_spec (getScriptsFor_ne_nil D c) (by rw [h]; exact getScriptsFor_ne_nil D c) s.pref).1
    have hi : Inv D (mergeSets (getScriptsFor D c) s.cur s.pref).cur [c] := by
      refine ⟨hne0, ?_⟩
      intro c' hc' hst x hx
      simp at hc'; subst hc'
      rw [hmem] at hx
      exact ⟨getScriptsFor_strong hD hst hx, mem_getScriptsFor hx⟩
    obtain ⟨seg, rest', lbl, s', h1, h2, h3, h4, h5⟩ := consumeLoop_spec hD cs
      ⟨s.offset + 1, (mergeSets (getScriptsFor D c) s.cur s.pref).cur,
        (mergeSets (getScriptsFor D c) s.cur s.pref).pref⟩ [c] hi
    refine ⟨c :: seg, rest', lbl, s', ?_, by simp [h2], by simp, by simp [h3]; omega, by simpa using h4, ?_, ?_⟩
    · rw [consumeLoop, if_pos hok, h1]; simp; omega
    · cases rest' with
      | nil => exact Or.inr rfl
      | cons c' cs' => exact Or.inl (Or.inr ⟨c', cs', rfl, (h5 c' cs' rfl).1⟩)
    · intro c' cs' hr hC
      have hE : Exact D (mergeSets (getScriptsFor D c) s.cur s.pref).cur [c] := by
        refine ⟨fun hw => ?_, fun hex x => ?_⟩
        · have hw : ¬ Strong D c := hw c (by simp)
          rintro ⟨x, xs, h1, h2⟩
          have : x ∈ getScriptsFor D c := (hmem x).1 (by rw [h1]; simp)
          rw [getScriptsFor_weak hC hw] at this
          simp at this; subst this; exact hw ((strong_iff D c).2 h2)
        · obtain ⟨y, hy, hst⟩ := hex
          simp at hy; subst hy
          rw [hmem, mem_getScriptsFor_iff hC]
          constructor
          · intro a z hz _; simp at hz; subst hz; exact a
          · exact fun a => a y (by simp) hst
      have := (h5 c' cs' hr).2.2 hC hE
      simpa using this

theorem runsLoop_spec {D : Data} (hD : StrongOk D) (fuel : Nat) (s : St) (rest : List Nat)
    (hf : rest.length ≤ fuel) (h : Start D s rest ∨ rest = []) :
    ∃ segs : List (Script × List Nat), runsLoop D fuel s rest = endsOf s.offset segs ∧
      (segs.map Prod.snd).flatten = rest ∧ (∀ x ∈ segs, GoodSeg D x) ∧ (CleanData D → ForcedBorders D segs) := by
  induction fuel generalizing s rest with
  | zero =>
    have : rest = [] := List.length_eq_zero_iff.1 (by omega)
    subst this
    exact ⟨[], rfl, rfl, by simp, fun _ A x y B h => by simp at h⟩
  | succ n ih =>
    cases rest with
    | nil => exact ⟨[], rfl, rfl, by simp, fun _ A x y B h => by simp at h⟩
    | cons c cs =>
      obtain ⟨seg, rest', lbl, s', h1, h2, h3, h4, h5, h6, h7⟩ :=
        consume_spec hD s c cs (h.resolve_right (by simp))
      have hlen := congrArg List.length h2
      have := List.length_pos_iff.2 h3
      simp at hlen hf
      obtain ⟨segs, g1, g2, g3, g4⟩ := ih s' rest' (by omega) h6
      refine ⟨(lbl, seg) :: segs, ?_, by simp [g2, h2], ?_, ?_⟩
      · simp only [runsLoop, h1, endsOf, g1, h4]
      · intro x hx
        rcases List.mem_cons.1 hx with rfl | hx
        · exact ⟨h3, h5⟩
        · exact g3 x hx
      · intro hC A x y B hAB
        cases A with
        | cons a A =>
          simp at hAB
          exact g4 hC A x y B hAB.2
        | nil =>
          simp at hAB
          obtain ⟨rfl, rfl⟩ := hAB
          have hy := g3 y (by simp)
          obtain ⟨c', cs', hy'⟩ := List.exists_cons_of_ne_nil hy.1
          refine ⟨c', cs', hy', ?_⟩
          have hr : rest' = c' :: (cs' ++ (B.map Prod.snd).flatten) := by rw [← g2]; simp [hy']
          exact h7 _ _ hr hC

/-! ## C22 -/

/-- **C22.** For every text, `script_segmenter` reports consecutive non-empty segments that together are the text,
each with its end offset, and every codepoint with a script of its own in a segment labelled `S` has `S` as its
script or among its script extensions. -/
theorem C22_partition_labels {D : Data} (hD : StrongOk D) (text : List Nat) :
    ∃ segs : List (Script × List Nat), runs D text = endsOf 0 segs ∧ Partition (segs.map Prod.snd) text ∧
      ∀ x ∈ segs, ∀ c ∈ x.2, Strong D c → HasScript D c x.1 := by
  obtain ⟨segs, h1, h2, h3, _⟩ := runsLoop_spec hD text.length {} text (Nat.le_refl _) (Or.inl (Or.inl rfl))
  refine ⟨segs, h1, ⟨h2, ?_⟩, fun x hx => (h3 x hx).2⟩
  intro s hs
  obtain ⟨x, hx, rfl⟩ := List.mem_map.1 hs
  exact (h3 x hx).1

/-- **C22, offsets.** The reported end offsets are strictly increasing from 0 and end at `length(text)`. -/
theorem C22_covers {D : Data} (hD : StrongOk D) (text : List Nat) :
    Covers ((runs D text).map Prod.snd) text.length := by
  obtain ⟨segs, h1, h2, _⟩ := C22_partition_labels hD text
  rw [h1]
  exact covers_endsOf h2

/-- **C22, longest runs.** For data in which Common and Inherited codepoints carry no extensions, a segment ends
only where it has to: the first codepoint of the next segment has a script of its own, and no single script fits it
and all of the segment before it. -/
theorem C22_borders_forced {D : Data} (hD : CleanData D) (text : List Nat) :
    ∃ segs : List (Script × List Nat), runs D text = endsOf 0 segs ∧ Partition (segs.map Prod.snd) text ∧
      (∀ x ∈ segs, SharedBy D x.2 x.1) ∧ ForcedBorders D segs := by
  obtain ⟨segs, h1, h2, h3, h4⟩ := runsLoop_spec hD.strong text.length {} text (Nat.le_refl _) (Or.inl (Or.inl rfl))
  refine ⟨segs, h1, ⟨h2, ?_⟩, fun x hx => (h3 x hx).2, h4 hD⟩
  intro s hs
  obtain ⟨x, hx, rfl⟩ := List.mem_map.1 hs
  exact (h3 x hx).1

/-- **C22, termination.** At most `length(text)` calls of `consume` succeed. -/
theorem C22_terminates {D : Data} (hD : StrongOk D) (text : List Nat) (fuel : Nat) (h : text.length ≤ fuel) :
    runsLoop D fuel {} text = runs D text := by
  suffices ∀ n (s : St) (rest : List Nat) fuel, rest.length ≤ n → rest.length ≤ fuel → (Start D s rest ∨ rest = []) →
      runsLoop D fuel s rest = runsLoop D n s rest from
    this _ _ text fuel (Nat.le_refl _) h (Or.inl (Or.inl rfl))
  intro n
  induction n with
  | zero =>
    intro s rest fuel h1 h2 _
    have : rest = [] := List.length_eq_zero_iff.1 (by omega)
    subst this; cases fuel <;> simp [runsLoop, consume]
  | succ n ih =>
    intro s rest fuel h1 h2 hst
    cases rest with
    | nil => cases fuel <;> simp [runsLoop, consume]
    | cons c cs =>
      cases fuel with
      | zero => simp at h2
      | succ fuel =>
        obtain ⟨seg, rest', lbl, s', g1, g2, g3, g4, g5, g6, g7⟩ :=
          consume_spec hD s c cs (hst.resolve_right (by simp))
        have hlen := congrArg List.length g2
        have := List.length_pos_iff.2 g3
        simp at hlen h1 h2
        simp only [runsLoop, g1]
        rw [ih s' rest' fuel (by omega) (by omega) g6]

/-! ## Non-vacuity and the behaviour outside `CleanData` -/

/-- A fragment of the UCD: 1 = Latin, 2 = Greek, 3 = Han, 4 = Hiragana, 5 = Katakana, 6 = Devanagari. -/
def toyScripts : Data where
  script := fun c =>
    if c < 0x41 then .Common else if c < 0x80 then .sc 1
    else if c = 0x301 then .Inherited
    else if 0x370 ≤ c ∧ c < 0x400 then .sc 2
    else if c = 0x3042 then .sc 4
    else if c = 0x30A2 then .sc 5
    else if c = 0x6F22 then .sc 3
    else if c = 0x30FC ∨ c = 0x964 ∨ c = 0x1CD0 then .Common
    else .Common
  exts := fun c =>
    if c = 0x30FC then some [.sc 4, .sc 5] else if c = 0x964 then some [.sc 6, .sc 7]
    else none

theorem toyScripts_ok : StrongOk toyScripts := by
  intro c hs es he
  simp only [strong_iff, toyScripts] at hs he
  split at he
  · rename_i h; subst h; simp [isPreferred] at hs
  · split at he
    · rename_i h; subst h; simp [isPreferred] at hs
    · simp at he

example : runs toyScripts [0x61, 0x301, 0x20, 0x3B1, 0x3042, 0x30FC, 0x30A2] =
    [(.sc 1, 3), (.sc 2, 4), (.sc 4, 6), (.sc 5, 7)] := by decide

/-- The same data without the two Common codepoints that carry extensions is clean. -/
def toyClean : Data := { toyScripts with exts := fun c => if c = 0x6F22 then some [.sc 3, .sc 8] else none }

theorem toyClean_ok : CleanData toyClean := by
  have hex : ∀ c es, toyClean.exts c = some es → c = 0x6F22 ∧ es = [.sc 3, .sc 8] := by
    intro c es he
    simp only [toyClean] at he
    split at he
    · exact ⟨‹_›, by simpa using he.symm⟩
    · simp at he
  refine ⟨?_, ?_, ?_⟩
  · intro c _ es he s hs
    obtain ⟨_, rfl⟩ := hex c es he
    simp at hs; rcases hs with rfl | rfl <;> simp [Proper]
  · intro c hw
    cases he : toyClean.exts c with
    | none => rfl
    | some es =>
      obtain ⟨rfl, _⟩ := hex c es he
      exact absurd (by rw [strong_iff]; decide) hw
  · intro c es he
    obtain ⟨_, rfl⟩ := hex c es he
    simp

example : runs toyClean [0x61, 0x20, 0x6F22, 0x3B1] = [(.sc 1, 2), (.sc 3, 3), (.sc 2, 4)] := by decide

/-- Outside clean data the sets of two Common codepoints with disjoint extensions still share `Common`, so the run is
not cut between them and a later, unrelated script labels both: here U+0964 (Devanagari, …) and U+30FC (Kana) end up
in a Greek run. -/
theorem C22_common_extensions_merge :
    runs toyScripts [0x964, 0x30FC, 0x3B1] = [(.sc 2, 3)] := by decide

/-! ## C22: texts without a script of their own -/

/-- A codepoint without a script of its own whose extensions, if it has any, are its own script and one more. -/
def WeakListed (D : Data) (c : Nat) : Prop :=
  ¬ Strong D c ∧ (D.exts c = none ∨ ∃ S, D.exts c = some [D.script c, S] ∨ D.exts c = some [S, D.script c])

/-- The script such a codepoint hints at: the extension that is not its own script, and Common if there is none. -/
def hint (D : Data) (c : Nat) : Script :=
  match D.exts c with
  | some [a, b] => if a = D.script c then b else a
  | _ => .Common

/-- The first hint other than Common. -/
def firstHint (D : Data) (text : List Nat) : Script :=
  ((text.map (hint D)).find? (fun s => decide (s ≠ .Common))).getD .Common

theorem weakListed_merge {D : Data} {c : Nat} (h : WeakListed D c) (pref : Script) :
    mergeSets (getScriptsFor D c) [.Common] pref =
      ⟨true, [.Common], if pref = .Common then hint D c else pref⟩ := by
  obtain ⟨hw, h⟩ := h
  have hw' : isPreferred (D.script c) = false := by simpa [strong_iff] using hw
  rcases h with h | ⟨S, h | h⟩
  · have hg : getScriptsFor D c = [D.script c] := by
      simp [getScriptsFor, collected, h, push, swapFront]
    rw [hg, mergeSets, if_pos hw', if_neg (by simp)]
    simp only [hint, h]
    split <;> simp_all
  · have hg : getScriptsFor D c = [D.script c, S] := by
      simp [getScriptsFor, collected, h, push, swapFront]
    rw [hg, mergeSets, if_pos hw']
    simp only [hint, h, if_true, List.headD_cons]
    by_cases hp : pref = .Common
    · rw [if_pos ⟨by simp, rfl, hp⟩, if_pos hp]
    · rw [if_neg (by simp [hp]), if_neg hp]
  · by_cases hS : S = D.script c
    · subst hS
      have hg : getScriptsFor D c = [D.script c, D.script c] := by
        simp [getScriptsFor, collected, h, push, swapFront]
      rw [hg, mergeSets, if_pos hw']
      simp only [hint, h, if_true, List.headD_cons]
      by_cases hp : pref = .Common
      · rw [if_pos ⟨by simp, rfl, hp⟩, if_pos hp]
      · rw [if_neg (by simp [hp]), if_neg hp]
    · have hg : getScriptsFor D c = [D.script c, S] := by
        have hb : (S == D.script c) = false := by simpa using hS
        simp [getScriptsFor, collected, h, push, List.idxOf_cons, hb, swapFront]
      rw [hg, mergeSets, if_pos hw']
      simp only [hint, h, if_neg hS, List.headD_cons]
      by_cases hp : pref = .Common
      · rw [if_pos ⟨by simp, rfl, hp⟩, if_pos hp]
      · rw [if_neg (by simp [hp]), if_neg hp]

theorem consumeLoop_weak {D : Data} (text : List Nat) : ∀ (off : Nat) (pref : Script),
    (∀ c ∈ text, WeakListed D c) →
    consumeLoop D ⟨off, [.Common], pref⟩ text =
      ((if pref = .Common then firstHint D text else pref, off + text.length),
        ⟨off + text.length, [], if pref = .Common then firstHint D text else pref⟩, []) := by
  induction text with
  | nil => intro off pref _; by_cases hp : pref = .Common <;> simp [consumeLoop, resolve, firstHint, hp]
  | cons c cs ih =>
    intro off pref h
    have hm := weakListed_merge (h c (by simp)) pref
    rw [consumeLoop, hm]
    simp only [if_true]
    rw [ih _ _ (fun x hx => h x (by simp [hx]))]
    have hl : off + 1 + cs.length = off + (c :: cs).length := by simp; omega
    have hp : (if (if pref = .Common then hint D c else pref) = .Common then firstHint D cs
        else (if pref = .Common then hint D c else pref)) = if pref = .Common then firstHint D (c :: cs) else pref := by
      by_cases hp : pref = .Common
      · simp only [hp, if_true]
        by_cases hh : hint D c = .Common
        · simp [firstHint, hh]
        · simp [firstHint, hh]
      · simp only [hp, if_false]
    rw [hl, hp]

/-- **C22, texts of Common and Inherited codepoints.** A non-empty text without any codepoint that has a script of
its own is one segment.  Its label is the first script hinted at by a codepoint whose extensions pair its own script
with one other (the documented preferred script), and Common if there is no such codepoint — even if the whole text
is Inherited. -/
theorem C22_weak_text {D : Data} (text : List Nat) (hne : text ≠ []) (h : ∀ c ∈ text, WeakListed D c) :
    runs D text = [(firstHint D text, text.length)] := by
  obtain ⟨c, cs, rfl⟩ := List.exists_cons_of_ne_nil hne
  have := consumeLoop_weak (D := D) (c :: cs) 0 .Common h
  simp only [if_true, Nat.zero_add] at this
  show runsLoop D (cs.length + 1) {} (c :: cs) = _
  rw [runsLoop]
  simp only [consume]
  rw [this]
  cases cs <;> simp [runsLoop, consume]

/-- Plain Common/Inherited text is a Common segment; a danda listed with Devanagari makes it a Devanagari one. -/
example : (∀ c ∈ [0x20, 0x301, 0x30], WeakListed toyScripts c) ∧
    runs toyScripts [0x20, 0x301, 0x30] = [(.Common, 3)] ∧
    runs { toyScripts with exts := fun c => if c = 0x964 then some [.Common, .sc 6] else none } [0x20, 0x964, 0x20] =
      [(.sc 6, 3)] ∧
    firstHint { toyScripts with exts := fun c => if c = 0x964 then some [.Common, .sc 6] else none }
      [0x20, 0x964, 0x20] = .sc 6 := by
  refine ⟨?_, by decide, by decide, by decide⟩
  intro c hc
  refine ⟨?_, Or.inl ?_⟩
  · simp at hc; rcases hc with rfl | rfl | rfl <;> simp [Strong, Proper, toyScripts]
  · simp at hc; rcases hc with rfl | rfl | rfl <;> rfl

end Verif.Props.Script
