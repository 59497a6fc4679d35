import Verif.Model.Tables
import Mathlib.Data.List.Dedup
import Mathlib.Data.List.Perm.Subperm
/-! # Lemmas about binary search and the multistage generator -/

namespace Verif.Tables
open Verif.Utf8 (Mem)

theorem at?_of_lt {α : Type} (tab : List α) (i : Nat) (h : i < tab.length) : at? tab i = .ok tab[i] := by
  unfold at?; rw [List.getElem?_eq_getElem h]

theorem at?_some {α : Type} (tab : List α) (i : Nat) (e : α) : at? tab i = .ok e ↔ tab[i]? = some e := by
  unfold at?
  cases h : tab[i]? <;> simp

/-- `lower_bound` never leaves the table, whatever the table and the predicate. -/
theorem lowerBoundLoop_total {α : Type} (tab : List α) (before : α → Bool) (first len : Nat)
    (h : first + len ≤ tab.length) : ∃ p, lowerBoundLoop tab before first len = .ok p ∧ first ≤ p ∧ p ≤ first + len := by
  induction len using Nat.strongRecOn generalizing first with
  | ind len ih =>
    unfold lowerBoundLoop
    by_cases h0 : len = 0
    · rw [dif_pos h0]; exact ⟨first, rfl, Nat.le_refl _, by omega⟩
    · rw [dif_neg h0, at?_of_lt tab (first + len / 2) (by omega)]
      dsimp only
      by_cases hb : before tab[first + len / 2] = true
      · rw [if_pos hb]
        obtain ⟨p, hp, h1, h2⟩ := ih (len - len / 2 - 1) (by omega) (first + len / 2 + 1) (by omega)
        exact ⟨p, hp, by omega, by omega⟩
      · rw [if_neg hb]
        obtain ⟨p, hp, h1, h2⟩ := ih (len / 2) (by omega) first (by omega)
        exact ⟨p, hp, by omega, by omega⟩

/-- On a table where `before` holds for an initial part, the result is the length of that part. -/
theorem lowerBoundLoop_spec {α : Type} (tab : List α) (before : α → Bool) (k : Nat) (hk : k ≤ tab.length)
    (hlo : ∀ (i : Nat) (h : i < tab.length), i < k → before tab[i] = true)
    (hhi : ∀ (i : Nat) (h : i < tab.length), k ≤ i → before tab[i] = false)
    (first len : Nat) (h : first + len ≤ tab.length) (h1 : first ≤ k) (h2 : k ≤ first + len) :
    lowerBoundLoop tab before first len = .ok k := by
  induction len using Nat.strongRecOn generalizing first with
  | ind len ih =>
    unfold lowerBoundLoop
    by_cases h0 : len = 0
    · rw [dif_pos h0]; congr 1; omega
    · rw [dif_neg h0, at?_of_lt tab (first + len / 2) (by omega)]
      dsimp only
      by_cases hb : before tab[first + len / 2] = true
      · rw [if_pos hb]
        have : ¬ k ≤ first + len / 2 := fun hc => by rw [hhi _ (by omega) hc] at hb; exact absurd hb (by decide)
        exact ih (len - len / 2 - 1) (by omega) (first + len / 2 + 1) (by omega) (by omega) (by omega)
      · rw [if_neg hb]
        have : ¬ first + len / 2 < k := fun hc => hb (hlo _ (by omega) hc)
        exact ih (len / 2) (by omega) first (by omega) (by omega) (by omega)

/-- For a strictly sorted table the look-up returns the entry with the key, if there is one. -/
theorem lookupSorted_spec {α : Type} (tab : List α) (key : α → Nat) (hs : tab.Pairwise (fun x y => key x < key y))
    (c : Nat) : lookupSorted tab key c = .ok (tab.find? (fun e => key e = c)) := by
  have hget : ∀ (i j : Nat) (hi : i < tab.length) (hj : j < tab.length), i < j → key tab[i] < key tab[j] :=
    fun i j hi hj hij => List.pairwise_iff_getElem.1 hs i j hi hj hij
  -- the number of smaller keys
  have hex : ∃ k, k ≤ tab.length ∧ (∀ (i : Nat) (h : i < tab.length), i < k → key tab[i] < c)
      ∧ (∀ (i : Nat) (h : i < tab.length), k ≤ i → ¬ key tab[i] < c) := by
    clear hget
    induction tab with
    | nil => exact ⟨0, Nat.le_refl _, fun i h => absurd h (by simp), fun i h => absurd h (by simp)⟩
    | cons x xs ih =>
      rw [List.pairwise_cons] at hs
      obtain ⟨k, hk, h1, h2⟩ := ih hs.2
      by_cases hx : key x < c
      · refine ⟨k + 1, by simpa using hk, ?_, ?_⟩
        · intro i h hi
          cases i with
          | zero => exact hx
          | succ i => exact h1 i (by simpa using h) (by omega)
        · intro i h hi
          cases i with
          | zero => omega
          | succ i => exact h2 i (by simpa using h) (by omega)
      · refine ⟨0, Nat.zero_le _, fun i h hi => absurd hi (by omega), ?_⟩
        intro i h _
        cases i with
        | zero => exact hx
        | succ i =>
          have := hs.1 _ (List.getElem_mem (l := xs) (n := i) (by simpa using h))
          have hi' : i < xs.length := by simpa using h
          show ¬ key xs[i] < c
          omega
  obtain ⟨k, hk, h1, h2⟩ := hex
  have hlb : lowerBound tab (fun e => decide (key e < c)) = .ok k :=
    lowerBoundLoop_spec tab _ k hk (fun i h hi => decide_eq_true (h1 i h hi))
      (fun i h hi => decide_eq_false (h2 i h hi)) 0 tab.length (by omega) (by omega) (by omega)
  unfold lookupSorted
  rw [hlb]
  dsimp only
  by_cases hkl : k = tab.length
  · rw [if_pos hkl]
    congr 1
    symm
    rw [List.find?_eq_none]
    intro e he
    obtain ⟨i, hi, rfl⟩ := List.getElem_of_mem he
    have := h1 i hi (by omega)
    simp; omega
  · rw [if_neg hkl, at?_of_lt tab k (by omega)]
    dsimp only
    have hkl' : k < tab.length := by omega
    by_cases hc : key tab[k] = c
    · rw [if_pos hc]
      congr 1
      symm
      rw [List.find?_eq_some_iff_getElem]
      refine ⟨by simp [hc], k, hkl', rfl, fun j hj => ?_⟩
      have := h1 j (by omega) hj
      simp; omega
    · rw [if_neg hc]
      congr 1
      symm
      rw [List.find?_eq_none]
      intro e he
      obtain ⟨i, hi, rfl⟩ := List.getElem_of_mem he
      simp only [decide_eq_true_eq]
      rcases Nat.lt_trichotomy i k with hlt | heq | hgt
      · have := h1 i hi hlt; omega
      · subst heq; exact hc
      · have a := h2 k hkl' (Nat.le_refl _)
        have b := hget k i hkl' hi hgt
        omega

theorem find?_key_unique {α : Type} (tab : List α) (key : α → Nat) (hs : tab.Pairwise (fun x y => key x < key y))
    (c : Nat) (e : α) : tab.find? (fun e => key e = c) = some e ↔ e ∈ tab ∧ key e = c := by
  constructor
  · intro h
    exact ⟨List.mem_of_find?_eq_some h, by simpa using List.find?_some h⟩
  · rintro ⟨hm, hk⟩
    cases hf : tab.find? (fun e => key e = c) with
    | none => rw [List.find?_eq_none] at hf; exact absurd hk (by simpa using hf e hm)
    | some e' =>
      have hm' := List.mem_of_find?_eq_some hf
      have hk' : key e' = c := by simpa using List.find?_some hf
      obtain ⟨i, hi, rfl⟩ := List.getElem_of_mem hm
      obtain ⟨j, hj, rfl⟩ := List.getElem_of_mem hm'
      have hget := List.pairwise_iff_getElem.1 hs
      rcases Nat.lt_trichotomy i j with h | h | h
      · have := hget i j hi hj h; omega
      · subst h; rfl
      · have := hget j i hj hi h; omega

/-! ## Composition pairs -/

/-- Lexicographic order on pairs. -/
def PairLt (a b a' b' : Nat) : Prop := a < a' ∨ (a = a' ∧ b < b')

theorem composeLoop_spec (tab : List Comp)
    (hs : tab.Pairwise (fun x y => PairLt x.first x.second y.first y.second)) (a b i e : Nat)
    (hie : i ≤ e) (he : e ≤ tab.length)
    (hlo : ∀ (j : Nat) (h : j < tab.length), j < i → PairLt tab[j].first tab[j].second a b)
    (hhi : ∀ (j : Nat) (h : j < tab.length), e ≤ j → PairLt a b tab[j].first tab[j].second) :
    ∃ r, composeLoop tab a b i e = .ok r ∧
      ((∃ m ∈ tab, m.first = a ∧ m.second = b ∧ r = m.composed)
        ∨ (r = 0 ∧ ∀ m ∈ tab, ¬ (m.first = a ∧ m.second = b))) := by
  induction hn : e - i using Nat.strongRecOn generalizing i e with
  | ind n ih =>
    unfold composeLoop
    by_cases h : i < e
    · rw [dif_pos h, at?_of_lt tab (i + (e - i) / 2) (by omega)]
      dsimp only
      have hm : i + (e - i) / 2 < tab.length := by omega
      have hget := List.pairwise_iff_getElem.1 hs
      by_cases h1 : tab[i + (e - i) / 2].first < a ∨ (tab[i + (e - i) / 2].first = a ∧ tab[i + (e - i) / 2].second < b)
      · rw [if_pos h1]
        refine ih (e - (i + (e - i) / 2 + 1)) (by omega) _ e (by omega) he ?_ hhi rfl
        intro j hj hji
        by_cases hjm : j = i + (e - i) / 2
        · subst hjm; exact h1
        · have := hget j (i + (e - i) / 2) hj hm (by omega)
          unfold PairLt at this ⊢
          omega
      · rw [if_neg h1]
        by_cases h2 : tab[i + (e - i) / 2].first > a ∨ (tab[i + (e - i) / 2].first = a ∧ tab[i + (e - i) / 2].second > b)
        · rw [if_pos h2]
          refine ih (i + (e - i) / 2 - i) (by omega) i _ (by omega) (by omega) hlo ?_ rfl
          intro j hj hji
          by_cases hjm : j = i + (e - i) / 2
          · subst hjm; unfold PairLt; omega
          · have := hget (i + (e - i) / 2) j hm hj (by omega)
            unfold PairLt at this ⊢
            omega
        · rw [if_neg h2]
          exact ⟨_, rfl, Or.inl ⟨_, List.getElem_mem hm, by omega, by omega, rfl⟩⟩
    · rw [dif_neg h]
      refine ⟨0, rfl, Or.inr ⟨rfl, ?_⟩⟩
      intro m hm hmab
      obtain ⟨j, hj, rfl⟩ := List.getElem_of_mem hm
      by_cases hji : j < i
      · have := hlo j hj hji; unfold PairLt at this; omega
      · have := hhi j hj (by omega); unfold PairLt at this; omega

/-! ## Intervals -/

/-- `x` covers `c`. -/
def Entry.Covers {α : Type} (x : Entry α) (c : Nat) : Prop := x.lo ≤ c ∧ c ≤ x.hi

theorem lastIndex_of_pos (n : Nat) (h : 0 < n) (h' : n < 2 ^ 64) : lastIndex n = n - 1 := by
  unfold lastIndex; omega

theorem searchLoop_spec {α : Type} (tab : List (Entry α))
    (hs : tab.Pairwise (fun x y => x.hi < y.lo)) (hv : ∀ x ∈ tab, x.lo ≤ x.hi) (c a b : Nat)
    (ha : a < tab.length) (hb : b < tab.length)
    (hlo : ∀ (j : Nat) (h : j < tab.length), j < a → tab[j].hi < c)
    (hhi : ∀ (j : Nat) (h : j < tab.length), b < j → c < tab[j].lo) :
    ∃ r, searchLoop tab c a b = .ok r ∧
      ((∃ m ∈ tab, m.Covers c ∧ r = some m.val) ∨ (r = none ∧ ∀ m ∈ tab, ¬ m.Covers c)) := by
  have hget := List.pairwise_iff_getElem.1 hs
  have hve : ∀ (j : Nat) (h : j < tab.length), tab[j].lo ≤ tab[j].hi := fun j h => hv _ (List.getElem_mem h)
  induction hn : b - a using Nat.strongRecOn generalizing a b with
  | ind n ih =>
    unfold searchLoop
    by_cases h : a < b
    · rw [dif_pos h, at?_of_lt tab (a + (b - a) / 2) (by omega)]
      dsimp only
      have hm : a + (b - a) / 2 < tab.length := by omega
      by_cases h1 : tab[a + (b - a) / 2].hi < c
      · rw [if_pos h1, if_neg (by omega)]
        refine ih (b - (a + (b - a) / 2 + 1)) (by omega) _ b (by omega) hb ?_ hhi rfl
        intro j hj hji
        by_cases hjm : j = a + (b - a) / 2
        · subst hjm; exact h1
        · have := hget j (a + (b - a) / 2) hj hm (by omega)
          have := hve (a + (b - a) / 2) hm
          omega
      · rw [if_neg h1]
        by_cases h2 : tab[a + (b - a) / 2].lo > c
        · rw [if_pos h2]
          have hall : ∀ (j : Nat) (hj : j < tab.length), a + (b - a) / 2 ≤ j → c < tab[j].lo := by
            intro j hj hji
            by_cases hjm : j = a + (b - a) / 2
            · subst hjm; exact h2
            · have := hget (a + (b - a) / 2) j hm hj (by omega)
              have := hve (a + (b - a) / 2) hm
              omega
          by_cases h0 : a + (b - a) / 2 = 0
          · rw [if_pos h0]
            refine ⟨_, rfl, Or.inr ⟨rfl, ?_⟩⟩
            intro m hmm hc
            obtain ⟨j, hj, rfl⟩ := List.getElem_of_mem hmm
            have := hall j hj (by omega)
            unfold Entry.Covers at hc; omega
          · rw [if_neg h0]
            refine ih (a + (b - a) / 2 - 1 - a) (by omega) a _ ha (by omega) hlo ?_ rfl
            intro j hj hji
            exact hall j hj (by omega)
        · rw [if_neg h2]
          exact ⟨_, rfl, Or.inl ⟨_, List.getElem_mem hm, ⟨by omega, by omega⟩, rfl⟩⟩
    · rw [dif_neg h]
      by_cases hab : a = b
      · rw [if_pos hab, at?_of_lt tab a ha]
        dsimp only
        by_cases hc : tab[a].lo ≤ c ∧ c ≤ tab[a].hi
        · rw [if_pos hc]; exact ⟨_, rfl, Or.inl ⟨_, List.getElem_mem ha, hc, rfl⟩⟩
        · rw [if_neg hc]
          refine ⟨_, rfl, Or.inr ⟨rfl, ?_⟩⟩
          intro m hmm hcv
          obtain ⟨j, hj, rfl⟩ := List.getElem_of_mem hmm
          unfold Entry.Covers at hcv
          rcases Nat.lt_trichotomy j a with h' | h' | h'
          · have := hlo j hj h'; omega
          · subst h'; exact hc hcv
          · have := hhi j hj (by omega); omega
      · rw [if_neg hab]
        refine ⟨_, rfl, Or.inr ⟨rfl, ?_⟩⟩
        intro m hmm hcv
        obtain ⟨j, hj, rfl⟩ := List.getElem_of_mem hmm
        unfold Entry.Covers at hcv
        by_cases h' : j < a
        · have := hlo j hj h'; omega
        · have := hhi j hj (by omega); omega

theorem containsLoop_spec {α : Type} (tab : List (Entry α))
    (hs : tab.Pairwise (fun x y => x.hi < y.lo)) (hv : ∀ x ∈ tab, x.lo ≤ x.hi) (c a b : Nat)
    (ha : a < tab.length) (hb : b < tab.length)
    (hlo : ∀ (j : Nat) (h : j < tab.length), j < a → tab[j].hi < c)
    (hhi : ∀ (j : Nat) (h : j < tab.length), b < j → c < tab[j].lo) :
    ∃ r, containsLoop tab c a b = .ok r ∧ (r = true ↔ ∃ m ∈ tab, m.Covers c) := by
  have hget := List.pairwise_iff_getElem.1 hs
  have hve : ∀ (j : Nat) (h : j < tab.length), tab[j].lo ≤ tab[j].hi := fun j h => hv _ (List.getElem_mem h)
  induction hn : b - a using Nat.strongRecOn generalizing a b with
  | ind n ih =>
    unfold containsLoop
    by_cases h : a < b
    · rw [dif_pos h, at?_of_lt tab ((b + a) / 2) (by omega)]
      dsimp only
      have hm : (b + a) / 2 < tab.length := by omega
      by_cases h1 : tab[(b + a) / 2].hi < c
      · rw [if_pos h1]
        refine ih (b - ((b + a) / 2 + 1)) (by omega) _ b (by omega) hb ?_ hhi rfl
        intro j hj hji
        by_cases hjm : j = (b + a) / 2
        · subst hjm; exact h1
        · have := hget j ((b + a) / 2) hj hm (by omega)
          have := hve ((b + a) / 2) hm
          omega
      · rw [if_neg h1]
        by_cases h2 : tab[(b + a) / 2].lo > c
        · rw [if_pos h2]
          have hall : ∀ (j : Nat) (hj : j < tab.length), (b + a) / 2 ≤ j → c < tab[j].lo := by
            intro j hj hji
            by_cases hjm : j = (b + a) / 2
            · subst hjm; exact h2
            · have := hget ((b + a) / 2) j hm hj (by omega)
              have := hve ((b + a) / 2) hm
              omega
          by_cases h0 : (b + a) / 2 = 0
          · rw [if_pos h0]
            refine ⟨_, rfl, ?_⟩
            simp only [Bool.false_eq_true, false_iff]
            rintro ⟨m, hmm, hc⟩
            obtain ⟨j, hj, rfl⟩ := List.getElem_of_mem hmm
            have := hall j hj (by omega)
            unfold Entry.Covers at hc; omega
          · rw [if_neg h0]
            refine ih ((b + a) / 2 - 1 - a) (by omega) a _ ha (by omega) hlo ?_ rfl
            intro j hj hji
            exact hall j hj (by omega)
        · rw [if_neg h2]
          exact ⟨_, rfl, by simp only [true_iff]; exact ⟨_, List.getElem_mem hm, by omega, by omega⟩⟩
    · rw [dif_neg h]
      by_cases hab : a = b
      · rw [if_pos hab, at?_of_lt tab a ha]
        dsimp only
        refine ⟨_, rfl, ?_⟩
        rw [Bool.and_eq_true, decide_eq_true_iff, decide_eq_true_iff]
        constructor
        · intro hc; exact ⟨_, List.getElem_mem ha, hc⟩
        · rintro ⟨m, hmm, hcv⟩
          obtain ⟨j, hj, rfl⟩ := List.getElem_of_mem hmm
          rcases Nat.lt_trichotomy j a with h' | h' | h'
          · have := hlo j hj h'; unfold Entry.Covers at hcv; omega
          · subst h'; exact hcv
          · have := hhi j hj (by omega); unfold Entry.Covers at hcv; omega
      · rw [if_neg hab]
        refine ⟨_, rfl, ?_⟩
        simp only [Bool.false_eq_true, false_iff]
        rintro ⟨m, hmm, hcv⟩
        obtain ⟨j, hj, rfl⟩ := List.getElem_of_mem hmm
        unfold Entry.Covers at hcv
        by_cases h' : j < a
        · have := hlo j hj h'; omega
        · have := hhi j hj (by omega); omega

/-! ## The generator -/

section Generator
variable {α : Type} [DecidableEq α]

theorem nodup_length_le {β : Type} (l m : List β) (hn : l.Nodup) (hs : ∀ x ∈ l, x ∈ m) : l.length ≤ m.length :=
  (List.subperm_of_subset hn hs).length_le

/-- Invariant of stage 3 and its index. -/
structure IndexOk (vals : List α) (g : Gen α) : Prop where
  nodup : g.stage3.Nodup
  sub : ∀ v ∈ g.stage3, v ∈ vals
  fwd : ∀ v i, (v, i) ∈ g.index → g.stage3[i]? = some v
  bwd : ∀ v ∈ g.stage3, ∃ i, (v, i) ∈ g.index

theorem stage3Index_spec (S : Shape) (vals : List α) (hw : vals.length ≤ S.w2) (g : Gen α) (hg : IndexOk vals g) (v : α)
    (hv : v ∈ vals) :
    IndexOk vals (stage3Index S g v).1 ∧ (stage3Index S g v).1.stage1 = g.stage1
    ∧ (stage3Index S g v).1.stage2 = g.stage2 ∧ (stage3Index S g v).1.seen = g.seen
    ∧ (∃ ext, (stage3Index S g v).1.stage3 = g.stage3 ++ ext)
    ∧ (stage3Index S g v).1.stage3[(stage3Index S g v).2]? = some v := by
  unfold stage3Index
  cases hf : g.index.find? (fun e => e.1 = v) with
  | some e =>
    have hm := List.mem_of_find?_eq_some hf
    have hk : e.1 = v := by simpa using List.find?_some hf
    have := hg.fwd e.1 e.2 hm
    exact ⟨hg, rfl, rfl, rfl, ⟨[], by simp⟩, by rw [this, hk]⟩
  | none =>
    have hnv : v ∉ g.stage3 := by
      intro hmem
      obtain ⟨i, hi⟩ := hg.bwd v hmem
      rw [List.find?_eq_none] at hf
      exact hf (v, i) hi (by simp)
    have hnd : (g.stage3 ++ [v]).Nodup := by
      rw [List.nodup_append]
      exact ⟨hg.nodup, by simp, by rintro a ha b hb rfl; simp at hb; subst hb; exact hnv ha⟩
    have hsub : ∀ x ∈ g.stage3 ++ [v], x ∈ vals := by
      intro x hx
      rw [List.mem_append, List.mem_singleton] at hx
      rcases hx with hx | rfl
      · exact hg.sub x hx
      · exact hv
    have hlen := nodup_length_le _ _ hnd hsub
    have hlt : g.stage3.length < S.w2 := by simp at hlen; omega
    dsimp only
    rw [Nat.mod_eq_of_lt hlt]
    refine ⟨⟨hnd, hsub, ?_, ?_⟩, rfl, rfl, rfl, ⟨[v], rfl⟩, by simp⟩
    · intro x i hxi
      simp only [List.mem_append, List.mem_singleton, Prod.mk.injEq] at hxi
      rcases hxi with hxi | ⟨rfl, rfl⟩
      · have := hg.fwd x i hxi
        obtain ⟨hi, _⟩ := List.getElem?_eq_some_iff.1 this
        rw [List.getElem?_append_left hi]; exact this
      · simp
    · intro x hx
      rw [List.mem_append, List.mem_singleton] at hx
      rcases hx with hx | rfl
      · obtain ⟨i, hi⟩ := hg.bwd x hx
        exact ⟨i, by simp [hi]⟩
      · exact ⟨g.stage3.length, by simp⟩

theorem pushBlock_spec (S : Shape) (vals : List α) (hw : vals.length ≤ S.w2) (vs : List α) (hvs : ∀ v ∈ vs, v ∈ vals)
    (g : Gen α) (hg : IndexOk vals g) :
    IndexOk vals (pushBlock S g vs) ∧ (pushBlock S g vs).stage1 = g.stage1 ∧ (pushBlock S g vs).seen = g.seen
    ∧ (∃ ext, (pushBlock S g vs).stage3 = g.stage3 ++ ext)
    ∧ ∃ qs, (pushBlock S g vs).stage2 = g.stage2 ++ qs ∧ qs.length = vs.length
      ∧ ∀ o < vs.length, ∃ q, qs[o]? = some q ∧ (pushBlock S g vs).stage3[q]? = vs[o]? := by
  induction vs generalizing g with
  | nil => exact ⟨hg, rfl, rfl, ⟨[], by simp [pushBlock]⟩, [], by simp [pushBlock], rfl, fun o ho => absurd ho (by simp)⟩
  | cons v vs ih =>
    obtain ⟨h1, h2, h3, h4, ⟨ext, h5⟩, h6⟩ := stage3Index_spec S vals hw g hg v (hvs v (by simp))
    obtain ⟨k1, k2, k3, ⟨ext', k4⟩, qs, k5, k6, k7⟩ := ih (fun x hx => hvs x (by simp [hx]))
      { (stage3Index S g v).1 with stage2 := (stage3Index S g v).1.stage2 ++ [(stage3Index S g v).2] }
      ⟨h1.nodup, h1.sub, h1.fwd, h1.bwd⟩
    refine ⟨k1, by rw [pushBlock, k2]; exact h2, by rw [pushBlock, k3]; exact h4, ⟨ext ++ ext', ?_⟩,
      (stage3Index S g v).2 :: qs, ?_, by simp [k6], ?_⟩
    · rw [pushBlock, k4]; show (stage3Index S g v).1.stage3 ++ ext' = _; rw [h5]; simp
    · rw [pushBlock, k5]; show ((stage3Index S g v).1.stage2 ++ _) ++ qs = _; rw [h3]; simp
    · intro o ho
      cases o with
      | zero =>
        refine ⟨_, rfl, ?_⟩
        rw [pushBlock, k4]
        show ((stage3Index S g v).1.stage3 ++ ext')[_]? = some v
        obtain ⟨hi, _⟩ := List.getElem?_eq_some_iff.1 h6
        rw [List.getElem?_append_left hi]; exact h6
      | succ o =>
        obtain ⟨q, hq, hq'⟩ := k7 o (by simpa using ho)
        exact ⟨q, by simpa using hq, by rw [pushBlock]; simpa using hq'⟩

theorem block_getElem? (S : Shape) (input : List α) (s o : Nat) (ho : o < S.B) :
    (block S input s)[o]? = input[s + o]? := by
  unfold block; rw [List.getElem?_take_of_lt ho, List.getElem?_drop]

/-- Reading position `i` of the table built so far gives the input. -/
def Reads (S : Shape) (input : List α) (g : Gen α) (j : Nat) : Prop :=
  ∃ p, g.stage1[j]? = some p ∧ ∀ o < S.B, ∃ q, g.stage2[p * S.B + o]? = some q ∧ g.stage3[q]? = input[j * S.B + o]?

/-- Invariant of the loop over the blocks. -/
structure GenOk (S : Shape) (input : List α) (k : Nat) (g : Gen α) : Prop where
  ix : IndexOk input.dedup g
  len1 : g.stage1.length = k
  len2 : g.stage2.length = g.seen.length * S.B
  starts : ∀ s ∈ g.seen, ∃ j < k, s = j * S.B
  nodup : (g.seen.map (block S input)).Nodup
  reads : ∀ j < k, Reads S input g j

theorem genStep (S : Shape) (hash : List α → Nat) (input : List α) (hB : 0 < S.B)
    (hw2 : input.dedup.length ≤ S.w2) (bs : List (List α)) (hbs : bs.length ≤ S.w1) (n : Nat)
    (hn : input.length = n * S.B)
    (hmem : ∀ j < n, block S input (j * S.B) ∈ bs) (k : Nat) (hk : k < n) (g : Gen α) (hg : GenOk S input k g) :
    ∃ g' i, blockIndex S hash input g (k * S.B) = .ok (g', i)
      ∧ GenOk S input (k + 1) { g' with stage1 := g'.stage1 ++ [i] } := by
  unfold blockIndex
  cases hf : findSameBlock S hash input g (k * S.B) with
  | some other =>
    dsimp only
    unfold findSameBlock at hf
    rw [Option.map_eq_some_iff] at hf
    obtain ⟨s, hs, rfl⟩ := hf
    have hsm := (List.mem_filter.1 (List.mem_of_find?_eq_some hs)).1
    have hsb : block S input s = block S input (k * S.B) := by simpa using List.find?_some hs
    obtain ⟨j, hj, rfl⟩ := hg.starts s hsm
    rw [Nat.mul_div_cancel _ hB]
    obtain ⟨p, hp, hpo⟩ := hg.reads j hj
    rw [(at?_some g.stage1 j p).2 hp]
    refine ⟨g, p, rfl, ⟨⟨hg.ix.nodup, hg.ix.sub, hg.ix.fwd, hg.ix.bwd⟩, by simp [hg.len1], hg.len2, ?_, hg.nodup, ?_⟩⟩
    · intro s hs; obtain ⟨j, hj, h⟩ := hg.starts s hs; exact ⟨j, by omega, h⟩
    · intro j' hj'
      by_cases hjk : j' < k
      · obtain ⟨p', hp', h⟩ := hg.reads j' hjk
        exact ⟨p', by show (g.stage1 ++ [p])[j']? = _; rw [List.getElem?_append_left (by rw [hg.len1]; exact hjk)]; exact hp', h⟩
      · have : j' = k := by omega
        subst this
        refine ⟨p, by show (g.stage1 ++ [p])[j']? = _; rw [List.getElem?_append_right (by rw [hg.len1]; omega)]; simp [hg.len1], ?_⟩
        intro o ho
        obtain ⟨q, hq, hq'⟩ := hpo o ho
        refine ⟨q, hq, ?_⟩
        show g.stage3[q]? = _
        rw [hq', ← block_getElem? S input _ o ho, hsb, block_getElem? S input _ o ho]
  | none =>
    dsimp only
    unfold newBlock
    have hblk : ∀ v ∈ block S input (k * S.B), v ∈ input.dedup := by
      intro v hv
      rw [List.mem_dedup]
      exact List.mem_of_mem_drop (List.mem_of_mem_take hv)
    have hblen : (block S input (k * S.B)).length = S.B := by
      unfold block
      rw [List.length_take, List.length_drop, hn]
      have : (k + 1) * S.B ≤ n * S.B := Nat.mul_le_mul_right _ hk
      rw [Nat.add_mul] at this
      omega
    have hnew : block S input (k * S.B) ∉ g.seen.map (block S input) := by
      intro hmem
      rw [List.mem_map] at hmem
      obtain ⟨s, hs, hsb⟩ := hmem
      unfold findSameBlock at hf
      rw [Option.map_eq_none_iff, List.find?_eq_none] at hf
      exact hf s (List.mem_filter.2 ⟨hs, by simp [hsb]⟩) (by simpa using hsb)
    have hnd : ((g.seen ++ [k * S.B]).map (block S input)).Nodup := by
      rw [List.map_append, List.nodup_append]
      refine ⟨hg.nodup, by simp, ?_⟩
      rintro a ha b hb rfl
      simp at hb; subst hb; exact hnew ha
    have hlen : g.seen.length < S.w1 := by
      have := nodup_length_le _ bs hnd (by
        intro x hx
        rw [List.mem_map] at hx
        obtain ⟨s, hs, rfl⟩ := hx
        rw [List.mem_append, List.mem_singleton] at hs
        rcases hs with hs | rfl
        · obtain ⟨j, hj, rfl⟩ := hg.starts s hs
          exact hmem j (by omega)
        · exact hmem k hk)
      simp at this; omega
    have hidx : g.stage2.length / S.B % S.w1 = g.seen.length := by
      rw [hg.len2, Nat.mul_div_cancel _ hB, Nat.mod_eq_of_lt hlen]
    rw [hidx]
    obtain ⟨h1, h2, h3, ⟨ext, h4⟩, qs, h5, h6, h7⟩ := pushBlock_spec S input.dedup hw2 (block S input (k * S.B)) hblk
      { g with seen := g.seen ++ [k * S.B] } ⟨hg.ix.nodup, hg.ix.sub, hg.ix.fwd, hg.ix.bwd⟩
    generalize hG : pushBlock S { g with seen := g.seen ++ [k * S.B] } (block S input (k * S.B)) = G at *
    refine ⟨G, _, rfl, ⟨⟨h1.nodup, h1.sub, h1.fwd, h1.bwd⟩, by simp [h2, hg.len1], ?_, ?_, ?_, ?_⟩⟩
    · show G.stage2.length = G.seen.length * S.B
      rw [h5, h3, List.length_append, h6, hblen]
      show g.stage2.length + S.B = (g.seen ++ [k * S.B]).length * S.B
      rw [hg.len2, List.length_append, Nat.add_mul]
      simp
    · show ∀ s ∈ G.seen, _
      rw [h3]
      intro s hs
      rw [List.mem_append, List.mem_singleton] at hs
      rcases hs with hs | rfl
      · obtain ⟨j, hj, h⟩ := hg.starts s hs; exact ⟨j, by omega, h⟩
      · exact ⟨k, by omega, rfl⟩
    · show (G.seen.map _).Nodup
      rw [h3]; exact hnd
    · intro j hj
      by_cases hjk : j < k
      · obtain ⟨p, hp, h⟩ := hg.reads j hjk
        refine ⟨p, ?_, ?_⟩
        · show (G.stage1 ++ _)[j]? = _
          rw [h2, List.getElem?_append_left (by show j < g.stage1.length; rw [hg.len1]; exact hjk)]; exact hp
        · intro o ho
          obtain ⟨q, hq, hq'⟩ := h o ho
          refine ⟨q, ?_, ?_⟩
          · show G.stage2[_]? = _
            rw [h5]
            obtain ⟨hi, _⟩ := List.getElem?_eq_some_iff.1 hq
            rw [List.getElem?_append_left hi]; exact hq
          · show G.stage3[q]? = _
            have hlt : j * S.B + o < input.length := by
              rw [hn]
              have : (j + 1) * S.B ≤ n * S.B := Nat.mul_le_mul_right _ (by omega)
              rw [Nat.add_mul] at this; omega
            rw [List.getElem?_eq_getElem hlt] at hq' ⊢
            obtain ⟨hi, _⟩ := List.getElem?_eq_some_iff.1 hq'
            rw [h4, List.getElem?_append_left hi]; exact hq'
      · have : j = k := by omega
        subst this
        refine ⟨g.seen.length, ?_, ?_⟩
        · show (G.stage1 ++ _)[j]? = _
          rw [h2]
          show (g.stage1 ++ _)[j]? = _
          rw [List.getElem?_append_right (by rw [hg.len1]; omega)]; simp [hg.len1]
        · intro o ho
          obtain ⟨q, hq, hq'⟩ := h7 o (by rw [hblen]; exact ho)
          refine ⟨q, ?_, ?_⟩
          · show G.stage2[_]? = _
            rw [h5]
            show (g.stage2 ++ qs)[_]? = _
            rw [List.getElem?_append_right (by rw [hg.len2]; omega), hg.len2, Nat.add_sub_cancel_left]; exact hq
          · show G.stage3[q]? = _
            rw [hq', block_getElem? S input _ o ho]

theorem generateLoop_spec (S : Shape) (hash : List α → Nat) (input : List α) (hB : 0 < S.B)
    (hw2 : input.dedup.length ≤ S.w2) (bs : List (List α)) (hbs : bs.length ≤ S.w1) (n : Nat)
    (hn : input.length = n * S.B)
    (hmem : ∀ j < n, block S input (j * S.B) ∈ bs) (m : Nat) (k : Nat) (hk : k + m = n) (g : Gen α)
    (hg : GenOk S input k g) :
    ∃ g', generateLoop S hash input m g = .ok g' ∧ GenOk S input n g' := by
  induction m generalizing k g with
  | zero => exact ⟨g, rfl, by rw [← hk]; exact hg⟩
  | succ m ih =>
    obtain ⟨g', i, h1, h2⟩ := genStep S hash input hB hw2 bs hbs n hn hmem k (by omega) g hg
    obtain ⟨g'', h3, h4⟩ := ih (k + 1) (by omega) _ h2
    refine ⟨g'', ?_, h4⟩
    rw [generateLoop, hg.len1, h1]
    exact h3

end Generator

end Verif.Tables
