import Mathlib.Data.List.Perm.Basic
import Mathlib.Data.List.Chain
import Verif.Spec.Norm

namespace Verif.Norm
open Verif.Spec.Norm

variable {T : Tables}

/-! ## Ordering -/

theorem moveLeft_nil (x : Nat) : moveLeft T x [] = [x] := rfl
theorem moveLeft_cons (x p : Nat) (ps : List Nat) :
    moveLeft T x (p :: ps) = if T.ccc p = 0 ∨ T.ccc p ≤ T.ccc x then x :: p :: ps else p :: moveLeft T x ps := rfl

theorem moveLeft_comm {x y : Nat} (h : T.ccc x > T.ccc y) (hy : T.ccc y > 0) (r : List Nat) :
    moveLeft T y (moveLeft T x r) = moveLeft T x (moveLeft T y r) := by
  induction r with
  | nil => simp [moveLeft_nil, moveLeft_cons]; grind
  | cons p ps ih => simp only [moveLeft_cons]; grind [moveLeft_cons]

theorem orderStep_comm {x y : Nat} (h : Reorderable T.ccc x y) (r : List Nat) :
    orderStep T (orderStep T r x) y = orderStep T (orderStep T r y) x := by
  obtain ⟨h, hy⟩ := h
  have h1 : T.ccc x ≠ 0 := by omega
  have h2 : T.ccc y ≠ 0 := by omega
  simp [orderStep, h1, h2, moveLeft_comm h hy]

theorem order_swap {s t : List Nat} (h : Swap T.ccc s t) : canonicalOrder T s = canonicalOrder T t := by
  cases h with
  | mk a b x y hr => simp [canonicalOrder, orderStep_comm hr]

theorem order_reorders {s t : List Nat} (h : Reorders T.ccc s t) : canonicalOrder T s = canonicalOrder T t := by
  induction h with
  | refl => rfl
  | tail _ h2 ih => rw [ih, order_swap h2]

theorem Swap.append {ccc : Nat → Nat} {s t : List Nat} (h : Swap ccc s t) (a b : List Nat) :
    Swap ccc (a ++ s ++ b) (a ++ t ++ b) := by
  cases h with
  | mk p q x y hr =>
    have := Swap.mk (ccc := ccc) (a ++ p) (q ++ b) x y hr
    simpa using this

theorem Reorders.append {ccc : Nat → Nat} {s t : List Nat} (h : Reorders ccc s t) (a b : List Nat) :
    Reorders ccc (a ++ s ++ b) (a ++ t ++ b) := by
  induction h with
  | refl => exact .refl
  | tail _ h2 ih => exact ih.tail (Swap.append h2 a b)

theorem moveLeft_reorders (x : Nat) (hx : T.ccc x ≠ 0) (r : List Nat) :
    Reorders T.ccc (r.reverse ++ [x]) (moveLeft T x r).reverse := by
  induction r with
  | nil => exact .refl
  | cons p ps ih =>
    rw [moveLeft_cons]
    split
    · simp; exact .refl
    · rename_i h
      simp only [List.reverse_cons, List.append_assoc]
      refine .head (b := ps.reverse ++ x :: p :: []) ?_ ?_
      · simpa using Swap.mk (ccc := T.ccc) ps.reverse [] p x ⟨by omega, by omega⟩
      · simpa using Reorders.append ih [] [p]

theorem orderStep_reorders (x : Nat) (r : List Nat) :
    Reorders T.ccc (r.reverse ++ [x]) (orderStep T r x).reverse := by
  unfold orderStep
  split
  · simp; exact .refl
  · exact moveLeft_reorders x ‹_› r

theorem foldl_reorders (t r : List Nat) :
    Reorders T.ccc (r.reverse ++ t) (t.foldl (orderStep T) r).reverse := by
  induction t generalizing r with
  | nil => simp; exact .refl
  | cons x t ih =>
    have h := Reorders.append (orderStep_reorders (T := T) x r) [] t
    refine Relation.ReflTransGen.trans ?_ (ih (orderStep T r x))
    simpa using h

/-- The result is reachable by exchanging reorderable pairs. -/
theorem canonicalOrder_reorders (t : List Nat) : Reorders T.ccc t (canonicalOrder T t) := by
  simpa [canonicalOrder] using foldl_reorders (T := T) t []

/-- Reverse-ordered chains. -/
def OrdRev (T : Tables) (r : List Nat) : Prop := r.IsChain (fun p q => ¬ Reorderable T.ccc q p)

theorem moveLeft_ordRev (x : Nat) (hx : T.ccc x ≠ 0) (r : List Nat) (h : OrdRev T r) :
    OrdRev T (moveLeft T x r) ∧ ∃ y l, moveLeft T x r = y :: l ∧ (y = x ∨ ∃ r', r = y :: r') := by
  induction r with
  | nil => exact ⟨by simp [OrdRev, moveLeft_nil], x, [], rfl, .inl rfl⟩
  | cons p ps ih =>
    rw [moveLeft_cons]
    split
    · refine ⟨?_, _, _, rfl, .inl rfl⟩
      unfold OrdRev at *
      rw [List.isChain_cons_cons]
      refine ⟨?_, h⟩
      unfold Reorderable; omega
    · rename_i hp
      have hps : OrdRev T ps := by
        unfold OrdRev at *
        exact h.tail
      obtain ⟨i1, y, l, e, hy⟩ := ih hps
      refine ⟨?_, _, _, rfl, .inr ⟨_, rfl⟩⟩
      rw [e]
      rw [e] at i1
      unfold OrdRev at *
      rw [List.isChain_cons_cons]
      refine ⟨?_, i1⟩
      rcases hy with rfl | ⟨r', rfl⟩
      · unfold Reorderable; omega
      · rw [List.isChain_cons_cons] at h
        exact h.1

theorem orderStep_ordRev (x : Nat) (r : List Nat) (h : OrdRev T r) : OrdRev T (orderStep T r x) := by
  unfold orderStep
  split
  · cases r with
    | nil => simp [OrdRev]
    | cons p ps =>
      unfold OrdRev at *
      rw [List.isChain_cons_cons]
      exact ⟨by unfold Reorderable; omega, h⟩
  · exact (moveLeft_ordRev x ‹_› r h).1

theorem foldl_ordRev (t r : List Nat) (h : OrdRev T r) : OrdRev T (t.foldl (orderStep T) r) := by
  induction t generalizing r with
  | nil => exact h
  | cons x t ih => exact ih _ (orderStep_ordRev x r h)

theorem ordered_iff_chain (ccc : Nat → Nat) (l : List Nat) :
    Ordered ccc l ↔ l.IsChain (fun x y => ¬ Reorderable ccc x y) := by
  constructor
  · intro h
    induction l with
    | nil => simp
    | cons x l ih =>
      cases l with
      | nil => simp
      | cons y l =>
        rw [List.isChain_cons_cons]
        refine ⟨h [] l x y rfl, ih ?_⟩
        intro a b p q e
        exact h (x :: a) b p q (by rw [e]; rfl)
  · rintro h a b x y rfl
    have := List.IsChain.right_of_append h
    rw [List.isChain_cons_cons] at this
    exact this.1

theorem canonicalOrder_ordered (t : List Nat) : Ordered T.ccc (canonicalOrder T t) := by
  rw [ordered_iff_chain, canonicalOrder, List.isChain_reverse]
  exact foldl_ordRev t [] (by simp [OrdRev])

theorem orderStep_of_ordRev (x : Nat) (r : List Nat) (h : OrdRev T (x :: r)) : orderStep T r x = x :: r := by
  unfold orderStep
  split
  · rfl
  · cases r with
    | nil => rfl
    | cons p ps =>
      unfold OrdRev at h
      rw [List.isChain_cons_cons] at h
      rw [moveLeft_cons, if_pos]
      have := h.1
      unfold Reorderable at this
      omega

theorem foldl_of_ordRev (t r : List Nat) (h : OrdRev T (t.reverse ++ r)) :
    t.foldl (orderStep T) r = t.reverse ++ r := by
  induction t generalizing r with
  | nil => rfl
  | cons x t ih =>
    have h' : OrdRev T (t.reverse ++ x :: r) := by simpa using h
    have hx : OrdRev T (x :: r) := List.IsChain.right_of_append h'
    rw [List.foldl_cons, orderStep_of_ordRev x r hx, ih _ h']
    simp

theorem canonicalOrder_of_ordered {t : List Nat} (h : Ordered T.ccc t) : canonicalOrder T t = t := by
  have : OrdRev T (t.reverse ++ []) := by
    rw [ordered_iff_chain, ← List.isChain_reverse] at h
    simpa [OrdRev] using h
  rw [canonicalOrder, foldl_of_ordRev t [] this]
  simp

theorem canonicalOrder_idem (t : List Nat) : canonicalOrder T (canonicalOrder T t) = canonicalOrder T t :=
  canonicalOrder_of_ordered (canonicalOrder_ordered t)

theorem Swap.perm {ccc : Nat → Nat} {s t : List Nat} (h : Swap ccc s t) : s.Perm t := by
  cases h with
  | mk a b x y _ => exact List.Perm.append_left a (List.Perm.swap y x b)

theorem Reorders.perm {ccc : Nat → Nat} {s t : List Nat} (h : Reorders ccc s t) : s.Perm t := by
  induction h with
  | refl => exact .refl _
  | tail _ h2 ih => exact ih.trans (Swap.perm h2)

theorem canonicalOrder_perm (t : List Nat) : (canonicalOrder T t).Perm t :=
  (Reorders.perm (canonicalOrder_reorders t)).symm

/-- Swaps change neither the subsequence of codepoints of one class … -/
theorem Reorders.filter {ccc : Nat → Nat} {s t : List Nat} (h : Reorders ccc s t) (k : Nat) :
    s.filter (fun c => ccc c == k) = t.filter (fun c => ccc c == k) := by
  induction h with
  | refl => rfl
  | tail _ h2 ih =>
    rw [ih]
    cases h2 with
    | mk a b x y hr =>
      obtain ⟨h1, h2⟩ := hr
      have : ¬ (ccc x = k ∧ ccc y = k) := by omega
      simp only [List.filter_append, List.filter_cons, beq_iff_eq]
      grind

/-- … nor the classes-are-zero pattern: the starters stay at their positions. -/
theorem Reorders.starters {ccc : Nat → Nat} {s t : List Nat} (h : Reorders ccc s t) :
    s.map (fun c => if ccc c = 0 then some c else none) = t.map (fun c => if ccc c = 0 then some c else none) := by
  induction h with
  | refl => rfl
  | tail _ h2 ih =>
    rw [ih]
    cases h2 with
    | mk a b x y hr =>
      obtain ⟨h1, h2⟩ := hr
      have hx : ccc x ≠ 0 := by omega
      have hy : ccc y ≠ 0 := by omega
      simp [hx, hy]

theorem moveLeft_starter {s : Nat} (hs : T.ccc s = 0) (x : Nat) (l r : List Nat) :
    moveLeft T x (l ++ s :: r) = moveLeft T x l ++ s :: r := by
  induction l with
  | nil => simp [moveLeft_cons, moveLeft_nil, hs]
  | cons p ps ih => simp only [List.cons_append, moveLeft_cons, ih]; split <;> simp

theorem orderStep_starter {s : Nat} (hs : T.ccc s = 0) (x : Nat) (l r : List Nat) :
    orderStep T (l ++ s :: r) x = orderStep T l x ++ s :: r := by
  unfold orderStep
  split
  · rfl
  · exact moveLeft_starter hs x l r

theorem foldl_starter {s : Nat} (hs : T.ccc s = 0) (t l r : List Nat) :
    t.foldl (orderStep T) (l ++ s :: r) = t.foldl (orderStep T) l ++ s :: r := by
  induction t generalizing l with
  | nil => rfl
  | cons x t ih => rw [List.foldl_cons, orderStep_starter hs, ih, List.foldl_cons]

/-- A starter separates what precedes it from what follows it. -/
theorem canonicalOrder_starter {s : Nat} (hs : T.ccc s = 0) (a b : List Nat) :
    canonicalOrder T (a ++ s :: b) = canonicalOrder T a ++ s :: canonicalOrder T b := by
  simp only [canonicalOrder, List.foldl_append, List.foldl_cons]
  have h1 : orderStep T (a.foldl (orderStep T) []) s = [] ++ s :: a.foldl (orderStep T) [] := by
    simp [orderStep, hs]
  rw [h1, foldl_starter hs]
  simp

theorem canonicalOrder_cons_starter {s : Nat} (hs : T.ccc s = 0) (b : List Nat) :
    canonicalOrder T (s :: b) = s :: canonicalOrder T b := by
  simpa [canonicalOrder] using canonicalOrder_starter hs [] b

/-- Equal up to reordering. -/
def OEq (T : Tables) (s t : List Nat) : Prop := canonicalOrder T s = canonicalOrder T t

theorem OEq.refl (s : List Nat) : OEq T s s := rfl
theorem OEq.symm {s t : List Nat} (h : OEq T s t) : OEq T t s := Eq.symm h
theorem OEq.trans {s t u : List Nat} (h : OEq T s t) (h' : OEq T t u) : OEq T s u := Eq.trans h h'
theorem OEq.of_reorders {s t : List Nat} (h : Reorders T.ccc s t) : OEq T s t := order_reorders h
theorem OEq.order (s : List Nat) : OEq T (canonicalOrder T s) s := canonicalOrder_idem s

theorem OEq.append {a a' b b' : List Nat} (h : OEq T a a') (h' : OEq T b b') : OEq T (a ++ b) (a' ++ b') := by
  have key : ∀ x y : List Nat, OEq T (x ++ y) (canonicalOrder T x ++ canonicalOrder T y) := by
    intro x y
    have h1 := Reorders.append (canonicalOrder_reorders (T := T) x) [] y
    have h2 := Reorders.append (canonicalOrder_reorders (T := T) y) (canonicalOrder T x) []
    simp only [List.nil_append, List.append_nil] at h1 h2
    exact (OEq.of_reorders h1).trans (OEq.of_reorders h2)
  have h1 := key a b
  rw [h, h'] at h1
  exact h1.trans (key a' b').symm

/-! ## Decomposition -/

theorem mapping_mem_rank {rank : Nat → Nat} {c : Nat}
    (h : (∀ d ∈ T.canon c, rank d < rank c) ∧ (∀ d ∈ T.compat c, rank d < rank c)) (k : Bool) :
    ∀ d ∈ mapping T k c, rank d < rank c := by
  unfold mapping
  split
  · exact h.2
  · exact h.1

theorem decomposeN_stable {rank : Nat → Nat}
    (hr : ∀ c, isHangulSyllable c = false →
      (∀ d ∈ T.canon c, rank d < rank c) ∧ (∀ d ∈ T.compat c, rank d < rank c)) (k : Bool) :
    ∀ n c, rank c < n → ∀ m, rank c < m → decomposeN T k n c = decomposeN T k m c := by
  intro n
  induction n with
  | zero => intro c h; omega
  | succ n ih =>
    intro c hn m hm
    obtain ⟨m, rfl⟩ : ∃ m', m = m' + 1 := ⟨m - 1, by omega⟩
    simp only [decomposeN]
    split
    · rfl
    · rename_i hh
      split
      · rfl
      · refine List.flatMap_congr ?_
        intro d hd
        have := mapping_mem_rank (hr c (by simpa using hh)) k d hd
        exact ih d (by omega) m (by omega)

/-- The recursion equation of `decompose_recursive` (normalization.cpp:134-157). -/
theorem decompose_eq (hT : Ranked T) (k : Bool) (c : Nat) :
    decompose T k c = if isHangulSyllable c then hangulDecompose c
      else if mapping T k c = [] then [c] else (mapping T k c).flatMap (decompose T k) := by
  obtain ⟨rank, hb, hr⟩ := hT
  conv_lhs => rw [decompose, decomposeN]
  split
  · rfl
  · rename_i hh
    split
    · rfl
    · refine List.flatMap_congr ?_
      intro d hd
      have h1 := mapping_mem_rank (hr c (by simpa using hh)) k d hd
      have h2 := hb c
      exact decomposeN_stable hr k _ d (by omega) _ (by omega)

/-- Induction along the decomposition tables. -/
theorem rankInduction (hT : Ranked T) {P : Nat → Prop}
    (h : ∀ c, (∀ k, isHangulSyllable c = false → ∀ d ∈ mapping T k c, P d) → P c) (c : Nat) : P c := by
  obtain ⟨rank, _, hr⟩ := hT
  have : ∀ n c, rank c < n → P c := by
    intro n
    induction n with
    | zero => intro c h; omega
    | succ n ih =>
      intro c hc
      refine h c ?_
      intro k hk d hd
      have := mapping_mem_rank (hr c hk) k d hd
      exact ih d (by omega)
  exact this _ c (Nat.lt_succ_self _)

theorem isHangulL_iff (c : Nat) : isHangulL c = true ↔ 4352 ≤ c ∧ c < 4371 := by
  unfold isHangulL
  rw [Bool.and_eq_true, decide_eq_true_iff, decide_eq_true_iff]
  exact Iff.rfl
theorem isHangulV_iff (c : Nat) : isHangulV c = true ↔ 4449 ≤ c ∧ c < 4470 := by
  unfold isHangulV
  rw [Bool.and_eq_true, decide_eq_true_iff, decide_eq_true_iff]
  exact Iff.rfl
theorem isHangulT_iff (c : Nat) : isHangulT c = true ↔ 4519 < c ∧ c < 4547 := by
  unfold isHangulT
  rw [Bool.and_eq_true, decide_eq_true_iff, decide_eq_true_iff]
  exact Iff.rfl
theorem isHangulSyllable_iff (c : Nat) : isHangulSyllable c = true ↔ 44032 ≤ c ∧ c < 55204 := by
  unfold isHangulSyllable
  rw [Bool.and_eq_true, decide_eq_true_iff, decide_eq_true_iff]
  exact Iff.rfl

theorem hangulDecompose_eq (s : Nat) (h : isHangulSyllable s = true) :
    hangulDecompose s = if (s - 44032) % 28 > 0 then
      [4352 + (s - 44032) / 588, 4449 + (s - 44032) % 588 / 28, 4519 + (s - 44032) % 28]
    else [4352 + (s - 44032) / 588, 4449 + (s - 44032) % 588 / 28] := by
  rw [hangulDecompose, if_pos h]; rfl

theorem hangulDecompose_mem {s j : Nat} (h : j ∈ hangulDecompose s) :
    isHangulL j = true ∨ isHangulV j = true ∨ isHangulT j = true := by
  rw [isHangulL_iff, isHangulV_iff, isHangulT_iff]
  by_cases hs : isHangulSyllable s = true
  · rw [hangulDecompose_eq s hs] at h
    rw [isHangulSyllable_iff] at hs
    split at h
    · rw [List.mem_cons, List.mem_cons, List.mem_singleton] at h
      rcases h with h | h | h <;> omega
    · rw [List.mem_cons, List.mem_singleton] at h
      rcases h with h | h <;> omega
  · rw [hangulDecompose, if_neg hs] at h
    exact absurd h (List.not_mem_nil)

theorem jamo_fixed (hT : Ranked T) (hJ : JamoOk T) {j : Nat}
    (h : isHangulL j = true ∨ isHangulV j = true ∨ isHangulT j = true) (k : Bool) : decompose T k j = [j] := by
  obtain ⟨h1, h2, _, h4⟩ := hJ j h
  rw [decompose_eq hT, h4]
  simp [mapping, h1, h2]

/-- Every codepoint of a full decomposition is itself fully decomposed. -/
theorem decompose_mem_fixed (hT : Ranked T) (hJ : JamoOk T) (k : Bool) (c : Nat) :
    ∀ d ∈ decompose T k c, decompose T k d = [d] := by
  refine rankInduction hT (P := fun c => ∀ d ∈ decompose T k c, decompose T k d = [d]) ?_ c
  intro c ih d hd
  have he := decompose_eq hT k c
  by_cases hh : isHangulSyllable c = true
  · rw [he, if_pos hh] at hd
    exact jamo_fixed hT hJ (hangulDecompose_mem hd) k
  · have hh : isHangulSyllable c = false := by simpa using hh
    by_cases hm : mapping T k c = []
    · rw [he, hh] at hd
      simp [hm] at hd
      subst hd
      rw [he, hh]
      simp [hm]
    · rw [he, hh] at hd
      simp only [Bool.false_eq_true, ↓reduceIte, hm, List.mem_flatMap] at hd
      obtain ⟨e, he1, he2⟩ := hd
      exact ih k hh e he1 d he2

theorem flatMap_fixed {k : Bool} {l : List Nat} (h : ∀ d ∈ l, decompose T k d = [d]) :
    l.flatMap (decompose T k) = l := by
  induction l with
  | nil => rfl
  | cons x l ih =>
    rw [List.flatMap_cons, h x List.mem_cons_self, ih (fun d hd => h d (List.mem_cons_of_mem _ hd))]
    rfl

theorem mem_flatMap_fixed (hT : Ranked T) (hJ : JamoOk T) (k : Bool) (text : List Nat) :
    ∀ d ∈ text.flatMap (decompose T k), decompose T k d = [d] := by
  intro d hd
  obtain ⟨c, _, hc⟩ := List.mem_flatMap.1 hd
  exact decompose_mem_fixed hT hJ k c d hc

theorem mem_order_fixed (hT : Ranked T) (hJ : JamoOk T) (k : Bool) (text : List Nat) :
    ∀ d ∈ canonicalOrder T (text.flatMap (decompose T k)), decompose T k d = [d] := by
  intro d hd
  exact mem_flatMap_fixed hT hJ k text d ((canonicalOrder_perm _).mem_iff.1 hd)

theorem decompose_ne_nil (hT : Ranked T) (k : Bool) (c : Nat) : decompose T k c ≠ [] := by
  refine rankInduction hT (P := fun c => decompose T k c ≠ []) ?_ c
  intro c ih
  rw [decompose_eq hT]
  split
  · rename_i h
    unfold hangulDecompose
    rw [if_pos h]
    split <;> exact List.cons_ne_nil _ _
  · rename_i h
    split
    · simp
    · rename_i hm
      obtain ⟨d, l, e⟩ := List.exists_cons_of_ne_nil hm
      rw [e]
      simp only [List.flatMap_cons, ne_eq, List.append_eq_nil_iff, not_and]
      intro h0
      exact absurd h0 (ih k (by simpa using h) d (by rw [e]; exact List.mem_cons_self))

/-- Decomposing compatibly a canonical decomposition gives the compatibility decomposition. -/
theorem decompose_true_false (hT : Ranked T) (hJ : JamoOk T) (c : Nat) :
    (decompose T false c).flatMap (decompose T true) = decompose T true c := by
  refine rankInduction hT (P := fun c => (decompose T false c).flatMap (decompose T true) = decompose T true c) ?_ c
  intro c ih
  by_cases hh : isHangulSyllable c = true
  · rw [decompose_eq hT false, decompose_eq hT true, if_pos hh, if_pos hh]
    exact flatMap_fixed fun d hd => jamo_fixed hT hJ (hangulDecompose_mem hd) true
  · have hh : isHangulSyllable c = false := by simpa using hh
    by_cases hm : T.canon c = []
    · have : decompose T false c = [c] := by rw [decompose_eq hT, hh]; simp [mapping, hm]
      rw [this]; simp
    · have e1 : mapping T false c = T.canon c := by simp [mapping]
      have e2 : mapping T true c = T.canon c := by simp [mapping, hm]
      rw [decompose_eq hT false, decompose_eq hT true, hh, e1, e2]
      simp only [Bool.false_eq_true, ↓reduceIte, hm, List.flatMap_assoc]
      refine List.flatMap_congr ?_
      intro d hd
      exact ih false hh d (by rw [e1]; exact hd)

end Verif.Norm

namespace Verif.Norm
open Verif.Spec.Norm

variable {T : Tables}

/-! ## Composition -/

/-- What the code makes of a group: the marks come first. -/
def codeGroup (g : Group) : List Nat := g.marks ++ [g.starter]

theorem lastCcc_eq_zero_iff {ccc : Nat → Nat} {ms : List Nat} (h : Marks ccc ms) : lastCcc ccc ms = 0 ↔ ms = [] := by
  rcases List.eq_nil_or_concat ms with rfl | ⟨l, x, rfl⟩
  · simp [lastCcc]
  · have := h x (by simp)
    simp [lastCcc, this]

theorem lastCcc_append (ccc : Nat → Nat) (ms : List Nat) (c : Nat) : lastCcc ccc (ms ++ [c]) = ccc c := by
  simp [lastCcc]

theorem candidate_iff {res : List Nat} {g : Group} (hg : Marks T.ccc g.marks) (c : Nat) :
    (if NotBlocked T.ccc g.marks c then primary T g.starter c else none) =
      if candidate T ⟨res, g.starter, lastCcc T.ccc g.marks⟩ c ≠ 0 ∧
        T.excl (candidate T ⟨res, g.starter, lastCcc T.ccc g.marks⟩ c) = false
      then some (candidate T ⟨res, g.starter, lastCcc T.ccc g.marks⟩ c) else none := by
  have hz := lastCcc_eq_zero_iff hg
  by_cases h : NotBlocked T.ccc g.marks c
  · have h' : lastCcc T.ccc g.marks < T.ccc c ∨ lastCcc T.ccc g.marks = 0 := by unfold NotBlocked at h; tauto
    have hc : candidate T ⟨res, g.starter, lastCcc T.ccc g.marks⟩ c = tryCompose T g.starter c := by
      unfold candidate; exact if_pos h'
    rw [if_pos h, hc]
    rfl
  · have h' : ¬ (lastCcc T.ccc g.marks < T.ccc c ∨ lastCcc T.ccc g.marks = 0) := by unfold NotBlocked at h; tauto
    have hc : candidate T ⟨res, g.starter, lastCcc T.ccc g.marks⟩ c = 0 := by
      unfold candidate; exact if_neg h'
    rw [if_neg h, hc]
    simp

theorem composeGroups_nil (ccc : Nat → Nat) (pc : Nat → Nat → Option Nat) (g : Group) :
    composeGroups ccc pc g [] = [g] := rfl

theorem composeGroups_cons (ccc : Nat → Nat) (pc : Nat → Nat → Option Nat) (g : Group) (c : Nat) (cs : List Nat) :
    composeGroups ccc pc g (c :: cs) =
      match (if NotBlocked ccc g.marks c then pc g.starter c else none) with
      | some p => composeGroups ccc pc ⟨p, g.marks⟩ cs
      | none =>
        if ccc c = 0 then g :: composeGroups ccc pc ⟨c, []⟩ cs
        else composeGroups ccc pc ⟨g.starter, g.marks ++ [c]⟩ cs := rfl

theorem compose_fold (rest : List Nat) (pre : List Nat) (g : Group) (hg : Marks T.ccc g.marks) :
    (rest.foldl (composeStep T) ⟨pre ++ g.marks, g.starter, lastCcc T.ccc g.marks⟩).result ++
      [(rest.foldl (composeStep T) ⟨pre ++ g.marks, g.starter, lastCcc T.ccc g.marks⟩).starter] =
    pre ++ (composeGroups T.ccc (primary T) g rest).flatMap codeGroup := by
  induction rest generalizing pre g with
  | nil => simp [composeGroups_nil, codeGroup]
  | cons c cs ih =>
    rw [composeGroups_cons, candidate_iff (res := pre ++ g.marks) hg c, List.foldl_cons, composeStep]
    by_cases hc : candidate T ⟨pre ++ g.marks, g.starter, lastCcc T.ccc g.marks⟩ c ≠ 0 ∧
        T.excl (candidate T ⟨pre ++ g.marks, g.starter, lastCcc T.ccc g.marks⟩ c) = false
    · rw [if_pos hc, if_pos hc]
      exact ih pre ⟨candidate T ⟨pre ++ g.marks, g.starter, lastCcc T.ccc g.marks⟩ c, g.marks⟩ hg
    · rw [if_neg hc, if_neg hc]
      by_cases h0 : T.ccc c = 0
      · rw [if_pos h0]
        simp only [if_pos h0, List.flatMap_cons]
        have := ih (pre ++ codeGroup g) ⟨c, []⟩ (by simp [Marks])
        simp only [List.append_nil] at this
        rw [← List.append_assoc, ← this]
        simp [lastCcc, codeGroup]
      · rw [if_neg h0]
        simp only [if_neg h0]
        have := ih pre ⟨g.starter, g.marks ++ [c]⟩ (by
          intro x hx
          rcases List.mem_append.1 hx with h | h
          · exact hg x h
          · rw [List.mem_singleton.1 h]; exact h0)
        simp only [lastCcc_append] at this
        rw [← this]
        simp

/-- The composition of the code in terms of the groups of the Unicode algorithm. -/
theorem compose_groups (d : List Nat) :
    compose T d = (composition T.ccc (primary T) d).1 ++ (composition T.ccc (primary T) d).2.flatMap codeGroup := by
  unfold compose composition
  cases h : d.dropWhile (fun c => T.ccc c != 0) with
  | nil =>
    have := List.takeWhile_append_dropWhile (p := fun c => T.ccc c != 0) (l := d)
    rw [h, List.append_nil] at this
    simp [this]
  | cons s rest =>
    have := compose_fold (T := T) rest (d.takeWhile (fun c => T.ccc c != 0)) ⟨s, []⟩ (by simp [Marks])
    simpa [lastCcc] using this

/-! ### Canonical equivalence of the composed text -/

theorem rotate_reorders {ccc : Nat → Nat} {c : Nat} {ms : List Nat} (h : ∀ m ∈ ms, ccc m ≠ 0 ∧ ccc m < ccc c) :
    Reorders ccc (c :: ms) (ms ++ [c]) := by
  induction ms with
  | nil => exact .refl
  | cons m ms ih =>
    have hm := h m List.mem_cons_self
    have h1 : Swap ccc (c :: m :: ms) (m :: c :: ms) := Swap.mk [] ms c m ⟨hm.2, by omega⟩
    have h2 := Reorders.append (ih fun x hx => h x (List.mem_cons_of_mem _ hx)) [m] []
    simp only [List.append_nil, List.singleton_append] at h2
    exact Relation.ReflTransGen.head h1 h2

/-- Full decomposition of a string. -/
abbrev dec (T : Tables) (k : Bool) (l : List Nat) : List Nat := l.flatMap (decompose T k)

theorem dec_append (k : Bool) (a b : List Nat) : dec T k (a ++ b) = dec T k a ++ dec T k b := by simp [dec]
theorem dec_cons (k : Bool) (a : Nat) (b : List Nat) : dec T k (a :: b) = decompose T k a ++ dec T k b := by simp [dec]

/-- A primary composite decomposes to the decompositions of its constituents. -/
def PcOk (T : Tables) (k : Bool) (pc : Nat → Nat → Option Nat) (b : Nat) : Prop :=
  ∀ a p, pc a b = some p → decompose T k p = decompose T k a ++ decompose T k b

structure GInv (T : Tables) (k : Bool) (g : Group) (rest : List Nat) : Prop where
  marks : Marks T.ccc g.marks
  fixedM : ∀ m ∈ g.marks, decompose T k m = [m]
  fixedR : ∀ m ∈ rest, decompose T k m = [m]
  le_last : ∀ m ∈ g.marks, T.ccc m ≤ lastCcc T.ccc g.marks
  le_next : ∀ r rest', rest = r :: rest' → T.ccc r ≠ 0 → ∀ m ∈ g.marks, T.ccc m ≤ T.ccc r
  ordered : Ordered T.ccc rest

theorem Ordered.tail {ccc : Nat → Nat} {c : Nat} {cs : List Nat} (h : Ordered ccc (c :: cs)) : Ordered ccc cs := by
  intro a b x y e
  exact h (c :: a) b x y (by rw [e]; rfl)

theorem Ordered.head_le {ccc : Nat → Nat} {c r : Nat} {cs : List Nat} (h : Ordered ccc (c :: r :: cs)) (hr : ccc r ≠ 0) :
    ccc c ≤ ccc r := by
  have := h [] cs c r rfl
  unfold Reorderable at this
  omega

theorem GInv.compose {k : Bool} {g : Group} {c : Nat} {cs : List Nat} (h : GInv T k g (c :: cs))
    (nb : NotBlocked T.ccc g.marks c) (p : Nat) : GInv T k ⟨p, g.marks⟩ cs where
  marks := h.marks
  fixedM := h.fixedM
  fixedR m hm := h.fixedR m (List.mem_cons_of_mem _ hm)
  le_last := h.le_last
  le_next := by
    rintro r rest' rfl hr m hm
    by_cases hc : T.ccc c = 0
    · rcases nb with e | e
      · simp only at hm
        rw [e] at hm; exact absurd hm List.not_mem_nil
      · omega
    · exact le_trans (h.le_next c _ rfl hc m hm) (Ordered.head_le h.ordered hr)
  ordered := Ordered.tail h.ordered

theorem GInv.start {k : Bool} {g : Group} {c : Nat} {cs : List Nat} (h : GInv T k g (c :: cs)) (p : Nat) :
    GInv T k ⟨p, []⟩ cs where
  marks := by simp [Marks]
  fixedM := by simp
  fixedR m hm := h.fixedR m (List.mem_cons_of_mem _ hm)
  le_last := by simp
  le_next := by simp
  ordered := Ordered.tail h.ordered

theorem GInv.push {k : Bool} {g : Group} {c : Nat} {cs : List Nat} (h : GInv T k g (c :: cs)) (hc : T.ccc c ≠ 0) :
    GInv T k ⟨g.starter, g.marks ++ [c]⟩ cs where
  marks m hm := by
    rcases List.mem_append.1 hm with h' | h'
    · exact h.marks m h'
    · rw [List.mem_singleton.1 h']; exact hc
  fixedM m hm := by
    rcases List.mem_append.1 hm with h' | h'
    · exact h.fixedM m h'
    · rw [List.mem_singleton.1 h']; exact h.fixedR c List.mem_cons_self
  fixedR m hm := h.fixedR m (List.mem_cons_of_mem _ hm)
  le_last m hm := by
    rw [lastCcc_append]
    rcases List.mem_append.1 hm with h' | h'
    · exact h.le_next c _ rfl hc m h'
    · rw [List.mem_singleton.1 h']
  le_next := by
    rintro r rest' rfl hr m hm
    have := Ordered.head_le h.ordered hr
    rcases List.mem_append.1 hm with h' | h'
    · exact le_trans (h.le_next c _ rfl hc m h') this
    · rw [List.mem_singleton.1 h']; exact this
  ordered := Ordered.tail h.ordered

theorem composeGroups_equiv {k : Bool} {pc : Nat → Nat → Option Nat} (rest : List Nat) (g : Group)
    (h : GInv T k g rest) (hpc : ∀ b ∈ rest, PcOk T k pc b) :
    OEq T (dec T k ((composeGroups T.ccc pc g rest).flatMap fun g => g.starter :: g.marks))
      (dec T k (g.starter :: g.marks) ++ rest) := by
  induction rest generalizing g with
  | nil => simp [composeGroups_nil]; exact OEq.refl _
  | cons c cs ih =>
    have hpc' : ∀ b ∈ cs, PcOk T k pc b := fun b hb => hpc b (List.mem_cons_of_mem _ hb)
    rw [composeGroups_cons]
    split
    · rename_i p hp
      split at hp
      · rename_i nb
        refine (ih _ (h.compose nb p) hpc').trans ?_
        have hd := hpc c List.mem_cons_self _ _ hp
        rw [dec_cons, hd, h.fixedR c List.mem_cons_self, dec_cons]
        have hm : dec T k g.marks = g.marks := flatMap_fixed h.fixedM
        simp only [hm]
        have hrot : Reorders T.ccc (c :: g.marks) (g.marks ++ [c]) := by
          rcases nb with e | e
          · rw [e]; exact .refl
          · refine rotate_reorders fun m hm => ⟨h.marks m hm, ?_⟩
            exact lt_of_le_of_lt (h.le_last m hm) e
        have := OEq.of_reorders (Reorders.append hrot (decompose T k g.starter) cs)
        simpa using this
      · exact absurd hp (by simp)
    · by_cases h0 : T.ccc c = 0
      · rw [if_pos h0, List.flatMap_cons, dec_append]
        refine (OEq.append (OEq.refl _) (ih _ (h.start c) hpc')).trans ?_
        rw [dec_cons (a := c), h.fixedR c List.mem_cons_self]
        simp
        exact OEq.refl _
      · rw [if_neg h0]
        refine (ih _ (h.push h0) hpc').trans ?_
        simp only [dec_cons, dec_append]
        rw [h.fixedR c List.mem_cons_self]
        simp
        exact OEq.refl _

theorem composition_equiv {k : Bool} {pc : Nat → Nat → Option Nat} (d : List Nat) (ho : Ordered T.ccc d)
    (hf : ∀ c ∈ d, decompose T k c = [c]) (hpc : ∀ b ∈ d, PcOk T k pc b) :
    OEq T (dec T k (assemble (composition T.ccc pc d).1 (composition T.ccc pc d).2)) d := by
  unfold composition
  have he := List.takeWhile_append_dropWhile (p := fun c => T.ccc c != 0) (l := d)
  cases h : d.dropWhile (fun c => T.ccc c != 0) with
  | nil =>
    simp only [assemble, List.flatMap_nil, List.append_nil]
    rw [show dec T k d = d from flatMap_fixed hf]
    exact OEq.refl _
  | cons s rest =>
    rw [h] at he
    have hmem : ∀ x ∈ rest, x ∈ d := by
      intro x hx
      rw [← he]
      simp [hx]
    have hs : s ∈ d := by rw [← he]; simp
    have htk : ∀ x ∈ d.takeWhile (fun c => T.ccc c != 0), x ∈ d := by
      intro x hx
      rw [← he]
      simp [hx]
    simp only [assemble, dec_append]
    rw [show dec T k (d.takeWhile (fun c => T.ccc c != 0)) = _ from flatMap_fixed fun x hx => hf x (htk x hx)]
    have hi : GInv T k ⟨s, []⟩ rest := by
      refine ⟨by simp [Marks], by simp, fun m hm => hf m (hmem m hm), by simp, by simp, ?_⟩
      intro a b x y e
      exact ho (d.takeWhile (fun c => T.ccc c != 0) ++ s :: a) b x y (by rw [e] at he; simpa using he.symm)
    have := composeGroups_equiv rest ⟨s, []⟩ hi (fun b hb => hpc b (hmem b hb))
    have h2 := OEq.append (OEq.refl (d.takeWhile (fun c => T.ccc c != 0))) this
    refine h2.trans ?_
    simp only [dec_cons, hf s hs]
    simp only [List.singleton_append, List.flatMap_nil]
    rw [he]
    exact OEq.refl _

theorem primary_pcOk (hT : Ranked T) (hJ : JamoOk T) (hC : CompOk T) (k : Bool) (b : Nat) (hb : b ≠ 0x11A7) :
    PcOk T k (primary T) b := by
  intro a p hp
  have table : T.comp a b ≠ 0 → p = T.comp a b → decompose T k p = decompose T k a ++ decompose T k b := by
    intro h1 h2
    obtain ⟨hc, hh⟩ := hC a b h1
    have hm : mapping T k p = [a, b] := by simp [mapping, h2, hc]
    rw [decompose_eq hT k p, hm]
    simp [h2, hh]
  unfold primary at hp
  split at hp
  · rename_i hne
    have hp : tryCompose T a b = p := by simpa using hp
    replace hne := hne.1
    unfold tryCompose at hp hne
    split at hp
    · rename_i hL
      split at hp
      · rename_i hV
        have ja : isHangulL a = true := (isHangulL_iff a).2 hL
        have jb : isHangulV b = true := (isHangulV_iff b).2 hV
        rw [jamo_fixed hT hJ (.inl ja), jamo_fixed hT hJ (.inr (.inl jb))]
        have hL' : 4352 ≤ a ∧ a < 4371 := hL
        have hV' : 4449 ≤ b ∧ b < 4470 := hV
        have hp' : 44032 + ((a - 4352) * 21 + (b - 4449)) * 28 = p := hp
        have hs : isHangulSyllable p = true := (isHangulSyllable_iff p).2 (by omega)
        rw [decompose_eq hT, if_pos hs, hangulDecompose_eq p hs, if_neg (by omega)]
        have e1 : 4352 + (p - 44032) / 588 = a := by omega
        have e2 : 4449 + (p - 44032) % 588 / 28 = b := by omega
        rw [e1, e2]
        rfl
      · rename_i hV
        rw [if_pos hL, if_neg hV] at hne
        exact table hne hp.symm
    · rename_i hL
      rw [if_neg hL] at hne
      split at hp
      · rename_i hS
        rw [if_pos hS] at hne
        split at hp
        · rename_i hM
          rw [if_pos hM] at hne
          split at hp
          · rename_i hTr
            have hS' : 44032 ≤ a ∧ a < 55204 := hS
            have hM' : (a - 44032) % 28 = 0 := hM
            have hT' : 4519 ≤ b ∧ b < 4547 := hTr
            have hp' : a + (b - 4519) = p := hp
            have jb : isHangulT b = true := (isHangulT_iff b).2 ⟨by omega, hT'.2⟩
            rw [jamo_fixed hT hJ (.inr (.inr jb))]
            have hsa : isHangulSyllable a = true := (isHangulSyllable_iff a).2 hS'
            have hs : isHangulSyllable p = true := (isHangulSyllable_iff p).2 (by omega)
            rw [decompose_eq hT k p, if_pos hs, hangulDecompose_eq p hs, if_pos (by omega),
              decompose_eq hT k a, if_pos hsa, hangulDecompose_eq a hsa, if_neg (by omega)]
            have e1 : 4352 + (p - 44032) / 588 = 4352 + (a - 44032) / 588 := by omega
            have e2 : 4449 + (p - 44032) % 588 / 28 = 4449 + (a - 44032) % 588 / 28 := by omega
            have e3 : 4519 + (p - 44032) % 28 = b := by omega
            rw [e1, e2, e3]
            rfl
          · rename_i hTr
            rw [if_neg hTr] at hne
            exact table hne hp.symm
        · rename_i hM
          rw [if_neg hM] at hne
          exact table hne hp.symm
      · rename_i hS
        rw [if_neg hS] at hne
        exact table hne hp.symm
  · exact absurd hp (by simp)

/-! ### Splitting at a starter that combines with nothing -/

theorem composeStep_pre (pre : List Nat) (s : CSt) (c : Nat) :
    composeStep T ⟨pre ++ s.result, s.starter, s.lastCcc⟩ c =
      ⟨pre ++ (composeStep T s c).result, (composeStep T s c).starter, (composeStep T s c).lastCcc⟩ := by
  have hc : candidate T ⟨pre ++ s.result, s.starter, s.lastCcc⟩ c = candidate T s c := rfl
  unfold composeStep
  rw [hc]
  split
  · rfl
  · split <;> simp

theorem compose_foldl_pre (pre : List Nat) (l : List Nat) (s : CSt) :
    l.foldl (composeStep T) ⟨pre ++ s.result, s.starter, s.lastCcc⟩ =
      ⟨pre ++ (l.foldl (composeStep T) s).result, (l.foldl (composeStep T) s).starter,
        (l.foldl (composeStep T) s).lastCcc⟩ := by
  induction l generalizing s with
  | nil => rfl
  | cons c l ih => rw [List.foldl_cons, composeStep_pre, ih, List.foldl_cons]

theorem composeStep_stop {h : Nat} (h0 : T.ccc h = 0) (hp : ∀ a, primary T a h = none) (s : CSt) :
    composeStep T s h = ⟨s.result ++ [s.starter], h, 0⟩ := by
  unfold composeStep
  rw [if_neg, if_pos h0]
  rintro ⟨h1, h2⟩
  have hc : candidate T s h = tryCompose T s.starter h := by
    unfold candidate at h1 ⊢
    split
    · rfl
    · rename_i hn
      rw [if_neg hn] at h1
      exact absurd rfl h1
  rw [hc] at h1 h2
  have := hp s.starter
  unfold primary at this
  rw [if_pos ⟨h1, h2⟩] at this
  exact absurd this (by simp)

theorem takeWhile_dropWhile_append {p : Nat → Bool} (a b : List Nat) :
    (a ++ b).dropWhile p = (if a.dropWhile p = [] then b.dropWhile p else a.dropWhile p ++ b) ∧
    (a ++ b).takeWhile p = (if a.dropWhile p = [] then a ++ b.takeWhile p else a.takeWhile p) := by
  induction a with
  | nil => simp
  | cons x a ih =>
    by_cases hx : p x = true
    · simp [List.dropWhile_cons, List.takeWhile_cons, hx, ih.1, ih.2]
      split <;> simp
    · simp [List.dropWhile_cons, List.takeWhile_cons, hx]

theorem compose_split {h : Nat} (h0 : T.ccc h = 0) (hp : ∀ a, primary T a h = none) (d e : List Nat) :
    compose T (d ++ h :: e) = compose T d ++ compose T (h :: e) := by
  have hh : compose T (h :: e) = (e.foldl (composeStep T) ⟨[], h, 0⟩).result ++
      [(e.foldl (composeStep T) ⟨[], h, 0⟩).starter] := by
    simp [compose, h0]
  have key : ∀ pre : List Nat, (e.foldl (composeStep T) ⟨pre, h, 0⟩).result ++
      [(e.foldl (composeStep T) ⟨pre, h, 0⟩).starter] = pre ++ compose T (h :: e) := by
    intro pre
    have := compose_foldl_pre (T := T) pre e ⟨[], h, 0⟩
    simp only [List.append_nil] at this
    rw [this, hh]
    simp
  obtain ⟨h1, h2⟩ := takeWhile_dropWhile_append (p := fun c => T.ccc c != 0) d (h :: e)
  unfold compose
  rw [h1, h2]
  cases hd : d.dropWhile (fun c => T.ccc c != 0) with
  | nil =>
    have := List.takeWhile_append_dropWhile (p := fun c => T.ccc c != 0) (l := d)
    rw [hd, List.append_nil] at this
    simp only [↓reduceIte, List.dropWhile_cons, List.takeWhile_cons, h0, bne_self_eq_false, Bool.false_eq_true,
      List.append_nil]
    rw [key d, this]
    simp [compose, h0]
  | cons s rest =>
    simp only [List.cons_append, reduceCtorEq, ↓reduceIte, List.foldl_append, List.foldl_cons]
    rw [composeStep_stop h0 hp, key]
    simp [compose, h0]

/-- Normalization splits before a codepoint that starts its own segment. -/
theorem normalize_split {f : Form} {c : Nat} (h : SafeStart T f c) (a b : List Nat) :
    normalize T f (a ++ c :: b) = normalize T f a ++ normalize T f (c :: b) := by
  obtain ⟨s, t, hd, h0, hp⟩ := h
  have e1 : (a ++ c :: b).flatMap (decompose T f.k) =
      a.flatMap (decompose T f.k) ++ s :: (t ++ b.flatMap (decompose T f.k)) := by
    simp [hd]
  have e2 : (c :: b).flatMap (decompose T f.k) = s :: (t ++ b.flatMap (decompose T f.k)) := by
    simp [hd]
  unfold normalize
  rw [e1, e2, canonicalOrder_starter h0, canonicalOrder_cons_starter h0]
  split
  · rename_i hf
    exact compose_split h0 (hp hf) _ _
  · rfl

end Verif.Norm
