import Verif.Model.FsArray

/-! Property C40: the fixed-capacity array. -/

namespace Verif.Props.FsArray
open Verif.FsArray

variable {α : Type}

/-- The specification: a list that refuses elements once it holds `N` of them; `resize` only shortens. -/
def specStep (N : Nat) (l : List α) : Op α → List α
  | .push v => if l.length < N then l ++ [v] else l
  | .resize n => l.take n
  | .clear => []

/-- The histories in which `resize` is used to shorten only (as every caller in the library does). -/
def Shrinking (N : Nat) : List α → List (Op α) → Prop
  | _, [] => True
  | l, .resize n :: ops => n ≤ l.length ∧ Shrinking N (specStep N l (.resize n)) ops
  | l, op :: ops => Shrinking N (specStep N l op) ops

/-- Reachable representation: `N` cells, of which at most `N` are in use. -/
structure Inv (N : Nat) (f : Fs α) : Prop where
  cells : Wf N f
  fits : f.size ≤ N

theorem inv_empty (N : Nat) (d : α) : Inv N (FsArray.empty N d) :=
  ⟨by simp [Wf, FsArray.empty], by simp [FsArray.empty]⟩

theorem inv_step (N : Nat) (f : Fs α) (op : Op α) (h : Inv N f) : Inv N (step N f op) := by
  obtain ⟨h1, h2⟩ := h
  cases op with
  | push v =>
    simp only [step, pushBack]
    split
    · exact ⟨h1, h2⟩
    · exact ⟨by simpa [Wf] using h1, by simp; omega⟩
  | resize n =>
    simp only [step, FsArray.resize]
    split
    · exact ⟨h1, by simp; omega⟩
    · exact ⟨h1, h2⟩
  | clear => exact ⟨h1, by simp [step, clear]⟩

theorem contents_length {N : Nat} {f : Fs α} (h : Inv N f) : (contents f).length = f.size := by
  have := h.cells; have := h.fits; simp [contents, Wf] at *; omega

/-- **C40, capacity.** After any history of `push_back`, `resize` and `clear` — also growing resizes — on a fresh
array, `size() ≤ N`, the storage still has exactly `N` cells, and `begin()…end()` are `size()` elements. -/
theorem C40_capacity (N : Nat) (d : α) (ops : List (Op α)) :
    (ops.foldl (step N) (FsArray.empty N d)).size ≤ N ∧
      (ops.foldl (step N) (FsArray.empty N d)).values.length = N ∧
      (contents (ops.foldl (step N) (FsArray.empty N d))).length = (ops.foldl (step N) (FsArray.empty N d)).size := by
  suffices ∀ f : Fs α, Inv N f → Inv N (ops.foldl (step N) f) by
    have h := this _ (inv_empty N d)
    exact ⟨h.fits, h.cells, contents_length h⟩
  induction ops with
  | nil => exact fun f h => h
  | cons op ops ih => exact fun f h => ih _ (inv_step N f op h)

/-- **C40, `push_back`.** It fails (and changes nothing) exactly when the array is full; otherwise the element is
appended. -/
theorem C40_push_back (N : Nat) (f : Fs α) (v : α) (h : Inv N f) :
    ((pushBack N f v).2 = false ↔ (contents f).length = N) ∧
      ((pushBack N f v).2 = false → (pushBack N f v).1 = f) ∧
      ((pushBack N f v).2 = true → contents (pushBack N f v).1 = contents f ++ [v]) := by
  rw [contents_length h]
  obtain ⟨h1, h2⟩ := h
  simp only [Wf] at h1
  unfold pushBack
  split
  · simp_all
  · refine ⟨by simp_all, by simp, fun _ => ?_⟩
    simp only [contents]
    rw [List.take_add_one, List.take_set, List.set_eq_of_length_le (by simp; omega)]
    simp [show f.size < f.values.length by omega]

theorem contents_resize (N : Nat) (f : Fs α) (n : Nat) (h : Inv N f) (hn : n ≤ f.size) :
    contents (FsArray.resize N f n) = (contents f).take n := by
  obtain ⟨h1, h2⟩ := h
  simp only [Wf] at h1
  unfold FsArray.resize
  split
  · simp [contents, List.take_take, Nat.min_eq_left hn]
  · rw [List.take_of_length_le]; simp [contents]; omega

/-- **C40, refinement.** Over every history that only shrinks with `resize`, the visible contents are those of the
bounded list of the specification. -/
theorem C40_refines (N : Nat) (d : α) (ops : List (Op α)) (h : Shrinking N [] ops) :
    contents (ops.foldl (step N) (FsArray.empty N d)) = ops.foldl (specStep N) [] := by
  suffices ∀ (f : Fs α) (l : List α), Inv N f → contents f = l → Shrinking N l ops →
      contents (ops.foldl (step N) f) = ops.foldl (specStep N) l from
    this _ _ (inv_empty N d) (by simp [contents, FsArray.empty]) h
  clear h
  induction ops with
  | nil => exact fun f l _ h _ => h
  | cons op ops ih =>
    intro f l hi hc hs
    refine ih _ _ (inv_step N f op hi) ?_ ?_
    · have hl := contents_length hi
      cases op with
      | push v =>
        have hp := C40_push_back N f v hi
        simp only [step, specStep]
        by_cases hb : (pushBack N f v).2 = true
        · rw [hp.2.2 hb, hc, if_pos]
          have := hi.fits
          have : ¬ (contents f).length = N := fun e => by simp [hp.1.2 e] at hb
          rw [hc] at this hl; omega
        · have hb' : (pushBack N f v).2 = false := by simpa using hb
          rw [hp.2.1 hb', hc, if_neg]
          have := hp.1.1 hb'; rw [hc] at this; omega
      | resize n =>
        simp only [step, specStep]
        rw [contents_resize N f n hi, hc]
        rw [← hl, hc]; exact hs.1
      | clear => simp [step, specStep, clear, contents]
    · cases op with
      | push v => exact hs
      | resize n => exact hs.2
      | clear => exact hs

/-- **C40, element access.** On an array with room for no more than `2^64 - 1` elements: `at(i)` of an element is that
element, of a free cell is a stale value and beyond the capacity is `std::out_of_range`; `front()` and `back()` are the first and the last
element of a non-empty array; `back()` of an empty array is `std::out_of_range`. -/
theorem C40_access (N : Nat) (f : Fs α) (h : Inv N f) (hN : N < 2^64) :
    (∀ i, i < (contents f).length → at? f i = (contents f)[i]?) ∧
      (∀ i, (at? f i).isSome = true ↔ i < N) ∧
      (contents f ≠ [] → front? f = (contents f).head? ∧ back? f = (contents f).getLast?) ∧
      (contents f = [] → back? f = none) := by
  have hl := contents_length h
  obtain ⟨h1, h2⟩ := h
  have hat : ∀ i, i < (contents f).length → at? f i = (contents f)[i]? := by
    intro i hi
    simp only [at?, contents]
    rw [List.getElem?_take, if_pos (by omega)]
  refine ⟨hat, ?_, ?_, ?_⟩
  · intro i; simp [at?]; simp only [Wf] at h1; omega
  · intro hne
    have hp : 0 < (contents f).length := List.length_pos_iff.2 hne
    refine ⟨?_, ?_⟩
    · rw [front?, hat 0 hp, List.head?_eq_getElem?]
    · rw [back?, if_neg (by omega), hat _ (by omega), List.getLast?_eq_getElem?, hl]
  · intro he
    rw [he, List.length_nil] at hl
    rw [back?, if_pos hl.symm]
    simp only [at?, Wf] at *
    exact List.getElem?_eq_none (by omega)

example : Inv 3 ((FsArray.empty 3 0 |> fun f => (pushBack 3 f 7).1 |> fun f => (pushBack 3 f 9).1) : Fs Nat) ∧
    back? ((FsArray.empty 3 0 |> fun f => (pushBack 3 f 7).1 |> fun f => (pushBack 3 f 9).1) : Fs Nat) = some 9 :=
  ⟨⟨rfl, by decide⟩, by decide⟩

/-- A growing `resize` exposes whatever the cells held before: contents need not be "the pushed elements". -/
theorem C40_resize_exposes_stale :
    contents ([Op.push 7, Op.clear, Op.resize 1].foldl (step 4) (FsArray.empty 4 (0 : Nat))) = [7] := by decide

/-- `resize(N)` is ignored although `N` elements would fit. -/
theorem C40_resize_to_capacity_ignored (N : Nat) (f : Fs α) : FsArray.resize N f N = f := by
  simp [FsArray.resize]

example : Shrinking 3 ([] : List Nat) [.push 1, .push 2, .push 3, .push 4, .resize 2, .push 9, .clear, .push 5] ∧
    [Op.push 1, .push 2, .push 3, .push 4, .resize 2, .push 9].foldl (specStep 3) ([] : List Nat) = [1, 2, 9] := by
  refine ⟨?_, by decide⟩
  simp [Shrinking, specStep]

end Verif.Props.FsArray
