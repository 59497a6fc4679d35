import Verif.Spec.Ranges
import Verif.Spec.Segments

namespace Verif.Spec

/-- Covering ranges really are a partition of the text into non-empty slices. -/
theorem Covers.partition {α : Type} {ends : List Nat} {text : List α} (h : Covers ends text.length) :
    Partition (slices text 0 ends) text := by
  suffices ∀ b, b ≤ text.length → (b :: ends).Pairwise (· < ·) → (b :: ends).getLast (by simp) = text.length →
      (slices text b ends).flatten = text.drop b ∧ ∀ s ∈ slices text b ends, s ≠ [] by
    have := this 0 (by omega) h.increasing h.complete
    exact ⟨by simpa using this.1, this.2⟩
  clear h
  induction ends with
  | nil => intro b _ _ h; simp at h; simp [slices, h]
  | cons e es ih =>
    intro b hb hp hl
    have hlt : b < e := (List.pairwise_cons.1 hp).1 e (by simp)
    have hp' := (List.pairwise_cons.1 hp).2
    have hl' : (e :: es).getLast (by simp) = text.length := by
      rw [List.getLast_cons (by simp)] at hl; exact hl
    have hle : e ≤ text.length := by
      rw [← hl']
      cases es with
      | nil => simp
      | cons e' es =>
        rw [List.getLast_cons (by simp)]
        exact Nat.le_of_lt ((List.pairwise_cons.1 hp').1 _ (List.getLast_mem _))
    obtain ⟨h1, h2⟩ := ih e hle hp' hl'
    simp only [slices]
    refine ⟨?_, ?_⟩
    · rw [List.flatten_cons, h1]
      have : List.drop e text = (text.drop b).drop (e - b) := by rw [List.drop_drop]; congr 1; omega
      rw [this, List.take_append_drop]
    · intro s hs
      rcases List.mem_cons.1 hs with rfl | hs
      · intro h
        have := congrArg List.length h
        simp at this; omega
      · exact h2 s hs

theorem le_getLast {l : List Nat} (hp : l.Pairwise (· < ·)) (hne : l ≠ []) {e : Nat} (he : e ∈ l) :
    e ≤ l.getLast hne := by
  induction l with
  | nil => exact absurd rfl hne
  | cons x xs ih =>
    obtain ⟨h1, h2⟩ := List.pairwise_cons.1 hp
    cases xs with
    | nil => simp at he; simp [he]
    | cons y ys =>
      rw [List.getLast_cons (by simp)]
      rcases List.mem_cons.1 he with rfl | he
      · exact Nat.le_of_lt (h1 _ (List.getLast_mem _))
      · exact ih h2 (by simp) he

theorem Covers.mem_le {ends : List Nat} {n : Nat} (h : Covers ends n) {e : Nat} (he : e ∈ ends) : 0 < e ∧ e ≤ n := by
  refine ⟨(List.pairwise_cons.1 h.increasing).1 e he, ?_⟩
  rw [← h.complete]
  exact le_getLast h.increasing _ (List.mem_cons_of_mem _ he)

/-- Building up covering end offsets one range at a time. -/
inductive CoversFrom : Nat → List Nat → Nat → Prop
  | nil (n : Nat) : CoversFrom n [] n
  | cons {b e : Nat} {es : List Nat} {n : Nat} : b < e → CoversFrom e es n → CoversFrom b (e :: es) n

theorem CoversFrom.pairwise {b : Nat} {es : List Nat} {n : Nat} (h : CoversFrom b es n) :
    (b :: es).Pairwise (· < ·) := by
  induction h with
  | nil n => simp
  | cons h1 _ ih =>
    refine List.pairwise_cons.2 ⟨?_, ih⟩
    intro x hx
    rcases List.mem_cons.1 hx with rfl | hx
    · exact h1
    · exact Nat.lt_trans h1 ((List.pairwise_cons.1 ih).1 x hx)

theorem CoversFrom.last {b : Nat} {es : List Nat} {n : Nat} (h : CoversFrom b es n) :
    (b :: es).getLast (by simp) = n := by
  induction h with
  | nil n => simp
  | cons _ _ ih => rw [List.getLast_cons (by simp)]; exact ih

theorem CoversFrom.covers {es : List Nat} {n : Nat} (h : CoversFrom 0 es n) : Covers es n := ⟨h.pairwise, h.last⟩

end Verif.Spec

namespace Verif.Spec

theorem coversFrom_endsOf {α β : Type} (segs : List (α × List β)) (b : Nat) (h : ∀ s ∈ segs, s.2 ≠ []) :
    CoversFrom b ((endsOf b segs).map Prod.snd) (b + (segs.map Prod.snd).flatten.length) := by
  induction segs generalizing b with
  | nil => exact .nil b
  | cons s segs ih =>
    obtain ⟨l, s⟩ := s
    have hs : s ≠ [] := h (l, s) (by simp)
    have := List.length_pos_iff.2 hs
    have ih := ih (b + s.length) (fun s hs => h s (List.mem_cons_of_mem _ hs))
    simp only [endsOf, List.map_cons]
    refine .cons (by omega) ?_
    simpa [Nat.add_assoc] using ih

theorem covers_endsOf {α β : Type} {segs : List (α × List β)} {text : List β}
    (h : Partition (segs.map Prod.snd) text) : Covers ((endsOf 0 segs).map Prod.snd) text.length := by
  have := coversFrom_endsOf segs 0 (fun s hs => h.nonempty _ (List.mem_map.2 ⟨s, hs, rfl⟩))
  rw [h.concat] at this
  simpa using this.covers

end Verif.Spec
