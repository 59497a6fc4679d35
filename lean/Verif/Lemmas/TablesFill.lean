import Verif.Model.TgNames
import Mathlib.Data.List.Dedup
import Mathlib.Data.List.Perm.Subperm
/-!
# The third stage lists the distinct values, the second their indices

Whatever the hash function and the comparison of blocks (as long as blocks that compare equal are equal).
-/

namespace Verif.Tables
open Verif.Utf8 (Mem)

variable {α : Type} [DecidableEq α]

/-- What holds of the two later stages at every moment. -/
structure Fill (S : Shape) (g : Gen α) : Prop where
  index : g.index = g.stage3.zipIdx.map fun e => (e.1, e.2 % S.w2)
  nodup : g.stage3.Nodup
  back : ∀ q ∈ g.stage2, ∃ k < g.stage3.length, q = k % S.w2
  used : ∀ k < g.stage3.length, k % S.w2 ∈ g.stage2

theorem fill_find (S : Shape) (g : Gen α) (h : Fill S g) (v : α) :
    (∀ e, g.index.find? (fun e => e.1 = v) = some e → v ∈ g.stage3 ∧ ∃ k < g.stage3.length, e.2 = k % S.w2) ∧
    (g.index.find? (fun e => e.1 = v) = none → v ∉ g.stage3) := by
  constructor
  · intro e he
    have h1 := List.find?_some he
    have h2 := List.mem_of_find?_eq_some he
    rw [h.index] at h2
    obtain ⟨⟨x, k⟩, hx, rfl⟩ := List.mem_map.1 h2
    have hk := List.mem_zipIdx' hx
    simp only [decide_eq_true_eq] at h1
    refine ⟨?_, k, hk.1, rfl⟩
    rw [← h1, hk.2]
    exact List.getElem_mem _
  · intro hn hv
    obtain ⟨k, hk, rfl⟩ := List.getElem_of_mem hv
    have := List.find?_eq_none.1 hn (g.stage3[k], k % S.w2) (by
      rw [h.index]
      refine List.mem_map.2 ⟨(g.stage3[k], k), ?_, rfl⟩
      rw [List.mk_mem_zipIdx_iff_getElem?]
      exact List.getElem?_eq_getElem hk)
    simp at this

theorem pushBlock_fill (S : Shape) (vs : List α) (g : Gen α) (h : Fill S g) :
    Fill S (pushBlock S g vs) ∧ (∀ v ∈ vs, v ∈ (pushBlock S g vs).stage3) ∧ (∀ v ∈ g.stage3, v ∈ (pushBlock S g vs).stage3) ∧
      (pushBlock S g vs).seen = g.seen ∧ (pushBlock S g vs).stage1 = g.stage1 := by
  induction vs generalizing g with
  | nil => exact ⟨h, fun v hv => (by cases hv), fun v hv => hv, rfl, rfl⟩
  | cons v vs ih =>
    rw [pushBlock]
    have key : Fill S { (stage3Index S g v).1 with stage2 := (stage3Index S g v).1.stage2 ++ [(stage3Index S g v).2] } ∧
        v ∈ (stage3Index S g v).1.stage3 ∧ (∀ x ∈ g.stage3, x ∈ (stage3Index S g v).1.stage3) ∧ (stage3Index S g v).1.seen = g.seen ∧
        (stage3Index S g v).1.stage1 = g.stage1 := by
      have hf := fill_find S g h v
      unfold stage3Index
      cases he : g.index.find? (fun e => e.1 = v) with
      | some e =>
        obtain ⟨h1, k, hk, h2⟩ := hf.1 e he
        refine ⟨⟨h.index, h.nodup, ?_, ?_⟩, h1, fun x hx => hx, rfl, rfl⟩
        · intro q hq
          rcases List.mem_append.1 hq with hq | hq
          · exact h.back q hq
          · exact ⟨k, hk, (List.mem_singleton.1 hq).trans h2⟩
        · intro j hj
          exact List.mem_append_left _ (h.used j hj)
      | none =>
        have hn := hf.2 he
        refine ⟨⟨?_, ?_, ?_, ?_⟩, ?_, ?_, rfl, rfl⟩
        · simp only [h.index, List.zipIdx_append, List.map_append]
          simp
        · simp only [List.nodup_append, h.nodup, true_and]
          refine ⟨List.nodup_singleton _, ?_⟩
          intro a ha b hb e
          rw [List.mem_singleton.1 hb] at e
          exact hn (e ▸ ha)
        · intro q hq
          simp only [List.length_append, List.length_singleton]
          rcases List.mem_append.1 hq with hq | hq
          · obtain ⟨k, hk, e⟩ := h.back q hq
            exact ⟨k, by omega, e⟩
          · exact ⟨g.stage3.length, by omega, List.mem_singleton.1 hq⟩
        · intro j hj
          simp only [List.length_append, List.length_singleton] at hj
          rcases Nat.lt_or_ge j g.stage3.length with hj' | hj'
          · exact List.mem_append_left _ (h.used j hj')
          · have : j = g.stage3.length := by omega
            subst this
            exact List.mem_append_right _ (List.mem_singleton.2 rfl)
        · exact List.mem_append_right _ (List.mem_singleton.2 rfl)
        · intro x hx
          exact List.mem_append_left _ hx
    obtain ⟨k1, k2, k3, k4, k5⟩ := key
    obtain ⟨i1, i2, i3, i4, i5⟩ := ih _ k1
    refine ⟨i1, ?_, fun x hx => i3 x (k3 x hx), i4.trans k4, i5.trans k5⟩
    intro x hx
    rcases List.mem_cons.1 hx with rfl | hx
    · exact i3 x k2
    · exact i2 x hx

/-- Of the blocks already treated, all values are in the third stage. -/
structure Covers (S : Shape) (input : List α) (g : Gen α) : Prop where
  fill : Fill S g
  seen : ∀ s ∈ g.seen, ∀ v ∈ block S input s, v ∈ g.stage3
  starts : ∀ s ∈ g.seen, ∃ i < g.stage1.length, s = i * S.B
  done : ∀ i < g.stage1.length, ∀ v ∈ block S input (i * S.B), v ∈ g.stage3

theorem generateLoopBy_covers (S : Shape) (same : Nat → Nat → Bool) (hash : Nat → Nat) (input : List α) (n N : Nat) (g g' : Gen α)
    (hN : g.stage1.length + n ≤ N)
    (hsame : ∀ i j, i < j → j < N → same (i * S.B) (j * S.B) = true → block S input (i * S.B) = block S input (j * S.B))
    (h : Covers S input g) (hg : generateLoopBy S same hash input n g = .ok g') :
    Covers S input g' ∧ g'.stage1.length = g.stage1.length + n := by
  induction n generalizing g with
  | zero => rw [generateLoopBy] at hg; cases hg; exact ⟨h, rfl⟩
  | succ n ih =>
    rw [generateLoopBy] at hg
    cases hb : blockIndexBy S same hash input g (g.stage1.length * S.B) with
    | oob => rw [hb] at hg; cases hg
    | ok p =>
      obtain ⟨g1, i⟩ := p
      rw [hb] at hg
      have key : g1.stage1.length = g.stage1.length ∧ Covers S input { g1 with stage1 := g1.stage1 ++ [i] } := by
        unfold blockIndexBy at hb
        cases hf : findSameBy S same hash g (g.stage1.length * S.B) with
        | some o =>
          rw [hf] at hb
          simp only at hb
          cases ha : at? g.stage1 o with
          | oob => rw [ha] at hb; cases hb
          | ok j =>
            rw [ha] at hb
            cases hb
            refine ⟨rfl, ⟨h.fill.index, h.fill.nodup, h.fill.back, h.fill.used⟩, h.seen, ?_, ?_⟩
            · intro s hs
              obtain ⟨k, hk, e⟩ := h.starts s hs
              exact ⟨k, by simp only [List.length_append, List.length_singleton]; omega, e⟩
            · intro k hk v hv
              simp only [List.length_append, List.length_singleton] at hk
              rcases Nat.lt_or_ge k g.stage1.length with hk' | hk'
              · exact h.done k hk' v hv
              · have : k = g.stage1.length := by omega
                subst this
                unfold findSameBy at hf
                obtain ⟨s, hs, -⟩ := Option.map_eq_some_iff.1 hf
                have h1 := List.find?_some hs
                have h2 := (List.mem_filter.1 (List.mem_of_find?_eq_some hs)).1
                obtain ⟨m, hm, e⟩ := h.starts s h2
                subst e
                rw [← hsame m g.stage1.length hm (by omega) h1] at hv
                exact h.seen _ h2 v hv
        | none =>
          rw [hf] at hb
          cases hb
          obtain ⟨p1, p2, p3, p4, p5⟩ := pushBlock_fill S (block S input (g.stage1.length * S.B))
            { g with seen := g.seen ++ [g.stage1.length * S.B] } ⟨h.fill.index, h.fill.nodup, h.fill.back, h.fill.used⟩
          refine ⟨by rw [p5], ⟨p1.index, p1.nodup, p1.back, p1.used⟩, ?_, ?_, ?_⟩
          · intro s hs v hv
            simp only [p4] at hs
            rcases List.mem_append.1 hs with hs | hs
            · exact p3 v (h.seen s hs v hv)
            · rw [List.mem_singleton.1 hs] at hv
              exact p2 v hv
          · intro s hs
            simp only [p4] at hs
            simp only [p5, List.length_append, List.length_singleton]
            rcases List.mem_append.1 hs with hs | hs
            · obtain ⟨k, hk, e⟩ := h.starts s hs
              exact ⟨k, by omega, e⟩
            · exact ⟨g.stage1.length, by omega, List.mem_singleton.1 hs⟩
          · intro k hk v hv
            simp only [p5, List.length_append, List.length_singleton] at hk
            rcases Nat.lt_or_ge k g.stage1.length with hk' | hk'
            · exact p3 v (h.done k hk' v hv)
            · have : k = g.stage1.length := by omega
              subst this
              exact p2 v hv
      obtain ⟨r1, r2⟩ := ih _ (by simp only [List.length_append, List.length_singleton, key.1]; omega) key.2 hg
      refine ⟨r1, ?_⟩
      rw [r2]
      simp only [List.length_append, List.length_singleton, key.1]
      omega

/-- The tables generated from `n` blocks. -/
theorem generateBy_covers (S : Shape) (same : Nat → Nat → Bool) (hash : Nat → Nat) (input : List α) (n : Nat) (hB : 0 < S.B)
    (hlen : input.length = n * S.B)
    (hsame : ∀ i j, i < j → j < n → same (i * S.B) (j * S.B) = true → block S input (i * S.B) = block S input (j * S.B))
    (g : Gen α) (hg : generateBy S same hash input = .ok g) : Fill S g ∧ ∀ v ∈ input, v ∈ g.stage3 := by
  unfold generateBy at hg
  have hn : input.length / S.B = n := by rw [hlen, Nat.mul_div_cancel _ hB]
  rw [hn] at hg
  obtain ⟨h1, h2⟩ := generateLoopBy_covers S same hash input n n {} g (by simp) hsame
    ⟨⟨rfl, List.nodup_nil, fun q hq => (by cases hq), fun k hk => (by cases hk)⟩, fun s hs => (by cases hs), fun s hs => (by cases hs),
      fun i hi => (by cases hi)⟩ hg
  refine ⟨h1.fill, ?_⟩
  intro v hv
  obtain ⟨c, hc, rfl⟩ := List.getElem_of_mem hv
  have hi : c / S.B < n := by rw [Nat.div_lt_iff_lt_mul hB]; omega
  refine h1.done (c / S.B) (by rw [h2]; simpa using hi) _ ?_
  unfold block
  rw [List.mem_take_iff_getElem]
  refine ⟨c % S.B, ?_, ?_⟩
  · rw [List.length_drop]
    have := Nat.mod_lt c hB
    have := Nat.div_add_mod' c S.B
    omega
  · rw [List.getElem_drop]
    congr 1
    have := Nat.div_add_mod' c S.B
    omega

end Verif.Tables
