import Verif.Model.Tables
import Mathlib.Data.List.Basic
/-!
# What the stages can contain

Every entry of the first two stages fits the element type, and every value of the third stage occurs in the input
(whatever the hash function; no assumption on the sizes).
-/

namespace Verif.Tables

open Verif.Utf8 (Mem)

variable {α : Type} [DecidableEq α]

/-- The entries are in range and the values come from the input. -/
structure InRange (S : Shape) (input : List α) (g : Gen α) : Prop where
  one : ∀ v ∈ g.stage1, v < S.w1
  two : ∀ v ∈ g.stage2, v < S.w2
  three : ∀ v ∈ g.stage3, v ∈ input
  index : ∀ e ∈ g.index, e.2 < S.w2

theorem pushBlock_range (S : Shape) (h2 : 0 < S.w2) (input vs : List α) (hv : ∀ v ∈ vs, v ∈ input) (g : Gen α) (h : InRange S input g) :
    InRange S input (pushBlock S g vs) := by
  induction vs generalizing g with
  | nil => exact h
  | cons v vs ih =>
    rw [pushBlock]
    refine ih (fun x hx => hv x (List.mem_cons_of_mem _ hx)) _ ?_
    unfold stage3Index
    cases hf : g.index.find? (fun e => e.1 = v) with
    | some e =>
      have hm := h.index e (List.mem_of_find?_eq_some hf)
      refine ⟨h.one, fun x hx => ?_, h.three, h.index⟩
      rcases List.mem_append.1 hx with hx | hx
      · exact h.two x hx
      · rw [List.mem_singleton.1 hx]; exact hm
    | none =>
      have hm : g.stage3.length % S.w2 < S.w2 := Nat.mod_lt _ h2
      refine ⟨h.one, fun x hx => ?_, fun x hx => ?_, fun x hx => ?_⟩
      · rcases List.mem_append.1 hx with hx | hx
        · exact h.two x hx
        · rw [List.mem_singleton.1 hx]; exact hm
      · rcases List.mem_append.1 hx with hx | hx
        · exact h.three x hx
        · rw [List.mem_singleton.1 hx]; exact hv v (List.mem_cons_self ..)
      · rcases List.mem_append.1 hx with hx | hx
        · exact h.index x hx
        · rw [List.mem_singleton.1 hx]; exact hm

theorem generateLoop_range (S : Shape) (h1 : 0 < S.w1) (h2 : 0 < S.w2) (hash : List α → Nat) (input : List α) (n : Nat) (g g' : Gen α)
    (h : InRange S input g) (hg : generateLoop S hash input n g = .ok g') : InRange S input g' := by
  induction n generalizing g with
  | zero => rw [generateLoop] at hg; cases hg; exact h
  | succ n ih =>
    rw [generateLoop] at hg
    cases hb : blockIndex S hash input g (g.stage1.length * S.B) with
    | oob => rw [hb] at hg; cases hg
    | ok p =>
      obtain ⟨g1, i⟩ := p
      rw [hb] at hg
      refine ih _ ?_ hg
      have key : InRange S input g1 ∧ i < S.w1 := by
        unfold blockIndex at hb
        cases hf : findSameBlock S hash input g (g.stage1.length * S.B) with
        | some o =>
          rw [hf] at hb
          simp only at hb
          cases ha : at? g.stage1 o with
          | oob => rw [ha] at hb; cases hb
          | ok j =>
            rw [ha] at hb
            cases hb
            refine ⟨h, h.one i ?_⟩
            unfold at? at ha
            cases hi : g.stage1[o]? with
            | none => rw [hi] at ha; cases ha
            | some k => rw [hi] at ha; cases ha; exact List.mem_of_getElem? hi
        | none =>
          rw [hf] at hb
          cases hb
          refine ⟨pushBlock_range S h2 input _ (fun v hv => ?_) _ ⟨h.one, h.two, h.three, h.index⟩, Nat.mod_lt _ h1⟩
          exact List.mem_of_mem_drop (List.mem_of_mem_take hv)
      refine ⟨fun x hx => ?_, key.1.two, key.1.three, key.1.index⟩
      rcases List.mem_append.1 hx with hx | hx
      · exact key.1.one x hx
      · rw [List.mem_singleton.1 hx]; exact key.2

theorem generate_range (S : Shape) (h1 : 0 < S.w1) (h2 : 0 < S.w2) (hash : List α → Nat) (input : List α) (g : Gen α)
    (hg : generate S hash input = .ok g) : InRange S input g := by
  refine generateLoop_range S h1 h2 hash input _ {} g ⟨?_, ?_, ?_, ?_⟩ hg <;> (intro x hx; cases hx)

end Verif.Tables
