import Verif.Props.Tables
import Verif.Lemmas.TablesRange
/-!
# C38: exactly when the multistage tables are right
-/

namespace Verif.Props.Tables

open Verif.Utf8 (Mem)
open Verif.Tables

variable {α : Type} [DecidableEq α]

omit [DecidableEq α] in
theorem get_reads {S : Shape} {g : Gen α} {i : Nat} (hi : i ≤ S.max) {v : α} (h : Verif.Tables.get S g i = .ok v) :
    ∃ p q, g.stage1[i / S.B]? = some p ∧ g.stage2[p * S.B + i % S.B]? = some q ∧ g.stage3[q]? = some v := by
  unfold Verif.Tables.get unsafeGet at h
  rw [if_pos hi] at h
  cases h1 : at? g.stage1 (i / S.B) with
  | oob => rw [h1] at h; cases h
  | ok p =>
    rw [h1] at h
    simp only at h
    cases h2 : at? g.stage2 (p * S.B + i % S.B) with
    | oob => rw [h2] at h; cases h
    | ok q =>
      rw [h2] at h
      exact ⟨p, q, (at?_some _ _ _).1 h1, (at?_some _ _ _).1 h2, (at?_some _ _ _).1 h⟩

/-- **C38, exactly.** The generator succeeds and all lookups are right if and only if the input has at most as many different blocks
as a stage-1 element has values, and at most as many different values as a stage-2 element has. -/
theorem C38_iff (S : Shape) (hash : List α → Nat) (input : List α) (n : Nat) (hB : 0 < S.B) (h1 : 0 < S.w1) (h2 : 0 < S.w2)
    (hlen : input.length = n * S.B) (hmax : input.length ≤ S.max + 1) :
    (∃ g, generate S hash input = .ok g ∧ ∀ (i : Nat) (h : i < input.length), Verif.Tables.get S g i = .ok input[i]) ↔
      (∃ blocks : List (List α), blocks.length ≤ S.w1 ∧ ∀ j < n, (input.drop (j * S.B)).take S.B ∈ blocks) ∧
      (∃ values : List α, values.length ≤ S.w2 ∧ ∀ v ∈ input, v ∈ values) := by
  constructor
  · rintro ⟨g, hg, hget⟩
    have hr := generate_range S h1 h2 hash input g hg
    constructor
    · refine ⟨(List.range S.w1).map fun p => (List.range S.B).filterMap fun k => (g.stage2[p * S.B + k]?).bind (g.stage3[·]?), by simp, ?_⟩
      intro j hj
      have hjn : (j + 1) * S.B ≤ n * S.B := Nat.mul_le_mul_right _ hj
      rw [Nat.add_mul, Nat.one_mul] at hjn
      have hread : ∀ k < S.B, ∃ p q, g.stage1[j]? = some p ∧ g.stage2[p * S.B + k]? = some q ∧ g.stage3[q]? = input[j * S.B + k]? := by
        intro k hk
        have hi : j * S.B + k < input.length := by omega
        obtain ⟨p, q, a, b, c⟩ := get_reads (by omega) (hget _ hi)
        rw [Nat.mul_comm j, Nat.mul_add_div hB, Nat.div_eq_of_lt hk, Nat.add_zero] at a
        rw [Nat.mul_comm j, Nat.mul_add_mod, Nat.mod_eq_of_lt hk] at b
        exact ⟨p, q, a, b, by rw [c, List.getElem?_eq_getElem hi]⟩
      obtain ⟨p, -, hp, -⟩ := hread 0 hB
      refine List.mem_map.2 ⟨p, List.mem_range.2 (hr.one p (List.mem_of_getElem? hp)), ?_⟩
      have key : ∀ m ≤ S.B, ((List.range m).filterMap fun k => (g.stage2[p * S.B + k]?).bind (g.stage3[·]?)) = (input.drop (j * S.B)).take m := by
        intro m
        induction m with
        | zero => intro _; simp
        | succ m ih =>
          intro hm
          obtain ⟨p', q, a, b, c⟩ := hread m (by omega)
          rw [hp] at a
          cases a
          have hi : j * S.B + m < input.length := by omega
          rw [List.range_succ, List.filterMap_append, ih (by omega)]
          simp only [List.filterMap_cons, List.filterMap_nil, b, Option.bind_some, c, List.getElem?_eq_getElem hi]
          rw [List.take_add_one, List.getElem?_drop, List.getElem?_eq_getElem hi]
          rfl
      exact key S.B (Nat.le_refl _)
    · refine ⟨g.stage3.take S.w2, by simp only [List.length_take]; omega, ?_⟩
      intro v hv
      obtain ⟨i, hi, rfl⟩ := List.getElem_of_mem hv
      obtain ⟨p, q, -, b, c⟩ := get_reads (by omega) (hget i hi)
      have hq := hr.two q (List.mem_of_getElem? b)
      exact List.mem_of_getElem? (i := q) (by rw [List.getElem?_take, if_pos hq]; exact c)
  · rintro ⟨⟨blocks, hb, hc⟩, values, hv, hvc⟩
    obtain ⟨g, hg, h⟩ := C38_exact S hash input n hB hlen blocks hb hc values hv hvc
    exact ⟨g, hg, fun i hi => h i hi (by omega)⟩

/-- **C38**, for the tables of the library: the tables are right exactly when there are at most 256 different blocks of 256 codepoints
(the number of values is then no restriction). -/
theorem C38_properties_iff (hash : List α → Nat) (input : List α) (hlen : input.length = 0x110000) :
    (∃ g, generate propertiesShape hash input = .ok g ∧
      ∀ (i : Nat) (h : i < input.length), Verif.Tables.get propertiesShape g i = .ok input[i]) ↔
      ∃ blocks : List (List α), blocks.length ≤ 256 ∧ ∀ j < 0x1100, (input.drop (j * 256)).take 256 ∈ blocks := by
  rw [C38_iff propertiesShape hash input 0x1100 (by decide) (by decide) (by decide) (by rw [hlen]; rfl) (by rw [hlen]; decide)]
  constructor
  · rintro ⟨h, -⟩; exact h
  · rintro ⟨blocks, hb, hc⟩
    refine ⟨⟨blocks, hb, hc⟩, (blocks.flatMap fun b => b.take 256), ?_, ?_⟩
    · have : ∀ bs : List (List α), (bs.flatMap fun b => b.take 256).length ≤ bs.length * 256 := by
        intro bs
        induction bs with
        | nil => simp
        | cons b bs ih =>
          rw [List.flatMap_cons, List.length_append, List.length_cons]
          have : (b.take 256).length ≤ 256 := by simp only [List.length_take]; omega
          omega
      refine Nat.le_trans (this blocks) ?_
      show blocks.length * 256 ≤ 65536
      omega
    · intro v hv
      obtain ⟨i, hi, rfl⟩ := List.getElem_of_mem hv
      refine List.mem_flatMap.2 ⟨_, hc (i / 256) (by omega), ?_⟩
      refine List.mem_of_getElem? (i := i % 256) ?_
      rw [List.getElem?_take, if_pos (Nat.mod_lt _ (by decide)), List.getElem?_take, if_pos (Nat.mod_lt _ (by decide)), List.getElem?_drop,
        Nat.div_add_mod', List.getElem?_eq_getElem hi]

/-- Two blocks, alternating: within the bound. -/
example : ∃ g, generate propertiesShape (fun _ => 0) ((List.range 0x110000).map fun c => c / 256 % 2) = .ok g ∧
    ∀ (i : Nat) (h : i < ((List.range 0x110000).map fun c => c / 256 % 2).length),
      Verif.Tables.get propertiesShape g i = .ok ((List.range 0x110000).map fun c => c / 256 % 2)[i] := by
  refine (C38_properties_iff _ _ (by simp)).2 ⟨[List.replicate 256 0, List.replicate 256 1], by decide, fun j hj => ?_⟩
  have : (((List.range 0x110000).map fun c => c / 256 % 2).drop (j * 256)).take 256 = List.replicate 256 (j % 2) := by
    apply List.ext_getElem?
    intro k
    rw [List.getElem?_take]
    by_cases hk : k < 256
    · rw [if_pos hk, List.getElem?_drop, List.getElem?_map, List.getElem?_range (by omega), List.getElem?_replicate, if_pos hk]
      show some ((j * 256 + k) / 256 % 2) = _
      rw [show (j * 256 + k) / 256 = j by omega]
    · rw [if_neg hk, List.getElem?_eq_none (by rw [List.length_replicate]; omega)]
  rw [this]
  rcases Nat.mod_two_eq_zero_or_one j with h | h <;> rw [h]
  · exact List.mem_cons_self ..
  · exact List.mem_cons_of_mem _ (List.mem_cons_self ..)

end Verif.Props.Tables
