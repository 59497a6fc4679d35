import Verif.Props.TextLines
import Verif.Props.ValidFiles
/-!
# C79 for the tables generated from the UCD files
-/
namespace Verif.Props.Tg
open Verif.Tg Verif.Tables Verif.Case Verif.Spec Verif.Spec.Case Verif.Spec.UcdFile Verif.Norm Verif.Spec.Norm Verif.Props.TextLines Verif.Spec.TextLines

/-- In the files the character `n` (a line end) has combining class 0 and no decomposition, and is in no canonical decomposition into two
characters. -/
structure InertEntry (ud : List UdEntry) (n : Nat) : Prop where
  class0 : ∀ e ∈ ud, e.cp = n → e.ccc = 0
  none : ∀ e ∈ ud, e.cp = n → (∀ ns, e.decomp ≠ .canonical ns) ∧ ∀ tag ns, e.decomp ≠ .compat tag ns
  pairs : ∀ e ∈ ud, ∀ a b, e.decomp = .canonical [a, b] → a ≠ n ∧ b ≠ n

section
variable {udLines exLines qcLines : List Str} {ud : List UdEntry} {ex : List (Nat × Nat)} {qc : List PropEntry}
  {comp : List Tables.Comp} {depth : Nat} (G : Generated udLines exLines qcLines ud ex qc comp depth)
include G
local notation "TT" => normTablesOf udLines exLines qcLines comp depth

/-- **C79, from the files**: a control character that the files say nothing particular about takes no part in normalization. -/
theorem C79_inert_files {n : Nat} (hn : n < 0x1100) (h : InertEntry ud n) : Inert TT n := by
  have hc : (TT).canon n = [] := G.canon_nil.2 fun ns ⟨e, he, hcp, hd⟩ => (h.none e he hcp).1 ns hd
  have hk : (TT).compat n = [] := G.compat_nil.2 fun ns ⟨e, he, hcp, tag, hd⟩ => (h.none e he hcp).2 tag ns hd
  refine ⟨fun k => ?_, ?_, fun x => ?_⟩
  · have hs : isHangulSyllable n = false := by
      rw [Bool.eq_false_iff, ne_eq, syllable_iff]
      unfold HangulSyllable
      omega
    have hm : mapping TT k n = [] := by unfold mapping; split <;> assumption
    unfold decompose
    simp only [decomposeN, hs, hm, Bool.false_eq_true, if_false, if_true]
  · rw [G.ccc_eq]
    unfold classOf
    cases hf : ud.find? fun e => e.cp = n with
    | none => rfl
    | some e => exact h.class0 e (List.mem_of_find?_eq_some hf) (by simpa using List.find?_some hf)
  · have key : ∀ a b, a = n ∨ b = n → (TT).comp a b = 0 := by
      intro a b hab
      by_contra h0
      obtain ⟨⟨e, he, -, hd⟩, -⟩ := G.comp_pos rfl h0
      have := h.pairs e he a b hd
      rcases hab with rfl | rfl
      · exact this.1 rfl
      · exact this.2 rfl
    have hz : ∀ a b, a = n ∨ b = n → tryCompose TT a b = 0 := by
      intro a b hab
      unfold tryCompose
      have hL : LBase = 0x1100 := rfl
      have hV : VBase = 0x1161 := rfl
      have hS : SBase = 0xAC00 := rfl
      have hT : TBase = 0x11A7 := rfl
      have hk := key a b hab
      rw [hL, hV, hS, hT, hk]
      rcases hab with rfl | rfl
      · rw [if_neg (by omega), if_neg (by omega)]
      · rw [if_neg (c := _ ∧ b < _) (by omega)]
        split
        · rfl
        · split
          · split
            · rw [if_neg (by omega)]
            · rfl
          · rfl
    unfold primary
    rw [hz x n (.inr rfl), hz n x (.inl rfl)]
    simp

/-- **C79, NFD and NFKD from the files.** -/
theorem C79_files_nfd (f : Form) (hf : f = .NFD ∨ f = .NFKD) {lines : List (List Nat)} {last text : List Nat}
    (hl : Lines (fun c => c < 0x1100 ∧ InertEntry ud c) lines last text) :
    normalize TT f text = lines.flatMap (normalize TT f) ++ normalize TT f last :=
  C79_lines_nfd f hf ⟨hl.1, fun l h => by
    obtain ⟨q, c, hq, h1, h2⟩ := hl.2 l h
    exact ⟨q, c, hq, C79_inert_files G h1 h2⟩⟩

end

/-- LF in the sample files. -/
theorem n_inert : InertEntry nUd 0x0A := by
  refine ⟨by decide +kernel, fun e he h => ?_, fun e he a b h => ?_⟩
  · have : ∀ e ∈ nUd, e.cp ≠ 0x0A := by decide +kernel
    exact absurd h (this e he)
  · have : ∀ p ∈ canonOf nUd, 0x0A ∉ p.2 := by rw [n_canon]; decide
    have := this _ ((canonical_iff nUd e.cp [a, b]).1 ⟨e, he, rfl, h⟩)
    simp only [List.mem_cons, List.not_mem_nil, or_false, not_or] at this
    exact ⟨fun h => this.1 h.symm, fun h => this.2 h.symm⟩

example : normalize nTables .NFD [0x65, 0x301, 0x0A, 0x301] = normalize nTables .NFD [0x65, 0x301, 0x0A] ++ normalize nTables .NFD [0x301] := by
  have := C79_files_nfd n_generated .NFD (.inl rfl) (lines := [[0x65, 0x301, 0x0A]]) (last := [0x301])
    (text := [0x65, 0x301, 0x0A, 0x301]) ⟨rfl, fun l hl => by
    rw [List.mem_singleton] at hl
    subst hl
    exact ⟨[0x65, 0x301], 0x0A, rfl, by omega, n_inert⟩⟩
  rw [List.flatMap_cons, List.flatMap_nil, List.append_nil] at this
  exact this

end Verif.Props.Tg
