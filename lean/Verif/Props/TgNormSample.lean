import Verif.Props.TgNorm
/-!
# C52: an excerpt of the files, and what Full_Composition_Exclusion is for
-/

namespace Verif.Props.Tg
open Verif.Tg Verif.Spec.UcdFile Verif.Norm Verif.Spec.Norm
open Verif.Props.Tables (Sorted)

/-- **C52.** Whatever the files contain, the emitted combining class, decomposition, quick-check and exclusion tables are sorted
(so that the binary searches over them are exact, C36). -/
theorem C52_tables_sorted (udLines exLines qcLines : List Str) :
    Sorted (·.1) (writeMap (loadUnicodeData udLines).ccc)
    ∧ Sorted (·.1) (writeDecomps true (loadUnicodeData udLines).decomps)
    ∧ Sorted (·.1) (writeDecomps false (loadUnicodeData udLines).decomps)
    ∧ QcSorted (loadNormProps exLines qcLines) :=
  ⟨(udSorted udLines).ccc, sorted_writeDecomps _ _ (udSorted udLines).decomps, sorted_writeDecomps _ _ (udSorted udLines).decomps,
    qcSorted exLines qcLines⟩

/-! ## An excerpt -/

def e0 (c : Nat) (ccc : Nat) (d : Decomposition) : UdEntry := ⟨c, ccc, d, none, none, none⟩

def nUd : List UdEntry :=
  [e0 0x41 0 .none, e0 0x65 0 .none, e0 0xC5 0 (.canonical [0x41, 0x30A]), e0 0xE9 0 (.canonical [0x65, 0x301]),
   e0 0x301 230 .none, e0 0x308 230 .none, e0 0x30A 230 .none, e0 0x323 220 .none, e0 0x344 230 (.canonical [0x308, 0x301]),
   e0 0x915 0 .none, e0 0x93C 7 .none, e0 0x958 0 (.canonical [0x915, 0x93C]), e0 0x212B 0 (.canonical [0xC5]),
   e0 0xAC00 0 .none, e0 0xD7A3 0 .none, e0 0xFB01 0 (.compat "compat".toList [0x66, 0x69])]

def nEx : List (Nat × Nat) := [(0x958, 0x958)]

def pe (p : String) (v : Option String) (a b : Nat) : PropEntry := ⟨a, b, p.toList, v.map String.toList, true⟩

def nQc : List PropEntry :=
  [pe "Full_Composition_Exclusion" none 0x344 0x344, pe "Full_Composition_Exclusion" none 0x958 0x958,
   pe "Full_Composition_Exclusion" none 0x212B 0x212B,
   pe "NFD_QC" (some "N") 0xC5 0xC5, pe "NFD_QC" (some "N") 0xE9 0xE9, pe "NFD_QC" (some "N") 0x344 0x344,
   pe "NFD_QC" (some "N") 0x958 0x958, pe "NFD_QC" (some "N") 0x212B 0x212B, pe "NFD_QC" (some "N") 0xAC00 0xD7A3,
   pe "NFC_QC" (some "N") 0x344 0x344, pe "NFC_QC" (some "N") 0x958 0x958, pe "NFC_QC" (some "N") 0x212B 0x212B,
   pe "NFC_QC" (some "M") 0x301 0x301, pe "NFC_QC" (some "M") 0x30A 0x30A, pe "NFC_QC" (some "M") 0x1161 0x1175,
   pe "NFC_QC" (some "M") 0x11A8 0x11C2,
   pe "NFKD_QC" (some "N") 0xC5 0xC5, pe "NFKD_QC" (some "N") 0xE9 0xE9, pe "NFKD_QC" (some "N") 0x344 0x344,
   pe "NFKD_QC" (some "N") 0x958 0x958, pe "NFKD_QC" (some "N") 0x212B 0x212B, pe "NFKD_QC" (some "N") 0xAC00 0xD7A3,
   pe "NFKD_QC" (some "N") 0xFB01 0xFB01,
   pe "NFKC_QC" (some "N") 0x344 0x344, pe "NFKC_QC" (some "N") 0x958 0x958, pe "NFKC_QC" (some "N") 0x212B 0x212B,
   pe "NFKC_QC" (some "N") 0xFB01 0xFB01,
   pe "NFKC_QC" (some "M") 0x301 0x301, pe "NFKC_QC" (some "M") 0x30A 0x30A, pe "NFKC_QC" (some "M") 0x1161 0x1175,
   pe "NFKC_QC" (some "M") 0x11A8 0x11C2]

def nComp : List Tables.Comp := [⟨0x41, 0x30A, 0xC5⟩, ⟨0x65, 0x301, 0xE9⟩, ⟨0x308, 0x301, 0x344⟩]

/-- The ranges given to a value of a property. -/
def rangesOf (qc : List PropEntry) (p v : String) : List (Nat × Nat) :=
  (qc.filter (fun e => e.prop = p.toList && e.value = some v.toList)).map (fun e => (e.first, e.last))

theorem propSays_ranges (qc : List PropEntry) (p v : String) (c : Nat) :
    PropSays qc p v c ↔ ∃ r ∈ rangesOf qc p v, r.1 ≤ c ∧ c ≤ r.2 := by
  unfold PropSays rangesOf
  simp only [List.mem_map, List.mem_filter, Bool.and_eq_true, decide_eq_true_eq]
  constructor
  · rintro ⟨e, he, h1, h2, h3⟩; exact ⟨_, ⟨e, ⟨he, h1, h2⟩, rfl⟩, h3⟩
  · rintro ⟨_, ⟨e, ⟨he, h1, h2⟩, rfl⟩, h3⟩; exact ⟨e, he, h1, h2, h3⟩

/-- The canonical decompositions. -/
def canonOf (ud : List UdEntry) : List (Nat × List Nat) :=
  ud.filterMap fun e => match e.decomp with
    | .canonical ns => some (e.cp, ns)
    | _ => none
def compatOf (ud : List UdEntry) : List (Nat × List Nat) :=
  ud.filterMap fun e => match e.decomp with
    | .compat _ ns => some (e.cp, ns)
    | _ => none

theorem canonical_iff (ud : List UdEntry) (c : Nat) (ns : List Nat) : Canonical ud c ns ↔ (c, ns) ∈ canonOf ud := by
  unfold Canonical canonOf
  rw [List.mem_filterMap]
  refine exists_congr fun e => and_congr Iff.rfl ?_
  cases e.decomp <;> simp

theorem compat_iff (ud : List UdEntry) (c : Nat) (ns : List Nat) : Compat ud c ns ↔ (c, ns) ∈ compatOf ud := by
  unfold Compat compatOf
  rw [List.mem_filterMap]
  refine exists_congr fun e => and_congr Iff.rfl ?_
  cases e.decomp <;> simp

theorem n_canon : canonOf nUd = [(0xC5, [0x41, 0x30A]), (0xE9, [0x65, 0x301]), (0x344, [0x308, 0x301]), (0x958, [0x915, 0x93C]),
    (0x212B, [0xC5])] := by decide +kernel
theorem n_compat : compatOf nUd = [(0xFB01, [0x66, 0x69])] := by decide +kernel

theorem n_qc : rangesOf nQc "NFD_QC" "N" = [(0xC5, 0xC5), (0xE9, 0xE9), (0x344, 0x344), (0x958, 0x958), (0x212B, 0x212B), (0xAC00, 0xD7A3)]
    ∧ rangesOf nQc "NFKD_QC" "N" = [(0xC5, 0xC5), (0xE9, 0xE9), (0x344, 0x344), (0x958, 0x958), (0x212B, 0x212B), (0xAC00, 0xD7A3), (0xFB01, 0xFB01)]
    ∧ rangesOf nQc "NFC_QC" "N" = [(0x344, 0x344), (0x958, 0x958), (0x212B, 0x212B)]
    ∧ rangesOf nQc "NFKC_QC" "N" = [(0x344, 0x344), (0x958, 0x958), (0x212B, 0x212B), (0xFB01, 0xFB01)]
    ∧ rangesOf nQc "NFC_QC" "M" = [(0x301, 0x301), (0x30A, 0x30A), (0x1161, 0x1175), (0x11A8, 0x11C2)]
    ∧ rangesOf nQc "NFKC_QC" "M" = [(0x301, 0x301), (0x30A, 0x30A), (0x1161, 0x1175), (0x11A8, 0x11C2)] := by decide +kernel

def nRank (c : Nat) : Nat :=
  if c = 0x212B then 2 else if c = 0xC5 ∨ c = 0xE9 ∨ c = 0x344 ∨ c = 0x958 ∨ c = 0xFB01 then 1 else 0

theorem n_files : NormFiles nUd nEx nQc 2 := by
  have hc := canonical_iff nUd
  have hk := compat_iff nUd
  rw [n_canon] at hc
  rw [n_compat] at hk
  have hx : ∀ c, Excluded nEx c ↔ c = 0x958 := fun c => by simp [Excluded, nEx]; omega
  obtain ⟨q1, q2, q3, q4, _, _⟩ := n_qc
  constructor
  · decide +kernel
  · intro ns h; rw [hc] at h; simp at h
  · intro e he h
    have : ∀ e ∈ nUd, (e.decomp = .none ∧ e.ccc = 0) ∨ ¬ ((0xAC00 ≤ e.cp ∧ e.cp ≤ 0xD7A3) ∨ (0x1100 ≤ e.cp ∧ e.cp ≤ 0x1112) ∨ (0x1161 ≤ e.cp ∧ e.cp ≤ 0x1175) ∨ (0x11A8 ≤ e.cp ∧ e.cp ≤ 0x11C2)) := by
      decide +kernel
    rcases this e he with h' | h'
    · exact h'
    · exact absurd h h'
  · refine ⟨nRank, fun c => by unfold nRank; split_ifs <;> omega, fun c ns h d hd => ?_⟩
    rw [hc, hk] at h
    have : ∀ p ∈ ([(0xC5, [0x41, 0x30A]), (0xE9, [0x65, 0x301]), (0x344, [0x308, 0x301]), (0x958, [0x915, 0x93C]),
        (0x212B, [0xC5])] ++ [(0xFB01, [0x66, 0x69])] : List (Nat × List Nat)), ∀ d ∈ p.2, nRank d < nRank p.1 := by decide
    exact this (c, ns) (List.mem_append.2 h) d hd
  · intro c c' a b h h' _ _
    rw [hc] at h h'
    have : ∀ p ∈ ([(0xC5, [0x41, 0x30A]), (0xE9, [0x65, 0x301]), (0x344, [0x308, 0x301]), (0x958, [0x915, 0x93C]),
        (0x212B, [0xC5])] : List (Nat × List Nat)), ∀ p' ∈ ([(0xC5, [0x41, 0x30A]), (0xE9, [0x65, 0x301]), (0x344, [0x308, 0x301]), (0x958, [0x915, 0x93C]),
        (0x212B, [0xC5])] : List (Nat × List Nat)), p.2 = p'.2 → p.1 = p'.1 := by decide
    exact this _ h _ h' rfl
  · intro c a b h h0
    rw [hc] at h
    have : ∀ p ∈ ([(0xC5, [0x41, 0x30A]), (0xE9, [0x65, 0x301]), (0x344, [0x308, 0x301]), (0x958, [0x915, 0x93C]),
        (0x212B, [0xC5])] : List (Nat × List Nat)), classOf nUd (p.2.headD 0) = 0 → classOf nUd p.1 = 0 := by decide +kernel
    exact this _ h h0
  · intro c a b h
    rw [hc] at h
    have : ∀ p ∈ ([(0xC5, [0x41, 0x30A]), (0xE9, [0x65, 0x301]), (0x344, [0x308, 0x301]), (0x958, [0x915, 0x93C]),
        (0x212B, [0xC5])] : List (Nat × List Nat)), ∀ x ∈ p.2, ¬ (0x1161 ≤ x ∧ x ≤ 0x1175) ∧ ¬ (0x11A8 ≤ x ∧ x ≤ 0x11C2) := by decide
    exact this _ h b (by simp)
  · intro c h; rw [hx]; unfold HangulSyllable at h; omega
  · have : ∀ e ∈ nQc, e.prop = "Full_Composition_Exclusion".toList → e.value = none ∧ e.comment = true := by decide +kernel
    exact this
  · intro c
    rw [propSays_ranges, q1]
    simp only [hc]
    simp only [List.mem_cons, exists_eq_or_imp, List.not_mem_nil, or_false, exists_eq_left, Prod.mk.injEq, exists_or,
      exists_and_left, exists_eq, and_true]
    unfold HangulSyllable
    omega
  · intro c
    rw [propSays_ranges, q2]
    simp only [hc, hk]
    simp only [List.mem_cons, exists_eq_or_imp, List.not_mem_nil, or_false, exists_eq_left, Prod.mk.injEq, exists_or,
      exists_and_left, exists_eq, and_true]
    unfold HangulSyllable
    omega
  · intro c h
    rw [propSays_ranges, q3] at h
    simp only [List.mem_cons, exists_eq_or_imp, List.not_mem_nil, or_false, exists_eq_left] at h
    unfold NeverComposed
    simp only [hc]
    have h' : c = 0x344 ∨ c = 0x958 ∨ c = 0x212B := by omega
    rcases h' with rfl | rfl | rfl
    · exact ⟨[0x308, 0x301], by decide, Or.inr (Or.inr ⟨_, _, rfl, by decide +kernel⟩)⟩
    · exact ⟨[0x915, 0x93C], by decide, Or.inr (Or.inl ((hx _).2 rfl))⟩
    · exact ⟨[0xC5], by decide, Or.inl (by decide)⟩
  · intro c h
    rw [propSays_ranges, q4] at h
    simp only [List.mem_cons, exists_eq_or_imp, List.not_mem_nil, or_false, exists_eq_left] at h
    have h' : c = 0x344 ∨ c = 0x958 ∨ c = 0x212B ∨ c = 0xFB01 := by omega
    unfold NeverComposed
    simp only [hc]
    rcases h' with rfl | rfl | rfl | rfl
    · exact Or.inl ⟨[0x308, 0x301], by decide, Or.inr (Or.inr ⟨_, _, rfl, by decide +kernel⟩)⟩
    · exact Or.inl ⟨[0x915, 0x93C], by decide, Or.inr (Or.inl ((hx _).2 rfl))⟩
    · exact Or.inl ⟨[0xC5], by decide, Or.inl (by decide)⟩
    · exact Or.inr (.here ((hk _ [0x66, 0x69]).2 (by decide)))

instance (x y : Tables.Comp) : Decidable (compLe x y) := inferInstanceAs (Decidable (_ ∨ _))

theorem n_lines : FileWith UdLine (nUd.map udRender) nUd ∧ FileWith ExclLine (nEx.map exRender) nEx
    ∧ FileWith PropLine (nQc.map propRender) nQc := by
  refine ⟨fileWith_map udRender _ (fun e he => udRender_ok e (by revert e; decide +kernel)),
    fileWith_map exRender _ (fun e he => exRender_ok e (by revert e; decide +kernel)),
    fileWith_map propRender _ (fun e he => propRender_ok e ?_ ?_ ?_)⟩
  · revert e; decide +kernel
  · have : ∀ e ∈ nQc, e.prop ≠ [] ∧ e.prop.all (fun c => c ≠ ' ' && c ≠ '\t' && c ≠ '\r' && c ≠ '\n' && c ≠ ';' && c ≠ '#') = true := by decide +kernel
    obtain ⟨h1, h2⟩ := this e he
    refine ⟨h1, fun c hc => ?_⟩
    have := List.all_eq_true.1 h2 c hc
    simp only [Bool.and_eq_true, decide_eq_true_eq] at this
    obtain ⟨⟨⟨⟨⟨a, b⟩, c⟩, d⟩, e⟩, f⟩ := this
    exact ⟨a, b, c, d, e, f⟩
  · revert e; decide +kernel

theorem n_generated : Generated (nUd.map udRender) (nEx.map exRender) (nQc.map propRender) nUd nEx nQc nComp 2 :=
  ⟨n_lines.1, n_lines.2.1, n_lines.2.2, n_files, by decide +kernel, by decide +kernel⟩

/-- The tables generated from the excerpt. -/
def nTables : Norm.Tables := normTablesOf (nUd.map udRender) (nEx.map exRender) (nQc.map propRender) nComp 2

theorem n_stream : StreamFiles nUd nEx nQc "NFC_QC" false := by
  have hc := canonical_iff nUd
  rw [n_canon] at hc
  obtain ⟨_, _, q3, _, q5, _⟩ := n_qc
  have hy : ∀ c, QcYes nQc "NFC_QC" c ↔ ¬ (c = 0x344 ∨ c = 0x958 ∨ c = 0x212B ∨ c = 0x301 ∨ c = 0x30A ∨ (0x1161 ≤ c ∧ c ≤ 0x1175) ∨ (0x11A8 ≤ c ∧ c ≤ 0x11C2)) := by
    intro c
    unfold QcYes
    rw [propSays_ranges, q3, propSays_ranges, q5]
    simp only [List.mem_cons, exists_eq_or_imp, List.not_mem_nil, or_false, exists_eq_left]
    omega
  have hL : ∀ p ∈ ([(0xC5, [0x41, 0x30A]), (0xE9, [0x65, 0x301]), (0x344, [0x308, 0x301]), (0x958, [0x915, 0x93C]),
        (0x212B, [0xC5])] : List (Nat × List Nat)), classOf nUd (p.2.getD 1 0x301) ≠ 0 ∧ (p.1 = 0x344 ∨ p.1 = 0x958 ∨ p.1 = 0x212B ∨ (classOf nUd (p.2.headD 0) = 0 ∧
          ¬ (let c := p.2.headD 0; c = 0x344 ∨ c = 0x958 ∨ c = 0x212B ∨ c = 0x301 ∨ c = 0x30A ∨ (0x1161 ≤ c ∧ c ≤ 0x1175) ∨ (0x11A8 ≤ c ∧ c ≤ 0x11C2)))) := by
    decide +kernel
  refine ⟨fun c a b h _ h0 => ?_, fun c h => ?_, fun c h => ?_, fun c d ds _ hq h => ?_⟩
  · rw [hc] at h
    exact absurd h0 (hL _ h).1
  · rw [hy]; unfold JamoV JamoT at h; omega
  · rw [hy]; unfold JamoL at h; omega
  · rw [hy] at hq ⊢
    rcases h with h | ⟨h, _⟩
    · rw [hc] at h
      rcases (hL _ h).2 with h' | h' | h' | h'
      · exact absurd (Or.inl h') hq
      · exact absurd (Or.inr (Or.inl h')) hq
      · exact absurd (Or.inr (Or.inr (Or.inl h'))) hq
      · exact h'
    · exact absurd h (by simp)

/-- The Ångström sign and decomposed marks out of order. -/
example : normalize nTables .NFD [0x212B, 0x323] = [0x41, 0x323, 0x30A] := by decide +kernel
example : Decomposed nUd false [0x212B, 0x323] [0x41, 0x323, 0x30A] :=
  (C52_nfd n_generated .NFD (.inl rfl) _ _).1 (by decide +kernel)
example : normalize nTables .NFC [0x212B, 0x65, 0x301, 0xAC00] = [0xC5, 0xE9, 0xAC00] := by decide +kernel
example : normalize nTables .NFKC [0xFB01] = [0x66, 0x69] := by decide +kernel
example (text : List Nat) (h7 : ∀ c ∈ text, ∀ out, FullDecomp nUd false c out → out.head? ≠ some 0x11A7) :
    (feedAll nTables .NFC [] text).2 ++ (flush nTables .NFC (feedAll nTables .NFC [] text).1).2 = normalize nTables .NFC text :=
  C52_stream_partial n_generated .NFC "NFC_QC" (.inl ⟨rfl, rfl⟩) n_stream text h7
example : String.ofList (propRender (pe "NFC_QC" (some "M") 0x1161 0x1175)) = "1161..1175 ; NFC_QC; M # NAME" := by decide +kernel
example : String.ofList (exRender (0x958, 0x958)) = "0958..0958 # NAME" := by decide +kernel

/-- What a user expects of `is_full_composition_exclusion`. -/
def C52_FullExclusion (T : Norm.Tables) (ex : List (Nat × Nat)) (qc : List PropEntry) : Prop :=
  ∀ c, T.excl c = true ↔ Excluded ex c ∨ PropHolds qc "Full_Composition_Exclusion" c

/-- **C52** fails for the Full_Composition_Exclusion lines: the property name keeps the comment that follows it, so no line of the
real file takes effect, and U+0308 U+0301 compose to U+0344 (which is excluded as its decomposition starts with a non-starter). -/
theorem C52_fails_full_exclusion : ¬ C52_FullExclusion nTables nEx nQc ∧ tryCompose nTables 0x308 0x301 = 0x344
    ∧ nTables.excl 0x344 = false ∧ PropHolds nQc "Full_Composition_Exclusion" 0x344 := by
  have h1 : PropHolds nQc "Full_Composition_Exclusion" 0x344 :=
    ⟨pe "Full_Composition_Exclusion" none 0x344 0x344, by decide +kernel, by decide +kernel, by decide, by decide⟩
  have h2 : nTables.excl 0x344 = false := by decide +kernel
  refine ⟨fun h => ?_, by decide +kernel, h2, h1⟩
  have := (h 0x344).2 (Or.inr h1)
  rw [h2] at this
  exact absurd this (by decide)

end Verif.Props.Tg
