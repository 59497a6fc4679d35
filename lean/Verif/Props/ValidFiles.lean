import Verif.Props.Valid
import Verif.Props.NormForms
import Verif.Props.TgCase
import Verif.Props.TgNormSample
/-!
# C77 and C78 for the tables generated from the UCD files
The hypotheses of C77 and C78 about the tables, from conditions on the entries of the files.
-/
namespace Verif.Props.Tg
open Verif.Tg Verif.Tables Verif.Case Verif.Spec Verif.Spec.Case Verif.Spec.UcdFile Verif.Props.Case Verif.Props.Valid Verif.Norm Verif.Spec.Norm

/-- Nothing in the three case files maps to a surrogate or above U+10FFFF. -/
structure CaseFilesScalar (ud : List UdEntry) (sp : List SpecialEntry) (cf : List FoldEntry) : Prop where
  ud : ∀ e ∈ ud, ∀ d, e.upper = some d ∨ e.lower = some d ∨ e.title = some d → IsScalar d
  sp : ∀ e ∈ sp, e.conditional = false → Scalars e.upper ∧ Scalars e.lower ∧ Scalars e.title
  cf : ∀ e ∈ cf, Scalars e.mapping

theorem simple_scalar {ud : List UdEntry} (hone : ∀ e ∈ ud, ∀ e' ∈ ud, e.cp = e'.cp → e = e') (get : UdEntry → Option Nat)
    (h : ∀ e ∈ ud, ∀ d, get e = some d → IsScalar d) :
    ∀ x ∈ ud.foldl (fun m e => nSetOpt e.cp (get e) m) [], IsScalar x.2 := by
  rintro ⟨c, d⟩ hx
  obtain ⟨e, he, _, hd⟩ := (simple_listed ud hone get c d).2 hx
  exact h e he d hd

theorem special_scalar {sp : List SpecialEntry}
    (hone : ∀ e ∈ sp, ∀ e' ∈ sp, e.cp = e'.cp → e.conditional = false → e'.conditional = false → e = e')
    (simple : List (Nat × Nat)) (get : SpecialEntry → List Nat) (h : ∀ e ∈ sp, e.conditional = false → Scalars (get e)) :
    ∀ x ∈ sp.foldl (fun m e => nSetOpt e.cp (special simple get e) m) [], Scalars x.2 := by
  rintro ⟨c, ds⟩ hx
  obtain ⟨e, he, _, hc, rfl⟩ := ((special_listed sp hone simple get c ds).1 hx).1
  exact h e he hc

/-- **C78, case, from the files.** The tables generated from case files without surrogates have scalar targets. -/
theorem C78_case_files {udLines scLines cfLines : List Str} {ud : List UdEntry} {sp : List SpecialEntry} {cf : List FoldEntry}
    (h1 : FileWith UdLine udLines ud) (h2 : FileWith SpecialLine scLines sp) (h3 : FileWith FoldLine cfLines cf)
    (hc : CaseFiles ud sp cf) (hS : CaseFilesScalar ud sp cf) :
    TablesSorted (caseTablesOf udLines scLines cfLines) ∧ CaseScalar (caseTablesOf udLines scLines cfLines) := by
  refine ⟨C51_tables_sorted udLines scLines cfLines, ?_⟩
  rw [tables_eq h1 h2 h3 hc]
  exact {
    su := simple_scalar hc.udOne _ fun e he d hd => hS.ud e he d (.inl hd)
    sl := simple_scalar hc.udOne _ fun e he d hd => hS.ud e he d (.inr (.inl hd))
    st := simple_scalar hc.udOne _ fun e he d hd => hS.ud e he d (.inr (.inr hd))
    sf := by
      rintro ⟨c, d⟩ hx
      obtain ⟨e, he, _, _, hm⟩ := (foldSays_simple cf hc.cfSimple c d).2 hx
      exact hS.cf e he d (hm ▸ List.mem_cons_self)
    fu := special_scalar hc.spOne _ _ fun e he h => (hS.sp e he h).1
    fl := special_scalar hc.spOne _ _ fun e he h => (hS.sp e he h).2.1
    ft := special_scalar hc.spOne _ _ fun e he h => (hS.sp e he h).2.2
    ff := by
      rintro ⟨c, ds⟩ hx
      obtain ⟨e, he, _, _, rfl⟩ := (foldSays_full cf hc.cfFull c ds).2 hx
      exact hS.cf e he }

/-- Decompositions in UnicodeData.txt have no surrogates and nothing above U+10FFFF; surrogates are not decomposed. -/
structure DecompScalar (ud : List UdEntry) : Prop where
  canonical : ∀ e ∈ ud, ∀ ns, e.decomp = .canonical ns → IsScalar e.cp ∧ Scalars ns
  compat : ∀ e ∈ ud, ∀ tag ns, e.decomp = .compat tag ns → Scalars ns

/-- A mark has no compatibility decomposition. -/
def MarksCanonical (ud : List UdEntry) : Prop := ∀ e ∈ ud, e.ccc ≠ 0 → ∀ tag ns, e.decomp ≠ .compat tag ns

section
variable {udLines exLines qcLines : List Str} {ud : List UdEntry} {ex : List (Nat × Nat)} {qc : List PropEntry}
  {comp : List Tables.Comp} {depth : Nat} (G : Generated udLines exLines qcLines ud ex qc comp depth)
include G
local notation "TT" => normTablesOf udLines exLines qcLines comp depth

/-- **C78, normalization, from the files.** -/
theorem C78_normalize_files (hS : DecompScalar ud) : NormScalar TT := by
  refine ⟨fun c => ?_, fun c => ?_, fun a b h => ?_⟩
  · by_cases h : (TT).canon c = []
    · rw [h]; exact fun x hx => absurd hx List.not_mem_nil
    · obtain ⟨e, he, _, hd⟩ := (G.canon_iff h).1 rfl
      exact (hS.canonical e he _ hd).2
  · by_cases h : (TT).compat c = []
    · rw [h]; exact fun x hx => absurd hx List.not_mem_nil
    · obtain ⟨e, he, _, tag, hd⟩ := (G.compat_iff h).1 rfl
      exact hS.compat e he tag _ hd
  · rcases (C52_composition G.udFile G.exFile G.qcFile G.files comp G.written a b _).1 rfl with ⟨⟨e, he, hc, hd⟩, _⟩ | ⟨h0, _⟩
    · exact hc ▸ (hS.canonical e he _ hd).1
    · exact absurd h0 h

theorem Generated.marks (hM : MarksCanonical ud) (c : Nat) (h : (TT).ccc c ≠ 0) : (TT).compat c = [] := by
  refine G.compat_nil.2 fun ns hc => ?_
  obtain ⟨e, he, hec, tag, hd⟩ := hc
  rw [G.class_fun] at h
  unfold classOf at h
  cases hf : ud.find? fun e => e.cp = c with
  | none => rw [hf] at h; exact h rfl
  | some e' =>
    rw [hf] at h
    have hc' : e'.cp = c := by simpa using List.find?_some hf
    have := G.files.udOne e he e' (List.mem_of_find?_eq_some hf) (hec.trans hc'.symm)
    subst this
    exact hM e he h tag ns hd

/-- **C77, decomposed first, from the files.** -/
theorem C77_files_decomposed_first (hM : MarksCanonical ud) (g f : Form) (hg : g = .NFD ∨ g = .NFKD) (text : List Nat) :
    normalize TT f (normalize TT g text) = normalize TT (Props.Norm.after g f) text :=
  Props.Norm.C77_decomposed_first G.ranked G.jamoOk (G.marks hM) g f hg text

/-- **C77, composed first, from the files, partial**: for the texts whose decomposition according to the files (`mid`) is without U+11A7 and in
whose composed form (`composition`: the Unicode algorithm on the files) no starter keeps a mark. -/
theorem C77_files_composed_first_partial (hM : MarksCanonical ud) (g f : Form) (hg : g = .NFC ∨ g = .NFKC) (text mid : List Nat)
    (hd : Decomposed ud g.k text mid) (hn : 0x11A7 ∉ mid) (h : ∀ x ∈ (composition (classOf ud) (primaryOf ud ex) mid).2, x.marks = []) :
    normalize TT f (normalize TT g text) = normalize TT (Props.Norm.after g f) text := by
  have e := (G.decomposed g.k text mid).1 hd
  have hn' : 0x11A7 ∉ normalize TT (decomposed g) text := by
    rw [Props.Norm.normalize_D (Props.Norm.decomposed_D g), Props.Norm.decomposed_k, e]
    exact hn
  refine Props.Norm.C77_composed_first_partial G.ranked G.jamoOk G.compOk (G.marks hM) g f hg text hn' ?_
  unfold groupsOf
  rw [e, ← G.composition_eq mid hn]
  exact h

end

/-! ### Concrete instances -/

theorem sample_files_scalar : CaseFilesScalar sampleUd sampleSp sampleCf := by
  refine ⟨fun e he d hd => ?_, by decide +kernel, by decide +kernel⟩
  have : ∀ e ∈ sampleUd, (∀ d ∈ e.upper, IsScalar d) ∧ (∀ d ∈ e.lower, IsScalar d) ∧ (∀ d ∈ e.title, IsScalar d) := by decide +kernel
  obtain ⟨h1, h2, h3⟩ := this e he
  rcases hd with hd | hd | hd
  · exact h1 d hd
  · exact h2 d hd
  · exact h3 d hd

/-- Upper casing the bytes of a text with the tables made from the sample files gives well-formed bytes. -/
example (U : Verif.Ucd.Table) (simd : Nat) (bytes text : List Nat) (h : WellFormedStr bytes text) :
    ReturnsWellFormed (toUppercase8 (caseTablesOf (sampleUd.map udRender) (sampleSp.map spRender) (sampleCf.map cfRender)) simd bytes) := by
  obtain ⟨h1, h2⟩ := C78_case_files sample_lines.1 sample_lines.2.1 sample_lines.2.2 sample_files sample_files_scalar
  exact (C78_case_utf8 U _ h1 h2 simd bytes text h).1

theorem n_scalar : DecompScalar nUd := by
  refine ⟨fun e he ns h => ?_, fun e he tag ns h => ?_⟩
  · have : ∀ e ∈ nUd, IsScalar e.cp := by decide +kernel
    refine ⟨this e he, ?_⟩
    have : ∀ p ∈ canonOf nUd, Scalars p.2 := by rw [n_canon]; decide
    exact this _ ((canonical_iff nUd e.cp ns).1 ⟨e, he, rfl, h⟩)
  · have : ∀ p ∈ compatOf nUd, Scalars p.2 := by rw [n_compat]; decide
    exact this _ ((compat_iff nUd e.cp ns).1 ⟨e, he, rfl, tag, h⟩)

theorem n_marks : MarksCanonical nUd := by
  intro e he hc tag ns h
  have : ∀ e ∈ nUd, e.ccc ≠ 0 → (e.cp, ([] : List Nat)) ∈ nUd.filterMap (fun x => if x.decomp matches .compat .. then none else some (x.cp, [])) := by
    decide +kernel
  have h1 := this e he hc
  rw [List.mem_filterMap] at h1
  obtain ⟨x, hx, hx'⟩ := h1
  split at hx'
  · cases hx'
  · rename_i hn
    injection hx' with hx'
    have hxe : x = e := n_files.udOne x hx e he (congrArg Prod.fst hx')
    rw [hxe, h] at hn
    exact hn _ _ rfl

example (simd : Nat) (bytes text : List Nat) (h : WellFormedStr bytes text) : ReturnsWellFormed (normalize8 nTables simd .NFC bytes) :=
  C78_normalize_utf8 (C78_normalize_files n_generated n_scalar) simd .NFC bytes text h
example (text : List Nat) : normalize nTables .NFC (normalize nTables .NFKD text) = normalize nTables .NFKC text :=
  C77_files_decomposed_first n_generated n_marks .NFKD .NFC (.inr rfl) text

end Verif.Props.Tg
