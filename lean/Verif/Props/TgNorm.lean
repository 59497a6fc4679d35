import Verif.Lemmas.TgQc
import Verif.Lemmas.TgRender
import Verif.Props.TgCase
import Verif.Props.Norm
/-!
# C52: normalization follows the UCD files
-/

namespace Verif.Props.Tg
open Verif.Tg Verif.Spec.UcdFile Verif.Norm Verif.Spec.Norm
open Verif.Props.Tables (Sorted)

/-! ## The sets are sorted, whatever the files contain -/

theorem exSorted (lines : List Str) (s : List Nat) (hs : Sorted id s) : Sorted id (lines.foldl exLine s) := by
  refine foldl_inv (fun s => Sorted id s) exLine (fun s l h => ?_) lines s hs
  unfold exLine
  split
  · exact h
  · split
    · exact h
    · exact sorted_insertAll _ _ h

structure QcSorted (q : Qc) : Prop where
  nfcNo : Sorted id q.nfcNo
  nfcMaybe : Sorted id q.nfcMaybe
  nfkcNo : Sorted id q.nfkcNo
  nfkcMaybe : Sorted id q.nfkcMaybe
  nfdNo : Sorted id q.nfdNo
  nfkdNo : Sorted id q.nfkdNo
  excl : Sorted id q.excl

theorem qcInsert_sorted (p v : Str) (cps : List Nat) (q : Qc) (h : QcSorted q) : QcSorted (qcInsert p v cps q) := by
  obtain ⟨h1, h2, h3, h4, h5, h6, h7⟩ := h
  unfold qcInsert
  generalize "NFC_QC".toList = a
  generalize "NFKC_QC".toList = b
  generalize "NFD_QC".toList = c
  generalize "NFKD_QC".toList = d
  generalize "Full_Composition_Exclusion".toList = e
  split_ifs <;> constructor <;> first | assumption | (apply sorted_insertAll; assumption)

theorem qcSorted (exLines qcLines : List Str) : QcSorted (loadNormProps exLines qcLines) := by
  refine foldl_inv QcSorted qcLine (fun q l h => ?_) qcLines _ ⟨.nil, .nil, .nil, .nil, .nil, .nil, exSorted _ _ .nil⟩
  unfold qcLine
  split
  · exact h
  · split
    · exact h
    · exact qcInsert_sorted _ _ _ _ h

/-! ## What the sets contain -/

theorem or_shuffle (a b c : Prop) : a ∨ (b ∨ c) ↔ (b ∨ a) ∨ c := by tauto

theorem mem_exFold {lines : List Str} {ex : List (Nat × Nat)} (h : FileWith ExclLine lines ex) (s : List Nat) (x : Nat) :
    x ∈ lines.foldl exLine s ↔ Excluded ex x ∨ x ∈ s := by
  induction h generalizing s with
  | nil => simp [Excluded]
  | skip hc hs _ ih =>
    rw [List.foldl_cons, ih]
    have : ∀ stored, skipped (trim stored) = true → exLine s stored = s := by
      intro st hst; unfold exLine; rw [hst, if_pos rfl]
    rw [this _ (skipped_comment hc hs)]
  | @data line stored lines es e hl hs _ ih =>
    obtain ⟨cps, h1, h2⟩ := exLine_mem s line stored e hl hs
    rw [List.foldl_cons, ih, h1, mem_insertAll, h2]
    simp only [Excluded, List.mem_cons, exists_eq_or_imp]
    exact or_shuffle _ _ _

/-- A line that takes effect gives `c` the value `v` of the property `p`. -/
def LineSays (e : PropEntry) (p v : Str) (x : Nat) : Prop :=
  seen e = true ∧ e.prop = p ∧ e.value.getD [] = v ∧ e.first ≤ x ∧ x ≤ e.last

theorem mem_qcInsert (p v : Str) (cps : List Nat) (q : Qc) (x : Nat) :
    (x ∈ (qcInsert p v cps q).nfcNo ↔ (p = "NFC_QC".toList ∧ v = "N".toList ∧ x ∈ cps) ∨ x ∈ q.nfcNo)
    ∧ (x ∈ (qcInsert p v cps q).nfcMaybe ↔ (p = "NFC_QC".toList ∧ v = "M".toList ∧ x ∈ cps) ∨ x ∈ q.nfcMaybe)
    ∧ (x ∈ (qcInsert p v cps q).nfkcNo ↔ (p = "NFKC_QC".toList ∧ v = "N".toList ∧ x ∈ cps) ∨ x ∈ q.nfkcNo)
    ∧ (x ∈ (qcInsert p v cps q).nfkcMaybe ↔ (p = "NFKC_QC".toList ∧ v = "M".toList ∧ x ∈ cps) ∨ x ∈ q.nfkcMaybe)
    ∧ (x ∈ (qcInsert p v cps q).nfdNo ↔ (p = "NFD_QC".toList ∧ v = "N".toList ∧ x ∈ cps) ∨ x ∈ q.nfdNo)
    ∧ (x ∈ (qcInsert p v cps q).nfkdNo ↔ (p = "NFKD_QC".toList ∧ v = "N".toList ∧ x ∈ cps) ∨ x ∈ q.nfkdNo)
    ∧ (x ∈ (qcInsert p v cps q).excl ↔ (p = "Full_Composition_Exclusion".toList ∧ x ∈ cps) ∨ x ∈ q.excl) := by
  have nd : ("NFC_QC".toList ≠ "NFKC_QC".toList ∧ "NFC_QC".toList ≠ "NFD_QC".toList ∧ "NFC_QC".toList ≠ "NFKD_QC".toList
      ∧ "NFC_QC".toList ≠ "Full_Composition_Exclusion".toList) ∧ ("NFKC_QC".toList ≠ "NFD_QC".toList
      ∧ "NFKC_QC".toList ≠ "NFKD_QC".toList ∧ "NFKC_QC".toList ≠ "Full_Composition_Exclusion".toList)
      ∧ ("NFD_QC".toList ≠ "NFKD_QC".toList ∧ "NFD_QC".toList ≠ "Full_Composition_Exclusion".toList)
      ∧ "NFKD_QC".toList ≠ "Full_Composition_Exclusion".toList ∧ "N".toList ≠ "M".toList := by decide
  unfold qcInsert
  generalize "NFC_QC".toList = a at nd ⊢
  generalize "NFKC_QC".toList = b at nd ⊢
  generalize "NFD_QC".toList = c at nd ⊢
  generalize "NFKD_QC".toList = d at nd ⊢
  generalize "Full_Composition_Exclusion".toList = e at nd ⊢
  generalize "N".toList = n at nd ⊢
  generalize "M".toList = m at nd ⊢
  obtain ⟨⟨n1, n2, n3, n4⟩, ⟨n5, n6, n7⟩, ⟨n8, n9⟩, n10, n11⟩ := nd
  by_cases ha : p = a
  · subst ha
    by_cases hn : v = n
    · subst hn; simp [mem_insertAll, n1, n2, n3, n4, n11]
    · by_cases hm : v = m
      · subst hm; simp [mem_insertAll, n1, n2, n3, n4, n11.symm]
      · simp [hn, hm, n1, n2, n3, n4]
  by_cases hb : p = b
  · subst hb
    by_cases hn : v = n
    · subst hn; simp [mem_insertAll, ha, n5, n6, n7, n11]
    · by_cases hm : v = m
      · subst hm; simp [mem_insertAll, ha, n5, n6, n7, n11.symm]
      · simp [hn, hm, ha, n5, n6, n7]
  by_cases hc : p = c
  · subst hc
    by_cases hn : v = n
    · subst hn; simp [mem_insertAll, ha, hb, n8, n9]
    · simp [hn, ha, hb, n8, n9]
  by_cases hd : p = d
  · subst hd
    by_cases hn : v = n
    · subst hn; simp [mem_insertAll, ha, hb, hc, n10]
    · simp [hn, ha, hb, hc, n10]
  by_cases he : p = e
  · subst he; simp [mem_insertAll, ha, hb, hc, hd]
  · simp [ha, hb, hc, hd, he]

theorem mem_qcFold {lines : List Str} {qc : List PropEntry} (h : FileWith PropLine lines qc) (q : Qc) (x : Nat) :
    (x ∈ (lines.foldl qcLine q).nfcNo ↔ (∃ e ∈ qc, LineSays e "NFC_QC".toList "N".toList x) ∨ x ∈ q.nfcNo)
    ∧ (x ∈ (lines.foldl qcLine q).nfcMaybe ↔ (∃ e ∈ qc, LineSays e "NFC_QC".toList "M".toList x) ∨ x ∈ q.nfcMaybe)
    ∧ (x ∈ (lines.foldl qcLine q).nfkcNo ↔ (∃ e ∈ qc, LineSays e "NFKC_QC".toList "N".toList x) ∨ x ∈ q.nfkcNo)
    ∧ (x ∈ (lines.foldl qcLine q).nfkcMaybe ↔ (∃ e ∈ qc, LineSays e "NFKC_QC".toList "M".toList x) ∨ x ∈ q.nfkcMaybe)
    ∧ (x ∈ (lines.foldl qcLine q).nfdNo ↔ (∃ e ∈ qc, LineSays e "NFD_QC".toList "N".toList x) ∨ x ∈ q.nfdNo)
    ∧ (x ∈ (lines.foldl qcLine q).nfkdNo ↔ (∃ e ∈ qc, LineSays e "NFKD_QC".toList "N".toList x) ∨ x ∈ q.nfkdNo)
    ∧ (x ∈ (lines.foldl qcLine q).excl ↔
        (∃ e ∈ qc, seen e = true ∧ e.prop = "Full_Composition_Exclusion".toList ∧ e.first ≤ x ∧ x ≤ e.last) ∨ x ∈ q.excl) := by
  induction h generalizing q with
  | nil => simp
  | skip hc hs _ ih =>
    have : ∀ stored, skipped (trim stored) = true → qcLine q stored = q := by
      intro st hst; unfold qcLine; rw [hst, if_pos rfl]
    rw [List.foldl_cons, this _ (skipped_comment hc hs)]
    exact ih q
  | @data line stored lines es e hl hs _ ih =>
    obtain ⟨cps, h1, h2⟩ := qcLine_eq q line stored e hl hs
    rw [List.foldl_cons, h2]
    obtain ⟨i1, i2, i3, i4, i5, i6, i7⟩ := ih (if seen e = true then qcInsert e.prop (e.value.getD []) cps q else q)
    rw [i1, i2, i3, i4, i5, i6, i7]
    simp only [List.mem_cons, exists_eq_or_imp]
    by_cases hseen : seen e = true
    · rw [if_pos hseen]
      obtain ⟨m1, m2, m3, m4, m5, m6, m7⟩ := mem_qcInsert e.prop (e.value.getD []) cps q x
      rw [m1, m2, m3, m4, m5, m6, m7, h1 x]
      simp only [LineSays, hseen, true_and]
      exact ⟨or_shuffle _ _ _, or_shuffle _ _ _, or_shuffle _ _ _, or_shuffle _ _ _, or_shuffle _ _ _, or_shuffle _ _ _, or_shuffle _ _ _⟩
    · rw [if_neg hseen]
      have hf : seen e = false := by simpa using hseen
      simp only [LineSays, hf, Bool.false_eq_true, false_and, false_or, and_self]

theorem lineSays_iff (qc : List PropEntry) (p v : String) (hv : v.toList ≠ []) (x : Nat) :
    (∃ e ∈ qc, LineSays e p.toList v.toList x) ↔ PropSays qc p v x := by
  unfold LineSays PropSays
  constructor
  · rintro ⟨e, he, h1, h2, h3, h4⟩
    refine ⟨e, he, h2, ?_, h4⟩
    cases hval : e.value with
    | none => rw [hval] at h3; exact absurd h3.symm hv
    | some w => rw [hval] at h3; exact congrArg some h3
  · rintro ⟨e, he, h1, h2, h3⟩
    exact ⟨e, he, by simp [seen, h2], h1, by rw [h2]; rfl, h3⟩

/-! ## The look-ups -/

theorem nodup_ne : "N".toList ≠ [] ∧ "M".toList ≠ [] := by decide

theorem holds_mem (s : List Nat) (hs : Sorted id s) (x : Nat) : holds (Tables.containsCodepoint s x) = true ↔ x ∈ s := by
  rw [Tables.C36_membership s hs x]
  simp [holds]

/-- The generated normalization tables. -/
def normTablesOf (udLines exLines qcLines : List Str) (comp : List Tables.Comp) (depth : Nat) : Norm.Tables :=
  normTables (loadUnicodeData udLines) (loadNormProps exLines qcLines) comp depth

theorem ccc_eq_nFind (m : List (Nat × Nat)) (hs : Sorted (·.1) m) (c : Nat) :
    Case.value 0 (Tables.lookupCcc m c) = (nFind m c).getD 0 := by
  obtain ⟨h1, h2⟩ := Tables.C36_ccc m hs c
  cases h : nFind m c with
  | some d => rw [h1 d ((mem_iff_nFind m hs c d).2 h)]; rfl
  | none =>
    rw [h2 (fun d hd => by rw [mem_iff_nFind m hs, h] at hd; exact absurd hd (by simp))]; rfl

theorem list_eq_nFind (m : List (Nat × List Nat)) (hs : Sorted (·.1) m) (c : Nat) :
    Case.value [] (Tables.lookupList m c) = (nFind m c).getD [] := by
  obtain ⟨h1, h2⟩ := Tables.C36_list m hs c
  cases h : nFind m c with
  | some d => rw [h1 d ((mem_iff_nFind m hs c d).2 h)]; rfl
  | none =>
    rw [h2 (fun d hd => by rw [mem_iff_nFind m hs, h] at hd; exact absurd hd (by simp))]; rfl

theorem sorted_writeDecomps (b : Bool) (m : List (Nat × Decomp)) (hs : Sorted (·.1) m) : Sorted (·.1) (writeDecomps b m) := by
  unfold writeDecomps Sorted
  rw [List.pairwise_map]
  exact List.Pairwise.filter _ hs

theorem nFind_writeDecomps (b : Bool) (m : List (Nat × Decomp)) (hs : Sorted (·.1) m) (c : Nat) (ns : List Nat) :
    nFind (writeDecomps b m) c = some ns ↔ ∃ d, nFind m c = some d ∧ isCanonical d = b ∧ d.targets = ns := by
  rw [← mem_iff_nFind _ (sorted_writeDecomps b m hs)]
  unfold writeDecomps
  rw [List.mem_map]
  constructor
  · rintro ⟨e, he, heq⟩
    rw [List.mem_filter] at he
    refine ⟨e.2, ?_, by simpa using he.2, congrArg Prod.snd heq⟩
    rw [← mem_iff_nFind m hs]
    have : e.1 = c := congrArg Prod.fst heq
    rw [← this]; exact he.1
  · rintro ⟨d, h1, h2, h3⟩
    rw [← mem_iff_nFind m hs] at h1
    exact ⟨(c, d), List.mem_filter.2 ⟨h1, by simp [h2]⟩, by rw [← h3]⟩

/-- The entries of a well-formed UnicodeData.txt. -/
theorem udEntry_ok {lines : List Str} {ud : List UdEntry} (h : FileWith UdLine lines ud) : ∀ e ∈ ud,
    (∀ ns, e.decomp = .canonical ns → ns ≠ []) ∧ (∀ tag ns, e.decomp = .compat tag ns → ns ≠ [] ∧ tag ≠ "canonical".toList) := by
  induction h with
  | nil => simp
  | skip _ _ _ ih => exact ih
  | @data line stored lines es e hl _ _ ih =>
    intro x hx
    rcases List.mem_cons.1 hx with rfl | hx
    · obtain ⟨fs, _, _, _, _, _, _, _, hd, _⟩ := hl
      generalize fs.getD 5 [] = f5 at hd
      generalize hdec : x.decomp = d at hd
      cases hd with
      | none => exact ⟨fun ns h => (by cases h), fun t ns h => (by cases h)⟩
      | canonical hs => exact ⟨fun ns h => (by cases h; exact (cpSeq_ne hs).2), fun t ns h => (by cases h)⟩
      | compat _ ht _ hs => exact ⟨fun ns h => (by cases h), fun t ns h => (by cases h; exact ⟨(cpSeq_ne hs).2, ht⟩)⟩
    · exact ih x hx

section Lookups
variable {udLines exLines qcLines : List Str} {ud : List UdEntry} {ex : List (Nat × Nat)} {qc : List PropEntry}

theorem nFind_decomps (h1 : FileWith UdLine udLines ud) (one : ∀ e ∈ ud, ∀ e' ∈ ud, e.cp = e'.cp → e = e') (c : Nat) (d : Decomp) :
    nFind (loadUnicodeData udLines).decomps c = some d ↔ ∃ e ∈ ud, e.cp = c ∧ decompOf e.decomp = some d := by
  rw [loadUnicodeData_eq h1, (udFold_fields ud {}).2.1]
  refine nFind_build_iff _ _ ud (fun e he e' he' x y hk hx hy => ?_) c d
  rw [one e he e' he' hk, hy] at hx
  exact (Option.some.inj hx).symm

theorem decompOf_canonical (h1 : FileWith UdLine udLines ud) (c : Nat) (ns : List Nat) :
    (∃ d, (∃ e ∈ ud, e.cp = c ∧ decompOf e.decomp = some d) ∧ isCanonical d = true ∧ d.targets = ns) ↔ Canonical ud c ns := by
  constructor
  · rintro ⟨d, ⟨e, he, hc, hd⟩, hcan, ht⟩
    refine ⟨e, he, hc, ?_⟩
    cases hdec : e.decomp with
    | none => rw [hdec] at hd; exact absurd hd (by simp [decompOf])
    | canonical cps => rw [hdec] at hd; simp only [decompOf, Option.some.injEq] at hd; rw [← hd] at ht; rw [← ht]
    | compat tag cps =>
      have := ((udEntry_ok h1 e he).2 _ _ hdec).2
      rw [hdec] at hd
      simp only [decompOf, Option.some.injEq] at hd
      rw [← hd] at hcan
      simp only [isCanonical, decide_eq_true_iff] at hcan
      exact absurd hcan this
  · rintro ⟨e, he, hc, hd⟩
    exact ⟨⟨ns, "canonical".toList⟩, ⟨e, he, hc, by rw [hd]; rfl⟩, by simp [isCanonical], rfl⟩

theorem decompOf_compat (h1 : FileWith UdLine udLines ud) (c : Nat) (ns : List Nat) :
    (∃ d, (∃ e ∈ ud, e.cp = c ∧ decompOf e.decomp = some d) ∧ isCanonical d = false ∧ d.targets = ns) ↔ Compat ud c ns := by
  constructor
  · rintro ⟨d, ⟨e, he, hc, hd⟩, hcan, ht⟩
    refine ⟨e, he, hc, ?_⟩
    cases hdec : e.decomp with
    | none => rw [hdec] at hd; exact absurd hd (by simp [decompOf])
    | canonical cps =>
      rw [hdec] at hd; simp only [decompOf, Option.some.injEq] at hd; rw [← hd] at hcan
      exact absurd hcan (by simp [isCanonical])
    | compat tag cps =>
      rw [hdec] at hd
      simp only [decompOf, Option.some.injEq] at hd
      rw [← hd] at ht
      exact ⟨tag, by rw [← ht]⟩
  · rintro ⟨e, he, hc, tag, hd⟩
    have := ((udEntry_ok h1 e he).2 _ _ hd).2
    exact ⟨⟨ns, tag⟩, ⟨e, he, hc, by rw [hd]; rfl⟩, by simp only [isCanonical, decide_eq_false_iff_not]; exact this, rfl⟩

theorem getD_list_iff {o : Option (List Nat)} {P : List Nat → Prop} (h : ∀ ns, o = some ns ↔ P ns) (ns : List Nat) :
    o.getD [] = ns ↔ P ns ∨ (ns = [] ∧ ∀ ns', ¬ P ns') := by
  cases o with
  | none =>
    have hn : ∀ ns', ¬ P ns' := fun ns' hp => by have := (h ns').2 hp; exact absurd this (by simp)
    constructor
    · intro e; exact Or.inr ⟨e.symm, hn⟩
    · rintro (hp | ⟨e, _⟩)
      · exact absurd hp (hn _)
      · rw [e]; rfl
  | some x =>
    have hx := (h x).1 rfl
    constructor
    · intro e; rw [← e]; exact Or.inl hx
    · rintro (hp | ⟨_, hn⟩)
      · have := (h ns).2 hp; rw [this]; rfl
      · exact absurd hx (hn _)

/-- **C52.** The combining classes and the two decomposition tables are exactly what UnicodeData.txt says. -/
theorem C52_unicode_data (h1 : FileWith UdLine udLines ud) (one : ∀ e ∈ ud, ∀ e' ∈ ud, e.cp = e'.cp → e = e')
    (comp : List Tables.Comp) (depth : Nat) (c : Nat) (ns : List Nat) :
    (normTablesOf udLines exLines qcLines comp depth).ccc c = classOf ud c
    ∧ ((normTablesOf udLines exLines qcLines comp depth).canon c = ns ↔
        Canonical ud c ns ∨ (ns = [] ∧ ∀ ns', ¬ Canonical ud c ns'))
    ∧ ((normTablesOf udLines exLines qcLines comp depth).compat c = ns ↔
        Compat ud c ns ∨ (ns = [] ∧ ∀ ns', ¬ Compat ud c ns')) := by
  have hs := udSorted udLines
  refine ⟨?_, ?_, ?_⟩
  · show Case.value 0 (Tables.lookupCcc (loadUnicodeData udLines).ccc c) = _
    rw [ccc_eq_nFind _ hs.ccc]
    have key : ∀ n, nFind (loadUnicodeData udLines).ccc c = some n ↔ ∃ e ∈ ud, e.cp = c ∧ (if e.ccc = 0 then none else some e.ccc) = some n := by
      intro n
      rw [loadUnicodeData_eq h1, (udFold_fields ud {}).1]
      refine nFind_build_iff _ _ ud (fun e he e' he' x y hk hx hy => ?_) c n
      rw [one e he e' he' hk, hy] at hx
      exact (Option.some.inj hx).symm
    unfold classOf
    cases hf : ud.find? (fun e => e.cp = c) with
    | none =>
      cases hn : nFind (loadUnicodeData udLines).ccc c with
      | none => rfl
      | some n =>
        obtain ⟨e, he, hc, _⟩ := (key n).1 hn
        have := List.find?_eq_none.1 hf e he
        exact absurd hc (by simpa using this)
    | some e =>
      have he := List.mem_of_find?_eq_some hf
      have hc : e.cp = c := by have := List.find?_some hf; simpa using this
      by_cases h0 : e.ccc = 0
      · cases hn : nFind (loadUnicodeData udLines).ccc c with
        | none => simp [h0]
        | some n =>
          obtain ⟨e', he', hc', hv⟩ := (key n).1 hn
          rw [one e' he' e he (by rw [hc, hc']), if_pos h0] at hv
          exact absurd hv (by simp)
      · rw [(key e.ccc).2 ⟨e, he, hc, by rw [if_neg h0]⟩]; rfl
  · show Case.value [] (Tables.lookupList (writeDecomps true (loadUnicodeData udLines).decomps) c) = ns ↔ _
    rw [list_eq_nFind _ (sorted_writeDecomps _ _ hs.decomps)]
    refine getD_list_iff (fun ns => ?_) ns
    rw [nFind_writeDecomps _ _ hs.decomps, ← decompOf_canonical h1]
    simp only [nFind_decomps h1 one]
  · show Case.value [] (Tables.lookupList (writeDecomps false (loadUnicodeData udLines).decomps) c) = ns ↔ _
    rw [list_eq_nFind _ (sorted_writeDecomps _ _ hs.decomps)]
    refine getD_list_iff (fun ns => ?_) ns
    rw [nFind_writeDecomps _ _ hs.decomps, ← decompOf_compat h1]
    simp only [nFind_decomps h1 one]

/-- **C52.** The quick-check tables are exactly what DerivedNormalizationProps.txt says; `is_composition_exclusion` holds of the
codepoints of CompositionExclusions.txt and of the Full_Composition_Exclusion lines without a comment. -/
theorem C52_quick_check (h2 : FileWith ExclLine exLines ex) (h3 : FileWith PropLine qcLines qc)
    (comp : List Tables.Comp) (depth : Nat) (c : Nat) :
    let T := normTablesOf udLines exLines qcLines comp depth
    (T.nfcNo c = true ↔ PropSays qc "NFC_QC" "N" c) ∧ (T.nfcMaybe c = true ↔ PropSays qc "NFC_QC" "M" c)
    ∧ (T.nfkcNo c = true ↔ PropSays qc "NFKC_QC" "N" c) ∧ (T.nfkcMaybe c = true ↔ PropSays qc "NFKC_QC" "M" c)
    ∧ (T.nfdNo c = true ↔ PropSays qc "NFD_QC" "N" c) ∧ (T.nfkdNo c = true ↔ PropSays qc "NFKD_QC" "N" c)
    ∧ (T.excl c = true ↔ Excluded ex c ∨
        ∃ e ∈ qc, e.prop = "Full_Composition_Exclusion".toList ∧ (e.value.isSome ∨ e.comment = false) ∧ e.first ≤ c ∧ c ≤ e.last) := by
  intro T
  have hs := qcSorted exLines qcLines
  obtain ⟨m1, m2, m3, m4, m5, m6, m7⟩ := mem_qcFold h3 { excl := exLines.foldl exLine [] } c
  obtain ⟨hN, hM⟩ := nodup_ne
  refine ⟨(holds_mem _ hs.nfcNo c).trans ?_, (holds_mem _ hs.nfcMaybe c).trans ?_, (holds_mem _ hs.nfkcNo c).trans ?_,
    (holds_mem _ hs.nfkcMaybe c).trans ?_, (holds_mem _ hs.nfdNo c).trans ?_, (holds_mem _ hs.nfkdNo c).trans ?_,
    (holds_mem _ hs.excl c).trans ?_⟩
  · exact m1.trans ((or_iff_left (List.not_mem_nil)).trans (lineSays_iff qc "NFC_QC" "N" hN c))
  · exact m2.trans ((or_iff_left (List.not_mem_nil)).trans (lineSays_iff qc "NFC_QC" "M" hM c))
  · exact m3.trans ((or_iff_left (List.not_mem_nil)).trans (lineSays_iff qc "NFKC_QC" "N" hN c))
  · exact m4.trans ((or_iff_left (List.not_mem_nil)).trans (lineSays_iff qc "NFKC_QC" "M" hM c))
  · exact m5.trans ((or_iff_left (List.not_mem_nil)).trans (lineSays_iff qc "NFD_QC" "N" hN c))
  · exact m6.trans ((or_iff_left (List.not_mem_nil)).trans (lineSays_iff qc "NFKD_QC" "N" hN c))
  · refine m7.trans ?_
    rw [mem_exFold h2, or_iff_left (List.not_mem_nil (a := c)), or_comm]
    refine or_congr Iff.rfl (exists_congr fun e => and_congr Iff.rfl ?_)
    have : seen e = true ↔ (e.value.isSome ∨ e.comment = false) := by
      unfold seen; cases e.value.isSome <;> cases e.comment <;> decide
    rw [this]
    exact and_left_comm

/-! ## Composition -/

theorem compositions_mem (m : List (Nat × Decomp)) (excl : List Nat) (a b c : Nat) :
    (⟨a, b, c⟩ : Tables.Comp) ∈ compositions m excl ↔ ∃ d, (c, d) ∈ m ∧ isCanonical d = true ∧ d.targets = [a, b] ∧ c ∉ excl := by
  unfold compositions
  rw [List.mem_filterMap]
  constructor
  · rintro ⟨⟨c', d⟩, he, hx⟩
    simp only at hx
    split at hx
    · rename_i a' b' ht
      split at hx
      · rename_i hc
        have := Option.some.inj hx
        obtain ⟨rfl, rfl, rfl⟩ : a' = a ∧ b' = b ∧ c' = c := by
          refine ⟨congrArg Tables.Comp.first this, congrArg Tables.Comp.second this, congrArg Tables.Comp.composed this⟩
        exact ⟨d, he, hc.1, ht, hc.2⟩
      · exact absurd hx (by simp)
    · exact absurd hx (by simp)
  · rintro ⟨d, he, hc, ht, hx⟩
    refine ⟨(c, d), he, ?_⟩
    simp only [ht]
    rw [if_pos ⟨hc, hx⟩]

/-- **C52.** `try_compose` of a pair that is not Hangul finds the composite whose canonical decomposition is that pair, provided it
is not listed by `is_composition_exclusion`; for every order in which `std::sort` may leave the table. -/
theorem C52_composition (h1 : FileWith UdLine udLines ud) (h2 : FileWith ExclLine exLines ex) (h3 : FileWith PropLine qcLines qc)
    {depth : Nat} (hF : NormFiles ud ex qc depth) (comp : List Tables.Comp)
    (hw : WrittenCompositions (loadUnicodeData udLines).decomps (loadNormProps exLines qcLines).excl comp) (a b c : Nat) :
    (normTablesOf udLines exLines qcLines comp depth).comp a b = c ↔
      (Canonical ud c [a, b] ∧ ¬ Excluded ex c) ∨ (c = 0 ∧ ∀ c', Canonical ud c' [a, b] → Excluded ex c') := by
  have hs := udSorted udLines
  have hexcl : ∀ x, x ∈ (loadNormProps exLines qcLines).excl ↔ Excluded ex x := by
    intro x
    have := (C52_quick_check (udLines := udLines) h2 h3 comp depth x).2.2.2.2.2.2
    have h' : x ∈ (loadNormProps exLines qcLines).excl ↔ _ := ((holds_mem _ (qcSorted exLines qcLines).excl x).symm.trans this)
    rw [h']
    refine or_iff_left ?_
    rintro ⟨e, he, hp, hv, _⟩
    have := hF.fullExcl e he hp
    rw [this.1, this.2] at hv
    simp at hv
  have hmem : ∀ a b c, (⟨a, b, c⟩ : Tables.Comp) ∈ comp ↔ Canonical ud c [a, b] ∧ ¬ Excluded ex c := by
    intro a b c
    rw [hw.1.mem_iff, compositions_mem, hexcl, ← decompOf_canonical h1]
    constructor
    · rintro ⟨d, h, hc, ht, hx⟩
      rw [mem_iff_nFind _ hs.decomps, nFind_decomps h1 hF.udOne] at h
      exact ⟨⟨d, h, hc, ht⟩, hx⟩
    · rintro ⟨⟨d, h, hc, ht⟩, hx⟩
      rw [← nFind_decomps h1 hF.udOne, ← mem_iff_nFind _ hs.decomps] at h
      exact ⟨d, h, hc, ht, hx⟩
  have hnd : comp.Nodup := by
    rw [hw.1.nodup_iff]
    have hmnd : (loadUnicodeData udLines).decomps.Nodup := by
      refine List.Pairwise.imp (fun h e => ?_) hs.decomps
      rw [e] at h; exact absurd h (Nat.lt_irrefl _)
    unfold compositions
    refine List.Nodup.filterMap (fun x y z hx hy => ?_) hmnd
    have key : ∀ (x : Nat × Decomp), z ∈ (match x.2.targets with
        | [a, b] => if isCanonical x.2 = true ∧ x.1 ∉ (loadNormProps exLines qcLines).excl then some (⟨a, b, x.1⟩ : Tables.Comp) else none
        | _ => none) → x.1 = z.composed ∧ x.2.targets = [z.first, z.second] ∧ isCanonical x.2 = true := by
      intro x hx
      split at hx
      · rename_i ht
        split at hx
        · rename_i hc
          have hx : some _ = some z := hx
          have := Option.some.inj hx
          rw [← this]; exact ⟨rfl, ht, hc.1⟩
        · exact absurd hx (by simp)
      · exact absurd hx (by simp)
    obtain ⟨x1, x2, x3⟩ := key x hx
    obtain ⟨y1, y2, y3⟩ := key y hy
    obtain ⟨i, d⟩ := x
    obtain ⟨j, d'⟩ := y
    simp only [isCanonical, decide_eq_true_iff] at x1 x2 x3 y1 y2 y3
    cases d; cases d'
    simp_all
  have hsort : comp.Pairwise (fun x y => x.first < y.first ∨ (x.first = y.first ∧ x.second < y.second)) := by
    have hand : comp.Pairwise (fun x y => compLe x y ∧ x ≠ y) := hw.2.and hnd
    refine List.Pairwise.imp_of_mem (fun {x y} hx hy h => ?_) hand
    rcases h.1 with h' | ⟨h', h''⟩
    · exact Or.inl h'
    · refine Or.inr ⟨h', lt_of_le_of_ne h'' (fun e => h.2 ?_)⟩
      obtain ⟨xa, xb, xc⟩ := x
      obtain ⟨ya, yb, yc⟩ := y
      simp only at h' e
      subst h' e
      obtain ⟨p1, p2⟩ := (hmem _ _ _).1 hx
      obtain ⟨q1, q2⟩ := (hmem _ _ _).1 hy
      rw [hF.pairOne _ _ _ _ p1 q1 p2 q2]
  obtain ⟨c1, c2⟩ := Tables.C36_compose comp hsort a b
  show Case.value 0 (Tables.composeLookup comp a b) = c ↔ _
  by_cases hex : ∃ d, (⟨a, b, d⟩ : Tables.Comp) ∈ comp
  · obtain ⟨d, hd⟩ := hex
    obtain ⟨hd1, hd2⟩ := (hmem _ _ _).1 hd
    rw [c1 d hd]
    show d = c ↔ _
    constructor
    · rintro rfl; exact Or.inl ⟨hd1, hd2⟩
    · rintro (⟨h, h'⟩ | ⟨_, h⟩)
      · exact hF.pairOne _ _ _ _ hd1 h hd2 h'
      · exact absurd (h _ hd1) hd2
  · have hno : ∀ d, (⟨a, b, d⟩ : Tables.Comp) ∉ comp := fun d hd => hex ⟨d, hd⟩
    rw [c2 hno]
    show 0 = c ↔ _
    have hno' : ∀ c', Canonical ud c' [a, b] → Excluded ex c' := fun c' h => by
      by_contra hx; exact hno c' ((hmem _ _ _).2 ⟨h, hx⟩)
    constructor
    · rintro rfl; exact Or.inr ⟨rfl, hno'⟩
    · rintro (⟨h, h'⟩ | ⟨h, _⟩)
      · exact absurd (hno' _ h) h'
      · exact h.symm

end Lookups

/-! ## The generated tables meet the assumptions of C26-C32 -/

section Derived
variable {udLines exLines qcLines : List Str} {ud : List UdEntry} {ex : List (Nat × Nat)} {qc : List PropEntry}
  {comp : List Tables.Comp} {depth : Nat}

/-- The generator ran on well-formed, consistent files. -/
structure Generated (udLines exLines qcLines : List Str) (ud : List UdEntry) (ex : List (Nat × Nat)) (qc : List PropEntry)
    (comp : List Tables.Comp) (depth : Nat) : Prop where
  udFile : FileWith UdLine udLines ud
  exFile : FileWith ExclLine exLines ex
  qcFile : FileWith PropLine qcLines qc
  files : NormFiles ud ex qc depth
  written : WrittenCompositions (loadUnicodeData udLines).decomps (loadNormProps exLines qcLines).excl comp

variable (G : Generated udLines exLines qcLines ud ex qc comp depth)
include G

local notation "TT" => normTablesOf udLines exLines qcLines comp depth

theorem Generated.canon_iff {c : Nat} {ns : List Nat} (hne : ns ≠ []) : (TT).canon c = ns ↔ Canonical ud c ns := by
  rw [(C52_unicode_data G.udFile G.files.udOne comp depth c ns).2.1]
  exact or_iff_left (fun h => hne h.1)

theorem Generated.compat_iff {c : Nat} {ns : List Nat} (hne : ns ≠ []) : (TT).compat c = ns ↔ Compat ud c ns := by
  rw [(C52_unicode_data G.udFile G.files.udOne comp depth c ns).2.2]
  exact or_iff_left (fun h => hne h.1)

theorem Generated.canonical_ne {c : Nat} {ns : List Nat} (h : Canonical ud c ns) : ns ≠ [] := by
  obtain ⟨e, he, _, hd⟩ := h
  exact (udEntry_ok G.udFile e he).1 ns hd

theorem Generated.compat_ne {c : Nat} {ns : List Nat} (h : Compat ud c ns) : ns ≠ [] := by
  obtain ⟨e, he, _, tag, hd⟩ := h
  exact ((udEntry_ok G.udFile e he).2 tag ns hd).1

theorem Generated.canon_nil {c : Nat} : (TT).canon c = [] ↔ ∀ ns, ¬ Canonical ud c ns := by
  rw [(C52_unicode_data G.udFile G.files.udOne comp depth c []).2.1]
  constructor
  · rintro (h | h)
    · exact absurd rfl (G.canonical_ne h)
    · exact h.2
  · exact fun h => Or.inr ⟨rfl, h⟩

theorem Generated.compat_nil {c : Nat} : (TT).compat c = [] ↔ ∀ ns, ¬ Compat ud c ns := by
  rw [(C52_unicode_data G.udFile G.files.udOne comp depth c []).2.2]
  constructor
  · rintro (h | h)
    · exact absurd rfl (G.compat_ne h)
    · exact h.2
  · exact fun h => Or.inr ⟨rfl, h⟩

theorem Generated.ccc_eq (c : Nat) : (TT).ccc c = classOf ud c :=
  (C52_unicode_data G.udFile G.files.udOne comp depth c []).1

theorem Generated.excl_iff (c : Nat) : (TT).excl c = true ↔ Excluded ex c := by
  rw [(C52_quick_check (udLines := udLines) G.exFile G.qcFile comp depth c).2.2.2.2.2.2]
  refine or_iff_left ?_
  rintro ⟨e, he, hp, hv, _⟩
  have := G.files.fullExcl e he hp
  rw [this.1, this.2] at hv
  simp at hv

theorem Generated.comp_pos {a b c : Nat} (h : (TT).comp a b = c) (h0 : c ≠ 0) : Canonical ud c [a, b] ∧ ¬ Excluded ex c := by
  rcases (C52_composition G.udFile G.exFile G.qcFile G.files comp G.written a b c).1 h with h | h
  · exact h
  · exact absurd h.1 h0

/-- The two kinds of decomposition exclude each other. -/
theorem Generated.exclusive {c : Nat} {ns ms : List Nat} (h : Canonical ud c ns) : ¬ Compat ud c ms := by
  rintro ⟨e', he', hc', tag, hd'⟩
  obtain ⟨e, he, hc, hd⟩ := h
  rw [G.files.udOne e he e' he' (by rw [hc, hc']), hd'] at hd
  exact absurd hd (by simp)

theorem Generated.unique {c : Nat} {ns ms : List Nat} (h : Canonical ud c ns) (h' : Canonical ud c ms) : ns = ms := by
  obtain ⟨e', he', hc', hd'⟩ := h'
  obtain ⟨e, he, hc, hd⟩ := h
  rw [G.files.udOne e he e' he' (by rw [hc, hc']), hd'] at hd
  cases hd; rfl

theorem Generated.uniqueK {c : Nat} {ns ms : List Nat} (h : Compat ud c ns) (h' : Compat ud c ms) : ns = ms := by
  obtain ⟨e', he', hc', t', hd'⟩ := h'
  obtain ⟨e, he, hc, t, hd⟩ := h
  rw [G.files.udOne e he e' he' (by rw [hc, hc']), hd'] at hd
  cases hd; rfl

omit G in
theorem syllable_iff (c : Nat) : isHangulSyllable c = true ↔ HangulSyllable c := by
  rw [isHangulSyllable_iff]; unfold HangulSyllable; omega

omit G in
theorem jamoL_iff (c : Nat) : isHangulL c = true ↔ JamoL c := by rw [isHangulL_iff]; unfold JamoL; omega
omit G in
theorem jamoV_iff (c : Nat) : isHangulV c = true ↔ JamoV c := by rw [isHangulV_iff]; unfold JamoV; omega
omit G in
theorem jamoT_iff (c : Nat) : isHangulT c = true ↔ JamoT c := by rw [isHangulT_iff]; unfold JamoT; omega

theorem Generated.hangul_none {c : Nat} (h : HangulSyllable c ∨ JamoL c ∨ JamoV c ∨ JamoT c) :
    (∀ ns, ¬ Canonical ud c ns) ∧ (∀ ns, ¬ Compat ud c ns) ∧ classOf ud c = 0 := by
  refine ⟨?_, ?_, ?_⟩
  · rintro ns ⟨e, he, hc, hd⟩
    have := (G.files.hangul e he (by rw [hc]; exact h)).1
    rw [hd] at this; exact absurd this (by simp)
  · rintro ns ⟨e, he, hc, tag, hd⟩
    have := (G.files.hangul e he (by rw [hc]; exact h)).1
    rw [hd] at this; exact absurd this (by simp)
  · unfold classOf
    cases hf : ud.find? (fun e => e.cp = c) with
    | none => rfl
    | some e =>
      have he := List.mem_of_find?_eq_some hf
      have hc : e.cp = c := by have := List.find?_some hf; simpa using this
      exact (G.files.hangul e he (by rw [hc]; exact h)).2

theorem Generated.ranked : Ranked TT := by
  obtain ⟨rank, hb, hr⟩ := G.files.ranked
  refine ⟨rank, hb, fun c _ => ⟨fun d hd => ?_, fun d hd => ?_⟩⟩
  · have hne : (TT).canon c ≠ [] := List.ne_nil_of_mem hd
    exact hr c _ (Or.inl ((G.canon_iff hne).1 rfl)) d hd
  · have hne : (TT).compat c ≠ [] := List.ne_nil_of_mem hd
    exact hr c _ (Or.inr ((G.compat_iff hne).1 rfl)) d hd

theorem Generated.jamoOk : JamoOk TT := by
  intro c h
  rw [jamoL_iff, jamoV_iff, jamoT_iff] at h
  obtain ⟨h1, h2, h3⟩ := G.hangul_none (Or.inr h)
  refine ⟨G.canon_nil.2 h1, G.compat_nil.2 h2, by rw [G.ccc_eq]; exact h3, ?_⟩
  rw [Bool.eq_false_iff, ne_eq, syllable_iff]
  unfold JamoL JamoV JamoT at h
  unfold HangulSyllable
  omega

theorem Generated.compOk : CompOk TT := by
  intro a b h0
  obtain ⟨h1, _⟩ := G.comp_pos rfl h0
  refine ⟨(G.canon_iff (by simp)).2 h1, ?_⟩
  rw [Bool.eq_false_iff, ne_eq, syllable_iff]
  exact fun hh => (G.hangul_none (Or.inl hh)).1 _ h1

theorem Generated.mapping_iff {k : Bool} {c : Nat} {ns : List Nat} (hne : ns ≠ []) :
    mapping TT k c = ns ↔ Canonical ud c ns ∨ (k = true ∧ Compat ud c ns) := by
  unfold mapping
  split
  · rename_i h
    rw [G.compat_iff hne]
    constructor
    · exact fun h' => Or.inr ⟨h.2, h'⟩
    · rintro (h' | h')
      · exact absurd h' (G.canon_nil.1 h.1 ns)
      · exact h'.2
  · rename_i h
    rw [G.canon_iff hne]
    constructor
    · exact Or.inl
    · rintro (h' | h')
      · exact h'
      · have : (TT).canon c ≠ [] := fun e => h ⟨e, h'.1⟩
        exact absurd h'.2 (G.exclusive ((G.canon_iff this).1 rfl))

theorem Generated.mapping_nil {k : Bool} {c : Nat} :
    mapping TT k c = [] ↔ (∀ ns, ¬ Canonical ud c ns) ∧ (k = true → ∀ ns, ¬ Compat ud c ns) := by
  constructor
  · intro h
    refine ⟨fun ns hc => ?_, fun hk ns hc => ?_⟩
    · rw [(G.mapping_iff (G.canonical_ne hc)).2 (Or.inl hc)] at h
      exact G.canonical_ne hc h
    · rw [(G.mapping_iff (G.compat_ne hc)).2 (Or.inr ⟨hk, hc⟩)] at h
      exact G.compat_ne hc h
  · rintro ⟨h1, h2⟩
    by_contra hne
    rcases (G.mapping_iff hne).1 rfl with h | h
    · exact h1 _ h
    · exact h2 h.1 _ h.2

theorem Generated.fixed {k : Bool} {c : Nat} : decompose TT k c = [c] ↔
    ¬ HangulSyllable c ∧ (∀ ns, ¬ Canonical ud c ns) ∧ (k = true → ∀ ns, ¬ Compat ud c ns) := by
  rw [Props.Norm.fixed_iff G.ranked, G.mapping_nil, ← syllable_iff, Bool.not_eq_true]

theorem Generated.qcOk : Props.Norm.QcOk TT := by
  have q := fun c => C52_quick_check (udLines := udLines) G.exFile G.qcFile comp depth c
  refine ⟨fun c => ?_, fun c => ?_⟩
  · rw [(q c).2.2.2.2.1, G.files.nfdNo, ne_eq, G.fixed]
    by_cases h : HangulSyllable c <;> simp [h]
  · rw [(q c).2.2.2.2.2.1, G.files.nfkdNo, ne_eq, G.fixed]
    by_cases h : HangulSyllable c
    · simp [h]
    · by_cases h' : ∃ ns, Canonical ud c ns
      · simp only [h', h, true_or, or_true, not_false_eq_true, true_and, true_iff, not_and]
        intro hx; obtain ⟨ns, hns⟩ := h'; exact absurd hns (hx ns)
      · simp only [h, h', false_or, not_false_eq_true, true_and, forall_const, not_and, not_forall, not_not]
        rw [not_exists] at h'
        exact ⟨fun h _ => h, fun hx => hx h'⟩

/-- Something left by canonical decomposition has a compatibility decomposition. -/
theorem Generated.usesCompat {c : Nat} (h : UsesCompat ud c) : ∃ d ∈ decompose TT false c, decompose TT true d ≠ [d] := by
  induction h with
  | @here c ns hc =>
    refine ⟨c, ?_, ?_⟩
    · rw [(G.fixed (k := false)).2 ⟨fun hh => (G.hangul_none (Or.inl hh)).2.1 _ hc, fun ms hm => G.exclusive hm hc, fun h => absurd h (by simp)⟩]
      exact List.mem_singleton_self _
    · intro h; exact (G.fixed.1 h).2.2 rfl _ hc
  | @inside c ns d hc hd _ ih =>
    obtain ⟨x, hx, hx'⟩ := ih
    refine ⟨x, ?_, hx'⟩
    have hm : mapping TT false c = ns := (G.mapping_iff (G.canonical_ne hc)).2 (Or.inl hc)
    have hs : isHangulSyllable c = false := by
      rw [Bool.eq_false_iff, ne_eq, syllable_iff]; exact fun hh => (G.hangul_none (Or.inl hh)).1 _ hc
    rw [decompose_eq G.ranked, hs, hm]
    simp only [Bool.false_eq_true, ↓reduceIte, G.canonical_ne hc]
    exact List.mem_flatMap.2 ⟨d, hd, hx⟩

theorem Generated.qcCOk : Props.Norm.QcCOk TT := by
  have q := fun c => C52_quick_check (udLines := udLines) G.exFile G.qcFile comp depth c
  have never : ∀ c, NeverComposed ud ex c → (∀ k, decompose TT k c ≠ [c]) ∧ ∀ a b, (TT).ccc a = 0 → primary TT a b ≠ some c := by
    rintro c ⟨ns, hns, hw⟩
    refine ⟨fun k h => (G.fixed.1 h).2.1 _ hns, fun a b ha hp => ?_⟩
    rcases Props.Norm.primary_cases hp with hh | ⟨h1, h2, _⟩
    · exact (G.hangul_none (Or.inl ((syllable_iff c).1 hh))).1 _ hns
    · obtain ⟨h3, h4⟩ := G.comp_pos h1 h2
      have e := G.unique hns h3
      rcases hw with hw | hw | ⟨d, ds, hd, hw⟩
      · rw [e] at hw; exact hw rfl
      · exact h4 hw
      · rw [e] at hd
        cases hd
        rw [G.ccc_eq] at ha
        exact hw ha
  refine ⟨fun c hc => ?_, fun c hc => ?_, fun a b ha h0 => ?_, fun c hc => ?_⟩
  · obtain ⟨h1, h2⟩ := never c (G.files.nfcNo c ((q c).1.1 hc))
    exact ⟨h1 _, h2⟩
  · rcases G.files.nfkcNo c ((q c).2.2.1.1 hc) with h | h
    · obtain ⟨h1, h2⟩ := never c h
      exact ⟨h1 _, Or.inl h2⟩
    · refine ⟨?_, Or.inr fun e => ?_⟩
      · intro hf
        cases h with
        | here h' => exact (G.fixed.1 hf).2.2 rfl _ h'
        | inside h' _ _ => exact (G.fixed.1 hf).2.1 _ h'
      · obtain ⟨d, hd, hd'⟩ := G.usesCompat h
        rw [← e] at hd
        exact hd' (decompose_mem_fixed G.ranked G.jamoOk true c d hd)
  · obtain ⟨h1, _⟩ := G.comp_pos rfl h0
    rw [G.ccc_eq] at ha ⊢
    exact G.files.comp0 _ a b h1 ha
  · rw [G.ccc_eq]
    exact (G.hangul_none (Or.inl ((syllable_iff c).1 hc))).2.2

theorem Generated.boundaryOk {f : Form} (p : String) (hp : (f = .NFC ∧ p = "NFC_QC") ∨ (f = .NFKC ∧ p = "NFKC_QC"))
    (hS : StreamFiles ud ex qc p f.k) : BoundaryOk TT f := by
  have q := fun c => C52_quick_check (udLines := udLines) G.exFile G.qcFile comp depth c
  have hb : ∀ c, Boundary TT f c ↔ classOf ud c = 0 ∧ QcYes qc p c := by
    intro c
    unfold Boundary QcYes
    rw [G.ccc_eq]
    refine and_congr Iff.rfl ?_
    rcases hp with ⟨rfl, rfl⟩ | ⟨rfl, rfl⟩
    · simp only [← Bool.not_eq_true]
      rw [(q c).1, (q c).2.1]
    · simp only [← Bool.not_eq_true]
      rw [(q c).2.2.1, (q c).2.2.2.1]
  refine ⟨fun a b h0 hx => ?_, fun c hc => ?_, fun c hc => ?_, fun c d ds hh hc hm => ?_⟩
  · rw [hb]
    rintro ⟨h1, h2⟩
    obtain ⟨h3, h4⟩ := G.comp_pos rfl h0
    exact hS.second _ a b h3 h4 h1 h2
  · rw [hb]
    rw [jamoV_iff, jamoT_iff] at hc
    exact fun h => hS.jamo c hc h.2
  · rw [hb]
    rw [jamoL_iff] at hc
    exact ⟨(G.hangul_none (Or.inr (Or.inl hc))).2.2, hS.lead c hc⟩
  · rw [hb] at hc ⊢
    exact hS.first c d ds hc.1 hc.2 ((G.mapping_iff (by simp)).1 hm)

/-! ## Normalization according to the files -/

theorem Generated.mapsText {k : Bool} {R : Nat → List Nat → Prop} (cs : List Nat)
    (h : ∀ c ∈ cs, ∀ out, R c out ↔ out = decompose TT k c) (out : List Nat) :
    Spec.Case.MapsText R cs out ↔ out = cs.flatMap (decompose TT k) := by
  induction cs generalizing out with
  | nil =>
    constructor
    · intro h; cases h; rfl
    · rintro rfl; exact .nil
  | cons c cs ih =>
    have ih := ih (fun c hc => h c (List.mem_cons_of_mem _ hc))
    constructor
    · intro hm
      cases hm with
      | cons h1 h2 =>
        rw [List.flatMap_cons, (h c List.mem_cons_self _).1 h1, (ih _).1 h2]
    · rintro rfl
      rw [List.flatMap_cons]
      exact .cons ((h c List.mem_cons_self _).2 rfl) ((ih _).2 rfl)

omit G in
theorem fullHangul (k : Bool) (c : Nat) (hc : HangulSyllable c) (out : List Nat) :
    FullDecomp ud k c out ↔ out = hangulDecompose c := by
  have hh := (syllable_iff c).2 hc
  have hc' : 0xAC00 ≤ c ∧ c ≤ 0xD7A3 := hc
  rw [hangulDecompose_eq c hh]
  constructor
  · intro h
    cases h with
    | @hangul _ l v t _ hl hv ht e =>
      have hl' : 0x1100 ≤ l ∧ l ≤ 0x1112 := hl
      have hv' : 0x1161 ≤ v ∧ v ≤ 0x1175 := hv
      have e1 : 4352 + (c - 44032) / 588 = l := by omega
      have e2 : 4449 + (c - 44032) % 588 / 28 = v := by omega
      have e3 : (c - 44032) % 28 = t := by omega
      rw [e1, e2, e3]
      by_cases h0 : t = 0
      · subst h0; rfl
      · rw [if_neg h0, if_pos (by omega)]; rfl
    | canonical hn _ _ => exact absurd hc hn
    | compat hn _ _ _ => exact absurd hc hn
    | same hn _ _ => exact absurd hc hn
  · intro e
    rw [e]
    have := @FullDecomp.hangul ud k c (4352 + (c - 44032) / 588) (4449 + (c - 44032) % 588 / 28) ((c - 44032) % 28) hc
      (by unfold JamoL; omega) (by unfold JamoV; omega) (by omega) (by omega)
    by_cases h0 : (c - 44032) % 28 = 0
    · rw [h0] at this ⊢
      exact this
    · rw [if_neg h0] at this
      rw [if_pos (by omega)]
      exact this

/-- **C52.** `decompose` of a codepoint is its full decomposition according to UnicodeData.txt. -/
theorem C52_full_decomposition (k : Bool) (c : Nat) (out : List Nat) :
    FullDecomp ud k c out ↔ decompose TT k c = out := by
  rw [eq_comm (a := decompose TT k c)]
  refine rankInduction G.ranked (P := fun c => ∀ out, FullDecomp ud k c out ↔ out = decompose TT k c) ?_ c out
  intro c ih out
  by_cases hc : HangulSyllable c
  · rw [fullHangul k c hc, decompose_eq G.ranked, if_pos ((syllable_iff c).2 hc)]
  · have hh : isHangulSyllable c = false := by rw [Bool.eq_false_iff, ne_eq, syllable_iff]; exact hc
    have ih := ih k hh
    rw [decompose_eq G.ranked, hh, if_neg Bool.false_ne_true]
    by_cases hm : mapping TT k c = []
    · rw [if_pos hm]
      have hn := G.mapping_nil.1 hm
      constructor
      · intro h
        cases h with
        | hangul h _ _ _ _ => exact absurd h hc
        | canonical _ h _ => exact absurd h (hn.1 _)
        | compat _ hk h _ => exact absurd h (hn.2 hk _)
        | same _ _ _ => rfl
      · rintro rfl; exact .same hc hn.1 hn.2
    · rw [if_neg hm]
      rw [← G.mapsText (R := FullDecomp ud k) _ ih]
      constructor
      · intro h
        cases h with
        | hangul h _ _ _ _ => exact absurd h hc
        | canonical _ h h' => rw [(G.mapping_iff (G.canonical_ne h)).2 (Or.inl h)]; exact h'
        | compat _ hk h h' => rw [(G.mapping_iff (G.compat_ne h)).2 (Or.inr ⟨hk, h⟩)]; exact h'
        | same _ h1 h2 => exact absurd (G.mapping_nil.2 ⟨h1, h2⟩) hm
      · intro h
        rcases (G.mapping_iff hm).1 rfl with h' | ⟨hk, h'⟩
        · exact .canonical hc h' h
        · exact .compat hc hk h' h

theorem Generated.class_fun : (TT).ccc = classOf ud := funext G.ccc_eq

theorem Generated.decomposed (k : Bool) (text out : List Nat) :
    Decomposed ud k text out ↔ canonicalOrder TT (text.flatMap (decompose TT k)) = out := by
  have hm := fun out => G.mapsText (k := k) (R := FullDecomp ud k) text (fun c _ out => by
    rw [C52_full_decomposition G, eq_comm]) out
  obtain ⟨c1, c2, c3⟩ := Props.Norm.C26_canonical_order (T := TT) (text.flatMap (decompose TT k))
  rw [G.class_fun] at c1 c2 c3
  constructor
  · rintro ⟨mid, h1, h2, h3⟩
    rw [hm] at h1
    subst h1
    exact (c3 _ h2 h3).symm
  · rintro rfl
    exact ⟨_, (hm _).2 rfl, c1, c2⟩

/-- **C52.** NFD and NFKD of a text are its full decomposition in canonical order according to the files, for every text. -/
theorem C52_nfd (f : Form) (hf : f = .NFD ∨ f = .NFKD) (text out : List Nat) :
    normalize TT f text = out ↔ Decomposed ud f.k text out := by
  rw [Props.Norm.normalize_D hf, G.decomposed]

/-- **C52.** With tables generated from consistent files `is_normalized` and the quick check of NFD and NFKD are exact. -/
theorem C52_quick_check_exact (f : Form) (hf : f = .NFD ∨ f = .NFKD) (text : List Nat) :
    (quickCheck TT f text = .Yes ↔ Decomposed ud f.k text text) ∧ (quickCheck TT f text = .No ↔ ¬ Decomposed ud f.k text text) ∧
    (isNormalized TT f text = true ↔ Decomposed ud f.k text text) := by
  have := Props.Norm.C31_decomposed_forms G.ranked G.jamoOk G.qcOk f hf text
  rw [ne_eq, C52_nfd G f hf] at this
  exact this

/-- **C52.** Canonical and compatibility equivalence are equality of the decompositions given by the files. -/
theorem C52_equivalence (a b : List Nat) :
    (canonEquiv TT a b = true ↔ ∃ d, Decomposed ud false a d ∧ Decomposed ud false b d) ∧
    (compatEquiv TT a b = true ↔ ∃ d, Decomposed ud true a d ∧ Decomposed ud true b d) := by
  have hd : ∀ x d, Decomposed ud false x d ↔ normalize TT .NFD x = d := fun x d => (C52_nfd G .NFD (.inl rfl) x d).symm
  have hk : ∀ x d, Decomposed ud true x d ↔ normalize TT .NFKD x = d := fun x d => (C52_nfd G .NFKD (.inr rfl) x d).symm
  simp only [canonEquiv, compatEquiv, decide_eq_true_eq, hd, hk]
  exact ⟨⟨fun h => ⟨_, rfl, h.symm⟩, fun ⟨d, h1, h2⟩ => h1.trans h2.symm⟩,
    ⟨fun h => ⟨_, rfl, h.symm⟩, fun ⟨d, h1, h2⟩ => h1.trans h2.symm⟩⟩

theorem Generated.primary_unique {a b c c' : Nat} (h : Primary ud ex a b c) (h' : Primary ud ex a b c') : c = c' := by
  cases h with
  | listed h1 h2 =>
    cases h' with
    | listed h3 h4 => exact G.files.pairOne _ _ _ _ h1 h3 h2 h4
    | lv _ hv => exact absurd hv (G.files.hangulPair _ _ _ h1).1
    | lvt _ _ ht => exact absurd ht (G.files.hangulPair _ _ _ h1).2
  | lv hl hv =>
    cases h' with
    | listed h3 h4 => exact absurd hv (G.files.hangulPair _ _ _ h3).1
    | lv _ _ => rfl
    | lvt _ _ ht => unfold JamoV at hv; unfold JamoT at ht; omega
  | lvt hs h0 ht =>
    cases h' with
    | listed h3 h4 => exact absurd ht (G.files.hangulPair _ _ _ h3).2
    | lv _ hv => unfold JamoV at hv; unfold JamoT at ht; omega
    | lvt _ _ _ => rfl

theorem Generated.primaryOf_iff (a b c : Nat) : primaryOf ud ex a b = some c ↔ Primary ud ex a b c := by
  unfold primaryOf
  split
  · rename_i h
    rw [Option.some.injEq]
    constructor
    · rintro rfl; exact h.choose_spec
    · exact fun h' => G.primary_unique h.choose_spec h'
  · rename_i h
    constructor
    · intro h'; exact absurd h' (by simp)
    · exact fun h' => absurd ⟨c, h'⟩ h

/-- **C52.** The primary composite the library uses is the one of the files, U+11A7 excepted (see `C28_fails_tbase`). -/
theorem C52_primary_partial (a b : Nat) (hb : b ≠ 0x11A7) : primary TT a b = primaryOf ud ex a b := by
  have key : ∀ c, primary TT a b = some c ↔ Primary ud ex a b c := by
    intro c
    have hcomp := C52_composition G.udFile G.exFile G.qcFile G.files comp G.written a b
    have hex : ∀ x, (TT).excl x = false ↔ ¬ Excluded ex x := fun x => by rw [← G.excl_iff, Bool.not_eq_true]
    have htab : ∀ (hV : ¬ (JamoL a ∧ JamoV b)) (hT : ¬ (HangulSyllable a ∧ (a - 0xAC00) % 28 = 0 ∧ JamoT b)),
        ((TT).comp a b ≠ 0 ∧ ¬ Excluded ex ((TT).comp a b) ∧ (TT).comp a b = c) ↔ Primary ud ex a b c := by
      intro hV hT
      constructor
      · rintro ⟨h1, h2, rfl⟩
        exact .listed (G.comp_pos rfl h1).1 h2
      · intro h
        cases h with
        | listed h1 h2 =>
          have e := (hcomp c).2 (Or.inl ⟨h1, h2⟩)
          rw [e]
          exact ⟨fun h0 => G.files.nul _ (h0 ▸ h1), h2, rfl⟩
        | lv h1 h2 => exact absurd ⟨h1, h2⟩ hV
        | lvt h1 h2 h3 => exact absurd ⟨h1, h2, h3⟩ hT
    have hprim : ∀ x, (if x ≠ 0 ∧ (TT).excl x = false then some x else none) = some c ↔ (x ≠ 0 ∧ ¬ Excluded ex x ∧ x = c) := by
      intro x
      rw [← hex]
      split
      · rename_i h; rw [Option.some.injEq]; exact ⟨fun e => ⟨h.1, h.2, e⟩, fun e => e.2.2⟩
      · rename_i h; exact ⟨fun e => absurd e (by simp), fun e => absurd ⟨e.1, e.2.1⟩ h⟩
    show (if tryCompose TT a b ≠ 0 ∧ (TT).excl (tryCompose TT a b) = false then some (tryCompose TT a b) else none) = some c ↔ _
    rw [hprim]
    unfold tryCompose
    by_cases hL : a ≥ LBase ∧ a < LBase + LCount
    · have hL' : JamoL a := by
        have : 4352 ≤ a ∧ a < 4371 := hL
        unfold JamoL; omega
      have nS : ¬ HangulSyllable a := by unfold HangulSyllable; unfold JamoL at hL'; omega
      rw [if_pos hL]
      by_cases hV : b ≥ VBase ∧ b < VBase + VCount
      · have hV' : JamoV b := by
          have : 4449 ≤ b ∧ b < 4470 := hV
          unfold JamoV; omega
        rw [if_pos hV]
        have hc : HangulSyllable (SBase + ((a - LBase) * VCount + (b - VBase)) * TCount) := by
          have h1 : 0x1100 ≤ a ∧ a ≤ 0x1112 := hL'
          have h2 : 0x1161 ≤ b ∧ b ≤ 0x1175 := hV'
          show 0xAC00 ≤ 44032 + ((a - 4352) * 21 + (b - 4449)) * 28 ∧ 44032 + ((a - 4352) * 21 + (b - 4449)) * 28 ≤ 0xD7A3
          omega
        constructor
        · rintro ⟨_, _, rfl⟩; exact .lv hL' hV'
        · intro h
          refine ⟨?_, G.files.hangulIncl _ hc, G.primary_unique (.lv hL' hV') h⟩
          have : 0xAC00 ≤ SBase + ((a - LBase) * VCount + (b - VBase)) * TCount := hc.1
          omega
      · rw [if_neg hV]
        refine htab (fun h => hV ?_) (fun h => nS h.1)
        have : 0x1161 ≤ b ∧ b ≤ 0x1175 := h.2
        show 4449 ≤ b ∧ b < 4470
        omega
    · rw [if_neg hL]
      have nL : ¬ JamoL a := fun h => hL (by
        have : 0x1100 ≤ a ∧ a ≤ 0x1112 := h
        show 4352 ≤ a ∧ a < 4371
        omega)
      by_cases hS : a ≥ SBase ∧ a < SBase + SCount
      · have hS' : HangulSyllable a := by
          have : 44032 ≤ a ∧ a < 55204 := hS
          unfold HangulSyllable; omega
        rw [if_pos hS]
        by_cases hM : (a - SBase) % TCount = 0
        · rw [if_pos hM]
          have hM' : (a - 0xAC00) % 28 = 0 := hM
          by_cases hT : b ≥ TBase ∧ b < TBase + TCount
          · have hT' : JamoT b := by
              have : 4519 ≤ b ∧ b < 4547 := hT
              unfold JamoT; omega
            rw [if_pos hT]
            have hc : HangulSyllable (a + (b - TBase)) := by
              have h1 : 0xAC00 ≤ a ∧ a ≤ 0xD7A3 := hS'
              have h2 : 0x11A8 ≤ b ∧ b ≤ 0x11C2 := hT'
              show 0xAC00 ≤ a + (b - 4519) ∧ a + (b - 4519) ≤ 0xD7A3
              omega
            constructor
            · rintro ⟨_, _, rfl⟩; exact .lvt hS' hM' hT'
            · intro h
              refine ⟨?_, G.files.hangulIncl _ hc, G.primary_unique (.lvt hS' hM' hT') h⟩
              have : 0xAC00 ≤ a + (b - TBase) := hc.1
              omega
          · rw [if_neg hT]
            refine htab (fun h => nL h.1) (fun h => hT ?_)
            have : 0x11A8 ≤ b ∧ b ≤ 0x11C2 := h.2.2
            show 4519 ≤ b ∧ b < 4547
            omega
        · rw [if_neg hM]
          exact htab (fun h => nL h.1) (fun h => hM h.2.1)
      · rw [if_neg hS]
        refine htab (fun h => nL h.1) (fun h => hS ?_)
        have : 0xAC00 ≤ a ∧ a ≤ 0xD7A3 := h.1
        show 44032 ≤ a ∧ a < 55204
        omega
  cases h : primary TT a b with
  | some c => exact ((G.primaryOf_iff a b c).2 ((key c).1 h)).symm
  | none =>
    cases h' : primaryOf ud ex a b with
    | none => rfl
    | some c =>
      have := (key c).2 ((G.primaryOf_iff a b c).1 h')
      rw [h] at this; exact absurd this (by simp)

omit G in
theorem composeGroups_congr {ccc : Nat → Nat} {pc pc' : Nat → Nat → Option Nat} (l : List Nat) (h : ∀ b ∈ l, ∀ a, pc a b = pc' a b)
    (g : Group) : composeGroups ccc pc g l = composeGroups ccc pc' g l := by
  induction l generalizing g with
  | nil => rfl
  | cons c cs ih =>
    have ih := ih (fun b hb => h b (List.mem_cons_of_mem _ hb))
    rw [composeGroups_cons, composeGroups_cons, h c List.mem_cons_self]
    simp only [ih]

/-- The Unicode composition algorithm on the files is the one on the generated tables. -/
theorem Generated.composition_eq (mid : List Nat) (hn : 0x11A7 ∉ mid) :
    composition (classOf ud) (primaryOf ud ex) mid = composition (TT).ccc (primary TT) mid := by
  unfold composition
  rw [G.class_fun]
  split
  · rfl
  · rename_i s rest hdw
    rw [composeGroups_congr rest (fun b hb a => ?_)]
    refine (C52_primary_partial G a b (fun h => hn ?_)).symm
    rw [← h]
    have : b ∈ mid.dropWhile (fun c => classOf ud c != 0) := by rw [hdw]; exact List.mem_cons_of_mem _ hb
    exact (List.dropWhile_sublist _).mem this

/-- **C52, partial.** NFC and NFKC in terms of the files, for texts in whose decomposition U+11A7 does not occur: the groups of the
Unicode composition algorithm, but each with its remaining marks *before* its starter; when no starter keeps a mark, this is the
Unicode normalization form.  Missing: the texts where one does (`C28_fails`) and U+11A7 (`C28_fails_tbase`). -/
theorem C52_nfc_partial (f : Form) (hf : f = .NFC ∨ f = .NFKC) (text mid : List Nat) (hd : Decomposed ud f.k text mid)
    (hn : 0x11A7 ∉ mid) :
    let lead := (composition (classOf ud) (primaryOf ud ex) mid).1
    let groups := (composition (classOf ud) (primaryOf ud ex) mid).2
    normalize TT f text = lead ++ groups.flatMap (fun g => g.marks ++ [g.starter])
    ∧ ((∀ g ∈ groups, g.marks = []) → normalize TT f text = assemble lead groups) := by
  have e := (G.decomposed f.k text mid).1 hd
  have hc := G.composition_eq mid hn
  have h1 := Props.Norm.C28_exact (T := TT) f hf text
  unfold groupsOf at h1
  rw [e] at h1
  rw [hc]
  refine ⟨h1, fun h => ?_⟩
  rw [h1]
  unfold assemble
  congr 1
  exact List.flatMap_congr fun g hg => by rw [h g hg]; rfl

/-- **C52, partial.** With tables generated from consistent files the streaming normalizer returns NFC and NFKC of the whole text,
whatever the text, except for U+11A7 at the head of a decomposition (`C30_fails`). -/
theorem C52_stream_partial (f : Form) (p : String) (hp : (f = .NFC ∧ p = "NFC_QC") ∨ (f = .NFKC ∧ p = "NFKC_QC"))
    (hS : StreamFiles ud ex qc p f.k) (text : List Nat) (h7 : ∀ c ∈ text, ∀ out, FullDecomp ud f.k c out → out.head? ≠ some 0x11A7) :
    (feedAll TT f [] text).2 ++ (flush TT f (feedAll TT f [] text).1).2 = normalize TT f text :=
  Props.Norm.C30_composed_stream_partial G.ranked f (G.boundaryOk p hp hS) (by rcases hp with ⟨rfl, _⟩ | ⟨rfl, _⟩ <;> rfl) text
    fun c hc => h7 c hc _ ((C52_full_decomposition G _ _ _).2 rfl)

/-- **C52, partial.** `is_normalized` for NFC and NFKC never rejects a text that normalization leaves unchanged and is exact unless
the quick check answers Yes.  Missing: the Yes answers (`C31_fails_nfc`) and U+11A7. -/
theorem C52_is_normalized_partial (f : Form) (hf : f = .NFC ∨ f = .NFKC) (text mid : List Nat) (hd : Decomposed ud f.k text mid)
    (hn : 0x11A7 ∉ mid) :
    (normalize TT f text = text → isNormalized TT f text = true) ∧
    (quickCheck TT f text ≠ .Yes → (isNormalized TT f text = true ↔ normalize TT f text = text)) := by
  have hn' : 0x11A7 ∉ normalize TT (decomposed f) text := by
    rw [Props.Norm.normalize_D (Props.Norm.decomposed_D f), Props.Norm.decomposed_k, (G.decomposed f.k text mid).1 hd]
    exact hn
  exact ⟨(Props.Norm.C31_composed_no G.ranked G.jamoOk G.compOk G.qcCOk f hf text hn').2,
    Props.Norm.C31_composed_exact_unless_yes G.ranked G.jamoOk G.compOk G.qcCOk f hf text hn'⟩

end Derived

end Verif.Props.Tg
