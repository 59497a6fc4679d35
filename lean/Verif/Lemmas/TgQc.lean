import Verif.Lemmas.TgFields
import Verif.Spec.NormFiles

/-! CompositionExclusions.txt and DerivedNormalizationProps.txt. -/

namespace Verif.Props.Tg
open Verif.Tg Verif.Spec.UcdFile

theorem mem_dropWhile {p : Char → Bool} {s : Str} {c : Char} (h : c ∈ s) (hc : p c = false) : c ∈ s.dropWhile p := by
  induction s with
  | nil => simp at h
  | cons x xs ih =>
    by_cases hx : p x = true
    · rw [List.dropWhile_cons_of_pos hx]
      rcases List.mem_cons.1 h with rfl | h
      · rw [hc] at hx; simp at hx
      · exact ih h
    · rw [List.dropWhile_cons_of_neg hx]; exact h

theorem mem_trim {s : Str} {c : Char} (h : c ∈ s) (hc : isWs c = false) : c ∈ trim s := by
  unfold trim trimBy
  rw [List.mem_reverse]
  refine mem_dropWhile ?_ hc
  rw [List.mem_reverse]
  exact mem_dropWhile h hc

theorem splitFields_prefix (a s : Str) (h : ';' ∉ a) {f : Str} {fs : List Str} (hs : splitFields s = f :: fs) :
    splitFields (a ++ s) = (a ++ f) :: fs := by
  induction a with
  | nil => exact hs
  | cons c a ih =>
    have hc : c ≠ ';' := fun e => h (by simp [e])
    rw [List.cons_append, splitFields, if_neg hc, ih (fun e => h (by simp [e]))]
    rfl

theorem trim_blank (w s w' : Str) (hw : ∀ c ∈ w, isWs c = true) (hw' : ∀ c ∈ w', isWs c = true)
    (h1 : ∀ c, s.head? = some c → isWs c = false) (h2 : ∀ c, s.getLast? = some c → isWs c = false) : trim (w ++ s ++ w') = s :=
  trimBy_append isWs w s w' hw hw' h1 h2

/-! ## Ranges -/

theorem range_chars {s : Str} {a b : Nat} (h : CpRange s a b) : s ≠ [] ∧ ∀ c ∈ s, isWs c = false ∧ c ≠ ';' ∧ c ≠ '#' := by
  have hx : ∀ {t : Str} {n : Nat}, HexOf t n → ∀ c ∈ t, isWs c = false ∧ c ≠ ';' ∧ c ≠ '#' := by
    intro t n ht c hc
    have := (hexOf_facts _ _ ht).2.2 c hc
    exact ⟨this.2.1, this.2.2.2.2.1, this.2.2.2.2.2.1⟩
  rcases h with ⟨h, _⟩ | ⟨t, t', rfl, h, h'⟩
  · exact ⟨(hexOf_facts _ _ h).1, hx h⟩
  · refine ⟨by simp, fun c hc => ?_⟩
    rcases List.mem_append.1 hc with hc | hc
    · rcases List.mem_append.1 hc with hc | hc
      · exact hx h c hc
      · simp at hc; subst hc; decide
    · exact hx h' c hc

theorem cpsOf_range {s : Str} {a b : Nat} (h : CpRange s a b) (ha : a ≤ 0x10FFFF) (hb : b ≤ 0x10FFFF) (x : Nat) :
    x ∈ cpsOf s ↔ a ≤ x ∧ x ≤ b := by
  unfold cpsOf
  rcases h with ⟨h, rfl⟩ | ⟨t, t', rfl, h, h'⟩
  · rw [cutDots_none _ (fun hc => ((hexOf_facts _ _ h).2.2 _ hc).2.2.2.1 rfl)]
    dsimp only
    rw [parseCodepoint_hex _ _ h (by omega), List.mem_singleton]; omega
  · have e : t ++ ['.', '.'] ++ t' = t ++ '.' :: '.' :: t' := by simp
    rw [e, cutDots_append _ _ (fun hc => ((hexOf_facts _ _ h).2.2 _ hc).2.2.2.1 rfl)]
    dsimp only
    rw [parseCodepoint_hex _ _ h (by omega), parseCodepoint_hex _ _ h' (by omega), mem_cpRange]

theorem range_head {s : Str} {a b : Nat} (h : CpRange s a b) (rest : Str) : ∀ c, (s ++ rest).head? = some c → isWs c = false := by
  intro c hc
  obtain ⟨h0, h1⟩ := range_chars h
  obtain ⟨x, xs, rfl⟩ := List.exists_cons_of_ne_nil h0
  simp at hc; subst hc
  exact (h1 _ (by simp)).1

theorem range_not_skipped {s t : Str} {a b : Nat} (h : CpRange s a b) {rest : Str} (ht : t = s ++ rest) : skipped t = false := by
  obtain ⟨h0, h1⟩ := range_chars h
  obtain ⟨x, xs, rfl⟩ := List.exists_cons_of_ne_nil h0
  subst ht
  have := (h1 x (by simp)).2.2
  simp [skipped, this]

theorem trim_range {s w : Str} {a b : Nat} (h : CpRange s a b) (hw : Blank w) : trim (s ++ w) = s := by
  obtain ⟨_, h1⟩ := range_chars h
  have := trim_blank [] s w (by simp) (blank_ws hw) (fun c hc => (h1 c (List.mem_of_mem_head? hc)).1)
    (fun c hc => (h1 c (List.mem_of_getLast? hc)).1)
  rwa [List.nil_append] at this

/-! ## CompositionExclusions.txt -/

/-- The effect of one line. -/
def exApply (s : List Nat) (e : Nat × Nat) : List Nat := insertAll (cpRange e.1 e.2) s

theorem insertAll_congr (xs ys s : List Nat) (hs : Tables.Sorted id s) (h : ∀ x, x ∈ xs ↔ x ∈ ys) : insertAll xs s = insertAll ys s := by
  have h1 := sorted_insertAll xs s hs
  have h2 := sorted_insertAll ys s hs
  have hp : (insertAll xs s).Perm (insertAll ys s) := by
    refine (List.perm_ext_iff_of_nodup ?_ ?_).2 fun x => ?_
    · exact List.Pairwise.imp (fun hab => Nat.ne_of_lt hab) h1
    · exact List.Pairwise.imp (fun hab => Nat.ne_of_lt hab) h2
    · rw [mem_insertAll, mem_insertAll, h x]
  exact List.Perm.eq_of_pairwise (le := fun a b => a < b) (fun a b _ _ h h' => absurd h (Nat.lt_asymm h')) h1 h2 hp

theorem stored_comment {line stored p t : Str} (hs : Stored line stored) (h : line = p ++ '#' :: t) : ∃ t', stored = p ++ '#' :: t' := by
  rcases hs with rfl | rfl
  · exact ⟨t, h⟩
  · exact ⟨t ++ ['\r'], by rw [h]; simp⟩

theorem stored_blank {line stored s w : Str} (hs : Stored line stored) (h : line = s ++ w) (hw : Blank w) :
    ∃ w', stored = s ++ w' ∧ ∀ c ∈ w', isWs c = true := by
  rcases hs with rfl | rfl
  · exact ⟨w, h, blank_ws hw⟩
  · refine ⟨w ++ ['\r'], by rw [h]; simp, fun c hc => ?_⟩
    rcases List.mem_append.1 hc with hc | hc
    · exact blank_ws hw c hc
    · simp at hc; subst hc; decide

theorem exLine_mem (s : List Nat) (line stored : Str) (e : Nat × Nat) (h : ExclLine line e) (hs : Stored line stored) :
    ∃ cps, exLine s stored = insertAll cps s ∧ ∀ x, x ∈ cps ↔ e.1 ≤ x ∧ x ≤ e.2 := by
  obtain ⟨cps, w, tail, hr, hb, ha, hw, ht, rfl⟩ := h
  obtain ⟨h0, h1⟩ := range_chars hr
  refine ⟨cpsOf cps, ?_, cpsOf_range hr ha hb⟩
  have key : uncomment (trim stored) = cps ∧ ∃ rest, trim stored = cps ++ rest := by
    rcases ht with rfl | ⟨t, rfl⟩
    · obtain ⟨w', rfl, hw'⟩ := stored_blank (s := cps) (w := w) hs (by simp) hw
      have e1 := trim_blank [] cps w' (by simp) hw' (fun c hc => (h1 c (List.mem_of_mem_head? hc)).1)
        (fun c hc => (h1 c (List.mem_of_getLast? hc)).1)
      rw [List.nil_append] at e1
      rw [e1]
      refine ⟨?_, [], by simp⟩
      unfold uncomment
      rw [cutAt_none _ _ (fun hc => (h1 _ hc).2.2 rfl)]
      exact trim_id _ (fun c hc => (h1 c (List.mem_of_mem_head? hc)).1) (fun c hc => (h1 c (List.mem_of_getLast? hc)).1)
    · obtain ⟨t', rfl⟩ := stored_comment (p := cps ++ w) hs rfl
      obtain ⟨t'', e1, _⟩ := trim_prefix (cps ++ w) t' '#' (by decide) (by
        intro c hc; rw [List.append_assoc] at hc; exact range_head hr _ c hc)
      rw [e1]
      refine ⟨?_, w ++ '#' :: t'', by simp⟩
      unfold uncomment
      rw [cutAt_append]
      · exact trim_range hr hw
      · intro hc
        rcases List.mem_append.1 hc with hc | hc
        · exact (h1 _ hc).2.2 rfl
        · exact (blank_not hw _ hc).2.1 rfl
  obtain ⟨k1, rest, k2⟩ := key
  unfold exLine
  rw [range_not_skipped hr k2, if_neg Bool.false_ne_true, k1, if_neg h0]

/-! ## DerivedNormalizationProps.txt -/

theorem word_facts {s : Str} (h : Word s) : s ≠ [] ∧ (∀ c ∈ s, isWs c = false) ∧ ';' ∉ s ∧ '#' ∉ s := by
  refine ⟨h.1, fun c hc => ?_, fun hc => (h.2 _ hc).2.2.2.2.1 rfl, fun hc => (h.2 _ hc).2.2.2.2.2 rfl⟩
  obtain ⟨h1, h2, h3, h4, _⟩ := h.2 c hc
  simp [isWs, h1, h2, h3, h4]

theorem value_head {s : Str} (h : Value s) : ∀ c, s.head? = some c → isWs c = false := by
  intro c hc
  obtain ⟨h1, h2, h3, h4⟩ := h.head c hc
  simp [isWs, h1, h2, h3, h4]

theorem value_last {s : Str} (h : Value s) : ∀ c, s.getLast? = some c → isWs c = false := by
  intro c hc
  obtain ⟨h1, h2, h3, h4⟩ := h.last c hc
  simp [isWs, h1, h2, h3, h4]

/-- Whether a line takes effect: the property field of a line without a value still contains its comment. -/
def seen (e : PropEntry) : Bool := e.value.isSome || !e.comment

/-- The five properties the loader knows. -/
def known (p : Str) : Prop :=
  p = "NFC_QC".toList ∨ p = "NFKC_QC".toList ∨ p = "NFD_QC".toList ∨ p = "NFKD_QC".toList ∨ p = "Full_Composition_Exclusion".toList

theorem qcInsert_unknown (p v : Str) (cps : List Nat) (q : Qc) (h : ¬ known p) : qcInsert p v cps q = q := by
  unfold known at h
  simp only [not_or] at h
  unfold qcInsert
  rw [if_neg h.1, if_neg h.2.1, if_neg h.2.2.1, if_neg h.2.2.2.1, if_neg h.2.2.2.2]

theorem known_hash {p : Str} (h : known p) : '#' ∉ p := by
  rcases h with rfl | rfl | rfl | rfl | rfl <;> decide

theorem qcLine_eq (q : Qc) (line stored : Str) (e : PropEntry) (h : PropLine line e) (hs : Stored line stored) :
    ∃ cps, (∀ x, x ∈ cps ↔ e.first ≤ x ∧ x ≤ e.last) ∧
      qcLine q stored = if seen e then qcInsert e.prop (e.value.getD []) cps q else q := by
  obtain ⟨cps, w₁, w₂, w₃, tail, hr, hb, ha, hw1, hw2, hw3, hp, htail, hline⟩ := h
  refine ⟨cpsOf cps, cpsOf_range hr ha hb, ?_⟩
  obtain ⟨p0, pws, psemi, phash⟩ := word_facts hp
  have n1 : ';' ∉ cps ++ w₁ := by
    intro hc
    rcases List.mem_append.1 hc with hc | hc
    · exact ((range_chars hr).2 _ hc).2.1 rfl
    · exact (blank_not hw1 _ hc).1 rfl
  have n2 : ';' ∉ w₂ ++ e.prop ++ w₃ := by
    intro hc
    rcases List.mem_append.1 hc with hc | hc
    · rcases List.mem_append.1 hc with hc | hc
      · exact (blank_not hw2 _ hc).1 rfl
      · exact psemi hc
    · exact (blank_not hw3 _ hc).1 rfl
  have tprop : ∀ w, (∀ c ∈ w, isWs c = true) → trim (w₂ ++ e.prop ++ w) = e.prop := fun w hw =>
    trim_blank w₂ e.prop w (blank_ws hw2) hw (fun c hc => pws c (List.mem_of_mem_head? hc)) (fun c hc => pws c (List.mem_of_getLast? hc))
  have step : ∀ T f1 f2 fs, trim stored = T → splitFields T = f1 :: f2 :: fs → f1 = cps ++ w₁ → (∃ rest, T = cps ++ rest) →
      qcLine q stored = qcInsert (trim f2) (valueOf (f1 :: f2 :: fs)) (cpsOf cps) q := by
    intro T f1 f2 fs hT hsp hf1 hrest
    obtain ⟨rest, hrest⟩ := hrest
    unfold qcLine
    rw [hT, hsp, range_not_skipped hr hrest, if_neg Bool.false_ne_true, if_neg (by simp)]
    simp only [List.getD_cons_zero, List.getD_cons_succ]
    rw [hf1, trim_range hr hw1]
  rcases hline with ⟨hv, rfl⟩ | ⟨v, w₄, w₅, hv, vne, hval, vsemi, hw4, hw5, rfl⟩
  · rcases htail with ⟨hc, rfl⟩ | ⟨hc, t, rfl⟩
    · -- no value, no comment
      obtain ⟨w', rfl, hw'⟩ := stored_blank (s := cps ++ w₁ ++ ';' :: w₂ ++ e.prop) (w := w₃) hs (by simp) hw3
      have e1 : trim (cps ++ w₁ ++ ';' :: w₂ ++ e.prop ++ w') = cps ++ w₁ ++ ';' :: w₂ ++ e.prop := by
        have := trim_blank [] (cps ++ w₁ ++ ';' :: w₂ ++ e.prop) w' (by simp) hw'
          (fun c hc => by rw [List.append_assoc, List.append_assoc] at hc; exact range_head hr _ c hc)
          (fun c hc => by rw [List.getLast?_append_of_ne_nil _ p0] at hc; exact pws c (List.mem_of_getLast? hc))
        rwa [List.nil_append] at this
      have e2 : splitFields (cps ++ w₁ ++ ';' :: w₂ ++ e.prop) = [cps ++ w₁, w₂ ++ e.prop] := by
        have : cps ++ w₁ ++ ';' :: w₂ ++ e.prop = (cps ++ w₁) ++ ';' :: (w₂ ++ e.prop) := by simp
        rw [this, splitFields_append _ _ n1, splitFields_last]
        intro hc; exact n2 (List.mem_append_left _ hc)
      rw [step _ _ _ _ e1 e2 rfl ⟨_, by rw [List.append_assoc, List.append_assoc]⟩]
      have e3 : trim (w₂ ++ e.prop) = e.prop := by have := tprop [] (by simp); rwa [List.append_nil] at this
      rw [e3, if_pos (by simp [seen, hc]), hv]
      rfl
    · -- no value, comment
      obtain ⟨t', rfl⟩ := stored_comment hs (p := cps ++ w₁ ++ ';' :: w₂ ++ e.prop ++ w₃) rfl
      obtain ⟨t'', e1, _⟩ := trim_prefix (cps ++ w₁ ++ ';' :: w₂ ++ e.prop ++ w₃) t' '#' (by decide) (by
        intro c hc; simp only [List.append_assoc] at hc; exact range_head hr _ c hc)
      obtain ⟨f, fs, hf⟩ := List.exists_cons_of_ne_nil (splitFields_ne ('#' :: t''))
      have hfh : '#' ∈ f := by
        rw [splitFields, if_neg (by decide)] at hf
        split at hf
        · injection hf with hf _; rw [← hf]; simp
        · injection hf with hf _; rw [← hf]; simp
      have e2 : splitFields (cps ++ w₁ ++ ';' :: w₂ ++ e.prop ++ w₃ ++ '#' :: t'') = (cps ++ w₁) :: (w₂ ++ e.prop ++ w₃ ++ f) :: fs := by
        have : cps ++ w₁ ++ ';' :: w₂ ++ e.prop ++ w₃ ++ '#' :: t'' = (cps ++ w₁) ++ ';' :: ((w₂ ++ e.prop ++ w₃) ++ '#' :: t'') := by simp
        rw [this, splitFields_append _ _ n1, splitFields_prefix _ _ n2 hf]
      rw [step _ _ _ _ e1 e2 rfl ⟨w₁ ++ ';' :: w₂ ++ e.prop ++ w₃ ++ '#' :: t'', by simp⟩]
      rw [if_neg (by simp [seen, hc, hv])]
      refine qcInsert_unknown _ _ _ _ (fun hk => known_hash hk ?_)
      exact mem_trim (by simp [hfh]) (by decide)
  · rw [if_pos (by simp [seen, hv]), hv]
    have hvh := value_head hval
    have hvl := value_last hval
    rcases htail with ⟨hc, rfl⟩ | ⟨hc, t, rfl⟩
    · -- value, no comment
      obtain ⟨w', rfl, hw'⟩ := stored_blank (s := cps ++ w₁ ++ ';' :: w₂ ++ e.prop ++ w₃ ++ ';' :: w₄ ++ v) (w := w₅) hs (by simp) hw5
      have e1 : trim (cps ++ w₁ ++ ';' :: w₂ ++ e.prop ++ w₃ ++ ';' :: w₄ ++ v ++ w') = cps ++ w₁ ++ ';' :: w₂ ++ e.prop ++ w₃ ++ ';' :: w₄ ++ v := by
        have := trim_blank [] (cps ++ w₁ ++ ';' :: w₂ ++ e.prop ++ w₃ ++ ';' :: w₄ ++ v) w' (by simp) hw'
          (fun c hc => by simp only [List.append_assoc] at hc; exact range_head hr _ c hc)
          (fun c hc => by rw [List.getLast?_append_of_ne_nil _ vne] at hc; exact hvl c hc)
        rwa [List.nil_append] at this
      have n3 : ';' ∉ w₄ ++ v := by
        intro hc
        rcases List.mem_append.1 hc with hc | hc
        · exact (blank_not hw4 _ hc).1 rfl
        · exact vsemi hc
      have e2 : splitFields (cps ++ w₁ ++ ';' :: w₂ ++ e.prop ++ w₃ ++ ';' :: w₄ ++ v) = [cps ++ w₁, w₂ ++ e.prop ++ w₃, w₄ ++ v] := by
        have : cps ++ w₁ ++ ';' :: w₂ ++ e.prop ++ w₃ ++ ';' :: w₄ ++ v = (cps ++ w₁) ++ ';' :: ((w₂ ++ e.prop ++ w₃) ++ ';' :: (w₄ ++ v)) := by simp
        rw [this, splitFields_append _ _ n1, splitFields_append _ _ n2, splitFields_last _ n3]
      rw [step _ _ _ _ e1 e2 rfl ⟨w₁ ++ ';' :: w₂ ++ e.prop ++ w₃ ++ ';' :: w₄ ++ v, by simp⟩, tprop w₃ (blank_ws hw3)]
      have e3 : valueOf [cps ++ w₁, w₂ ++ e.prop ++ w₃, w₄ ++ v] = v := by
        have e4 := trim_blank w₄ v [] (blank_ws hw4) (by simp) hvh hvl
        rw [List.append_nil] at e4
        unfold valueOf
        rw [if_pos (by simp)]
        simp only [List.getD_cons_zero, List.getD_cons_succ]
        rw [e4]
        unfold uncomment
        rw [cutAt_none _ _ hval.noHash]
        exact trim_id v hvh hvl
      rw [e3]; rfl
    · -- value and comment
      obtain ⟨t', rfl⟩ := stored_comment hs (p := cps ++ w₁ ++ ';' :: w₂ ++ e.prop ++ w₃ ++ ';' :: w₄ ++ v ++ w₅) rfl
      obtain ⟨t'', e1, _⟩ := trim_prefix (cps ++ w₁ ++ ';' :: w₂ ++ e.prop ++ w₃ ++ ';' :: w₄ ++ v ++ w₅) t' '#' (by decide) (by
        intro c hc; simp only [List.append_assoc] at hc; exact range_head hr _ c hc)
      obtain ⟨f, fs, hf⟩ := List.exists_cons_of_ne_nil (splitFields_ne ('#' :: t''))
      have hfh : ∃ f', f = '#' :: f' := by
        rw [splitFields, if_neg (by decide)] at hf
        split at hf
        · injection hf with hf _; exact ⟨[], hf.symm⟩
        · injection hf with hf _; exact ⟨_, hf.symm⟩
      obtain ⟨f', rfl⟩ := hfh
      have n3 : ';' ∉ w₄ ++ v ++ w₅ := by
        intro hc
        rcases List.mem_append.1 hc with hc | hc
        · rcases List.mem_append.1 hc with hc | hc
          · exact (blank_not hw4 _ hc).1 rfl
          · exact vsemi hc
        · exact (blank_not hw5 _ hc).1 rfl
      have e2 : splitFields (cps ++ w₁ ++ ';' :: w₂ ++ e.prop ++ w₃ ++ ';' :: w₄ ++ v ++ w₅ ++ '#' :: t'') =
          (cps ++ w₁) :: (w₂ ++ e.prop ++ w₃) :: (w₄ ++ v ++ w₅ ++ '#' :: f') :: fs := by
        have : cps ++ w₁ ++ ';' :: w₂ ++ e.prop ++ w₃ ++ ';' :: w₄ ++ v ++ w₅ ++ '#' :: t'' =
          (cps ++ w₁) ++ ';' :: ((w₂ ++ e.prop ++ w₃) ++ ';' :: ((w₄ ++ v ++ w₅) ++ '#' :: t'')) := by simp
        rw [this, splitFields_append _ _ n1, splitFields_append _ _ n2, splitFields_prefix _ _ n3 hf]
      rw [step _ _ _ _ e1 e2 rfl ⟨w₁ ++ ';' :: w₂ ++ e.prop ++ w₃ ++ ';' :: w₄ ++ v ++ w₅ ++ '#' :: t'', by simp⟩, tprop w₃ (blank_ws hw3)]
      have e3 : valueOf ((cps ++ w₁) :: (w₂ ++ e.prop ++ w₃) :: (w₄ ++ v ++ w₅ ++ '#' :: f') :: fs) = v := by
        unfold valueOf
        rw [if_pos (by simp)]
        simp only [List.getD_cons_zero, List.getD_cons_succ]
        have e5 : ∃ f'', trim (w₄ ++ v ++ w₅ ++ '#' :: f') = v ++ w₅ ++ '#' :: f'' := by
          have hd : trim (w₄ ++ v ++ w₅ ++ '#' :: f') = trim (v ++ w₅ ++ '#' :: f') := by
            unfold trim trimBy
            have a1 : (w₄ ++ v ++ w₅ ++ '#' :: f').dropWhile isWs = v ++ w₅ ++ '#' :: f' := by
              have := dropWhile_all (p := isWs) w₄ (v ++ w₅ ++ '#' :: f') (blank_ws hw4) (fun c hc => by
                obtain ⟨x, xs, rfl⟩ := List.exists_cons_of_ne_nil vne
                simp at hc; subst hc; exact hvh _ rfl)
              rw [← this]; simp
            have a2 : (v ++ w₅ ++ '#' :: f').dropWhile isWs = v ++ w₅ ++ '#' :: f' := by
              obtain ⟨x, xs, rfl⟩ := List.exists_cons_of_ne_nil vne
              simp only [List.cons_append]
              rw [List.dropWhile_cons_of_neg]
              simpa using hvh x rfl
            rw [a1, a2]
          rw [hd]
          obtain ⟨f'', h1, _⟩ := trim_prefix (v ++ w₅) f' '#' (by decide) (by
            intro c hc
            obtain ⟨x, xs, rfl⟩ := List.exists_cons_of_ne_nil vne
            simp at hc; subst hc; exact hvh _ rfl)
          exact ⟨f'', h1⟩
        obtain ⟨f'', e5⟩ := e5
        rw [e5]
        unfold uncomment
        rw [cutAt_append]
        · have := trim_blank [] v w₅ (by simp) (blank_ws hw5) hvh hvl
          rwa [List.nil_append] at this
        · intro hc
          rcases List.mem_append.1 hc with hc | hc
          · exact hval.noHash hc
          · exact (blank_not hw5 _ hc).2.1 rfl
      rw [e3]; rfl

end Verif.Props.Tg
