import Verif.Model.TgParser
import Verif.Spec.UcdFile
import Mathlib.Data.List.Induction
/-!
# C48: the table generator's UCD line parser
-/

namespace Verif.Props.Tg
open Verif.Tg Verif.Spec.UcdFile

/-! ## Bounds -/

theorem checkBounds_some (p q : Parsed) (h : checkBounds p = some q) : q = p ∧ p.first ≤ p.last ∧ p.last ≤ 0x10FFFF := by
  unfold checkBounds at h
  split at h
  · simp at h
  · rename_i hn
    simp at h
    exact ⟨h.symm, by omega, by omega⟩

theorem parseFields_some (c p m : Str) (q : Parsed) (h : parseFields c p m = some q) :
    q.first ≤ q.last ∧ q.last ≤ 0x10FFFF ∧ (q.isRange = false → q.first = q.last) := by
  unfold parseFields at h
  split at h
  · obtain ⟨rfl, h1, h2⟩ := checkBounds_some _ _ h
    exact ⟨h1, h2, by simp⟩
  · obtain ⟨rfl, h1, h2⟩ := checkBounds_some _ _ h
    exact ⟨h1, h2, fun _ => rfl⟩

/-- **C48, bounds.** Whatever a line of the file contains, an accepted line describes a non-empty interval of Unicode
codepoints; so no client loop over it can leave a table of 0x110000 entries. -/
theorem C48_bounds (line : Str) (q : Parsed) (h : parseStandardLine line = some q) :
    q.first ≤ q.last ∧ q.last ≤ 0x10FFFF ∧ (q.isRange = false → q.first = q.last) := by
  have body : ∀ l c, parseBody l c = some q → q.first ≤ q.last ∧ q.last ≤ 0x10FFFF ∧ (q.isRange = false → q.first = q.last) := by
    intro l c h
    unfold parseBody at h
    split at h
    · simp at h
    · exact parseFields_some _ _ _ _ h
  unfold parseStandardLine parseLine' at h
  split at h
  · simp at h
  · split at h
    · exact body _ _ h
    · exact body _ _ h

/-- … hence every entry loaded from a file is such an interval. -/
theorem C48_file_bounds (lines : List Str) : ∀ r ∈ genericEntries lines, r.first ≤ r.last ∧ r.last ≤ 0x10FFFF := by
  intro r hr
  simp only [genericEntries, List.mem_filterMap] at hr
  obtain ⟨l, -, hl⟩ := hr
  cases hp : parseStandardLine l with
  | none => rw [hp] at hl; simp at hl
  | some p =>
    rw [hp] at hl
    simp at hl
    have := C48_bounds l p hp
    rw [← hl]; exact ⟨this.1, this.2.1⟩

/-! ## Exactness on well-formed lines -/

theorem cutAt_none (c : Char) (s : Str) (h : c ∉ s) : cutAt c s = none := by
  induction s with
  | nil => rfl
  | cons x xs ih =>
    simp only [List.mem_cons, not_or] at h
    unfold cutAt
    rw [if_neg (fun e => h.1 e.symm), ih h.2]; rfl

theorem cutAt_append (c : Char) (a b : Str) (h : c ∉ a) : cutAt c (a ++ c :: b) = some (a, b) := by
  induction a with
  | nil => simp [cutAt]
  | cons x xs ih =>
    simp only [List.mem_cons, not_or] at h
    rw [List.cons_append]
    unfold cutAt
    rw [if_neg (fun e => h.1 e.symm), ih h.2]; rfl

theorem cutDots_none (s : Str) (h : '.' ∉ s) : cutDots s = none := by
  induction s with
  | nil => rfl
  | cons x xs ih =>
    simp only [List.mem_cons, not_or] at h
    cases xs with
    | nil => rfl
    | cons y ys =>
      unfold cutDots
      rw [if_neg (fun e => h.1 e.1.symm), ih h.2]; rfl

theorem cutDots_append (a b : Str) (h : '.' ∉ a) : cutDots (a ++ '.' :: '.' :: b) = some (a, b) := by
  induction a with
  | nil => simp [cutDots]
  | cons x xs ih =>
    simp only [List.mem_cons, not_or] at h
    have := ih h.2
    cases xs with
    | nil =>
      simp only [List.cons_append, List.nil_append] at this ⊢
      unfold cutDots
      rw [if_neg (fun e => h.1 e.1.symm), this]; rfl
    | cons y ys =>
      simp only [List.cons_append] at this ⊢
      unfold cutDots
      rw [if_neg (fun e => h.1 e.1.symm), this]; rfl

theorem digit_facts (c : Char) (v : Nat) (h : Digit c v) :
    hexVal c = some v ∧ isWs c = false ∧ c ≠ ' ' ∧ c ≠ '.' ∧ c ≠ ';' ∧ c ≠ '#' ∧ c ≠ '@' ∧ c ≠ '\r' := by
  have key : ∀ v, v < 16 → ∀ c, ("0123456789ABCDEF".toList[v]? = some c ∨ "0123456789abcdef".toList[v]? = some c) →
    hexVal c = some v ∧ isWs c = false ∧ c ≠ ' ' ∧ c ≠ '.' ∧ c ≠ ';' ∧ c ≠ '#' ∧ c ≠ '@' ∧ c ≠ '\r' := by
    intro v hv c h
    have : v = 0 ∨ v = 1 ∨ v = 2 ∨ v = 3 ∨ v = 4 ∨ v = 5 ∨ v = 6 ∨ v = 7 ∨ v = 8 ∨ v = 9 ∨ v = 10 ∨ v = 11 ∨ v = 12 ∨
      v = 13 ∨ v = 14 ∨ v = 15 := by omega
    rcases this with rfl|rfl|rfl|rfl|rfl|rfl|rfl|rfl|rfl|rfl|rfl|rfl|rfl|rfl|rfl|rfl <;>
      · rcases h with h | h <;>
        · simp at h
          subst h
          decide
  have hv : v < 16 := by
    rcases h with h | h
    · have := (List.getElem?_eq_some_iff.1 h).1; simpa using this
    · have := (List.getElem?_eq_some_iff.1 h).1; simpa using this
  exact key v hv c h

theorem hexOf_facts (s : Str) (n : Nat) (h : HexOf s n) :
    s ≠ [] ∧ hexNum s = n ∧ (∀ c ∈ s, isHex c = true ∧ isWs c = false ∧ c ≠ ' ' ∧ c ≠ '.' ∧ c ≠ ';' ∧ c ≠ '#' ∧ c ≠ '@' ∧
      c ≠ '\r') := by
  induction h with
  | one hd =>
    have := digit_facts _ _ hd
    refine ⟨by simp, by simp [hexNum, this.1], ?_⟩
    intro c hc
    simp at hc; subst hc
    exact ⟨by simp [isHex, this.1], this.2⟩
  | snoc hs hd ih =>
    have := digit_facts _ _ hd
    refine ⟨by simp, ?_, ?_⟩
    · have h1 := ih.2.1
      unfold hexNum at h1 ⊢
      rw [List.foldl_append, h1]; simp [this.1]
    · intro c hc
      rcases List.mem_append.1 hc with hc | hc
      · exact ih.2.2 c hc
      · simp at hc; subst hc
        exact ⟨by simp [isHex, this.1], this.2⟩

theorem dropWhile_all {p : Char → Bool} (w s : Str) (hw : ∀ c ∈ w, p c = true) (hs : ∀ c, s.head? = some c → p c = false) :
    (w ++ s).dropWhile p = s := by
  induction w with
  | nil =>
    cases s with
    | nil => rfl
    | cons x xs => simp [hs x rfl]
  | cons x xs ih =>
    rw [List.cons_append, List.dropWhile_cons_of_pos (hw x (by simp))]
    exact ih fun c hc => hw c (by simp [hc])

theorem trimBy_append (p : Char → Bool) (w s w' : Str) (hw : ∀ c ∈ w, p c = true) (hw' : ∀ c ∈ w', p c = true)
    (h1 : ∀ c, s.head? = some c → p c = false) (h2 : ∀ c, s.getLast? = some c → p c = false) :
    trimBy p (w ++ s ++ w') = s := by
  unfold trimBy
  cases s with
  | nil =>
    have : (w ++ [] ++ w').dropWhile p = [] := by
      rw [List.append_nil]
      have := dropWhile_all (p := p) (w ++ w') [] (by
        intro c hc
        rcases List.mem_append.1 hc with h | h
        · exact hw c h
        · exact hw' c h) (by simp)
      simpa using this
    rw [this]; rfl
  | cons x xs =>
    rw [List.append_assoc, dropWhile_all w _ hw (by simpa using h1), List.reverse_append]
    rw [dropWhile_all w'.reverse _ (by simpa using hw') (by
      intro c hc
      rw [List.head?_reverse] at hc
      exact h2 c hc)]
    simp

theorem blank_ws {w : Str} (h : Blank w) : ∀ c ∈ w, isWs c = true := by
  intro c hc
  rcases h c hc with rfl | rfl <;> decide

theorem blank_not {w : Str} (h : Blank w) : ∀ c ∈ w, c ≠ ';' ∧ c ≠ '#' ∧ c ≠ '@' ∧ c ≠ '\r' ∧ c ≠ '.' := by
  intro c hc
  rcases h c hc with rfl | rfl <;> decide

theorem parseCodepoint_hex (s : Str) (n : Nat) (h : HexOf s n) (hn : n < 2 ^ 32) : parseCodepoint s = n := by
  obtain ⟨h0, h1, h2⟩ := hexOf_facts s n h
  have ht : trimBy (· = ' ') s = s := by
    have := trimBy_append (· = ' ') [] s [] (by simp) (by simp)
      (fun c hc => by simpa using (h2 c (List.mem_of_mem_head? hc)).2.2.1)
      (fun c hc => by simpa using (h2 c (List.mem_of_getLast? hc)).2.2.1)
    simpa using this
  have htw : s.takeWhile isHex = s := by
    have := List.takeWhile_append_of_pos (p := isHex) (l₁ := s) (l₂ := []) (fun c hc => (h2 c hc).1)
    simpa using this
  unfold parseCodepoint fromCharsHex
  rw [ht, htw, h1, if_pos hn]

theorem parseBody_eq (cps w₁ w₂ w₃ value w₄ comment : Str) (hw1 : Blank w₁) (hw2 : Blank w₂) (hw3 : Blank w₃) (hw4 : Blank w₄)
    (hv : Value value) (hc : ∀ c ∈ cps, isWs c = false ∧ c ≠ ';') :
    parseBody (w₁ ++ cps ++ w₂ ++ [';'] ++ w₃ ++ value ++ w₄) comment = parseFields cps value comment := by
  unfold parseBody
  have e : w₁ ++ cps ++ w₂ ++ [';'] ++ w₃ ++ value ++ w₄ = (w₁ ++ cps ++ w₂) ++ ';' :: (w₃ ++ value ++ w₄) := by simp
  rw [e, cutAt_append]
  · simp only
    have t1 : trim (w₁ ++ cps ++ w₂) = cps :=
      trimBy_append isWs w₁ cps w₂ (blank_ws hw1) (blank_ws hw2)
        (fun c h => (hc c (List.mem_of_mem_head? h)).1) (fun c h => (hc c (List.mem_of_getLast? h)).1)
    have t2 : trim (w₃ ++ value ++ w₄) = value :=
      trimBy_append isWs w₃ value w₄ (blank_ws hw3) (blank_ws hw4)
        (fun c h => by have := hv.head c h; simp [isWs, this])
        (fun c h => by have := hv.last c h; simp [isWs, this])
    rw [t1, t2]
  · simp only [List.mem_append, not_or]
    exact ⟨⟨fun h => (blank_not hw1 _ h).1 rfl, fun h => (hc _ h).2 rfl⟩, fun h => (blank_not hw2 _ h).1 rfl⟩

/-- The part of `parseStandardLine` around the body: CR, comment. -/
theorem parse_shape (body tail stored : Str) (q : Option Parsed) (hb : '#' ∉ body) (hb' : body.head? ≠ some '@')
    (hne : body ≠ []) (hcr : body.getLast? ≠ some '\r') (ht : Tail tail) (hs : Stored (body ++ tail) stored)
    (hq : ∀ c, (parseBody body c).map (fun p => { p with comment := [] }) = q) :
    (parseStandardLine stored).map (fun p => { p with comment := [] }) = q := by
  have core : ∀ t, Tail t → (parseLine' (body ++ t)).map (fun p => { p with comment := [] }) = q := by
    intro t ht
    obtain ⟨x, xs, rfl⟩ : ∃ x xs, body = x :: xs := by
      cases body with
      | nil => exact absurd rfl hne
      | cons x xs => exact ⟨x, xs, rfl⟩
    have hx : x ≠ '#' := fun h => hb (by simp [h])
    have hx' : x ≠ '@' := fun h => hb' (by simp [h])
    unfold parseLine'
    rw [if_neg (by simp [hx, hx'])]
    rcases ht with rfl | ⟨t', rfl⟩
    · rw [List.append_nil, cutAt_none '#' _ hb]; exact hq []
    · rw [cutAt_append '#' _ _ hb]; exact hq (trim t')
  unfold parseStandardLine
  have strip : ∃ t, Tail t ∧ stripCr stored = body ++ t := by
    unfold stripCr
    rcases hs with rfl | rfl
    · rcases ht with rfl | ⟨t', rfl⟩
      · refine ⟨[], Or.inl rfl, ?_⟩
        rw [List.append_nil, if_neg hcr]
      · by_cases h : (body ++ '#' :: t').getLast? = some '\r'
        · rw [if_pos h]
          cases t' using List.reverseRecOn with
          | nil => simp at h
          | append_singleton t y =>
            refine ⟨'#' :: t, Or.inr ⟨t, rfl⟩, ?_⟩
            rw [show body ++ '#' :: (t ++ [y]) = (body ++ '#' :: t) ++ [y] by simp, List.dropLast_concat]
        · rw [if_neg h]
          exact ⟨'#' :: t', Or.inr ⟨t', rfl⟩, rfl⟩
    · refine ⟨tail, ht, ?_⟩
      rw [if_pos (by simp), List.dropLast_concat]
  obtain ⟨t, ht', e⟩ := strip
  rw [e]; exact core t ht'

theorem body_facts (w₁ cps w₂ w₃ value w₄ : Str) (hw1 : Blank w₁) (hw2 : Blank w₂) (hw3 : Blank w₃) (hw4 : Blank w₄)
    (hv : Value value) (hne : cps ≠ []) (hc : ∀ c ∈ cps, c ≠ '#' ∧ c ≠ '@') :
    '#' ∉ w₁ ++ cps ++ w₂ ++ [';'] ++ w₃ ++ value ++ w₄ ∧ (w₁ ++ cps ++ w₂ ++ [';'] ++ w₃ ++ value ++ w₄).head? ≠ some '@' ∧
    w₁ ++ cps ++ w₂ ++ [';'] ++ w₃ ++ value ++ w₄ ≠ [] ∧
    (w₁ ++ cps ++ w₂ ++ [';'] ++ w₃ ++ value ++ w₄).getLast? ≠ some '\r' := by
  refine ⟨?_, ?_, by simp, ?_⟩
  · simp only [List.mem_append, not_or]
    exact ⟨⟨⟨⟨⟨⟨fun h => (blank_not hw1 _ h).2.1 rfl, fun h => (hc _ h).1 rfl⟩, fun h => (blank_not hw2 _ h).2.1 rfl⟩,
      by decide⟩, fun h => (blank_not hw3 _ h).2.1 rfl⟩, hv.noHash⟩, fun h => (blank_not hw4 _ h).2.1 rfl⟩
  · intro h
    cases w₁ with
    | nil =>
      cases cps with
      | nil => exact hne rfl
      | cons x xs => simp at h; exact (hc x (by simp)).2 h
    | cons x xs => simp at h; exact (blank_not hw1 x (by simp)).2.2.1 h
  · intro h
    cases w₄ using List.reverseRecOn with
    | append_singleton w x =>
      rw [← List.append_assoc, List.getLast?_concat] at h
      injection h with h
      exact (blank_not hw4 x (by simp)).2.2.2.1 h
    | nil =>
      cases hvl : value.getLast? with
      | some x =>
        rw [List.append_nil, List.getLast?_append, hvl] at h
        simp at h
        exact (hv.last x hvl).2.2.1 h
      | none =>
        rw [List.getLast?_eq_none_iff] at hvl
        subst hvl
        cases w₃ using List.reverseRecOn with
        | append_singleton w x =>
          rw [List.append_nil, List.append_nil, ← List.append_assoc, List.getLast?_concat] at h
          injection h with h
          exact (blank_not hw3 x (by simp)).2.2.2.1 h
        | nil => simp [List.getLast?_append] at h

/-- The range form of a data line. -/
theorem parse_range {w₁ h₁ h₂ w₂ w₃ value w₄ tail stored : Str} {a b : Nat} (hw1 : Blank w₁) (hh1 : HexOf h₁ a)
    (hh2 : HexOf h₂ b) (hw2 : Blank w₂) (hw3 : Blank w₃) (hv : Value value) (hw4 : Blank w₄) (ht : Tail tail)
    (hs : Stored (w₁ ++ h₁ ++ ['.', '.'] ++ h₂ ++ w₂ ++ [';'] ++ w₃ ++ value ++ w₄ ++ tail) stored)
    (ha : a < 2 ^ 32) (hb : b < 2 ^ 32) :
    (parseStandardLine stored).map (fun p => { p with comment := [] }) =
      if a ≤ b ∧ b ≤ 0x10FFFF then some ⟨a, b, true, value, []⟩ else none := by
  obtain ⟨n1, -, f1⟩ := hexOf_facts _ _ hh1
  obtain ⟨n2, -, f2⟩ := hexOf_facts _ _ hh2
  have hc : ∀ c ∈ h₁ ++ ['.', '.'] ++ h₂, (isWs c = false ∧ c ≠ ';') ∧ (c ≠ '#' ∧ c ≠ '@') := by
    intro c hc
    simp only [List.mem_append, List.mem_cons, List.not_mem_nil, or_false] at hc
    rcases hc with (hc | hc) | hc
    · have := f1 c hc; exact ⟨⟨this.2.1, this.2.2.2.2.1⟩, this.2.2.2.2.2.1, this.2.2.2.2.2.2.1⟩
    · rcases hc with rfl | rfl <;> decide
    · have := f2 c hc; exact ⟨⟨this.2.1, this.2.2.2.2.1⟩, this.2.2.2.2.2.1, this.2.2.2.2.2.2.1⟩
  obtain ⟨b1, b2, b3, b4⟩ := body_facts w₁ (h₁ ++ ['.', '.'] ++ h₂) w₂ w₃ value w₄ hw1 hw2 hw3 hw4 hv (by simp)
    (fun c h => (hc c h).2)
  refine parse_shape _ tail stored _ b1 b2 b3 b4 ht (by simpa using hs) ?_
  intro cm
  rw [parseBody_eq _ _ _ _ _ _ _ hw1 hw2 hw3 hw4 hv (fun c h => (hc c h).1)]
  unfold parseFields
  rw [show h₁ ++ ['.', '.'] ++ h₂ = h₁ ++ '.' :: '.' :: h₂ by simp,
    cutDots_append _ _ (fun h => (f1 _ h).2.2.2.1 rfl)]
  simp only
  rw [parseCodepoint_hex _ _ hh1 ha, parseCodepoint_hex _ _ hh2 hb]
  unfold checkBounds
  by_cases hcond : a ≤ b ∧ b ≤ 0x10FFFF
  · rw [if_pos hcond, if_neg (show ¬ (a > 0x10FFFF ∨ b > 0x10FFFF ∨ b < a) by omega)]; rfl
  · rw [if_neg hcond, if_pos (show a > 0x10FFFF ∨ b > 0x10FFFF ∨ b < a by omega)]; rfl

/-- **C48, exactness.** Every well-formed data line (with any amount of blanks, any comment, LF or CRLF line ends) is
parsed to exactly the interval and value it states — when that interval is a valid one; otherwise the line is
rejected. -/
theorem C48_line_exact (line stored value : Str) (a b : Nat) (h : DataLine line a b value) (hs : Stored line stored)
    (ha : a < 2 ^ 32) (hb : b < 2 ^ 32) :
    (parseStandardLine stored).map (fun p => (p.first, p.last, p.property)) =
      if a ≤ b ∧ b ≤ 0x10FFFF then some (a, b, value) else none := by
  suffices hh : ∃ r, (parseStandardLine stored).map (fun p => { p with comment := [] }) =
      if a ≤ b ∧ b ≤ 0x10FFFF then some ⟨a, b, r, value, []⟩ else none by
    obtain ⟨r, hr⟩ := hh
    cases hp : parseStandardLine stored with
    | none =>
      rw [hp] at hr
      by_cases hc : a ≤ b ∧ b ≤ 0x10FFFF
      · rw [if_pos hc] at hr; simp at hr
      · rw [if_neg hc]; rfl
    | some p =>
      rw [hp] at hr
      by_cases hc : a ≤ b ∧ b ≤ 0x10FFFF
      · rw [if_pos hc] at hr ⊢
        simp at hr ⊢
        exact ⟨hr.1, hr.2.1, hr.2.2.2⟩
      · rw [if_neg hc] at hr; simp at hr
  cases h with
  | @range w₁ h₁ h₂ w₂ w₃ value w₄ tail a b hw1 hh1 hh2 hw2 hw3 hv hw4 ht =>
    exact ⟨true, parse_range hw1 hh1 hh2 hw2 hw3 hv hw4 ht hs ha hb⟩
  | @single w₁ h w₂ w₃ value w₄ tail a hw1 hh hw2 hw3 hv hw4 ht =>
    obtain ⟨n1, -, f1⟩ := hexOf_facts _ _ hh
    obtain ⟨b1, b2, b3, b4⟩ := body_facts w₁ h w₂ w₃ value w₄ hw1 hw2 hw3 hw4 hv n1
      (fun c hc => ⟨(f1 c hc).2.2.2.2.2.1, (f1 c hc).2.2.2.2.2.2.1⟩)
    refine ⟨false, parse_shape _ tail stored _ b1 b2 b3 b4 ht hs ?_⟩
    intro cm
    rw [parseBody_eq _ _ _ _ _ _ _ hw1 hw2 hw3 hw4 hv (fun c hc => ⟨(f1 c hc).2.1, (f1 c hc).2.2.2.2.1⟩)]
    unfold parseFields
    rw [cutDots_none _ (fun h => (f1 _ h).2.2.2.1 rfl)]
    simp only
    rw [parseCodepoint_hex _ _ hh ha]
    unfold checkBounds
    by_cases hcond : a ≤ a ∧ a ≤ 0x10FFFF
    · rw [if_pos hcond, if_neg (show ¬ (a > 0x10FFFF ∨ a > 0x10FFFF ∨ a < a) by omega)]; rfl
    · rw [if_neg hcond, if_pos (show a > 0x10FFFF ∨ a > 0x10FFFF ∨ a < a by omega)]; rfl

/-- **C48, lines without data** are skipped, whatever they contain. -/
theorem C48_skips (line stored : Str) (h : NoData line) (hs : Stored line stored) : parseStandardLine stored = none := by
  have hd : ∀ c t, (c = '#' ∨ c = '@') → Stored (c :: t) stored → parseStandardLine stored = none := by
    intro c t hc hs
    have : ∃ t', stripCr stored = c :: t' := by
      unfold stripCr
      rcases hs with rfl | rfl
      · split
        · cases t using List.reverseRecOn with
          | nil => rename_i h; rcases hc with rfl | rfl <;> simp at h
          | append_singleton t y =>
            refine ⟨t, ?_⟩
            rw [show c :: (t ++ [y]) = (c :: t) ++ [y] by simp, List.dropLast_concat]
        · exact ⟨t, rfl⟩
      · rw [if_pos (List.getLast?_concat (l := c :: t)), List.dropLast_concat]; exact ⟨t, rfl⟩
    obtain ⟨t', e⟩ := this
    unfold parseStandardLine
    rw [e]
    unfold parseLine'
    rw [if_pos (by rcases hc with rfl | rfl <;> simp)]
  rcases h with ⟨t, rfl⟩ | ⟨t, rfl⟩ | h
  · exact hd '#' t (Or.inl rfl) hs
  · exact hd '@' t (Or.inr rfl) hs
  · have : stripCr stored = line := by
      unfold stripCr
      rcases hs with rfl | rfl
      · rw [if_neg]
        intro e
        exact (blank_not h _ (List.mem_of_getLast? e)).2.2.2.1 rfl
      · rw [if_pos (by simp), List.dropLast_concat]
    unfold parseStandardLine
    rw [this]
    unfold parseLine'
    split
    · rfl
    · rw [cutAt_none '#' _ (fun e => (blank_not h _ e).2.1 rfl)]
      unfold parseBody
      rw [cutAt_none ';' _ (fun e => (blank_not h _ e).1 rfl)]

/-- The lines of a file and the assignments they make, in order. -/
inductive FileOf : List Str → List (Nat × Nat × Str) → Prop
  | nil : FileOf [] []
  | skip {line stored lines es} : NoData line → Stored line stored → FileOf lines es → FileOf (stored :: lines) es
  | data {line stored lines es a b value} : DataLine line a b value → Stored line stored → a ≤ b → b ≤ 0x10FFFF →
      FileOf lines es → FileOf (stored :: lines) ((a, b, value) :: es)

/-- **C48, whole files.** Loading a well-formed file yields exactly its assignments (the value reduced to its first
word). -/
theorem C48_file_exact (lines : List Str) (es : List (Nat × Nat × Str)) (h : FileOf lines es) :
    genericEntries lines = es.map fun e => ⟨e.1, e.2.1, firstWord e.2.2⟩ := by
  induction h with
  | nil => rfl
  | skip hn hs _ ih =>
    unfold genericEntries at ih ⊢
    rw [List.filterMap_cons, C48_skips _ _ hn hs]; exact ih
  | @data line stored lines es a b value hd hs hab hb _ ih =>
    have := C48_line_exact _ _ _ _ _ hd hs (by omega) (by omega)
    rw [if_pos ⟨hab, hb⟩] at this
    unfold genericEntries at ih ⊢
    rw [List.filterMap_cons]
    cases hp : parseStandardLine stored with
    | none => rw [hp] at this; simp at this
    | some p =>
      rw [hp] at this
      simp at this
      simp only [Option.map_some, List.map_cons, this.1, this.2.1, this.2.2]
      rw [ih]

/-- A single word is its own first word; further words after a blank or semicolon are cut off. -/
theorem C48_first_word (w rest : Str) (hw : ∀ c ∈ w, isWs c = false ∧ c ≠ ';') (hne : w ≠ [])
    (hr : rest = [] ∨ ∃ s t, rest = s :: t ∧ (s = ' ' ∨ s = '\t' ∨ s = ';') ∧ (∀ c, rest.getLast? = some c → isWs c = false)) :
    firstWord (w ++ rest) = w := by
  have hc : ∀ c ∈ w, (!(c = ' ' || c = '\t' || c = ';')) = true := by
    intro c h
    have := hw c h
    have h1 : c ≠ ' ' := fun e => by rw [e] at this; exact absurd this.1 (by decide)
    have h2 : c ≠ '\t' := fun e => by rw [e] at this; exact absurd this.1 (by decide)
    simp [h1, h2, this.2]
  have ht : trim (w ++ rest) = w ++ rest := by
    have := trimBy_append isWs [] (w ++ rest) [] (by simp) (by simp)
      (fun c h => by
        cases w with
        | nil => exact absurd rfl hne
        | cons x xs => simp at h; subst h; exact (hw x (by simp)).1)
      (fun c h => by
        rcases hr with rfl | ⟨s, t, rfl, -, h2⟩
        · rw [List.append_nil] at h
          exact (hw c (List.mem_of_getLast? h)).1
        · apply h2
          rw [List.getLast?_append] at h
          cases hl : (s :: t).getLast? with
          | none => simp at hl
          | some y => rw [hl] at h; simpa using h)
    simpa [trim] using this
  unfold firstWord
  rw [ht, List.takeWhile_append_of_pos hc]
  rcases hr with rfl | ⟨s, t, rfl, h1, -⟩
  · simp
  · rcases h1 with rfl | rfl | rfl <;> simp

/-- A real line of `Scripts.txt`, as stored with CRLF line ends. -/
example : ∃ line, DataLine line 0x41 0x5A "Latin".toList ∧
    Stored line "0041..005A    ; Latin # L&  [26] LATIN CAPITAL LETTER A..LATIN CAPITAL LETTER Z\r".toList := by
  refine ⟨_, DataLine.range (w₁ := []) (h₁ := "0041".toList) (h₂ := "005A".toList) (w₂ := "    ".toList) (w₃ := " ".toList)
    (w₄ := " ".toList) (tail := "# L&  [26] LATIN CAPITAL LETTER A..LATIN CAPITAL LETTER Z".toList)
    (by simp [Blank]) ?_ ?_ (by simp [Blank]) (by simp [Blank]) ⟨by decide, by simp, by simp⟩ (by simp [Blank])
    (Or.inr ⟨_, rfl⟩), Or.inr rfl⟩
  · exact (((HexOf.one (v := 0) (Or.inl rfl)).snoc (v := 0) (Or.inl rfl)).snoc (v := 4) (Or.inl rfl)).snoc (c := '1') (v := 1)
      (Or.inl rfl)
  · exact (((HexOf.one (v := 0) (Or.inl rfl)).snoc (v := 0) (Or.inl rfl)).snoc (v := 5) (Or.inl rfl)).snoc (c := 'A') (v := 10)
      (Or.inl rfl)

end Verif.Props.Tg
