import Verif.Props.TgParser
import Verif.Model.TgCaseNorm
import Verif.Spec.UcdFields
import Verif.Props.Tables

/-! Maps keyed by codepoints, and the parsers of the multi-field files. -/

namespace Verif.Props.Tg
open Verif.Tg Verif.Spec.UcdFile

/-! ## Maps -/

section Maps
variable {V : Type}

theorem nFind_nil (k : Nat) : nFind ([] : List (Nat × V)) k = none := rfl

theorem nFind_cons (e : Nat × V) (m : List (Nat × V)) (k : Nat) :
    nFind (e :: m) k = if e.1 = k then some e.2 else nFind m k := by
  unfold nFind
  rw [List.find?_cons]
  by_cases h : e.1 = k
  · simp [h]
  · simp [h]

theorem nFind_nSet (k c : Nat) (v : V) (m : List (Nat × V)) :
    nFind (nSet k v m) c = if k = c then some v else nFind m c := by
  induction m with
  | nil => simp [nSet, nFind_cons, nFind_nil]
  | cons e m ih =>
    unfold nSet
    by_cases h1 : k = e.1
    · rw [if_pos h1, nFind_cons, nFind_cons]
      by_cases h2 : k = c
      · simp [h2]
      · rw [if_neg h2, if_neg h2, if_neg (by omega)]
    · rw [if_neg h1]
      by_cases h2 : k < e.1
      · rw [if_pos h2, nFind_cons]
      · rw [if_neg h2, nFind_cons, ih, nFind_cons]
        by_cases h3 : e.1 = c
        · rw [if_pos h3, if_neg (by omega), if_pos h3]
        · rw [if_neg h3, if_neg h3]

theorem mem_nSet {k : Nat} {v : V} {m : List (Nat × V)} {e : Nat × V} (h : e ∈ nSet k v m) : e = (k, v) ∨ e ∈ m := by
  induction m with
  | nil => simpa [nSet] using h
  | cons x m ih =>
    unfold nSet at h
    split at h
    · rcases List.mem_cons.1 h with h | h
      · exact Or.inl h
      · exact Or.inr (by simp [h])
    · split at h
      · rcases List.mem_cons.1 h with h | h
        · exact Or.inl h
        · exact Or.inr h
      · rcases List.mem_cons.1 h with h | h
        · exact Or.inr (by simp [h])
        · rcases ih h with h | h
          · exact Or.inl h
          · exact Or.inr (by simp [h])

theorem sorted_nSet (k : Nat) (v : V) (m : List (Nat × V)) (h : Tables.Sorted (·.1) m) :
    Tables.Sorted (·.1) (nSet k v m) := by
  induction m with
  | nil => simp [nSet, Tables.Sorted]
  | cons e m ih =>
    obtain ⟨h1, h2⟩ := List.pairwise_cons.1 h
    unfold nSet
    by_cases hk : k = e.1
    · rw [if_pos hk]
      exact List.pairwise_cons.2 ⟨fun x hx => by have := h1 x hx; dsimp only at this ⊢; omega, h2⟩
    · rw [if_neg hk]
      by_cases hl : k < e.1
      · rw [if_pos hl]
        refine List.pairwise_cons.2 ⟨fun x hx => ?_, h⟩
        rcases List.mem_cons.1 hx with rfl | hx
        · exact hl
        · have := h1 x hx; dsimp only at this ⊢; omega
      · rw [if_neg hl]
        refine List.pairwise_cons.2 ⟨fun x hx => ?_, ih h2⟩
        rcases mem_nSet hx with rfl | hx
        · dsimp only; omega
        · exact h1 x hx

theorem mem_iff_nFind (m : List (Nat × V)) (h : Tables.Sorted (·.1) m) (k : Nat) (v : V) : (k, v) ∈ m ↔ nFind m k = some v := by
  induction m with
  | nil => simp [nFind_nil]
  | cons e m ih =>
    obtain ⟨h1, h2⟩ := List.pairwise_cons.1 h
    rw [nFind_cons, List.mem_cons, ih h2]
    by_cases hk : e.1 = k
    · rw [if_pos hk]
      constructor
      · rintro (rfl | h3)
        · rfl
        · have := h1 _ ((ih h2).2 h3)
          dsimp only at this; omega
      · intro h3; exact Or.inl (Prod.ext hk.symm (Option.some.inj h3).symm)
    · rw [if_neg hk]
      constructor
      · rintro (rfl | h3)
        · exact absurd rfl hk
        · exact h3
      · exact Or.inr

theorem nFind_nSetOpt (k c : Nat) (v : Option V) (m : List (Nat × V)) :
    nFind (nSetOpt k v m) c = if k = c ∧ v.isSome then v else nFind m c := by
  cases v with
  | none => simp [nSetOpt]
  | some x => simp [nSetOpt, nFind_nSet]

theorem sorted_nSetOpt (k : Nat) (v : Option V) (m : List (Nat × V)) (h : Tables.Sorted (·.1) m) :
    Tables.Sorted (·.1) (nSetOpt k v m) := by
  cases v with
  | none => exact h
  | some x => exact sorted_nSet k x m h

/-- What a map built by assigning `val e` to `key e`, entry after entry, holds. -/
theorem nFind_build {E : Type} (key : E → Nat) (val : E → Option V) (es : List E) (m : List (Nat × V)) (c : Nat) :
    (∀ x, nFind (es.foldl (fun m e => nSetOpt (key e) (val e) m) m) c = some x →
      (∃ e ∈ es, key e = c ∧ val e = some x) ∨ nFind m c = some x) ∧
    (nFind (es.foldl (fun m e => nSetOpt (key e) (val e) m) m) c = none →
      (∀ e ∈ es, key e = c → val e = none) ∧ nFind m c = none) := by
  induction es generalizing m with
  | nil => exact ⟨fun x h => Or.inr h, fun h => ⟨by simp, h⟩⟩
  | cons e es ih =>
    obtain ⟨h1, h2⟩ := ih (nSetOpt (key e) (val e) m)
    simp only [List.foldl_cons]
    constructor
    · intro x hx
      rcases h1 x hx with ⟨e', he', h⟩ | h
      · exact Or.inl ⟨e', by simp [he'], h⟩
      · rw [nFind_nSetOpt] at h
        split at h
        · rename_i hc; exact Or.inl ⟨e, by simp, hc.1, h⟩
        · exact Or.inr h
    · intro hn
      obtain ⟨h3, h4⟩ := h2 hn
      rw [nFind_nSetOpt] at h4
      split at h4
      · rename_i hc; rw [h4] at hc; simp at hc
      · rename_i hc
        refine ⟨fun e' he' hk => ?_, h4⟩
        rcases List.mem_cons.1 he' with rfl | he'
        · cases hv : val e' with
          | none => rfl
          | some x => exact absurd ⟨hk, by simp [hv]⟩ hc
        · exact h3 e' he' hk

theorem sorted_build {E : Type} (key : E → Nat) (val : E → Option V) (es : List E) (m : List (Nat × V))
    (h : Tables.Sorted (·.1) m) : Tables.Sorted (·.1) (es.foldl (fun m e => nSetOpt (key e) (val e) m) m) := by
  induction es generalizing m with
  | nil => exact h
  | cons e es ih => exact ih _ (sorted_nSetOpt _ _ _ h)

/-- The map built from entries that do not contradict each other holds exactly what they say. -/
theorem nFind_build_iff {E : Type} (key : E → Nat) (val : E → Option V) (es : List E)
    (hc : ∀ e ∈ es, ∀ e' ∈ es, ∀ x y, key e = key e' → val e = some x → val e' = some y → x = y) (c : Nat) (x : V) :
    nFind (es.foldl (fun m e => nSetOpt (key e) (val e) m) []) c = some x ↔ ∃ e ∈ es, key e = c ∧ val e = some x := by
  obtain ⟨h1, h2⟩ := nFind_build key val es ([] : List (Nat × V)) c
  constructor
  · intro h
    rcases h1 x h with h | h
    · exact h
    · simp [nFind_nil] at h
  · rintro ⟨e, he, hk, hv⟩
    cases hf : nFind (es.foldl (fun m e => nSetOpt (key e) (val e) m) []) c with
    | none => rw [(h2 hf).1 e he hk] at hv; simp at hv
    | some y =>
      rcases h1 y hf with ⟨e', he', hk', hv'⟩ | h
      · rw [hc e he e' he' x y (hk.trans hk'.symm) hv hv']
      · simp [nFind_nil] at h

end Maps

/-! ## Sets -/

theorem mem_nInsert (k x : Nat) (s : List Nat) : x ∈ nInsert k s ↔ x = k ∨ x ∈ s := by
  induction s with
  | nil => simp [nInsert]
  | cons y s ih =>
    unfold nInsert
    by_cases h : k = y
    · rw [if_pos h]; simp [h]
    · rw [if_neg h]
      by_cases h2 : k < y
      · rw [if_pos h2]; simp
      · rw [if_neg h2]; simp only [List.mem_cons, ih]; tauto

theorem sorted_nInsert (k : Nat) (s : List Nat) (h : Tables.Sorted id s) : Tables.Sorted id (nInsert k s) := by
  induction s with
  | nil => simp [nInsert, Tables.Sorted]
  | cons y s ih =>
    obtain ⟨h1, h2⟩ := List.pairwise_cons.1 h
    unfold nInsert
    by_cases hk : k = y
    · rw [if_pos hk]; exact h
    · rw [if_neg hk]
      by_cases hl : k < y
      · rw [if_pos hl]
        refine List.pairwise_cons.2 ⟨fun x hx => ?_, h⟩
        rcases List.mem_cons.1 hx with rfl | hx
        · exact hl
        · have := h1 x hx; simp only [id] at this ⊢; omega
      · rw [if_neg hl]
        refine List.pairwise_cons.2 ⟨fun x hx => ?_, ih h2⟩
        rcases (mem_nInsert k x s).1 hx with rfl | hx
        · simp only [id]; omega
        · exact h1 x hx

theorem mem_insertAll (cps s : List Nat) (x : Nat) : x ∈ insertAll cps s ↔ x ∈ cps ∨ x ∈ s := by
  unfold insertAll
  induction cps generalizing s with
  | nil => simp
  | cons c cps ih => simp only [List.foldl_cons, ih, mem_nInsert, List.mem_cons]; tauto

theorem sorted_insertAll (cps s : List Nat) (h : Tables.Sorted id s) : Tables.Sorted id (insertAll cps s) := by
  unfold insertAll
  induction cps generalizing s with
  | nil => exact h
  | cons c cps ih => exact ih _ (sorted_nInsert c s h)

theorem mem_cpRange (a b x : Nat) : x ∈ cpRange a b ↔ a ≤ x ∧ x ≤ b := by
  unfold cpRange
  simp only [List.mem_map, List.mem_range]
  constructor
  · rintro ⟨i, hi, rfl⟩; omega
  · intro h; exact ⟨x - a, by omega, by omega⟩

/-! ## Splitting -/

theorem splitFields_ne (s : Str) : splitFields s ≠ [] := by
  cases s with
  | nil => simp [splitFields]
  | cons c cs =>
    unfold splitFields
    split
    · simp
    · split <;> simp

theorem splitFields_append (f rest : Str) (h : ';' ∉ f) : splitFields (f ++ ';' :: rest) = f :: splitFields rest := by
  induction f with
  | nil => simp [splitFields]
  | cons c f ih =>
    have hc : c ≠ ';' := fun e => h (by simp [e])
    rw [List.cons_append, splitFields, if_neg hc, ih (fun e => h (by simp [e]))]

theorem splitFields_last (f : Str) (h : ';' ∉ f) : splitFields f = [f] := by
  induction f with
  | nil => rfl
  | cons c f ih =>
    have hc : c ≠ ';' := fun e => h (by simp [e])
    rw [splitFields, if_neg hc, ih (fun e => h (by simp [e]))]

theorem splitFields_join (fs : List Str) (hne : fs ≠ []) (h : ∀ f ∈ fs, ';' ∉ f) : splitFields (join fs) = fs := by
  induction fs with
  | nil => exact absurd rfl hne
  | cons f fs ih =>
    cases fs with
    | nil => exact splitFields_last f (h f (by simp))
    | cons g r =>
      show splitFields (f ++ ';' :: join (g :: r)) = _
      rw [splitFields_append _ _ (h f (by simp)), ih (by simp) (fun x hx => h x (by simp [hx]))]

/-! ## Trimming -/

theorem trim_id (s : Str) (hh : ∀ c, s.head? = some c → isWs c = false) (hl : ∀ c, s.getLast? = some c → isWs c = false) :
    trim s = s := by
  have := trimBy_append isWs [] s [] (by simp) (by simp) hh hl
  simpa [trim] using this

theorem trim_cr (s : Str) (hh : ∀ c, s.head? = some c → isWs c = false) (hl : ∀ c, s.getLast? = some c → isWs c = false) :
    trim (s ++ ['\r']) = s := by
  have := trimBy_append isWs [] s ['\r'] (by simp) (by simp [isWs]) hh hl
  simpa [trim] using this

theorem trim_stored {s stored : Str} (hst : Stored s stored) (hh : ∀ c, s.head? = some c → isWs c = false)
    (hl : ∀ c, s.getLast? = some c → isWs c = false) : trim stored = s := by
  rcases hst with rfl | rfl
  · exact trim_id _ hh hl
  · exact trim_cr s hh hl

theorem takeWhile_all {p : Char → Bool} (s : Str) : ∀ c ∈ s.takeWhile p, p c = true := by
  induction s with
  | nil => simp
  | cons x xs ih =>
    intro c hc
    by_cases hx : p x = true
    · rw [List.takeWhile_cons_of_pos hx] at hc
      rcases List.mem_cons.1 hc with rfl | hc
      · exact hx
      · exact ih c hc
    · rw [List.takeWhile_cons_of_neg hx] at hc; simp at hc

/-- Trimming a line that has a non-blank character keeps everything up to it. -/
theorem trim_prefix (p rest : Str) (x : Char) (hx : isWs x = false) (hh : ∀ c, (p ++ [x]).head? = some c → isWs c = false) :
    ∃ rest', trim (p ++ x :: rest) = p ++ x :: rest' ∧ ∃ w, rest = rest' ++ w ∧ ∀ c ∈ w, isWs c = true := by
  have h1 : (p ++ x :: rest).dropWhile isWs = p ++ x :: rest := by
    cases p with
    | nil => simp [hx]
    | cons y p => rw [List.cons_append, List.dropWhile_cons_of_neg]; simpa using hh y (by simp)
  unfold trim trimBy
  rw [h1, List.reverse_append, List.reverse_cons]
  have h2 : ((rest.reverse ++ [x] ++ p.reverse).dropWhile isWs) = rest.reverse.dropWhile isWs ++ [x] ++ p.reverse := by
    generalize rest.reverse = r
    induction r with
    | nil => simp [hx]
    | cons y r ih =>
      by_cases hy : isWs y = true
      · simp only [List.cons_append, List.dropWhile_cons_of_pos hy]; exact ih
      · simp only [List.cons_append, List.dropWhile_cons_of_neg hy]
  rw [h2]
  refine ⟨(rest.reverse.dropWhile isWs).reverse, by simp, (rest.reverse.takeWhile isWs).reverse, ?_, ?_⟩
  · rw [← List.reverse_append, List.takeWhile_append_dropWhile, List.reverse_reverse]
  · intro c hc
    exact takeWhile_all _ c (List.mem_reverse.1 hc)

/-! ## Numerals -/

theorem hex_not_lt {s : Str} {n : Nat} (h : HexOf s n) : ∀ c ∈ s, c ≠ '<' := by
  intro c hc e
  have := ((hexOf_facts s n h).2.2 c hc).1
  subst e
  revert this; decide

theorem spaces_all {w : Str} (h : Spaces w) : ∀ c ∈ w, decide (c = ' ') = true := fun c hc => by simp [h c hc]

theorem loop_spaces (fuel : Nat) (w : Str) (h : Spaces w) : parseCodepointsLoop fuel w = [] := by
  cases fuel with
  | zero => rfl
  | succ fuel =>
    unfold parseCodepointsLoop
    have := dropWhile_all (p := fun c => decide (c = ' ')) w [] (spaces_all h) (by simp)
    rw [List.append_nil] at this
    rw [this]

theorem loop_step (fuel : Nat) (w h rest : Str) (hw : Spaces w) (hne : h ≠ []) (hh : ∀ c ∈ h, c ≠ ' ')
    (hr : ∀ c, rest.head? = some c → c = ' ') :
    parseCodepointsLoop (fuel + 1) (w ++ (h ++ rest)) = parseCodepoint h :: parseCodepointsLoop fuel rest := by
  obtain ⟨x, xs, rfl⟩ := List.exists_cons_of_ne_nil hne
  have h1 : (w ++ ((x :: xs) ++ rest)).dropWhile (fun c => decide (c = ' ')) = x :: (xs ++ rest) := by
    have := dropWhile_all (p := fun c => decide (c = ' ')) w ((x :: xs) ++ rest) (spaces_all hw)
      (fun c hc => by simp at hc; subst hc; simpa using hh x (by simp))
    rw [this]; rfl
  rw [parseCodepointsLoop]
  rw [h1]
  dsimp only
  have hall : ∀ c ∈ x :: xs, decide (c ≠ ' ') = true := fun c hc => by simpa using hh c hc
  have h2 : (x :: (xs ++ rest)).takeWhile (fun c => decide (c ≠ ' ')) = x :: xs := by
    have := List.takeWhile_append_of_pos (p := fun c => decide (c ≠ ' ')) (l₁ := x :: xs) (l₂ := rest) hall
    rw [← List.cons_append, this]
    cases rest with
    | nil => simp
    | cons y ys => simp [hr y rfl]
  have h3 : (x :: (xs ++ rest)).dropWhile (fun c => decide (c ≠ ' ')) = rest := by
    rw [← List.cons_append]
    exact dropWhile_all (x :: xs) rest hall (fun c hc => by simp [hr c hc])
  rw [h2, h3]

theorem cpSeq_parse {s : Str} {ns : List Nat} (h : CpSeq s ns) :
    ∀ (fuel : Nat) (w w' : Str), s.length ≤ fuel → Spaces w → Spaces w' → parseCodepointsLoop fuel (w ++ (s ++ w')) = ns := by
  induction h with
  | @one h n hh hn =>
    intro fuel w w' hf hw hw'
    obtain ⟨h0, _, h2⟩ := hexOf_facts _ _ hh
    obtain ⟨fuel, rfl⟩ : ∃ k, fuel = k + 1 := ⟨fuel - 1, by have := List.length_pos_iff.2 h0; omega⟩
    rw [loop_step fuel w h w' hw h0 (fun c hc => (h2 c hc).2.2.1) (fun c hc => hw' c (List.mem_of_mem_head? hc)),
      loop_spaces _ _ hw', parseCodepoint_hex _ _ hh (by omega)]
  | @cons h n w₁ s ns hh hn hw1 hw1ne _ ih =>
    intro fuel w w' hf hw hw'
    obtain ⟨h0, _, h2⟩ := hexOf_facts _ _ hh
    have hl := List.length_pos_iff.2 h0
    simp only [List.length_append] at hf
    obtain ⟨fuel, rfl⟩ : ∃ k, fuel = k + 1 := ⟨fuel - 1, by omega⟩
    have he : w ++ (h ++ w₁ ++ s ++ w') = w ++ (h ++ (w₁ ++ (s ++ w'))) := by simp
    rw [he, loop_step fuel w h _ hw h0 (fun c hc => (h2 c hc).2.2.1) (fun c hc => ?_),
      ih fuel w₁ w' (by omega) hw1 hw', parseCodepoint_hex _ _ hh (by omega)]
    obtain ⟨y, ys, rfl⟩ := List.exists_cons_of_ne_nil hw1ne
    simp at hc; subst hc; exact hw1 _ (by simp)

theorem cpSeq_ne {s : Str} {ns : List Nat} (h : CpSeq s ns) : s ≠ [] ∧ ns ≠ [] := by
  cases h with
  | one hh _ => exact ⟨(hexOf_facts _ _ hh).1, by simp⟩
  | cons hh _ _ _ _ => exact ⟨by simp [(hexOf_facts _ _ hh).1], by simp⟩

theorem cpSeq_chars {s : Str} {ns : List Nat} (h : CpSeq s ns) : ∀ c ∈ s, c ≠ ';' ∧ c ≠ '#' ∧ c ≠ '<' ∧ c ≠ '\t' := by
  have hx : ∀ {h : Str} {n : Nat}, HexOf h n → ∀ c ∈ h, c ≠ ';' ∧ c ≠ '#' ∧ c ≠ '<' ∧ c ≠ '\t' := by
    intro h n hh c hc
    have := (hexOf_facts _ _ hh).2.2 c hc
    exact ⟨this.2.2.2.2.1, this.2.2.2.2.2.1, hex_not_lt hh c hc, fun e => by rw [e] at this; revert this; decide⟩
  induction h with
  | one hh _ => exact hx hh
  | cons hh _ hw _ _ ih =>
    intro c hc
    rcases List.mem_append.1 hc with hc | hc
    · rcases List.mem_append.1 hc with hc | hc
      · exact hx hh c hc
      · rw [hw c hc]; decide
    · exact ih c hc

theorem hex_head {h : Str} {n : Nat} (hh : HexOf h n) (rest : Str) : ∀ c, (h ++ rest).head? = some c → isWs c = false := by
  intro c hc
  obtain ⟨h0, _, h2⟩ := hexOf_facts _ _ hh
  obtain ⟨x, xs, rfl⟩ := List.exists_cons_of_ne_nil h0
  simp at hc; subst hc
  exact (h2 _ (by simp)).2.1

theorem hex_last {h : Str} {n : Nat} (hh : HexOf h n) : ∀ c, h.getLast? = some c → isWs c = false :=
  fun c hc => ((hexOf_facts _ _ hh).2.2 c (List.mem_of_getLast? hc)).2.1

theorem cpSeq_head {s : Str} {ns : List Nat} (h : CpSeq s ns) : ∀ c, s.head? = some c → isWs c = false := by
  cases h with
  | one hh _ => have := hex_head hh []; rwa [List.append_nil] at this
  | cons hh _ _ _ _ => rw [List.append_assoc]; exact hex_head hh _

theorem cpSeq_last {s : Str} {ns : List Nat} (h : CpSeq s ns) : ∀ c, s.getLast? = some c → isWs c = false := by
  induction h with
  | one hh _ => exact hex_last hh
  | cons hh _ _ _ hs ih =>
    intro c hc
    rw [List.getLast?_append_of_ne_nil _ (cpSeq_ne hs).1] at hc
    exact ih c hc

theorem parseCodepoints_seq {s : Str} {ns : List Nat} (h : CpSeq s ns) : parseCodepoints s = ns := by
  have := cpSeq_parse h (s.length + 1) [] [] (by omega) (by simp [Spaces]) (by simp [Spaces])
  simpa [parseCodepoints] using this

theorem parseCodepoints_field {s : Str} {ns : List Nat} (h : CpField s ns) : parseCodepoints s = ns := by
  rcases h with ⟨h, rfl⟩ | ⟨w, t, w', rfl, hw, hw', ht⟩
  · exact loop_spaces _ _ h
  · unfold parseCodepoints
    rw [List.append_assoc]
    exact cpSeq_parse ht _ w w' (by simp; omega) hw hw'

theorem cpField_chars {s : Str} {ns : List Nat} (h : CpField s ns) : ∀ c ∈ s, c ≠ ';' ∧ c ≠ '#' := by
  rcases h with ⟨h, rfl⟩ | ⟨w, t, w', rfl, hw, hw', ht⟩
  · intro c hc; rw [h c hc]; decide
  · intro c hc
    rcases List.mem_append.1 hc with hc | hc
    · rcases List.mem_append.1 hc with hc | hc
      · rw [hw c hc]; decide
      · exact ⟨(cpSeq_chars ht c hc).1, (cpSeq_chars ht c hc).2.1⟩
    · rw [hw' c hc]; decide

theorem optCp_eq {s : Str} {o : Option Nat} (h : OptCp s o) : optCp s = o := by
  rcases h with ⟨rfl, rfl⟩ | ⟨n, hn, hb, rfl⟩
  · rfl
  · unfold optCp
    have h0 := (hexOf_facts _ _ hn).1
    have ht : trim s = s := trim_id s (by have := hex_head hn []; rwa [List.append_nil] at this) (hex_last hn)
    rw [ht, if_neg h0, parseCodepoint_hex _ _ hn (by omega)]

/-! ## Decimal numerals -/

theorem dec_digit {v : Nat} {c : Char} (h : "0123456789".toList[v]? = some c) :
    c.isDigit = true ∧ c.toNat - 48 = v ∧ isWs c = false := by
  have hv : v < 10 := by have := (List.getElem?_eq_some_iff.1 h).1; simpa using this
  have : v = 0 ∨ v = 1 ∨ v = 2 ∨ v = 3 ∨ v = 4 ∨ v = 5 ∨ v = 6 ∨ v = 7 ∨ v = 8 ∨ v = 9 := by omega
  rcases this with rfl|rfl|rfl|rfl|rfl|rfl|rfl|rfl|rfl|rfl <;>
    · simp at h
      subst h
      decide

theorem dec_facts {s : Str} {n : Nat} (h : DecOf s n) :
    s ≠ [] ∧ s.foldl (fun n c => n * 10 + (c.toNat - 48)) 0 = n ∧ ∀ c ∈ s, c.isDigit = true ∧ isWs c = false := by
  induction h with
  | one hd =>
    have := dec_digit hd
    refine ⟨by simp, by simp [this.2.1], ?_⟩
    intro c hc; simp at hc; subst hc; exact ⟨this.1, this.2.2⟩
  | snoc hs hd ih =>
    have := dec_digit hd
    refine ⟨by simp, ?_, ?_⟩
    · rw [List.foldl_append, ih.2.1]; simp [this.2.1]
    · intro c hc
      rcases List.mem_append.1 hc with hc | hc
      · exact ih.2.2 c hc
      · simp at hc; subst hc; exact ⟨this.1, this.2.2⟩

theorem optCcc_eq {s : Str} {n : Nat} (h : DecOf s n) (hn : n ≤ 254) : optCcc s = if n = 0 then none else some n := by
  obtain ⟨h0, h1, h2⟩ := dec_facts h
  have ht : trim s = s := trim_id s (fun c hc => (h2 c (List.mem_of_mem_head? hc)).2) (fun c hc => (h2 c (List.mem_of_getLast? hc)).2)
  have htw : s.takeWhile Char.isDigit = s := by
    have := List.takeWhile_append_of_pos (p := Char.isDigit) (l₁ := s) (l₂ := []) (fun c hc => (h2 c hc).1)
    simpa using this
  have hf : fromCharsDec s = n := by
    unfold fromCharsDec
    rw [htw, h1, if_pos (by omega)]
  unfold optCcc
  rw [ht, if_neg h0, hf]

/-! ## UnicodeData.txt -/

/-- The decomposition the loader records. -/
def decompOf : Decomposition → Option Decomp
  | .none => none
  | .canonical cps => some ⟨cps, "canonical".toList⟩
  | .compat tag cps => some ⟨cps, tag⟩

theorem parseDecomp_eq {s : Str} {d : Decomposition} (h : DecompField s d) : parseDecomp (trim s) = decompOf d := by
  cases h with
  | none => rfl
  | canonical hs =>
    obtain ⟨h0, _⟩ := cpSeq_ne hs
    rw [trim_id s (cpSeq_head hs) (cpSeq_last hs)]
    obtain ⟨x, xs, rfl⟩ := List.exists_cons_of_ne_nil h0
    have hx : x ≠ '<' := (cpSeq_chars hs x (by simp)).2.2.1
    have hp : decompParts (x :: xs) = ("canonical".toList, x :: xs) := by
      unfold decompParts
      split
      · rename_i r e; injection e with e1 _; exact absurd e1 hx
      · rfl
    unfold parseDecomp
    rw [if_neg h0, hp, if_neg h0, parseCodepoints_seq hs]; rfl
  | @compat tag w t ns htag _ hw hs =>
    obtain ⟨h0, _⟩ := cpSeq_ne hs
    have ht : trim ('<' :: tag ++ '>' :: w ++ t) = '<' :: tag ++ '>' :: w ++ t := by
      refine trim_id _ (fun c hc => by simp at hc; subst hc; decide) (fun c hc => ?_)
      rw [List.getLast?_append_of_ne_nil _ h0] at hc
      exact cpSeq_last hs c hc
    rw [ht]
    have hp : decompParts ('<' :: tag ++ '>' :: w ++ t) = (tag, t) := by
      have : '<' :: tag ++ '>' :: w ++ t = '<' :: (tag ++ '>' :: (w ++ t)) := by simp
      rw [this]
      unfold decompParts
      simp only [cutAt_append _ _ _ htag]
      have := trimBy_append isWs w t [] (fun c hc => by rw [hw c hc]; decide) (by simp) (cpSeq_head hs) (cpSeq_last hs)
      rw [List.append_nil] at this
      rw [trim, this]
    unfold parseDecomp
    rw [if_neg (by simp), hp, if_neg h0, parseCodepoints_seq hs]; rfl

theorem join_snoc (fs : List Str) (hne : fs ≠ []) (f : Str) : join (fs ++ [f]) = join fs ++ ';' :: f := by
  induction fs with
  | nil => exact absurd rfl hne
  | cons g fs ih =>
    cases fs with
    | nil => rfl
    | cons x r =>
      show g ++ ';' :: join ((x :: r) ++ [f]) = (g ++ ';' :: join (x :: r)) ++ ';' :: f
      rw [ih (by simp)]; simp

theorem join_head (f : Str) (fs : List Str) : ∃ r, join (f :: fs) = f ++ r := by
  cases fs with
  | nil => exact ⟨[], by simp [join]⟩
  | cons g r => exact ⟨';' :: join (g :: r), rfl⟩

theorem skipped_comment {line stored : Str} (h : Comment line) (hs : Stored line stored) : skipped (trim stored) = true := by
  rcases h with ⟨t, rfl⟩ | h
  · have : ∃ r, stored = '#' :: r := by
      rcases hs with rfl | rfl
      · exact ⟨t, rfl⟩
      · exact ⟨t ++ ['\r'], rfl⟩
    obtain ⟨r, rfl⟩ := this
    obtain ⟨r', h1, _⟩ := trim_prefix [] r '#' (by decide) (by intro c hc; simp at hc; subst hc; decide)
    rw [List.nil_append] at h1
    rw [h1]; rfl
  · have hw : ∀ c ∈ stored, isWs c = true := by
      intro c hc
      rcases hs with rfl | rfl
      · exact blank_ws h c hc
      · rcases List.mem_append.1 hc with hc | hc
        · exact blank_ws h c hc
        · simp at hc; subst hc; decide
    have := trimBy_append isWs stored [] [] hw (by simp) (by simp) (by simp)
    simp only [List.append_nil] at this
    rw [trim, this]; rfl

theorem not_skipped {s : Str} {h rest : Str} {n : Nat} (hh : HexOf h n) (hs : s = h ++ rest) : skipped s = false := by
  obtain ⟨h0, _, h2⟩ := hexOf_facts _ _ hh
  obtain ⟨x, xs, rfl⟩ := List.exists_cons_of_ne_nil h0
  subst hs
  have := (h2 x (by simp)).2.2.2.2.2.1
  simp [skipped, this]

/-- A loader as a fold over the entries of the file. -/
theorem file_fold {S E : Type} {Line : Str → E → Prop} (step : S → Str → S) (app : S → E → S)
    (hskip : ∀ s stored, skipped (trim stored) = true → step s stored = s)
    (hdata : ∀ s line stored e, Line line e → Stored line stored → step s stored = app s e)
    {lines : List Str} {es : List E} (h : FileWith Line lines es) (s : S) : lines.foldl step s = es.foldl app s := by
  induction h generalizing s with
  | nil => rfl
  | skip hc hs _ ih => rw [List.foldl_cons, hskip s _ (skipped_comment hc hs)]; exact ih s
  | data hl hs _ ih => rw [List.foldl_cons, List.foldl_cons, hdata s _ _ _ hl hs]; exact ih _

/-- The effect of one entry of UnicodeData.txt. -/
def udApply (u : Ud) (e : UdEntry) : Ud :=
  { ccc := nSetOpt e.cp (if e.ccc = 0 then none else some e.ccc) u.ccc
    decomps := nSetOpt e.cp (decompOf e.decomp) u.decomps
    upper := nSetOpt e.cp e.upper u.upper
    lower := nSetOpt e.cp e.lower u.lower
    title := nSetOpt e.cp e.title u.title }

theorem udLine_eq (u : Ud) (line stored : Str) (e : UdEntry) (h : UdLine line e) (hs : Stored line stored) :
    udLine u stored = udApply u e := by
  obtain ⟨fs, hlen, rfl, hsep, hcp, hb, hccc, hcb, hdec, hu, hl, ht⟩ := h
  have hne : fs ≠ [] := by intro h; simp [h] at hlen
  have hhead : ∃ r, join fs = fs.getD 0 [] ++ r := by
    cases fs with
    | nil => exact absurd rfl hne
    | cons f fs => exact join_head f fs
  obtain ⟨r, hr⟩ := hhead
  have hlast : ∀ c, (join fs).getLast? = some c → isWs c = false := by
    have e1 : fs = fs.take 14 ++ [fs.getD 14 []] := by
      have h14 : 14 < fs.length := by omega
      have h2 : fs.drop 14 = [fs.getD 14 []] := by
        rw [List.drop_eq_getElem_cons h14, List.drop_eq_nil_of_le (by omega)]
        simp [List.getD_eq_getElem?_getD, List.getElem?_eq_getElem h14]
      rw [← h2, List.take_append_drop]
    have e2 : join fs = join (fs.take 14) ++ ';' :: fs.getD 14 [] := by
      conv => lhs; rw [e1]
      refine join_snoc _ ?_ _
      intro h; have := congrArg List.length h; rw [List.length_take, hlen] at this; exact absurd this (by decide)
    intro c hc
    rw [e2] at hc
    rcases ht with ⟨h0, _⟩ | ⟨n, hn, _, _⟩
    · rw [h0] at hc; rw [List.getLast?_concat] at hc; injection hc with hc; subst hc; decide
    · obtain ⟨h0, _, _⟩ := hexOf_facts _ _ hn
      have e3 : join (fs.take 14) ++ ';' :: fs.getD 14 [] = (join (fs.take 14) ++ [';']) ++ fs.getD 14 [] := by simp
      rw [e3, List.getLast?_append_of_ne_nil _ h0] at hc
      exact hex_last hn c hc
  have htrim : trim stored = join fs := trim_stored hs (by rw [hr]; exact hex_head hcp r) hlast
  unfold udLine
  rw [htrim, not_skipped hcp hr, if_neg Bool.false_ne_true, splitFields_join fs hne hsep, if_neg (show ¬ fs.length < 15 by omega)]
  unfold udFields udApply
  rw [parseCodepoint_hex _ _ hcp (by omega), optCcc_eq hccc hcb, parseDecomp_eq hdec, optCp_eq hu, optCp_eq hl, optCp_eq ht]

theorem loadUnicodeData_eq {lines : List Str} {es : List UdEntry} (h : FileWith UdLine lines es) :
    loadUnicodeData lines = es.foldl udApply {} := by
  refine file_fold udLine udApply (fun s stored hs => ?_) udLine_eq h {}
  unfold udLine; rw [hs, if_pos rfl]

theorem udFold_fields (es : List UdEntry) (u : Ud) :
    (es.foldl udApply u).ccc = es.foldl (fun m e => nSetOpt e.cp (if e.ccc = 0 then none else some e.ccc) m) u.ccc
    ∧ (es.foldl udApply u).decomps = es.foldl (fun m e => nSetOpt e.cp (decompOf e.decomp) m) u.decomps
    ∧ (es.foldl udApply u).upper = es.foldl (fun m e => nSetOpt e.cp e.upper m) u.upper
    ∧ (es.foldl udApply u).lower = es.foldl (fun m e => nSetOpt e.cp e.lower m) u.lower
    ∧ (es.foldl udApply u).title = es.foldl (fun m e => nSetOpt e.cp e.title m) u.title := by
  induction es generalizing u with
  | nil => exact ⟨rfl, rfl, rfl, rfl, rfl⟩
  | cons e es ih => exact ih (udApply u e)

/-! ## CaseFolding.txt -/

/-- The simple folding an entry gives. -/
def foldSimple (e : FoldEntry) : Option Nat :=
  if e.status = 'C' ∨ e.status = 'S' then (match e.mapping with | [x] => some x | _ => none) else none

/-- The full folding an entry gives. -/
def foldFull (e : FoldEntry) : Option (List Nat) := if e.status = 'C' ∨ e.status = 'F' then some e.mapping else none

def cfApply (u : Folds) (e : FoldEntry) : Folds :=
  { simple := nSetOpt e.cp (foldSimple e) u.simple, full := nSetOpt e.cp (foldFull e) u.full }

theorem setSimple_eq (cp : Nat) (mapping : List Nat) (m : List (Nat × Nat)) :
    setSimple cp mapping m = nSetOpt cp (match mapping with | [x] => some x | _ => none) m := by
  match mapping with
  | [] => rfl
  | [x] => rfl
  | _ :: _ :: _ => rfl

theorem cfFields_eq (fs : List Str) (u : Folds) (e : FoldEntry) (h0 : parseCodepoint (fs.getD 0 []) = e.cp)
    (h1 : trim (fs.getD 1 []) = [e.status]) (h2 : parseCodepoints (fs.getD 2 []) = e.mapping)
    (hst : e.status ∈ ['C', 'F', 'S', 'T']) : cfFields fs u = cfApply u e := by
  unfold cfFields cfApply foldSimple foldFull
  rw [h0, h1, h2]
  have hst' : e.status = 'C' ∨ e.status = 'F' ∨ e.status = 'S' ∨ e.status = 'T' := by simpa using hst
  rcases hst' with h | h | h | h <;> rw [h]
  · rw [if_pos (by decide), if_pos (Or.inl rfl), if_pos (Or.inl rfl), setSimple_eq]; rfl
  · rw [if_neg (by decide), if_neg (by decide), if_pos (by decide), if_neg (by decide), if_pos (Or.inr rfl)]; rfl
  · rw [if_neg (by decide), if_pos (by decide), if_pos (Or.inr rfl), if_neg (by decide), setSimple_eq]; rfl
  · rw [if_neg (by decide), if_neg (by decide), if_neg (by decide), if_neg (by decide), if_neg (by decide)]; rfl

theorem status_ws {c : Char} (h : c ∈ ['C', 'F', 'S', 'T']) : isWs c = false ∧ c ≠ ';' := by
  simp at h
  rcases h with rfl | rfl | rfl | rfl <;> decide

theorem cfLine_eq (u : Folds) (line stored : Str) (e : FoldEntry) (h : FoldLine line e) (hs : Stored line stored) :
    cfLine u stored = cfApply u e := by
  obtain ⟨h, w, w', m, rest, rfl, hh, hb, hw, hw', hst, hm⟩ := h
  have hstored : ∃ r, stored = (h ++ ';' :: (w ++ e.status :: w') ++ ';' :: m) ++ ';' :: r := by
    rcases hs with rfl | rfl
    · exact ⟨rest, by simp⟩
    · exact ⟨rest ++ ['\r'], by simp⟩
  obtain ⟨r, rfl⟩ := hstored
  obtain ⟨r', ht, _⟩ := trim_prefix (h ++ ';' :: (w ++ e.status :: w') ++ ';' :: m) r ';' (by decide) (by
    intro c hc; rw [List.append_assoc, List.append_assoc] at hc; exact hex_head hh _ c hc)
  have hsplit : ∃ t ts, splitFields (h ++ ';' :: (w ++ e.status :: w') ++ ';' :: m ++ ';' :: r') =
      h :: (w ++ e.status :: w') :: m :: t :: ts := by
    have e1 : h ++ ';' :: (w ++ e.status :: w') ++ ';' :: m ++ ';' :: r' = h ++ ';' :: ((w ++ e.status :: w') ++ ';' :: (m ++ ';' :: r')) := by
      simp
    rw [e1, splitFields_append _ _ (fun hc => ((hexOf_facts _ _ hh).2.2 _ hc).2.2.2.2.1 rfl), splitFields_append, splitFields_append]
    · obtain ⟨t, ts, ht⟩ := List.exists_cons_of_ne_nil (splitFields_ne r')
      exact ⟨t, ts, by rw [ht]⟩
    · exact fun hc => (cpField_chars hm _ hc).1 rfl
    · intro hc
      rcases List.mem_append.1 hc with hc | hc
      · exact (blank_not hw _ hc).1 rfl
      · rcases List.mem_cons.1 hc with hc | hc
        · exact (status_ws hst).2 hc.symm
        · exact (blank_not hw' _ hc).1 rfl
  obtain ⟨t, ts, hsplit⟩ := hsplit
  unfold cfLine
  rw [ht, hsplit, not_skipped hh (rest := ';' :: (w ++ e.status :: w') ++ ';' :: m ++ ';' :: r') (by simp), if_neg (by simp),
    if_neg (by simp)]
  refine cfFields_eq _ u e (parseCodepoint_hex _ _ hh (by omega)) ?_ (parseCodepoints_field hm) hst
  have := trimBy_append isWs w [e.status] w' (blank_ws hw) (blank_ws hw')
    (fun c hc => by simp at hc; subst hc; exact (status_ws hst).1) (fun c hc => by simp at hc; subst hc; exact (status_ws hst).1)
  rw [trim]
  simpa using this

theorem loadCaseFolding_eq {lines : List Str} {es : List FoldEntry} (h : FileWith FoldLine lines es) :
    loadCaseFolding lines = es.foldl cfApply {} := by
  refine file_fold cfLine cfApply (fun s stored hs => ?_) cfLine_eq h {}
  unfold cfLine; rw [hs, if_pos rfl]

theorem cfFold_fields (es : List FoldEntry) (u : Folds) :
    (es.foldl cfApply u).simple = es.foldl (fun m e => nSetOpt e.cp (foldSimple e) m) u.simple
    ∧ (es.foldl cfApply u).full = es.foldl (fun m e => nSetOpt e.cp (foldFull e) m) u.full := by
  induction es generalizing u with
  | nil => exact ⟨rfl, rfl⟩
  | cons e es ih => exact ih (cfApply u e)

/-! ## SpecialCasing.txt -/

/-- The full mapping an entry adds to a table whose simple mapping is `simple`. -/
def special (simple : List (Nat × Nat)) (get : SpecialEntry → List Nat) (e : SpecialEntry) : Option (List Nat) :=
  if e.conditional then none else if nontrivial (get e) ((nFind simple e.cp).getD e.cp) then some (get e) else none

def scApply (u : Ud) (s : Special) (e : SpecialEntry) : Special :=
  { lower := nSetOpt e.cp (special u.lower (·.lower) e) s.lower
    title := nSetOpt e.cp (special u.title (·.title) e) s.title
    upper := nSetOpt e.cp (special u.upper (·.upper) e) s.upper }

theorem setSpecial_eq (simple : List (Nat × Nat)) (get : SpecialEntry → List Nat) (e : SpecialEntry) (m : List (Nat × List Nat))
    (hc : e.conditional = false) : setSpecial e.cp (get e) simple m = nSetOpt e.cp (special simple get e) m := by
  unfold setSpecial special
  rw [hc]
  by_cases h : nontrivial (get e) ((nFind simple e.cp).getD e.cp) = true
  · rw [if_neg Bool.false_ne_true, if_pos h, if_pos h]; rfl
  · rw [if_neg Bool.false_ne_true, if_neg h, if_neg h]; rfl

theorem count_semi (s : Str) (h : ';' ∉ s) : (s.filter (fun c => decide (c = ';'))).length = 0 := by
  rw [List.length_eq_zero_iff, List.filter_eq_nil_iff]
  intro c hc he
  simp at he; subst he; exact h hc

theorem scLine_eq (u : Ud) (s : Special) (line stored : Str) (e : SpecialEntry) (h : SpecialLine line e) (hs : Stored line stored) :
    scLine u s stored = scApply u s e := by
  obtain ⟨h, l, t, up, cond, w, rest, rfl, hh, hb, hl, ht, hu, hw, hcond⟩ := h
  obtain ⟨pre, hpre⟩ : ∃ pre, pre = h ++ ';' :: l ++ ';' :: t ++ ';' :: up ++ ';' :: cond ++ w := ⟨_, rfl⟩
  have hstored : ∃ r, stored = pre ++ '#' :: r := by
    rcases hs with rfl | rfl
    · exact ⟨rest, by rw [hpre]⟩
    · exact ⟨rest ++ ['\r'], by rw [hpre]; simp⟩
  obtain ⟨r, rfl⟩ := hstored
  have hpre' : pre = h ++ (';' :: l ++ ';' :: t ++ ';' :: up ++ ';' :: cond ++ w) := by rw [hpre]; simp
  obtain ⟨r', htrim, _⟩ := trim_prefix pre r '#' (by decide) (by
    intro c hc; rw [hpre', List.append_assoc] at hc; exact hex_head hh _ c hc)
  have hcc : '#' ∉ cond := by
    rcases hcond with ⟨_, rfl⟩ | ⟨_, c, rfl, hc⟩
    · simp
    · simp [hc]
  have nh : ';' ∉ h := fun hc => ((hexOf_facts _ _ hh).2.2 _ hc).2.2.2.2.1 rfl
  have nl : ';' ∉ l := fun hc => (cpField_chars hl _ hc).1 rfl
  have nt : ';' ∉ t := fun hc => (cpField_chars ht _ hc).1 rfl
  have nu : ';' ∉ up := fun hc => (cpField_chars hu _ hc).1 rfl
  have nw : ';' ∉ w := fun hc => (blank_not hw _ hc).1 rfl
  have hhash : '#' ∉ pre := by
    rw [hpre]
    simp only [List.mem_append, List.mem_cons, not_or]
    refine ⟨⟨⟨⟨⟨?_, by decide, ?_⟩, by decide, ?_⟩, by decide, ?_⟩, by decide, hcc⟩, ?_⟩
    · exact fun hc => ((hexOf_facts _ _ hh).2.2 _ hc).2.2.2.2.2.1 rfl
    · exact fun hc => (cpField_chars hl _ hc).2 rfl
    · exact fun hc => (cpField_chars ht _ hc).2 rfl
    · exact fun hc => (cpField_chars hu _ hc).2 rfl
    · exact fun hc => (blank_not hw _ hc).2.1 rfl
  have hcount : (pre.filter (fun c => decide (c = ';'))).length = 4 + (cond.filter (fun c => decide (c = ';'))).length := by
    rw [hpre]
    simp only [List.filter_append, List.length_append, List.filter_cons_of_pos (p := fun c => decide (c = ';')) (a := ';') (by decide), List.length_cons,
      count_semi h nh, count_semi l nl, count_semi t nt, count_semi up nu, count_semi w nw]
    omega
  obtain ⟨x, xs, hx⟩ := List.exists_cons_of_ne_nil (splitFields_ne (cond ++ w ++ '#' :: r'))
  have hsplit : splitFields (pre ++ '#' :: r') = h :: l :: t :: up :: x :: xs := by
    have e1 : pre ++ '#' :: r' = h ++ ';' :: (l ++ ';' :: (t ++ ';' :: (up ++ ';' :: (cond ++ w ++ '#' :: r')))) := by
      rw [hpre]; simp
    rw [e1, splitFields_append _ _ nh, splitFields_append _ _ nl, splitFields_append _ _ nt, splitFields_append _ _ nu, hx]
  unfold scLine
  rw [htrim, hsplit, not_skipped hh (rest := (';' :: l ++ ';' :: t ++ ';' :: up ++ ';' :: cond ++ w) ++ '#' :: r') (by rw [hpre']; simp),
    if_neg (by simp), if_neg (by simp)]
  have hcd : conditional (pre ++ '#' :: r') = e.conditional := by
    unfold conditional
    rw [cutAt_append _ _ _ hhash]
    dsimp only
    rw [hcount]
    rcases hcond with ⟨h1, rfl⟩ | ⟨h1, c, rfl, _⟩
    · rw [h1]; simp
    · rw [h1]
      simp [List.filter_append]
  rw [hcd]
  by_cases hec : e.conditional = true
  · rw [if_pos hec]
    unfold scApply special
    simp [hec, nSetOpt]
  · rw [if_neg hec]
    have hec : e.conditional = false := by simpa using hec
    unfold scFields scApply
    simp only [List.getD_cons_zero, List.getD_cons_succ]
    rw [parseCodepoint_hex _ _ hh (by omega), parseCodepoints_field hl, parseCodepoints_field ht, parseCodepoints_field hu]
    rw [setSpecial_eq u.lower (·.lower) e _ hec, setSpecial_eq u.title (·.title) e _ hec, setSpecial_eq u.upper (·.upper) e _ hec]

theorem loadSpecialCasing_eq (u : Ud) {lines : List Str} {es : List SpecialEntry} (h : FileWith SpecialLine lines es) :
    loadSpecialCasing u lines = es.foldl (scApply u) {} := by
  refine file_fold (scLine u) (scApply u) (fun s stored hs => ?_) (scLine_eq u) h {}
  unfold scLine; rw [hs, if_pos rfl]

theorem scFold_fields (u : Ud) (es : List SpecialEntry) (s : Special) :
    (es.foldl (scApply u) s).lower = es.foldl (fun m e => nSetOpt e.cp (special u.lower (·.lower) e) m) s.lower
    ∧ (es.foldl (scApply u) s).title = es.foldl (fun m e => nSetOpt e.cp (special u.title (·.title) e) m) s.title
    ∧ (es.foldl (scApply u) s).upper = es.foldl (fun m e => nSetOpt e.cp (special u.upper (·.upper) e) m) s.upper := by
  induction es generalizing s with
  | nil => exact ⟨rfl, rfl, rfl⟩
  | cons e es ih => exact ih (scApply u s e)

end Verif.Props.Tg
