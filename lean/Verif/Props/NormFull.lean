import Verif.Props.Norm
import Verif.Spec.NormFull
/-!
# C27, C28, C32 against the independent definitions of full decomposition and primary composite
-/

namespace Verif.Props.Norm
open Verif.Norm Verif.Spec.Norm Verif.Utf8 Verif.Convert

variable {T : Tables}

/-! ## Single mappings -/

theorem syllable_iff (c : Nat) : isHangulSyllable c = true ↔ (0xAC00 ≤ c ∧ c ≤ 0xD7A3) := by
  rw [isHangulSyllable_iff]; omega

theorem hangul_lv (l v : Nat) (hl : l < 19) (hv : v < 21) :
    hangulDecompose (0xAC00 + (l * 21 + v) * 28) = [0x1100 + l, 0x1161 + v] := by
  rw [hangulDecompose_eq _ ((syllable_iff _).2 (by omega)), if_neg (by omega),
    show 4352 + (0xAC00 + (l * 21 + v) * 28 - 44032) / 588 = 0x1100 + l by omega,
    show 4449 + (0xAC00 + (l * 21 + v) * 28 - 44032) % 588 / 28 = 0x1161 + v by omega]

theorem hangul_lvt (l v t : Nat) (hl : l < 19) (hv : v < 21) (h0 : 0 < t) (ht : t < 28) :
    hangulDecompose (0xAC00 + (l * 21 + v) * 28 + t) = [0x1100 + l, 0x1161 + v, 0x11A7 + t] := by
  rw [hangulDecompose_eq _ ((syllable_iff _).2 (by omega)), if_pos (by omega),
    show 4352 + (0xAC00 + (l * 21 + v) * 28 + t - 44032) / 588 = 0x1100 + l by omega,
    show 4449 + (0xAC00 + (l * 21 + v) * 28 + t - 44032) % 588 / 28 = 0x1161 + v by omega,
    show 4519 + (0xAC00 + (l * 21 + v) * 28 + t - 44032) % 28 = 0x11A7 + t by omega]

theorem hangul_maps (k : Bool) (c : Nat) (h : 0xAC00 ≤ c ∧ c ≤ 0xD7A3) : Maps T k c (hangulDecompose c) := by
  obtain ⟨l, v, t, hl, hv, ht, e⟩ : ∃ l v t, l < 19 ∧ v < 21 ∧ t < 28 ∧ c = 0xAC00 + (l * 21 + v) * 28 + t :=
    ⟨(c - 0xAC00) / 588, (c - 0xAC00) % 588 / 28, (c - 0xAC00) % 28, by omega, by omega, by omega, by omega⟩
  subst e
  by_cases h0 : t = 0
  · subst h0
    rw [Nat.add_zero, hangul_lv l v hl hv]
    exact .lv l v hl hv
  · rw [hangul_lvt l v t hl hv (by omega) ht]
    exact .lvt l v t hl hv (by omega) ht

/-- What a mapping is for the program. -/
theorem maps_iff (k : Bool) (c : Nat) (m : List Nat) :
    Maps T k c m ↔ if isHangulSyllable c = true then m = hangulDecompose c else m = mapping T k c ∧ m ≠ [] := by
  constructor
  · intro h
    cases h with
    | lv l v hl hv =>
      rw [if_pos ((syllable_iff _).2 (by omega)), hangul_lv l v hl hv]
    | lvt l v t hl hv h0 ht =>
      rw [if_pos ((syllable_iff _).2 (by omega)), hangul_lvt l v t hl hv h0 ht]
    | canon _ hs hc =>
      rw [if_neg (fun h => hs ((syllable_iff _).1 h))]
      exact ⟨by simp [mapping, hc], hc⟩
    | compat _ hs hk hc hm =>
      rw [if_neg (fun h => hs ((syllable_iff _).1 h))]
      exact ⟨by simp [mapping, hc, hk], hm⟩
  · split
    · rename_i hs
      rintro rfl
      exact hangul_maps k c ((syllable_iff c).1 hs)
    · rename_i hs
      have hs' : ¬ (0xAC00 ≤ c ∧ c ≤ 0xD7A3) := fun h => hs ((syllable_iff c).2 h)
      rintro ⟨rfl, hm⟩
      unfold mapping at hm ⊢
      split at hm
      · rename_i hck
        rw [if_pos hck]
        exact .compat c hs' hck.2 hck.1 hm
      · rename_i hck
        rw [if_neg hck]
        exact .canon c hs' hm

theorem no_maps_iff (k : Bool) (c : Nat) :
    (∀ m, ¬ Maps T k c m) ↔ isHangulSyllable c = false ∧ mapping T k c = [] := by
  constructor
  · intro h
    by_cases hs : isHangulSyllable c = true
    · exact absurd ((maps_iff k c _).2 (by rw [if_pos hs])) (h (hangulDecompose c))
    · refine ⟨by simpa using hs, ?_⟩
      by_contra hm
      exact h (mapping T k c) ((maps_iff k c _).2 (by rw [if_neg hs]; exact ⟨rfl, hm⟩))
  · rintro ⟨hs, hm⟩ m h
    rw [maps_iff, hs] at h
    simp only [Bool.false_eq_true, if_false] at h
    exact h.2 (h.1.trans hm)

theorem maps_decompose (hT : Ranked T) (hJ : JamoOk T) {k : Bool} {c : Nat} {m : List Nat} (h : Maps T k c m) :
    decompose T k c = m.flatMap (decompose T k) := by
  rw [maps_iff] at h
  rw [decompose_eq hT]
  split at h
  · rename_i hs
    subst h
    rw [if_pos hs]
    exact (flatMap_fixed fun d hd => jamo_fixed hT hJ (hangulDecompose_mem hd) k).symm
  · rename_i hs
    obtain ⟨rfl, hm⟩ := h
    rw [if_neg hs, if_neg hm]

/-! ## Replacement sequences -/

theorem step_context {k : Bool} {x y : List Nat} (h : Step T k x y) (p q : List Nat) : Step T k (p ++ x ++ q) (p ++ y ++ q) := by
  obtain ⟨a, b, c, m, hm⟩ := h
  have := Step.mk (T := T) (k := k) (p ++ a) (b ++ q) c m hm
  simpa using this

theorem steps_context {k : Bool} {x y : List Nat} (h : Steps T k x y) (p q : List Nat) :
    Steps T k (p ++ x ++ q) (p ++ y ++ q) := by
  induction h with
  | refl => exact .refl
  | tail _ h ih => exact ih.tail (step_context h p q)

theorem steps_flatMap {k : Bool} {f : Nat → List Nat} {l : List Nat} (h : ∀ d ∈ l, Steps T k [d] (f d)) :
    Steps T k l (l.flatMap f) := by
  induction l with
  | nil => exact .refl
  | cons d l ih =>
    have h1 := steps_context (h d List.mem_cons_self) [] l
    have h2 := steps_context (ih fun d hd => h d (List.mem_cons_of_mem _ hd)) (f d) []
    simp only [List.nil_append, List.append_nil, List.cons_append, List.flatMap_cons] at h1 h2 ⊢
    exact h1.trans h2

theorem steps_decompose (hT : Ranked T) (k : Bool) (c : Nat) : Steps T k [c] (decompose T k c) := by
  refine rankInduction hT (P := fun c => Steps T k [c] (decompose T k c)) ?_ c
  intro c ih
  have one : ∀ m, Maps T k c m → Steps T k [c] m := by
    intro m hm
    have := Step.mk (T := T) (k := k) [] [] c m hm
    simp only [List.nil_append, List.append_nil] at this
    exact .single this
  rw [decompose_eq hT]
  split
  · rename_i hs
    exact one _ ((maps_iff k c _).2 (by rw [if_pos hs]))
  · rename_i hs
    split
    · exact .refl
    · rename_i hm
      refine (one (mapping T k c) ((maps_iff k c _).2 (by rw [if_neg hs]; exact ⟨rfl, hm⟩))).trans ?_
      exact steps_flatMap fun d hd => ih k (by simpa using hs) d hd

theorem irreducible_decompose (hT : Ranked T) (hJ : JamoOk T) (k : Bool) (c : Nat) : Irreducible T k (decompose T k c) := by
  refine rankInduction hT (P := fun c => Irreducible T k (decompose T k c)) ?_ c
  intro c ih d hd
  rw [decompose_eq hT] at hd
  split at hd
  · obtain ⟨h1, h2, -, h4⟩ := hJ d (hangulDecompose_mem hd)
    exact (no_maps_iff k d).2 ⟨h4, by simp [mapping, h1, h2]⟩
  · rename_i hs
    split at hd
    · rename_i hm
      rw [List.mem_singleton] at hd
      subst hd
      exact (no_maps_iff k d).2 ⟨by simpa using hs, hm⟩
    · obtain ⟨e, he, hd⟩ := List.mem_flatMap.1 hd
      exact ih k (by simpa using hs) e he d hd

theorem irreducible_fixed (hT : Ranked T) {k : Bool} {l : List Nat} (h : Irreducible T k l) : l.flatMap (decompose T k) = l := by
  refine flatMap_fixed fun d hd => ?_
  obtain ⟨h1, h2⟩ := (no_maps_iff k d).1 (h d hd)
  rw [decompose_eq hT, h1, h2]
  simp

theorem step_same (hT : Ranked T) (hJ : JamoOk T) {k : Bool} {x y : List Nat} (h : Step T k x y) :
    x.flatMap (decompose T k) = y.flatMap (decompose T k) := by
  obtain ⟨a, b, c, m, hm⟩ := h
  simp only [List.flatMap_append, List.flatMap_cons, maps_decompose hT hJ hm, List.append_assoc]

theorem steps_same (hT : Ranked T) (hJ : JamoOk T) {k : Bool} {x y : List Nat} (h : Steps T k x y) :
    x.flatMap (decompose T k) = y.flatMap (decompose T k) := by
  induction h with
  | refl => rfl
  | tail _ h ih => exact ih.trans (step_same hT hJ h)

/-- **C27, exactly what NFD and NFKD are**: the one full canonical (compatibility) decomposition of the text — whichever codepoints are replaced
first and whichever marks are exchanged first. -/
theorem C27_full_decomposition (hT : Ranked T) (hJ : JamoOk T) (f : Form) (hf : f = .NFD ∨ f = .NFKD) (text n : List Nat) :
    FullDecomposition T f.k text n ↔ n = normalize T f text := by
  rw [normalize_D hf]
  constructor
  · rintro ⟨d, h1, h2, h3, h4⟩
    rw [steps_same hT hJ h1, irreducible_fixed hT h2]
    exact (C26_canonical_order d).2.2 n h3 h4
  · rintro rfl
    refine ⟨text.flatMap (decompose T f.k), steps_flatMap fun d _ => steps_decompose hT f.k d, ?_,
      (C26_canonical_order _).1, (C26_canonical_order _).2.1⟩
    intro d hd
    obtain ⟨c, -, hc⟩ := List.mem_flatMap.1 hd
    exact irreducible_decompose hT hJ f.k c d hc

/-- **C27.** What has no mapping left: NFD and NFKD contain no codepoint that could still be decomposed. -/
theorem C27_irreducible (hT : Ranked T) (hJ : JamoOk T) (f : Form) (hf : f = .NFD ∨ f = .NFKD) (text : List Nat) :
    Irreducible T f.k (normalize T f text) := by
  obtain ⟨d, -, h2, h3, -⟩ := (C27_full_decomposition hT hJ f hf text _).2 rfl
  intro c hc
  rw [(C26_canonical_order d).2.2 _ h3 ((C27_full_decomposition hT hJ f hf text _).2 rfl).choose_spec.2.2.2] at hc
  exact h2 c ((canonicalOrder_perm _).mem_iff.1 hc)

/-- **C32, exactly what the equivalences are** (D70, D67): two texts are canonically (compatibility) equivalent iff they have the same full canonical
(compatibility) decomposition. -/
theorem C32_exact (hT : Ranked T) (hJ : JamoOk T) (a b : List Nat) :
    (canonEquiv T a b = true ↔ ∃ n, FullDecomposition T false a n ∧ FullDecomposition T false b n) ∧
    (compatEquiv T a b = true ↔ ∃ n, FullDecomposition T true a n ∧ FullDecomposition T true b n) := by
  have h1 := fun t n => C27_full_decomposition hT hJ .NFD (.inl rfl) t n
  have h2 := fun t n => C27_full_decomposition hT hJ .NFKD (.inr rfl) t n
  simp only [show Form.NFD.k = false from rfl] at h1
  simp only [show Form.NFKD.k = true from rfl] at h2
  simp only [h1, h2, canonEquiv, compatEquiv, decide_eq_true_eq]
  constructor
  · exact ⟨fun h => ⟨_, rfl, h⟩, fun ⟨_, h, h'⟩ => h.symm.trans h'⟩
  · exact ⟨fun h => ⟨_, rfl, h⟩, fun ⟨_, h, h'⟩ => h.symm.trans h'⟩

/-! ## Primary composites -/

theorem tryCompose_eq (a b : Nat) :
    tryCompose T a b =
      if 0x1100 ≤ a ∧ a < 0x1113 ∧ 0x1161 ≤ b ∧ b < 0x1176 then 0xAC00 + ((a - 0x1100) * 21 + (b - 0x1161)) * 28
      else if 0xAC00 ≤ a ∧ a ≤ 0xD7A3 ∧ (a - 0xAC00) % 28 = 0 ∧ 0x11A7 ≤ b ∧ b < 0x11C3 then a + (b - 0x11A7)
      else T.comp a b := by
  unfold tryCompose
  simp only [show LBase = 0x1100 from rfl, show LCount = 19 from rfl, show VBase = 0x1161 from rfl, show VCount = 21 from rfl,
    show SBase = 0xAC00 from rfl, show TBase = 0x11A7 from rfl, show TCount = 28 from rfl, show SCount = 11172 from rfl]
  by_cases h1 : 0x1100 ≤ a ∧ a < 0x1113 ∧ 0x1161 ≤ b ∧ b < 0x1176
  · rw [if_pos h1, if_pos (by omega), if_pos (by omega)]
  · rw [if_neg h1]
    by_cases h2 : 0xAC00 ≤ a ∧ a ≤ 0xD7A3 ∧ (a - 0xAC00) % 28 = 0 ∧ 0x11A7 ≤ b ∧ b < 0x11C3
    · rw [if_pos h2, if_neg (by omega), if_pos (by omega), if_pos (by omega), if_pos (by omega)]
    · rw [if_neg h2]
      split
      · rw [if_neg (by omega)]
      · split
        · split
          · rw [if_neg (by omega)]
          · rfl
        · rfl

/-- **C28, what the program composes**: exactly the primary composites of Unicode, and also an LV syllable with U+11A7, which disappears into the
syllable (the program's `TBase` is the codepoint before the first trailing consonant). -/
theorem C28_primary (a b p : Nat) :
    primary T a b = some p ↔ PrimaryComposite T a b p ∨
      (0xAC00 ≤ a ∧ a ≤ 0xD7A3 ∧ (a - 0xAC00) % 28 = 0 ∧ b = 0x11A7 ∧ p = a ∧ T.excl a = false) := by
  have hp : primary T a b = some p ↔ tryCompose T a b ≠ 0 ∧ T.excl (tryCompose T a b) = false ∧ tryCompose T a b = p := by
    unfold primary
    split
    · rename_i h; simp [h.1, h.2]
    · rename_i h
      simp only [reduceCtorEq, false_iff]
      exact fun ⟨h1, h2, _⟩ => h ⟨h1, h2⟩
  rw [hp, tryCompose_eq]
  by_cases h1 : 0x1100 ≤ a ∧ a < 0x1113 ∧ 0x1161 ≤ b ∧ b < 0x1176
  · rw [if_pos h1]
    constructor
    · rintro ⟨-, h3, rfl⟩
      have := PrimaryComposite.lv (T := T) (a - 0x1100) (b - 0x1161) (by omega) (by omega) h3
      rw [show 0x1100 + (a - 0x1100) = a by omega, show 0x1161 + (b - 0x1161) = b by omega] at this
      exact .inl this
    · rintro (h | h)
      · cases h with
        | lv l v hl hv he =>
          rw [show 0x1100 + l - 0x1100 = l by omega, show 0x1161 + v - 0x1161 = v by omega]
          exact ⟨by omega, he, rfl⟩
        | lvt l v t hl hv h0 ht he => omega
        | data _ _ h => exact absurd h1 h
      · omega
  · rw [if_neg h1]
    by_cases h2 : 0xAC00 ≤ a ∧ a ≤ 0xD7A3 ∧ (a - 0xAC00) % 28 = 0 ∧ 0x11A7 ≤ b ∧ b < 0x11C3
    · rw [if_pos h2]
      constructor
      · rintro ⟨-, h3, rfl⟩
        by_cases h0 : b = 0x11A7
        · subst h0
          rw [show a + (0x11A7 - 0x11A7) = a by omega] at h3 ⊢
          exact .inr ⟨h2.1, h2.2.1, h2.2.2.1, rfl, rfl, h3⟩
        · obtain ⟨l, v, hl, hv, ea⟩ : ∃ l v, l < 19 ∧ v < 21 ∧ a = 0xAC00 + (l * 21 + v) * 28 :=
            ⟨(a - 0xAC00) / 588, (a - 0xAC00) % 588 / 28, by omega, by omega, by omega⟩
          obtain ⟨t, ht, eb⟩ : ∃ t, t < 28 ∧ b = 0x11A7 + t := ⟨b - 0x11A7, by omega, by omega⟩
          subst ea eb
          rw [show 0x11A7 + t - 0x11A7 = t by omega] at h3 ⊢
          exact .inl (.lvt l v t hl hv (by omega) ht h3)
      · rintro (h | ⟨-, -, -, rfl, rfl, h⟩)
        · cases h with
          | lv l v hl hv he => omega
          | lvt l v t hl hv h0 ht he =>
            rw [show 0x11A7 + t - 0x11A7 = t by omega]
            exact ⟨by omega, he, rfl⟩
          | data _ _ _ h => exact absurd h2 h
        · rw [show p + (0x11A7 - 0x11A7) = p by omega]
          exact ⟨by omega, h, rfl⟩
    · rw [if_neg h2]
      constructor
      · rintro ⟨h3, h4, rfl⟩
        exact .inl (.data a b h1 h2 h3 h4)
      · rintro (h | h)
        · cases h with
          | lv l v hl hv he => exact absurd (by omega) h1
          | lvt l v t hl hv h0 ht he => exact absurd (by omega) h2
          | data _ _ _ _ h3 h4 => exact ⟨h3, h4, rfl⟩
        · omega

/-- **C28, exactly what NFC and NFKC compute**, from the full decomposition `n` of the text: the composed groups of the Unicode algorithm (with the
composites of `C28_primary`), each with its remaining marks *before* its starter. -/
theorem C28_composed_exact (hT : Ranked T) (hJ : JamoOk T) (f : Form) (hf : f = .NFC ∨ f = .NFKC) (text n : List Nat)
    (h : FullDecomposition T f.k text n) :
    normalize T f text =
      (composition T.ccc (primary T) n).1 ++ (composition T.ccc (primary T) n).2.flatMap fun g => g.marks ++ [g.starter] := by
  have e : n = canonicalOrder T (text.flatMap (decompose T f.k)) := by
    have hk : (decomposed f).k = f.k := decomposed_k f
    have := (C27_full_decomposition hT hJ (decomposed f) (decomposed_D f) text n).1 (by rw [hk]; exact h)
    rw [this, normalize_D (decomposed_D f), hk]
  rw [C28_exact f hf text, e]
  rfl

/-- **C28, the reference.** The Unicode form that the other C28 theorems compare with is the composition algorithm applied to the full
decomposition. -/
theorem C28_reference (hT : Ranked T) (hJ : JamoOk T) (f : Form) (text n : List Nat) (h : FullDecomposition T f.k text n) :
    unicodeNormalize T f text =
      if f.composes = true then assemble (composition T.ccc (primary T) n).1 (composition T.ccc (primary T) n).2 else n := by
  have e : n = canonicalOrder T (text.flatMap (decompose T f.k)) := by
    have hk : (decomposed f).k = f.k := decomposed_k f
    have := (C27_full_decomposition hT hJ (decomposed f) (decomposed_D f) text n).1 (by rw [hk]; exact h)
    rw [this, normalize_D (decomposed_D f), hk]
  unfold unicodeNormalize
  rw [e]

example : FullDecomposition toy false [0x1E69, 0x212B, 0xAC01] [0x73, 0x323, 0x307, 0x41, 0x30A, 0x1100, 0x1161, 0x11A8] :=
  (C27_full_decomposition toy_ranked toy_jamo .NFD (.inl rfl) _ _).2 (by decide)
example : PrimaryComposite toy 0xAC00 0x11A8 0xAC01 ∧ PrimaryComposite toy 0x65 0x301 0xE9 :=
  ⟨.lvt 0 0 1 (by decide) (by decide) (by decide) (by decide) (by decide), .data 0x65 0x301 (by decide) (by decide) (by decide) (by decide)⟩

end Verif.Props.Norm
