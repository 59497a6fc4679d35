import Verif.Props.NormFull
/-!
# C77 One normalization form after another
UAX #15, design goals: the result of normalizing a normalized text again is one of the four forms of the original text.
-/
namespace Verif.Props.Norm
open Verif.Norm Verif.Spec.Norm

variable {T : Tables}

/-- The form a text is in after it has been normalized to `g` and then to `f` (UAX #15, section 1.2): the last form, except that a compatibility
decomposition is never undone. -/
def after (g f : Form) : Form :=
  match g, f with
  | .NFKC, .NFC => .NFKC
  | .NFKC, .NFD => .NFKD
  | .NFKD, .NFC => .NFKC
  | .NFKD, .NFD => .NFKD
  | _, f => f

/-- What C77 claims of a table. -/
def C77_Absorbs (T : Tables) : Prop := ∀ g f text, normalize T f (normalize T g text) = normalize T (after g f) text

/-- **C77** is violated: NFC is not idempotent, and NFD of NFC is not NFD. -/
theorem C77_fails : ¬ C77_Absorbs toy ∧
    normalize toy .NFC (normalize toy .NFC [0x65, 0x78, 0x301]) ≠ normalize toy .NFC [0x65, 0x78, 0x301] ∧
    normalize toy .NFD (normalize toy .NFC [0x65, 0x78, 0x301]) ≠ normalize toy .NFD [0x65, 0x78, 0x301] := by
  refine ⟨fun h => ?_, by decide, by decide⟩
  exact absurd (h .NFC .NFC [0x65, 0x78, 0x301]) (by decide)

/-- A codepoint without any mapping has no canonical mapping. -/
theorem fixed_false (hT : Ranked T) {k : Bool} {c : Nat} (h : decompose T k c = [c]) : decompose T false c = [c] := by
  cases k with
  | false => exact h
  | true =>
    obtain ⟨h1, h2⟩ := (fixed_iff hT true c).1 h
    refine (fixed_iff hT false c).2 ⟨h1, ?_⟩
    by_cases hc : T.canon c = []
    · simp [mapping, hc]
    · simp [mapping, hc] at h2

/-- The composing forms compose the decomposing ones. -/
theorem normalize_composes {f : Form} (hf : f.composes = true) (text : List Nat) :
    normalize T f text = compose T (normalize T (decomposed f) text) := by
  cases f <;> first | rfl | cases hf

/-- If the decompositions of `s` are those of the text after `g`, so are all forms. -/
theorem forms_of_decomposed {g : Form} {s text : List Nat} (hD : normalize T .NFD s = normalize T (after g .NFD) text)
    (hK : normalize T .NFKD s = normalize T .NFKD text) (f : Form) : normalize T f s = normalize T (after g f) text := by
  have hak : after g .NFKD = .NFKD := by cases g <;> rfl
  cases f with
  | NFD => exact hD
  | NFKD => rw [hK, hak]
  | NFC =>
    rw [normalize_composes rfl, show decomposed .NFC = .NFD from rfl, hD]
    cases g <;> rfl
  | NFKC =>
    rw [normalize_composes rfl, show decomposed .NFKC = .NFKD from rfl, hK]
    cases g <;> rfl

/-- **C77, decomposed first.** After NFD or NFKD, every form gives what the table of UAX #15 says, for every text. -/
theorem C77_decomposed_first (hT : Ranked T) (hJ : JamoOk T) (hM : ∀ c, T.ccc c ≠ 0 → T.compat c = []) (g f : Form)
    (hg : g = .NFD ∨ g = .NFKD) (text : List Nat) :
    normalize T f (normalize T g text) = normalize T (after g f) text := by
  obtain ⟨hfix, hord⟩ := C27_output_form hT hJ g hg text
  have hD : normalize T .NFD (normalize T g text) = normalize T g text := by
    rw [normalize_D (f := .NFD) (.inl rfl)]
    rw [show (normalize T g text).flatMap (decompose T Form.NFD.k) = normalize T g text from
      flatMap_fixed fun d hd => fixed_false hT (hfix d hd)]
    exact canonicalOrder_of_ordered hord
  refine forms_of_decomposed ?_ ?_ f
  · rw [hD]; rcases hg with rfl | rfl <;> rfl
  · rcases hg with rfl | rfl
    · exact (C32_canonical_imp_compat hT hJ hM text []).1
    · exact C27_idempotent hT hJ .NFKD (.inr rfl) text

/-- The Unicode algorithm's composed text has the decompositions the table of UAX #15 says. -/
theorem reference_decompositions (hT : Ranked T) (hJ : JamoOk T) (hC : CompOk T) (hM : ∀ c, T.ccc c ≠ 0 → T.compat c = []) (g : Form)
    (hg : g = .NFC ∨ g = .NFKC) (text : List Nat) (hn : 0x11A7 ∉ normalize T (decomposed g) text) :
    normalize T .NFD (unicodeNormalize T g text) = normalize T (after g .NFD) text ∧
    normalize T .NFKD (unicodeNormalize T g text) = normalize T .NFKD text := by
  have hD : normalize T .NFD (unicodeNormalize T g text) = normalize T (decomposed g) text := by
    obtain ⟨hfix, hord⟩ := C27_output_form hT hJ (decomposed g) (decomposed_D g) text
    have := composition_equiv (T := T) (k := false) (pc := primary T) (normalize T (decomposed g) text) hord
      (fun c hc => fixed_false hT (hfix c hc)) (fun b hb => primary_pcOk hT hJ hC false b (fun e => hn (e ▸ hb)))
    unfold OEq at this
    rw [canonicalOrder_of_ordered hord] at this
    rw [normalize_D (f := .NFD) (.inl rfl), unicode_C hg]
    rw [normalize_D (decomposed_D g), decomposed_k] at this
    rw [normalize_D (decomposed_D g), decomposed_k]
    exact this
  refine ⟨by rw [hD]; rcases hg with rfl | rfl <;> rfl, ?_⟩
  have hKD := (C32_canonical_imp_compat hT hJ hM (unicodeNormalize T g text) []).1
  rw [hD] at hKD
  rw [← hKD]
  rcases hg with rfl | rfl
  · exact (C32_canonical_imp_compat hT hJ hM text []).1
  · exact C27_idempotent hT hJ .NFKD (.inr rfl) text

/-- **C77 for the specification**: with the Unicode algorithm as first step the table of UAX #15 holds for every text without U+11A7. -/
theorem C77_reference (hT : Ranked T) (hJ : JamoOk T) (hC : CompOk T) (hM : ∀ c, T.ccc c ≠ 0 → T.compat c = []) (g f : Form)
    (hg : g = .NFC ∨ g = .NFKC) (text : List Nat) (hn : 0x11A7 ∉ normalize T (decomposed g) text) :
    normalize T f (unicodeNormalize T g text) = normalize T (after g f) text := by
  obtain ⟨h1, h2⟩ := reference_decompositions hT hJ hC hM g hg text hn
  exact forms_of_decomposed h1 h2 f

/-- **C77, composed first, partial.** After NFC or NFKC, every form gives what the table of UAX #15 says, for the texts in whose composed form no
starter keeps a mark and in whose decomposition U+11A7 does not occur.  In particular NFC and NFKC are idempotent on them.  Missing: the other texts, where
the claim is false (`C77_fails`). -/
theorem C77_composed_first_partial (hT : Ranked T) (hJ : JamoOk T) (hC : CompOk T) (hM : ∀ c, T.ccc c ≠ 0 → T.compat c = []) (g f : Form)
    (hg : g = .NFC ∨ g = .NFKC) (text : List Nat) (hn : 0x11A7 ∉ normalize T (decomposed g) text)
    (h : ∀ x ∈ groupsOf T g.k text, x.marks = []) :
    normalize T f (normalize T g text) = normalize T (after g f) text := by
  rw [C28_unicode_partial g hg text h]
  exact C77_reference hT hJ hC hM g f hg text hn

/-- **C77, exactly when** NFD after NFC (NFKD after NFKC) is what the table says. -/
theorem C77_composed_first_exact_partial (hT : Ranked T) (hJ : JamoOk T) (hC : CompOk T) (hM : ∀ c, T.ccc c ≠ 0 → T.compat c = []) (g : Form)
    (hg : g = .NFC ∨ g = .NFKC) (text : List Nat) (hn : 0x11A7 ∉ normalize T (decomposed g) text) :
    (∀ f, normalize T f (normalize T g text) = normalize T (after g f) text) ↔ ∀ x ∈ groupsOf T g.k text, x.marks = [] := by
  refine ⟨fun h => ?_, fun h f => C77_composed_first_partial hT hJ hC hM g f hg text hn h⟩
  refine (C28_equivalent_iff_partial hT hJ hC g hg text hn).1 ?_
  rw [h]
  rcases hg with rfl | rfl <;> rfl

theorem toy_marks : ∀ c, toy.ccc c ≠ 0 → toy.compat c = [] := by
  intro c h
  rcases look_cases cccTab 0 c with h' | h'
  · exact absurd h' h
  · have : ∀ p ∈ cccTab, toy.compat p.1 = [] := by decide
    exact this _ h'

example : normalize toy .NFC (normalize toy .NFKD [0xFB01, 0x1E69]) = normalize toy .NFKC [0xFB01, 0x1E69] :=
  C77_decomposed_first toy_ranked toy_jamo toy_marks .NFKD .NFC (.inr rfl) _
example : normalize toy .NFC (normalize toy .NFC [0x73, 0x307, 0x323, 0x41, 0x30A]) = [0x1E69, 0xC5] :=
  (C77_composed_first_partial toy_ranked toy_jamo toy_comp toy_marks .NFC .NFC (.inl rfl) _ (by decide) (by decide)).trans (by decide)
example : normalize toy .NFKD [0xFB01] ≠ normalize toy .NFD [0xFB01] := by decide

end Verif.Props.Norm
