import Verif.Props.Case
import Verif.Props.Norm
/-!
# C78 Well-formed text stays well-formed
What case mapping, case folding, title casing and normalization return for well-formed text is well-formed text again.
-/
namespace Verif.Props.Valid
open Verif.Utf8 Verif.Convert Verif.Case Verif.Spec Verif.Spec.Case Verif.Props.Case

/-- A text of Unicode scalar values: no surrogate, nothing above U+10FFFF. -/
def Scalars (text : List Nat) : Prop := ∀ c ∈ text, IsScalar c

instance (text : List Nat) : Decidable (Scalars text) := inferInstanceAs (Decidable (∀ c ∈ text, _))

/-- A result of a function on UTF-8: no failure, and the bytes are well-formed. -/
def ReturnsWellFormed (r : Mem (List Nat)) : Prop := ∃ out text, r = .ok out ∧ WellFormedStr out text

/-- All mapping targets are scalar values, as in the Unicode data. -/
structure CaseScalar (T : CaseTables) : Prop where
  su : ∀ e ∈ T.simpleUpper, IsScalar e.2
  sl : ∀ e ∈ T.simpleLower, IsScalar e.2
  st : ∀ e ∈ T.simpleTitle, IsScalar e.2
  sf : ∀ e ∈ T.simpleFold, IsScalar e.2
  fu : ∀ e ∈ T.fullUpper, Scalars e.2
  fl : ∀ e ∈ T.fullLower, Scalars e.2
  ft : ∀ e ∈ T.fullTitle, Scalars e.2
  ff : ∀ e ∈ T.fullFold, Scalars e.2

theorem scalars_flatMap {α : Type} {f : α → List Nat} {text : List α} (h : ∀ c ∈ text, Scalars (f c)) : Scalars (text.flatMap f) := by
  intro d hd
  obtain ⟨c, hc, hd⟩ := List.mem_flatMap.1 hd
  exact h c hc d hd

theorem scalars_append {a b : List Nat} (ha : Scalars a) (hb : Scalars b) : Scalars (a ++ b) :=
  fun c hc => (List.mem_append.1 hc).elim (ha c) (hb c)

/-- The UTF-8 of a text is well-formed if and only if it is a text of scalar values. -/
theorem utf8_scalars {text : List Nat} (h : Scalars text) : WellFormedStr (toUtf8Str text) text := by
  rw [toUtf8Str_eq]
  induction text with
  | nil => exact .nil
  | cons c cs ih =>
    rw [List.flatMap_cons]
    exact .cons (C03_to_utf8_wellformed c (h c List.mem_cons_self)) (ih fun d hd => h d (List.mem_cons_of_mem _ hd))

theorem scalars_utf8 {bytes text : List Nat} (h : WellFormedStr bytes text) : Scalars text ∧ bytes = toUtf8Str text := by
  rw [toUtf8Str_eq]
  induction h with
  | nil => exact ⟨fun c hc => absurd hc List.not_mem_nil, rfl⟩
  | cons h _ ih =>
    obtain ⟨h1, h2⟩ := C03_wellformed_unique _ _ h
    refine ⟨?_, by rw [List.flatMap_cons, ← ih.2, ← h2]⟩
    intro c hc
    rcases List.mem_cons.1 hc with rfl | hc
    · exact h1
    · exact ih.1 c hc

theorem scalar_le {c : Nat} (h : IsScalar c) : c ≤ 0x1FFFFF := by unfold IsScalar at h; omega

theorem scalars_mapsTo {ascii : Nat → Option Nat} {full : List (Nat × List Nat)} {one : List (Nat × Nat)} {c : Nat} {out : List Nat}
    (ha : ∀ d, ascii c = some d → IsScalar d) (hf : ∀ e ∈ full, Scalars e.2) (ho : ∀ e ∈ one, IsScalar e.2) (hc : IsScalar c)
    (h : MapsTo ascii full one c out) : Scalars out := by
  intro d hd
  cases h with
  | full h1 _ => exact hf _ h1 d hd
  | ascii _ h2 => rw [List.mem_singleton.1 hd]; exact ha _ h2
  | one _ _ h3 => rw [List.mem_singleton.1 hd]; exact ho _ h3
  | same _ _ _ => rw [List.mem_singleton.1 hd]; exact hc

theorem asciiUp_scalar (c d : Nat) (h : asciiUp c = some d) : IsScalar d := by
  unfold asciiUp at h
  split at h
  · injection h with h; exact .inl (by omega)
  · cases h

theorem asciiDown_scalar (c d : Nat) (h : asciiDown c = some d) : IsScalar d := by
  unfold asciiDown at h
  split at h
  · injection h with h; exact .inl (by omega)
  · cases h

/-- **C78, case.** Upper casing, lower casing, title casing and folding a text of scalar values give texts of scalar values. -/
theorem C78_case (U : Verif.Ucd.Table) (T : CaseTables) (hT : TablesSorted T) (hS : CaseScalar T) (text : List Nat) (h : Scalars text) :
    Scalars (toUppercase T text) ∧ Scalars (toLowercase T text) ∧ Scalars (toTitlecase U T text) ∧ Scalars (casefold T text) := by
  have hu : ∀ c ∈ text, Scalars (upperOf T c) := fun c hc =>
    scalars_mapsTo (asciiUp_scalar c) hS.fu hS.su (h c hc) (C33_codepoint T hT c).1
  have hl : ∀ c ∈ text, Scalars (lowerOf T c) := fun c hc =>
    scalars_mapsTo (asciiDown_scalar c) hS.fl hS.sl (h c hc) (C33_codepoint T hT c).2.1
  have hf : ∀ c ∈ text, Scalars (foldOf T c) := fun c hc =>
    scalars_mapsTo (asciiDown_scalar c) hS.ff hS.sf (h c hc) (C33_codepoint T hT c).2.2.2
  refine ⟨toUppercase_eq T text ▸ scalars_flatMap hu, toLowercase_eq T text ▸ scalars_flatMap hl, ?_,
    casefold_eq T text ▸ scalars_flatMap hf⟩
  obtain ⟨cased, title, lower, _, ht, hlo, he⟩ := C35_titlecase U T hT text
  rw [he]
  suffices H : ∀ w ∈ Verif.Word.segments U text, Scalars (titleWordSpec cased title lower w) from scalars_flatMap H
  intro w hw
  have hws : Scalars w := fun c hc => h c (by
    rw [← (Verif.Props.Word.C19_partition U text).1]
    exact List.mem_flatten.2 ⟨w, hw, hc⟩)
  have hdrop : Scalars (w.dropWhile fun c => !cased c) := fun c hc => hws c ((List.dropWhile_sublist _).subset hc)
  unfold titleWordSpec
  refine scalars_append (fun c hc => hws c ((List.takeWhile_sublist _).subset hc)) ?_
  cases hw' : w.dropWhile fun c => !cased c with
  | nil => exact fun c hc => absurd hc List.not_mem_nil
  | cons c cs =>
    rw [hw'] at hdrop
    refine scalars_append (scalars_mapsTo (asciiUp_scalar c) hS.ft hS.st (hdrop c List.mem_cons_self) (ht c)) (scalars_flatMap fun e he => ?_)
    have hes := hdrop e (List.mem_cons_of_mem _ he)
    by_cases hc : cased e = true
    · rw [if_pos hc]
      exact scalars_mapsTo (asciiDown_scalar e) hS.fl hS.sl hes (hlo e)
    · rw [if_neg hc]
      intro x hx
      rw [List.mem_singleton.1 hx]; exact hes

/-- **C78, case, UTF-8.** The UTF-8 overloads return well-formed UTF-8 for well-formed UTF-8, on every CPU. -/
theorem C78_case_utf8 (U : Verif.Ucd.Table) (T : CaseTables) (hT : TablesSorted T) (hS : CaseScalar T) (simd : Nat) (bytes text : List Nat)
    (h : WellFormedStr bytes text) :
    ReturnsWellFormed (toUppercase8 T simd bytes) ∧ ReturnsWellFormed (toLowercase8 T simd bytes)
    ∧ ReturnsWellFormed (toTitlecase8 U T simd bytes) ∧ ReturnsWellFormed (casefold8 T simd bytes) := by
  obtain ⟨hs, rfl⟩ := scalars_utf8 h
  obtain ⟨h1, h2, h3, h4⟩ := C33_utf8 U T simd text fun c hc => scalar_le (hs c hc)
  obtain ⟨g1, g2, g3, g4⟩ := C78_case U T hT hS text hs
  exact ⟨⟨_, _, h1, utf8_scalars g1⟩, ⟨_, _, h2, utf8_scalars g2⟩, ⟨_, _, h3, utf8_scalars g3⟩, ⟨_, _, h4, utf8_scalars g4⟩⟩

/-! ## Normalization -/
open Verif.Norm

/-- All mappings and compositions are scalar values, as in the Unicode data (`comp` is 0 for "none"). -/
structure NormScalar (T : Tables) : Prop where
  canon : ∀ c, Scalars (T.canon c)
  compat : ∀ c, Scalars (T.compat c)
  comp : ∀ a b, T.comp a b ≠ 0 → IsScalar (T.comp a b)

variable {T : Tables}

theorem scalars_hangul (c : Nat) : Scalars (hangulDecompose c) := by
  intro d hd
  unfold hangulDecompose at hd
  by_cases h : isHangulSyllable c = true
  · rw [if_pos h] at hd
    have hb : SBase ≤ c ∧ c < SBase + SCount := by
      unfold isHangulSyllable at h
      rw [Bool.and_eq_true, decide_eq_true_iff, decide_eq_true_iff] at h
      exact h
    have hN : NCount = 588 := rfl
    have hC : SCount = 11172 := rfl
    have h1 : SBase = 44032 := rfl
    have h2 : TCount = 28 := rfl
    have h3 : LBase = 4352 := rfl
    have h4 : VBase = 4449 := rfl
    have h5 : TBase = 4519 := rfl
    rw [h1, hC] at hb
    rw [h1, h2, h3, h4, h5, hN] at hd
    left
    split at hd
    · rcases List.mem_cons.1 hd with rfl | hd
      · omega
      rcases List.mem_cons.1 hd with rfl | hd
      · omega
      rw [List.mem_singleton.1 hd]; omega
    · rcases List.mem_cons.1 hd with rfl | hd
      · omega
      rw [List.mem_singleton.1 hd]; omega
  · rw [if_neg h] at hd
    exact absurd hd List.not_mem_nil

theorem scalars_decomposeN (hS : NormScalar T) (k : Bool) (n : Nat) : ∀ c, IsScalar c → Scalars (decomposeN T k n c) := by
  induction n with
  | zero => intro c hc d hd; rw [decomposeN, List.mem_singleton] at hd; exact hd ▸ hc
  | succ n ih =>
    intro c hc
    rw [decomposeN]
    by_cases h1 : isHangulSyllable c = true
    · rw [if_pos h1]; exact scalars_hangul c
    rw [if_neg h1]
    by_cases h2 : mapping T k c = []
    · rw [if_pos h2]; intro d hd; rw [List.mem_singleton.1 hd]; exact hc
    rw [if_neg h2]
    refine scalars_flatMap fun d hd => ih d ?_
    unfold mapping at hd
    split at hd
    · exact hS.compat c d hd
    · exact hS.canon c d hd

theorem tryCompose_scalar (hS : NormScalar T) (a b : Nat) (h : tryCompose T a b ≠ 0) : IsScalar (tryCompose T a b) := by
  unfold tryCompose at h ⊢
  split
  · rename_i h1
    rw [if_pos h1] at h
    split
    · rename_i h2
      simp only [SBase, LBase, VBase, LCount, VCount, TCount, IsScalar] at h1 h2 ⊢
      omega
    · rename_i h2; rw [if_neg h2] at h; exact hS.comp a b h
  · rename_i h1
    rw [if_neg h1] at h
    split
    · rename_i h2
      rw [if_pos h2] at h
      split
      · rename_i h3
        rw [if_pos h3] at h
        split
        · rename_i h4
          simp only [SBase, TBase, LCount, VCount, TCount, SCount, NCount, IsScalar] at h2 h3 h4 ⊢
          omega
        · rename_i h4; rw [if_neg h4] at h; exact hS.comp a b h
      · rename_i h3; rw [if_neg h3] at h; exact hS.comp a b h
    · rename_i h2; rw [if_neg h2] at h; exact hS.comp a b h

theorem scalars_composeFold (hS : NormScalar T) : ∀ (rest : List Nat) (s : CSt), Scalars rest → Scalars s.result → IsScalar s.starter →
    Scalars (rest.foldl (composeStep T) s).result ∧ IsScalar (rest.foldl (composeStep T) s).starter := by
  intro rest
  induction rest with
  | nil => intro s _ h1 h2; exact ⟨h1, h2⟩
  | cons c rest ih =>
    intro s hr h1 h2
    rw [List.foldl_cons]
    have hc := hr c List.mem_cons_self
    have h1' : ∀ d, IsScalar d → Scalars (s.result ++ [d]) := fun d hd =>
      scalars_append h1 fun x hx => by rw [List.mem_singleton.1 hx]; exact hd
    have step : Scalars (composeStep T s c).result ∧ IsScalar (composeStep T s c).starter := by
      unfold composeStep
      split
      · rename_i h
        refine ⟨h1, ?_⟩
        have hn := h.1
        show IsScalar (candidate T s c)
        unfold candidate at hn ⊢
        split
        · rename_i h'
          rw [if_pos h'] at hn
          exact tryCompose_scalar hS _ _ hn
        · exact .inl (by omega)
      · split
        · exact ⟨h1' _ h2, hc⟩
        · exact ⟨h1' _ hc, h2⟩
    exact ih _ (fun d hd => hr d (List.mem_cons_of_mem _ hd)) step.1 step.2

theorem scalars_compose (hS : NormScalar T) (d : List Nat) (h : Scalars d) : Scalars (compose T d) := by
  have ht : Scalars (d.takeWhile fun c => T.ccc c != 0) := fun c hc => h c ((List.takeWhile_sublist _).subset hc)
  have hd : Scalars (d.dropWhile fun c => T.ccc c != 0) := fun c hc => h c ((List.dropWhile_sublist _).subset hc)
  unfold compose
  cases hw : d.dropWhile fun c => T.ccc c != 0 with
  | nil => exact ht
  | cons s rest =>
    rw [hw] at hd
    obtain ⟨h1, h2⟩ := scalars_composeFold hS rest ⟨d.takeWhile fun c => T.ccc c != 0, s, 0⟩
      (fun c hc => hd c (List.mem_cons_of_mem _ hc)) ht (hd s List.mem_cons_self)
    exact scalars_append h1 fun x hx => by rw [List.mem_singleton.1 hx]; exact h2

/-- **C78, normalization.** Every form of a text of scalar values is a text of scalar values. -/
theorem C78_normalize (hS : NormScalar T) (f : Form) (text : List Nat) (h : Scalars text) : Scalars (normalize T f text) := by
  have hd : Scalars (canonicalOrder T (text.flatMap (decompose T f.k))) := fun c hc =>
    scalars_flatMap (fun d hd => scalars_decomposeN hS f.k _ d (h d hd)) c ((canonicalOrder_perm _).mem_iff.1 hc)
  unfold normalize
  split
  · exact scalars_compose hS _ hd
  · exact hd

/-- **C78, normalization, UTF-8.** `normalize` of well-formed UTF-8 is well-formed UTF-8, in every form and on every CPU. -/
theorem C78_normalize_utf8 (hS : NormScalar T) (simd : Nat) (f : Form) (bytes text : List Nat) (h : WellFormedStr bytes text) :
    ReturnsWellFormed (normalize8 T simd f bytes) := by
  obtain ⟨hs, rfl⟩ := scalars_utf8 h
  refine ⟨_, _, ?_, utf8_scalars (C78_normalize hS f text hs)⟩
  unfold normalize8 convertTo8From32
  rw [Verif.Props.C02_utf8_string_roundtrip simd text fun c hc => scalar_le (hs c hc), convert32_any, toUtf8Str_eq]
  rfl

theorem scalars_feed (hS : NormScalar T) (f : Form) {pending : List Nat} {c : Nat} (hp : Scalars pending) (hc : IsScalar c) :
    Scalars (Norm.feed T f pending c).1 ∧ Scalars (Norm.feed T f pending c).2 := by
  have h1 : Scalars [c] := fun x hx => by rw [List.mem_singleton.1 hx]; exact hc
  unfold Norm.feed
  split
  · exact ⟨h1, C78_normalize hS f _ hp⟩
  · exact ⟨scalars_append hp h1, fun x hx => absurd hx List.not_mem_nil⟩

theorem scalars_feedAll (hS : NormScalar T) (f : Form) : ∀ (cs pending : List Nat), Scalars pending → Scalars cs →
    Scalars (feedAll T f pending cs).1 ∧ Scalars (feedAll T f pending cs).2 := by
  intro cs
  induction cs with
  | nil => intro p hp _; exact ⟨hp, fun x hx => absurd hx List.not_mem_nil⟩
  | cons c cs ih =>
    intro p hp hc
    obtain ⟨h1, h2⟩ := scalars_feed hS f hp (hc c List.mem_cons_self)
    obtain ⟨h3, h4⟩ := ih _ h1 fun d hd => hc d (List.mem_cons_of_mem _ hd)
    exact ⟨h3, scalars_append h2 h4⟩

/-- **C78, streaming.** After any history of scalar values, what the streaming normalizer has returned and what `flush` returns then are texts
of scalar values. -/
theorem C78_stream (hS : NormScalar T) (f : Form) (cs : List Nat) (h : Scalars cs) :
    Scalars (feedAll T f [] cs).2 ∧ Scalars (flush T f (feedAll T f [] cs).1).2 := by
  obtain ⟨h1, h2⟩ := scalars_feedAll hS f cs [] (fun x hx => absurd hx List.not_mem_nil) h
  exact ⟨h2, C78_normalize hS f _ h1⟩

theorem feed_append (s : DecState) (a b : List Nat) :
    (Utf8.feed s (a ++ b)).2 = (Utf8.feed s a).2 ++ (Utf8.feed (Utf8.feed s a).1 b).2 := by
  induction a generalizing s with
  | nil => rfl
  | cons c a ih => exact congrArg (_ :: ·) (ih _)

/-- **C78, streaming, UTF-8.** At every point of a history of chunks of well-formed UTF-8, cut anywhere, also in the middle of a codepoint
(`more` is the rest): what has been returned is well-formed UTF-8, and so is what `flush` returns then. -/
theorem C78_stream_utf8 (hS : NormScalar T) (f : Form) (chunks : List (List Nat)) (more text : List Nat)
    (h : WellFormedStr (chunks.flatten ++ more) text) :
    ReturnsWellFormed (.ok (u8chunks T f ⟨[], {}⟩ chunks).2)
    ∧ ReturnsWellFormed (.ok (u8flush T f (u8chunks T f ⟨[], {}⟩ chunks).1).2) := by
  obtain ⟨hs, he⟩ := scalars_utf8 h
  obtain ⟨h1, h2, _⟩ := Verif.Props.C02_utf8_incremental_string text (fun c hc => scalar_le (hs c hc)) {} rfl
  have hr : Scalars (Norm.replaced (Utf8.feed {} chunks.flatten).2) := by
    have hall : Norm.replaced (Utf8.feed {} (chunks.flatten ++ more)).2 = text := by
      rw [he, Norm.replaced_of_valid _ h2, h1]
    rw [feed_append, Norm.replaced, List.filterMap_append] at hall
    intro c hc
    exact hs c (hall ▸ List.mem_append_left _ hc)
  rw [Norm.u8chunks_eq, Norm.u8feed_eq, u8flush]
  obtain ⟨g1, g2⟩ := C78_stream hS f _ hr
  exact ⟨⟨_, _, rfl, utf8_scalars g1⟩, ⟨_, _, rfl, utf8_scalars g2⟩⟩

/-- Ill-formed UTF-8 is not repaired: the three bytes of a surrogate come back. -/
theorem C78_ill_formed (simd : Nat) (T : CaseTables) (hT : TablesSorted T) (h : ∀ e ∈ T.fullUpper, e.1 ≠ 0xD800)
    (h' : ∀ e ∈ T.simpleUpper, e.1 ≠ 0xD800) :
    toUppercase8 T simd [0xED, 0xA0, 0x80] = .ok [0xED, 0xA0, 0x80] ∧ ¬ ∃ text, WellFormedStr [0xED, 0xA0, 0x80] text := by
  constructor
  · have hb : ([0xED, 0xA0, 0x80] : List Nat) = toUtf8Str [0xD800] := by decide
    rw [hb, (C33_utf8 (fun _ => {}) T simd [0xD800] (by decide)).1, toUppercase_eq]
    have := (C33_codepoint T hT 0xD800).1
    have hu : upperOf T 0xD800 = [0xD800] := by
      generalize upperOf T 0xD800 = out at this
      cases this with
      | full h1 _ => exact absurd rfl (h _ h1)
      | ascii _ h2 => exact absurd h2 (by rw [show asciiUp 0xD800 = none from by decide]; exact fun h => nomatch h)
      | one _ _ h3 => exact absurd rfl (h' _ h3)
      | same _ _ _ => rfl
    rw [List.flatMap_cons, hu]; rfl
  · rintro ⟨text, h⟩
    obtain ⟨hs, he⟩ := scalars_utf8 h
    have h1 : text = [0xD800] := by
      have := Verif.Props.C02_utf8_string_roundtrip 0 text fun c hc => scalar_le (hs c hc)
      rw [← he] at this
      rw [← this]; decide
    exact absurd (hs 0xD800 (h1 ▸ List.mem_cons_self)) (by decide)

/-! ### Concrete instances -/

theorem sample_scalar : CaseScalar sample := by
  refine ⟨?_, ?_, ?_, ?_, ?_, ?_, ?_, ?_⟩ <;> decide

theorem look_mem {α : Type} (tab : List (Nat × α)) (d : α) (c : Nat) : look tab d c = d ∨ ∃ e ∈ tab, look tab d c = e.2 := by
  unfold look
  cases h : tab.lookup c with
  | none => exact .inl rfl
  | some x =>
    right
    induction tab with
    | nil => cases h
    | cons e tab ih =>
      rw [List.lookup_cons] at h
      split at h
      · injection h with h; exact ⟨e, List.mem_cons_self, h.symm⟩
      · obtain ⟨e', he, h'⟩ := ih h; exact ⟨e', List.mem_cons_of_mem _ he, h'⟩

theorem toy_scalar : NormScalar toy := by
  refine ⟨fun c => ?_, fun c => ?_, fun a b h => ?_⟩
  · rcases look_mem canonTab [] c with h | ⟨e, he, h⟩
    · exact fun x hx => by rw [show toy.canon c = [] from h] at hx; exact absurd hx List.not_mem_nil
    · rw [show toy.canon c = e.2 from h]
      exact (show ∀ e ∈ canonTab, Scalars e.2 by decide) e he
  · rcases look_mem compatTab [] c with h | ⟨e, he, h⟩
    · exact fun x hx => by rw [show toy.compat c = [] from h] at hx; exact absurd hx List.not_mem_nil
    · rw [show toy.compat c = e.2 from h]
      exact (show ∀ e ∈ compatTab, Scalars e.2 by decide) e he
  · have : ∀ tab : List ((Nat × Nat) × Nat), (∀ e ∈ tab, IsScalar e.2) → IsScalar ((tab.lookup (a, b)).getD 0) := by
      intro tab
      induction tab with
      | nil => intro _; exact .inl (show (0 : Nat) < 0xD800 by decide)
      | cons e tab ih =>
        intro ht
        rw [List.lookup_cons]
        split
        · exact ht e List.mem_cons_self
        · exact ih fun x hx => ht x (List.mem_cons_of_mem _ hx)
    exact this compTab (by decide)

/-- "ß𐐀" and its upper case, as bytes. -/
example : ReturnsWellFormed (toUppercase8 sample 16 [0xC3, 0x9F, 0xF0, 0x90, 0x90, 0x80]) :=
  (C78_case_utf8 (fun _ => {}) sample sample_sorted sample_scalar 16 _ _ (utf8_scalars (text := [0xDF, 0x10400]) (by decide))).1
/-- "é" cut in the middle of its mark. -/
example : ReturnsWellFormed (.ok (u8flush toy .NFC (u8chunks toy .NFC ⟨[], {}⟩ [[0x65, 0xCC]]).1).2) :=
  (C78_stream_utf8 toy_scalar .NFC [[0x65, 0xCC]] [0x81] [0x65, 0x301] (utf8_scalars (text := [0x65, 0x301]) (by decide))).2
example : Scalars (normalize toy .NFC [0x1112, 0x1161, 0x11AB]) ∧ normalize toy .NFC [0x1112, 0x1161, 0x11AB] = [0xD55C] :=
  ⟨C78_normalize toy_scalar .NFC _ (by decide), by decide⟩

end Verif.Props.Valid
