import Verif.Lemmas.ScanLine
import Verif.Props.ScanExact
/-!
# C66, C63: what `scan_text` puts on a line and tells the receiver, exactly

`C66_fails_mark`, `C63_fails_mark` refute that the scanner fills lines character by character.  Here is what it does, for every text without control
characters and every limit: the characters are those between the borders of Spec/ScanBorder, the line is that of Spec/ScanLine.
-/

namespace Verif.Props.Scan
open Verif.Ucd Verif.Utf8 Verif.Grapheme Verif.Width Verif.Scan Verif.Spec.GB Verif.Spec Verif.Spec.Line Verif.Toy

/-- **C66 (exact), C63 (exact), C12.** Let `cls` be the characters of a text without control characters as the scanner sees them.  With a limit of `max` columns
`scan_text` puts on the line the longest front of the glyphs of these characters that fits; it counts the columns they add; it tells the receiver the bytes of
each glyph, with the columns of the character so far; and it stops behind the last one.  Nothing is excluded: flags, U+FE0E, marks on ASCII characters,
`Prepend` in front of ASCII.  Behind the text there may be a control character (C0 or C1) and anything after it: the result is the same, in particular nothing
of it is consumed, counted or told. -/
theorem C66_until_control {U : Table} (D : DataOk U) (W : WidthOk U) (A : AsciiOk U) (V : VariationOk U) (v : Variant) (w : Nat) (cs : List Nat)
    (hsc : Scannable cs) (tail : List Nat) (hbt : ∀ b ∈ tail, b < 256) (htl : ∀ b t, tail = b :: t → b < 0x20 ∨ 0x80 ≤ b ∧ b ≤ 0x9F)
    (max : Nat) (cls : List (List Nat)) (hp : Partition cls cs)
    (hb : ∀ l b post, l ≠ [] → cs = l ++ b :: post → (SegBoundary cls l ↔ ScanBorder U l b)) :
    ∃ R front, scanText U v w (State.init U) none [] (toUtf8Str cs ++ tail) max = .ok R ∧ Filled (clusterWidth U) max (glyphs cls) front R.count ∧
      R.events.flatMap told = front.map (fun x => (toUtf8Str x.text, x.columns (clusterWidth U))) ∧
      R.start = 0 ∧ R.fin = R.next ∧ R.next = (toUtf8Str (front.flatMap (·.text))).length := by
  have hu : cls = splitText U cs := partition_unique cls _ cs hp (splitText_partition U cs)
    (fun l b post h1 h2 => (hb l b post h1 h2).trans (splitText_border D cs l b post h1 h2).symm)
  have hwd : clusterWidth U = accWidth U := funext fun x => clusterWidth_eq_acc W x
  rw [hwd, hu]
  have finish : ∀ R0 R : Out, R0.count = 0 → R0.start = 0 → R0.next = 0 → R0.events = [] → LineDone U max true R0 R (glyphs (splitText U cs)) →
      ∃ front, Filled (accWidth U) max (glyphs (splitText U cs)) front R.count ∧
        R.events.flatMap told = front.map (fun x => (toUtf8Str x.text, x.columns (accWidth U))) ∧
        R.start = 0 ∧ R.fin = R.next ∧ R.next = (toUtf8Str (front.flatMap (·.text))).length := by
    rintro R0 R e1 e2 e3 e4 ⟨front, back, f, h1, h2, h3, h4, h5, h6, h7⟩
    refine ⟨front, ⟨back, f, h1, by rw [e1] at h2; exact h2, h3⟩, ?_, h6.trans e2, h5, by rw [h4, e3]; simp⟩
    rw [h7, e4]
    rfl
  have htl' : EndsLine tail := by
    cases tail with
    | nil => exact .inl rfl
    | cons b t => exact .inr ⟨b, t, rfl, htl b t rfl⟩
  have run : ∀ b bs, toUtf8Str cs ++ tail = b :: bs →
      DueLine U max (isComplex b) cs { count := 0, start := 0, fin := 0, st := State.init U, next := 0, events := [] } (glyphs (splitText U cs)) →
      ∃ R front, scanText U v w (State.init U) none [] (toUtf8Str cs ++ tail) max = .ok R ∧ Filled (accWidth U) max (glyphs (splitText U cs)) front R.count ∧
        R.events.flatMap told = front.map (fun x => (toUtf8Str x.text, x.columns (accWidth U))) ∧
        R.start = 0 ∧ R.fin = R.next ∧ R.next = (toUtf8Str (front.flatMap (·.text))).length := by
    intro b bs hbs hdue
    have key := line_main D W A V v w max ((toUtf8Str cs ++ tail).length : Int) tail htl' hbt ((toUtf8Str cs ++ tail).length + 1) (isComplex b) cs
      { count := 0, start := 0, fin := 0, st := State.init U, next := 0, events := [] } _ (Nat.lt_succ_self _) hsc rfl rfl (by simp)
      (Nat.zero_le _) hdue true (fun _ => rfl)
    obtain ⟨front, h⟩ := finish _ _ rfl rfl rfl rfl key
    refine ⟨mainLoop U v w max (toUtf8Str cs ++ tail).length ((toUtf8Str cs ++ tail).length + 1) (isComplex b) (toUtf8Str cs ++ tail) 0
      { count := 0, start := 0, fin := 0, st := State.init U, next := 0, events := [] }, front, ?_, h⟩
    unfold scanText
    rw [hbs]
    rfl
  cases cs with
  | nil =>
    rw [str_nil, List.nil_append] at run ⊢
    cases tail with
    | nil =>
      obtain ⟨front, h⟩ := finish { count := 0, start := 0, fin := 0, st := State.init U, next := 0, events := [] }
        { count := 0, start := 0, fin := 0, st := State.init U, next := 0, events := [] } rfl rfl rfl rfl (LineDone.here rfl (fun x xs h => by cases h))
      exact ⟨_, front, rfl, h⟩
    | cons b t =>
      refine run b t rfl ?_
      cases isComplex b with
      | true => exact ⟨.inr (.inl rfl), .inl ⟨rfl, rfl⟩⟩
      | false => exact .inl ⟨rfl, rfl⟩
  | cons c cs =>
    obtain ⟨b, bs, hbs, hcx⟩ : ∃ b bs, toUtf8Str (c :: cs) = b :: bs ∧ (isComplex b = true ↔ 0x80 ≤ c) := by
      obtain ⟨h1, h2, h3⟩ := hsc c (by simp)
      by_cases hlt : c < 0x80
      · refine ⟨c, toUtf8Str cs, by rw [str_cons, toUtf8_low c hlt]; rfl, ?_⟩
        rw [isComplex_iff c (by omega)]
      · have hh := (toUtf8_high c (by omega) h3).1
        cases ht : toUtf8 c with
        | nil => exact absurd ht (toUtf8_ne_nil c)
        | cons b bs =>
          have := hh b (by rw [ht]; simp)
          refine ⟨b, bs ++ toUtf8Str cs, by rw [str_cons, ht]; rfl, ?_⟩
          rw [isComplex_iff b this.2]
          constructor <;> intro _ <;> omega
    refine run b (bs ++ tail) (by rw [hbs]; rfl) ?_
    cases hx : isComplex b with
    | true => exact ⟨.inr (.inr ⟨c, cs, rfl, hcx.1 hx⟩), .inl ⟨rfl, rfl⟩⟩
    | false =>
      refine .inr (.inl ⟨c, cs, rfl, ?_, rfl⟩)
      by_contra hn
      rw [hcx.2 (by omega)] at hx
      cases hx

/-- **C66 (exact), C63 (exact).** The same for a text with nothing behind it. -/
theorem C66_exact {U : Table} (D : DataOk U) (W : WidthOk U) (A : AsciiOk U) (V : VariationOk U) (v : Variant) (w : Nat) (cs : List Nat)
    (hsc : Scannable cs) (max : Nat) (cls : List (List Nat)) (hp : Partition cls cs)
    (hb : ∀ l b post, l ≠ [] → cs = l ++ b :: post → (SegBoundary cls l ↔ ScanBorder U l b)) :
    ∃ R front, scanText U v w (State.init U) none [] (toUtf8Str cs) max = .ok R ∧ Filled (clusterWidth U) max (glyphs cls) front R.count ∧
      R.events.flatMap told = front.map (fun x => (toUtf8Str x.text, x.columns (clusterWidth U))) ∧
      R.start = 0 ∧ R.fin = R.next ∧ R.next = (toUtf8Str (front.flatMap (·.text))).length := by
  have h := C66_until_control D W A V v w cs hsc [] (by simp) (fun b t h => by cases h) max cls hp hb
  rw [List.append_nil] at h
  exact h

theorem places_unique {wd : List Nat → Nat} {max n : Nat} {f : Bool} {a : List Glyph} {m f'} (h : Places wd max n f a m f') :
    ∀ {b x y m2 f2}, Places wd max n f b m2 f2 → a ++ x = b ++ y → (∀ g gs, x = g :: gs → ¬ Fits wd max m f' g) → (∀ g gs, y = g :: gs → ¬ Fits wd max m2 f2 g) → a = b ∧ m = m2 := by
  induction h with
  | nil n f =>
    intro b x y m2 f2 h2 e h3 h4
    cases h2 with
    | nil => exact ⟨rfl, rfl⟩
    | cons h5 _ => exact absurd h5 (h3 _ _ e)
  | cons h1 _ ih =>
    intro b x y m2 f2 h2 e h3 h4
    cases h2 with
    | nil => exact absurd h1 (h4 _ _ e.symm)
    | cons h5 h6 =>
      rw [List.cons_append, List.cons_append] at e
      obtain ⟨rfl, e'⟩ := List.cons.inj e
      obtain ⟨rfl, rfl⟩ := ih h6 e' h3 h4
      exact ⟨rfl, rfl⟩

/-- What is put on the line, and how many columns it takes, is determined by the glyphs. -/
theorem C66_unique (width : List Nat → Nat) (max : Nat) (all a b : List Glyph) (m m' : Nat) (h : Filled width max all a m) (h' : Filled width max all b m') :
    a = b ∧ m = m' := by
  obtain ⟨x, f, e, h1, h2⟩ := h
  obtain ⟨y, f', e', h1', h2'⟩ := h'
  exact places_unique h1 h1' (e ▸ e') h2 h2'

/-- **C63 (exact).** The receiver is told, in order and without gaps, glyphs of the text: for an ASCII character one column; for a character that is not
ASCII its bytes and its columns; for what follows an ASCII character within a character the bytes of that, but the columns of the whole.  If the limit is
not in the way these are all glyphs. -/
theorem C63_exact {U : Table} (D : DataOk U) (W : WidthOk U) (A : AsciiOk U) (V : VariationOk U) (v : Variant) (w : Nat) (cs : List Nat)
    (hsc : Scannable cs) (max : Nat) (cls : List (List Nat)) (hp : Partition cls cs)
    (hb : ∀ l b post, l ≠ [] → cs = l ++ b :: post → (SegBoundary cls l ↔ ScanBorder U l b)) :
    ∃ R front back, scanText U v w (State.init U) none [] (toUtf8Str cs) max = .ok R ∧ glyphs cls = front ++ back ∧
      R.events.flatMap told = front.map (fun x => (toUtf8Str x.text, x.columns (clusterWidth U))) ∧ (3 * cs.length + 1 ≤ max → back = []) := by
  obtain ⟨R, front, h1, ⟨back, f, h2, -, -⟩, h3, -, -, h4⟩ := C66_exact D W A V v w cs hsc max cls hp hb
  refine ⟨R, front, back, h1, h2, h3, fun hmax => ?_⟩
  obtain ⟨R', h1', -, h5⟩ := C46_exact D W A V v w cs hsc max hmax cls hp hb
  rw [h1] at h1'
  obtain rfl : R = R' := by injection h1'
  rw [h4] at h5
  have hall : (glyphs cls).flatMap (·.text) = cs := by
    rw [← hp.concat]
    have : ∀ X : List (List Nat), (glyphs X).flatMap (·.text) = X.flatten := by
      intro X
      induction X with
      | nil => rfl
      | cons p X ih =>
        cases p with
        | nil => rw [glyphs, ih]; rfl
        | cons a t =>
          rw [glyphs]
          split
          · split
            · rename_i h; rw [List.flatMap_cons, ih, h]; rfl
            · rw [List.flatMap_cons, List.flatMap_cons, ih]; rfl
          · rw [List.flatMap_cons, ih]; rfl
    exact this cls
  cases back with
  | nil => rfl
  | cons x xs =>
    exfalso
    have hx := glyphs_text cls x (by rw [h2]; simp)
    rw [h2, List.flatMap_append, List.flatMap_cons] at hall
    have := congrArg (fun l => (toUtf8Str l).length) hall
    simp only [str_append, List.length_append] at this
    have hpos := str_pos x.text hx
    have h5' : (toUtf8Str (front.flatMap (·.text))).length = (toUtf8Str cs).length := by exact_mod_cast h5
    omega

/-- With a line feed and more behind it: `"aé\n\xFFb"` is scanned as `"aé"`. -/
example : ∃ R, scanText toy .none 16 (State.init toy) none [] (toUtf8Str [0x61, 0xE9] ++ [0x0A, 0xFF, 0x62]) 80 = .ok R ∧ R.next ≤ 3 ∧
    ∃ n, R.events.flatMap told = [([0x61], 1), ([0xC3, 0xA9], 1)].take n := by
  have h : splitText toy [0x61, 0xE9] = [[0x61], [0xE9]] := by decide +kernel
  obtain ⟨R, front, h1, ⟨back, f, h2, -⟩, h3, -, -, h4⟩ := C66_until_control toy_ok toy_width_ok toy_ascii_ok toy_variation_ok .none 16
    [0x61, 0xE9] (by intro c hc; simp at hc; omega) [0x0A, 0xFF, 0x62] (by decide) (by rintro b t ⟨⟩; exact .inl (by decide)) 80 [[0x61], [0xE9]]
    (by rw [← h]; exact splitText_partition toy _) (by
      intro l b post h1 h2
      rw [← h]
      exact splitText_border toy_ok _ l b post h1 h2)
  have hg : glyphs [[0x61], [0xE9]] = [⟨[], [0x61]⟩, ⟨[], [0xE9]⟩] := by decide
  rw [hg] at h2
  have hf : front = [] ∨ front = [⟨[], [0x61]⟩] ∨ front = [⟨[], [0x61]⟩, ⟨[], [0xE9]⟩] := by
    match front, h2 with
    | [], _ => exact .inl rfl
    | [x], h2 => simp at h2; exact .inr (.inl (by rw [h2.1]))
    | [x, y], h2 => simp at h2; exact .inr (.inr (by rw [h2.1, h2.2.1]))
    | x :: y :: z :: t, h2 => simp at h2
  refine ⟨R, h1, ?_, ?_⟩
  · rw [h4]
    rcases hf with rfl | rfl | rfl <;> decide +kernel
  · rw [h3]
    rcases hf with rfl | rfl | rfl
    · exact ⟨0, rfl⟩
    · exact ⟨1, by decide +kernel⟩
    · exact ⟨2, by decide +kernel⟩

/-- A line of two columns: an emoji does not fit behind `a` with its mark; the mark is told with the column of `a`. -/
example : ∃ R, scanText toy .none 16 (State.init toy) none [] (toUtf8Str [0x61, 0x301, 0x1F600, 0x62]) 2 = .ok R ∧ R.count = 1 ∧ R.next = 3 ∧
    R.events.flatMap told = [([0x61], 1), ([0xCC, 0x81], 1)] := by
  have h : splitText toy [0x61, 0x301, 0x1F600, 0x62] = [[0x61, 0x301], [0x1F600], [0x62]] := by decide +kernel
  obtain ⟨R, front, h1, h2, h3, -, -, h4⟩ := C66_exact toy_ok toy_width_ok toy_ascii_ok toy_variation_ok .none 16
    [0x61, 0x301, 0x1F600, 0x62] (by intro c hc; simp at hc; omega) 2 [[0x61, 0x301], [0x1F600], [0x62]]
    (by rw [← h]; exact splitText_partition toy _) (by
      intro l b post h1 h2
      rw [← h]
      exact splitText_border toy_ok _ l b post h1 h2)
  have hw : clusterWidth toy [0x61] = 1 ∧ clusterWidth toy [0x61, 0x301] = 1 ∧ clusterWidth toy [] = 0 ∧ clusterWidth toy [0x1F600] = 2 := by decide +kernel
  have hf : Filled (clusterWidth toy) 2 (glyphs [[0x61, 0x301], [0x1F600], [0x62]]) [⟨[], [0x61]⟩, ⟨[0x61], [0x301]⟩] 1 := by
    refine ⟨[⟨[], [0x1F600]⟩, ⟨[], [0x62]⟩], false, by decide, ?_, ?_⟩
    · have one : ∀ (bf : List Nat) (c : Nat) (n k : Nat), n + (clusterWidth toy (bf ++ [c]) - clusterWidth toy bf) ≤ k →
          ∀ q, q ≠ [] → q <+: [c] → n + (clusterWidth toy (bf ++ q) - clusterWidth toy bf) ≤ k := by
        intro bf c n k hk q hq hpre
        have : q = [c] := by
          have h1 := hpre.length_le
          have h2 := List.length_pos_iff.2 hq
          exact hpre.eq_of_length (by simp at h1 ⊢; omega)
        rw [this]; exact hk
      have e1 : 0 + (Glyph.mk [] [0x61]).adds (clusterWidth toy) = 1 := by decide +kernel
      have e2 : 1 + (Glyph.mk [0x61] [0x301]).adds (clusterWidth toy) = 1 := by decide +kernel
      refine .cons ⟨fun _ => by decide, one [] 0x61 0 2 (by decide +kernel)⟩ ?_
      rw [e1]
      refine .cons ⟨fun _ => by decide, one [0x61] 0x301 1 2 (by decide +kernel)⟩ ?_
      rw [e2]
      exact .nil _ _
    · rintro x xs hx ⟨-, h⟩
      obtain ⟨rfl, -⟩ := List.cons.inj hx
      have := h [0x1F600] (by simp) (List.prefix_refl _)
      revert this
      decide +kernel
  obtain ⟨rfl, e⟩ := C66_unique _ _ _ _ _ _ _ h2 hf
  refine ⟨R, h1, e, h4.trans (by decide +kernel), h3.trans (by decide +kernel)⟩

end Verif.Props.Scan
