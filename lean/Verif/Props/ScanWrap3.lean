import Verif.Props.ScanWrap2
import Verif.Props.ScanLine
/-!
# Property C66 for a terminal that keeps the state
-/

namespace Verif.Props.Scan
open Verif.Ucd Verif.Utf8 Verif.Grapheme Verif.Width Verif.Scan Verif.Spec.GB Verif.Spec Verif.Spec.Line Verif.Toy

/-- Lines filled first come first served: every line takes, of the glyphs of what is left of the text, as many as there is room for; that is what
the receiver is told, and the next line begins behind them. -/
inductive Lined (U : Table) : List Nat → List (Nat × Out) → Prop
  | done (ks : List Nat) : Lined U ks []
  | line (ds ks : List Nat) (max : Nat) (R : Out) (rest : List (Nat × Out)) (cls : List (List Nat)) (front : List Glyph) :
      Partition cls (ds ++ ks) →
      (∀ l b post, l ≠ [] → ds ++ ks = l ++ b :: post → (SegBoundary cls l ↔ ScanBorder U l b)) →
      Filled (clusterWidth U) max (glyphs cls) front R.count →
      R.events.flatMap told = front.map (fun x => (toUtf8Str x.text, x.columns (clusterWidth U))) →
      R.next = (toUtf8Str (front.flatMap (·.text))).length → R.next = (toUtf8Str ds).length →
      Lined U ks rest → Lined U (ds ++ ks) ((max, R) :: rest)

theorem lined_of_fresh {U : Table} (D : DataOk U) (W : WidthOk U) (A : AsciiOk U) (V : VariationOk U) (v : Variant) (w : Nat) {ks : List Nat}
    {lines : List (Nat × Out)} (h : WrapsFresh U v w ks lines) : Scannable ks → Lined U ks lines := by
  induction h with
  | done ks => exact fun _ => .done ks
  | line ds ks max R Q rest hQ hc _ _ hn he hq _ ih =>
    intro hsc
    have hp := splitText_partition U (ds ++ ks)
    have hb := fun l b post hl h => splitText_border D (ds ++ ks) l b post hl h
    obtain ⟨Q', front, h1, h2, h3, -, -, h6⟩ := C66_exact D W A V v w (ds ++ ks) hsc max _ hp hb
    rw [hQ] at h1
    cases h1
    exact .line ds ks max R rest _ front hp hb (by rw [hc]; exact h2) (by rw [he]; exact h3) (by rw [hn]; exact h6) (by rw [hn]; exact hq)
      (ih fun x hx => hsc x (List.mem_append_right _ hx))

/-- **C66 (exact, one state, partial).**  Any number of lines, of any widths, written with one state by calling `scan_text` with what is left of a text
without control characters: every line is filled first come first served with the glyphs of what is left, if every line ends in front of a
character as in `C62_any_partial` (otherwise the state left behind makes a difference, `C62_fails_hangul`). -/
theorem C66_one_state_partial {U : Table} (D : DataOk U) (W : WidthOk U) (A : AsciiOk U) (V : VariationOk U) (v : Variant) (w : Nat) (cs : List Nat)
    (hsc : Scannable cs) (lines : List (Nat × Out)) (h : Wraps U v w (State.init U) [] cs lines) : Lined U cs lines :=
  lined_of_fresh D W A V v w (C62_lines_partial D W v w cs (fun x hx => (hsc x hx).2.2) lines h) hsc

/-- "😀a" on lines of two columns. -/
example : ∃ R1 R2, Wraps toy .none 16 (State.init toy) [] [0x1F600, 0x61] [(2, R1), (2, R2)] ∧ Scannable [0x1F600, 0x61] ∧ R1.count = 2 ∧
    R2.count = 1 := by
  refine ⟨_, _, .line _ [] [0x1F600] [0x61] 2 _ _ (by simp) rfl (by decide +kernel) (fun c q e => by
      cases e
      exact ⟨by decide +kernel, by decide +kernel, .inl (by decide +kernel), fun h => absurd h (by decide +kernel)⟩)
    (.line _ _ [0x61] [] 2 _ _ (by simp) rfl (by decide +kernel) (fun c q e => by cases e) (.done _ _ _)), ?_, ?_, ?_⟩
  · intro c hc; simp at hc; omega
  all_goals decide +kernel

/-! ## Texts -/

/-- A text whose characters are complete wherever a line may end: no control characters, no marks at the beginning, directly behind an ASCII
character or behind a character of class `Control`, and no flags, jamo or `Prepend` characters (precomposed Hangul syllables, emoji sequences, combining marks behind other
characters and conjuncts are allowed). -/
structure PlainText (U : Table) (cs : List Nat) : Prop where
  scan : Scannable cs
  cls : ∀ x ∈ cs, (U x).gcb ≠ .L ∧ (U x).gcb ≠ .V ∧ (U x).gcb ≠ .T ∧ (U x).gcb ≠ .Prepend ∧ (U x).gcb ≠ .Regional_Indicator ∧ (U x).gcb ≠ .LF
  first : ∀ x q, cs = x :: q → (U x).gcb ≠ .Extend ∧ (U x).gcb ≠ .SpacingMark ∧ (U x).gcb ≠ .ZWJ
  marks : ∀ p a x q, cs = p ++ a :: x :: q → a < 0x80 ∨ (U a).gcb = .Control ∨ (U a).gcb = .CR →
    (U x).gcb ≠ .Extend ∧ (U x).gcb ≠ .SpacingMark ∧ (U x).gcb ≠ .ZWJ

/-- Where a glyph begins: at a border, or directly behind an ASCII character. -/
theorem glyph_start (cls : List (List Nat)) (hne : ∀ s ∈ cls, s ≠ []) : ∀ (front : List Glyph) (g : Glyph) (back : List Glyph),
    glyphs cls = front ++ g :: back → SegBoundary cls (front.flatMap (·.text)) ∨ ∃ p a, front.flatMap (·.text) = p ++ [a] ∧ a < 0x80 := by
  induction cls with
  | nil =>
    intro front g back h
    rw [glyphs] at h
    exact absurd h (by simp)
  | cons s cls ih =>
    intro front g back h
    have ih' := ih (fun x hx => hne x (List.mem_cons_of_mem _ hx))
    have lift : ∀ l, SegBoundary cls l → SegBoundary (s :: cls) (s ++ l) := by
      rintro l ⟨s1, s2, rfl, rfl⟩
      exact ⟨s :: s1, s2, rfl, rfl⟩
    cases front with
    | nil => exact .inl ⟨[], _, rfl, rfl⟩
    | cons g1 front =>
      cases s with
      | nil => exact absurd rfl (hne [] (List.mem_cons_self ..))
      | cons a t =>
        have step : ∀ front' : List Glyph, glyphs cls = front' ++ g :: back →
            SegBoundary ((a :: t) :: cls) ((a :: t) ++ front'.flatMap (·.text)) ∨ ∃ p b, (a :: t) ++ front'.flatMap (·.text) = p ++ [b] ∧ b < 0x80 := by
          intro front' h'
          rcases ih' front' g back h' with h1 | ⟨p, b, h1, h2⟩
          · exact .inl (lift _ h1)
          · exact .inr ⟨(a :: t) ++ p, b, by rw [h1, List.append_assoc], h2⟩
        rw [glyphs] at h
        by_cases ha : a < 0x80
        · rw [if_pos ha] at h
          by_cases ht : t = []
          · rw [if_pos ht] at h
            obtain ⟨rfl, h'⟩ := List.cons.inj h
            subst ht
            exact step front h'
          · rw [if_neg ht] at h
            obtain ⟨rfl, h'⟩ := List.cons.inj h
            cases front with
            | nil => exact .inr ⟨[], a, rfl, ha⟩
            | cons g2 front =>
              obtain ⟨rfl, h''⟩ := List.cons.inj h'
              exact step front h''
        · rw [if_neg ha] at h
          obtain ⟨rfl, h'⟩ := List.cons.inj h
          exact step front h'

theorem glyphs_flat (cls : List (List Nat)) : (glyphs cls).flatMap (·.text) = cls.flatten := by
  induction cls with
  | nil => rfl
  | cons s cls ih =>
    cases s with
    | nil => rw [glyphs, ih]; rfl
    | cons a t =>
      rw [glyphs]
      by_cases ha : a < 0x80
      · rw [if_pos ha]
        by_cases ht : t = []
        · rw [if_pos ht, List.flatMap_cons, ih, ht]; rfl
        · rw [if_neg ht, List.flatMap_cons, List.flatMap_cons, ih]; simp
      · rw [if_neg ha, List.flatMap_cons, ih]; rfl

/-- Behind a text of this kind comes no mark where the scanner sees a border. -/
theorem border_noMark {U : Table} (l : List Nat) (c : Nat) (h : ScanBorder U l c)
    (hc : ∀ p a, l = p ++ [a] → (U a).gcb ≠ .Control ∧ (U a).gcb ≠ .CR ∧ (U a).gcb ≠ .LF)
    (hhi : 0x80 ≤ c) : (U c).gcb ≠ .Extend ∧ (U c).gcb ≠ .SpacingMark ∧ (U c).gcb ≠ .ZWJ := by
  rcases h with h | ⟨s, ⟨p, hl, hne, -, -⟩, p', a, hs, -, hb⟩
  · exact absurd h (by omega)
  · have h1 := hc (p ++ p') a (by rw [hl, hs, List.append_assoc])
    rcases hb with hb | hb | hb
    · rcases hb with h | h | h
      · exact absurd h h1.1
      · exact absurd h h1.2.1
      · exact absurd h h1.2.2
    · refine ⟨fun e => ?_, fun e => ?_, fun e => ?_⟩ <;> (unfold gb5 at hb; rw [e] at hb; simp at hb)
    · refine ⟨fun e => hb ?_, fun e => hb ?_, fun e => hb ?_⟩
      · exact .inr (.inr (.inr (.inl (.inl e))))
      · exact .inr (.inr (.inr (.inr (.inl e))))
      · exact .inr (.inr (.inr (.inl (.inr e))))

/-- Lines of such a text end in front of a character that is no mark. -/
theorem plain_rest {U : Table} (D : DataOk U) (W : WidthOk U) (A : AsciiOk U) (V : VariationOk U) (v : Variant) (w : Nat) (ds ks : List Nat)
    (P : PlainText U (ds ++ ks)) (max : Nat) (Q : Out)
    (hQ : scanText U v w (State.init U) none [] (toUtf8Str (ds ++ ks)) max = .ok Q) (hn : Q.next = (toUtf8Str ds).length) : PlainText U ks := by
  refine ⟨fun x hx => P.scan x (List.mem_append_right _ hx), fun x hx => P.cls x (List.mem_append_right _ hx), ?_,
    fun p a x q e h => P.marks (ds ++ p) a x q (by rw [e, List.append_assoc]) h⟩
  intro c q e
  have hp := splitText_partition U (ds ++ ks)
  have hb := fun l b post hl h => splitText_border D (ds ++ ks) l b post hl h
  obtain ⟨Q', front, h1, ⟨back, fr, h2, -, -⟩, -, -, -, h6⟩ := C66_exact D W A V v w (ds ++ ks) P.scan max _ hp hb
  rw [hQ] at h1
  cases h1
  have hflat := glyphs_flat (splitText U (ds ++ ks))
  rw [h2, List.flatMap_append, hp.concat] at hflat
  have hds : front.flatMap (·.text) = ds ∧ back.flatMap (·.text) = ks := by
    have := Halt.suffix_same (l := ds ++ ks) (a := back.flatMap (·.text)) (b := ks) ⟨_, hflat⟩ (List.suffix_append ..) (by
      have h7 := congrArg (fun l => (toUtf8Str l).length) hflat
      simp only [str_append, List.length_append] at h7
      rw [hn] at h6
      omega)
    refine ⟨?_, this⟩
    rw [this] at hflat
    exact List.append_cancel_right hflat
  obtain ⟨hd1, hd2⟩ := hds
  have hbk : ∃ g bk, back = g :: bk := by
    cases back with
    | nil => rw [e] at hd2; simp at hd2
    | cons g bk => exact ⟨g, bk, rfl⟩
  obtain ⟨g, bk, rfl⟩ := hbk
  have hgs := glyph_start _ hp.nonempty front g bk h2
  rw [hd1] at hgs
  by_cases hdn : ds = []
  · subst hdn
    exact P.first c q (by rw [e]; rfl)
  · have hlast : ∃ p a, ds = p ++ [a] := ⟨ds.dropLast, ds.getLast hdn, (List.dropLast_append_getLast hdn).symm⟩
    by_cases hlow : ∃ p a, ds = p ++ [a] ∧ (a < 0x80 ∨ (U a).gcb = .Control ∨ (U a).gcb = .CR)
    · obtain ⟨p, a, rfl, ha⟩ := hlow
      exact P.marks p a c q (by rw [e, List.append_assoc]; rfl) ha
    · by_cases hca : c < 0x80
      · rcases D.ascii_gcb c (by omega) with h | h | h | h <;> rw [h] <;> decide
      · rcases hgs with hs | ⟨p, a, h, ha⟩
        · have hsb := (hb ds c q hdn (by rw [e])).1 hs
          refine border_noMark ds c hsb (fun p a h => ?_) (by omega)
          have h1 := P.cls a (by rw [h]; simp)
          exact ⟨fun h2 => hlow ⟨p, a, h, .inr (.inl h2)⟩, fun h2 => hlow ⟨p, a, h, .inr (.inr h2)⟩, h1.2.2.2.2.2⟩
        · exact absurd ⟨p, a, h, .inl ha⟩ hlow

/-- As `Wraps`, without a condition on where the lines end. -/
inductive Written (U : Table) (v : Variant) (w : Nat) : State → List Nat → List Nat → List (Nat × Out) → Prop
  | done (st : State) (cs ks : List Nat) : Written U v w st cs ks []
  | line (st : State) (cs ds ks : List Nat) (max : Nat) (R : Out) (rest : List (Nat × Out)) : ds ++ ks ≠ [] →
      scanText U v w st (some 0) (toUtf8Str cs) (toUtf8Str (ds ++ ks)) max = .ok R → R.next = (toUtf8Str ds).length →
      Written U v w R.st (cs ++ ds) ks rest → Written U v w st cs (ds ++ ks) ((max, R) :: rest)

theorem PlainText.mayStop {U : Table} {ks : List Nat} (P : PlainText U ks) (c : Nat) (q : List Nat) (e : ks = c :: q) (n m : Nat) : MayStop U n m c := by
  have h := P.cls c (by rw [e]; simp)
  exact ⟨P.first c q e, h.2.2.2.2.1, .inl ⟨h.1, h.2.1, h.2.2.1, h.2.2.2.1⟩, fun e => absurd e h.2.2.2.2.2⟩

theorem written_fresh {U : Table} (D : DataOk U) (W : WidthOk U) (A : AsciiOk U) (V : VariationOk U) (v : Variant) (w : Nat) {st : State}
    {cs ks : List Nat} {lines : List (Nat × Out)} (h : Written U v w st cs ks lines) : ∀ (room : Nat), PlainText U ks →
      (ks ≠ [] → st.utf8.expectedLength = 0) → Halt.Ready U st room ks → WrapsFresh U v w ks lines := by
  induction h with
  | done st cs ks => intros; exact .done ks
  | line st cs ds ks max R rest hne hR hn _ ih =>
    intro room P hid hst
    have hsc : ∀ x ∈ ds ++ ks, x ≤ 0x1FFFFF := fun x hx => (P.scan x hx).2.2
    obtain ⟨Q, hQ⟩ := scanText_fresh_ok U v w (toUtf8Str (ds ++ ks)) max
    have h := same_as_fresh D W v w st (hid hne) _ (ds ++ ks) hsc 0 room (by rw [Nat.sub_zero]; exact hst)
      (fun c q e => .inr (P.mayStop c q e _ _)) max R Q hR hQ
    have hnq : Q.next = (toUtf8Str ds).length := by rw [← h.next]; exact hn
    exact .line ds ks max R Q rest hQ h.count h.start h.fin h.next h.events hnq
      (ih (max - R.count) (plain_rest D W A V v w ds ks P max Q hQ hnq)
        (fun hk => idle_at U v w st (hid hne) (some 0) rfl _ ds ks hk hsc max R hR hn)
        (Halt.ready_from D v w st (hid hne) (some 0) rfl _ _ ds ks hst max R hsc hR hn))

/-- **C62/C66 (partial).**  A whole text written with one state, with a condition only on the text: no control characters, flags, jamo or `Prepend`
characters, and no marks directly behind ASCII or C1 control characters.  Every line, whatever its width, is filled first come first served. -/
theorem C66_plain_text_partial {U : Table} (D : DataOk U) (W : WidthOk U) (A : AsciiOk U) (V : VariationOk U) (v : Variant) (w : Nat) (cs : List Nat)
    (P : PlainText U cs) (lines : List (Nat × Out)) (h : Written U v w (State.init U) [] cs lines) : Lined U cs lines :=
  lined_of_fresh D W A V v w (written_fresh D W A V v w h 0 P (fun _ => rfl) (fun _ _ _ _ => .inl rfl)) P.scan

/-- A conjunct, an emoji sequence and a heart with emoji presentation: such a text. -/
example : PlainText toy [0x915, 0x94D, 0x915, 0x61, 0x1F600, 0x200D, 0x1F600, 0x2764, 0xFE0F, 0x62] := by
  have hl : ∀ x ∈ [0x915, 0x94D, 0x915, 0x61, 0x1F600, 0x200D, 0x1F600, 0x2764, 0xFE0F, 0x62], 0x20 ≤ x ∧ x ≠ 0x7F ∧ x ≤ 0x1FFFFF := by decide
  refine ⟨hl, by decide +kernel, fun x q e => ?_, ?_⟩
  · cases e; decide +kernel
  · have key : ∀ l : List Nat, (∀ y ∈ l.zip l.tail, (y.1 < 0x80 ∨ (toy y.1).gcb = .Control ∨ (toy y.1).gcb = .CR) →
        (toy y.2).gcb ≠ .Extend ∧ (toy y.2).gcb ≠ .SpacingMark ∧ (toy y.2).gcb ≠ .ZWJ) → ∀ p a x q, l = p ++ a :: x :: q →
        a < 0x80 ∨ (toy a).gcb = .Control ∨ (toy a).gcb = .CR → (toy x).gcb ≠ .Extend ∧ (toy x).gcb ≠ .SpacingMark ∧ (toy x).gcb ≠ .ZWJ := by
      intro l h p a x q e
      refine h (a, x) ?_
      subst e
      clear h
      induction p with
      | nil => simp
      | cons y p ih =>
        cases p with
        | nil => simp
        | cons z p =>
          simp only [List.cons_append, List.tail_cons, List.zip_cons_cons, List.mem_cons] at ih ⊢
          exact .inr ih
    exact key _ (by decide +kernel)

end Verif.Props.Scan
