import Verif.Lemmas.ScanCols
import Verif.Props.ScanWrap
/-!
# Property C63: the columns handed to the receiver add up to the count
-/

namespace Verif.Props.Scan
open Verif.Scan Verif.Ucd Verif.Utf8 Verif.Grapheme Verif.Width Verif.Toy Verif.Spec.GB

/-- The property as a user expects it: a receiver that advances by one column per ASCII character, by `columnCount` per
grapheme cluster and by one column per invalid sequence has advanced by `scan_result::count` when `scan_text` returns. -/
def C63_Columns : Prop :=
  ∀ (U : Table) (v : Variant) (w : Nat) (cs : List Nat) (max : Nat) (R : Out),
    DataOk U → WidthOk U → AsciiOk U → Scannable cs →
    scanText U v w (State.init U) none [] (toUtf8Str cs) max = .ok R → (R.events.map Event.cols).sum = R.count

/-- The code violates it: for "á" as "a" and a combining acute accent, the receiver is given one ASCII character and a
cluster of one column, but the count is one. -/
theorem C63_fails_mark : ¬ C63_Columns := by
  intro h
  have := h toy .none 16 [0x61, 0x301] 10 _ toy_ok toy_width_ok toy_ascii_ok (by intro c hc; simp at hc; omega) rfl
  revert this
  decide +kernel

/-- Nor does it hold for text that is cut within a character: "a" and the first byte of "é". -/
theorem C63_fails_cut : ∃ R, scanText toy .none 16 (State.init toy) none [] [0x61, 0xC3] 10 = .ok R ∧
    R.count = 1 ∧ R.events = [.ascii [0x61], .cluster [0xC3] 1] :=
  ⟨_, rfl, by decide +kernel, by decide +kernel⟩

/-- No combining character (`Extend`, `ZWJ`, `SpacingMark`) directly behind an ASCII character. -/
def NoMarkAfterAscii (U : Table) (cs : List Nat) : Prop :=
  ∀ p a x q, cs = p ++ a :: x :: q → a < 0x80 → (U x).gcb ≠ .Extend ∧ (U x).gcb ≠ .ZWJ ∧ (U x).gcb ≠ .SpacingMark

theorem noMark_of_pairs (U : Table) (cs : List Nat)
    (h : ∀ y ∈ cs.zip cs.tail, y.1 < 0x80 → (U y.2).gcb ≠ .Extend ∧ (U y.2).gcb ≠ .ZWJ ∧ (U y.2).gcb ≠ .SpacingMark) :
    NoMarkAfterAscii U cs := by
  intro p a x q he
  refine h (a, x) ?_
  subst he
  induction p with
  | nil => simp
  | cons c p ih =>
    have ih := ih (fun y hy => h y (by
      cases p with
      | nil => exact List.mem_cons_of_mem _ hy
      | cons d p => exact List.mem_cons_of_mem _ hy))
    cases p with
    | nil => exact List.mem_cons_of_mem _ ih
    | cons d p => exact List.mem_cons_of_mem _ ih

theorem toUtf8Str_lt (l : List Nat) (hl : ∀ x ∈ l, x ≤ 0x1FFFFF) : ∀ b ∈ toUtf8Str l, b < 256 := by
  rw [toUtf8Str_eq]
  intro b hb
  obtain ⟨x, hx, hbx⟩ := List.mem_flatMap.1 hb
  by_cases hlt : x < 0x80
  · rw [toUtf8_low x hlt] at hbx; simp at hbx; omega
  · exact ((toUtf8_high x (by omega) (hl x hx)).1 b hbx).2

/-- An ASCII byte of the encoding is an ASCII character of the text. -/
theorem ascii_of_encoding (cs : List Nat) (hc : ∀ c ∈ cs, c ≤ 0x1FFFFF) (p : List Nat) (a : Nat) (t : List Nat) (ha : a < 0x80)
    (h : cs.flatMap toUtf8 = p ++ a :: t) : ∃ u v, cs = u ++ a :: v ∧ t = v.flatMap toUtf8 := by
  induction cs generalizing p with
  | nil => simp at h
  | cons c cs ih =>
    rw [List.flatMap_cons] at h
    have hc' := fun x hx => hc x (List.mem_cons_of_mem c hx)
    by_cases hlt : c < 0x80
    · rw [toUtf8_low c hlt] at h
      cases p with
      | nil =>
        simp only [List.cons_append, List.nil_append, List.cons.injEq] at h
        exact ⟨[], cs, by rw [← h.1]; rfl, h.2.symm⟩
      | cons y p =>
        simp only [List.cons_append, List.nil_append, List.cons.injEq] at h
        obtain ⟨u, v, h1, h2⟩ := ih hc' p h.2
        exact ⟨c :: u, v, by rw [h1]; rfl, h2⟩
    · have hhi := (toUtf8_high c (by omega) (hc c (List.mem_cons_self ..))).1
      rcases List.append_eq_append_iff.1 h with ⟨m, h1, h2⟩ | ⟨m, h1, h2⟩
      · obtain ⟨u, v, h3, h4⟩ := ih hc' m h2
        exact ⟨c :: u, v, by rw [h3]; rfl, h4⟩
      · cases m with
        | nil =>
          obtain ⟨u, v, h3, h4⟩ := ih hc' [] (by simpa using h2.symm)
          exact ⟨c :: u, v, by rw [h3]; rfl, h4⟩
        | cons y m =>
          exfalso
          simp only [List.cons_append, List.cons.injEq] at h2
          have := hhi a (by rw [h1, h2.1]; simp)
          omega

theorem asciiAlone_encoding {U : Table} (D : DataOk U) (A : AsciiOk U) (cs : List Nat) (hsc : Scannable cs)
    (hm : NoMarkAfterAscii U cs) : AsciiAlone U (toUtf8Str cs) := by
  rw [toUtf8Str_eq]
  intro p a t ht hpr b q hb hcx
  have hc : ∀ c ∈ cs, c ≤ 0x1FFFFF := fun c h => (hsc c h).2.2
  have hle : a ≤ 0x7F := hpr.2
  obtain ⟨u, v, h1, h2⟩ := ascii_of_encoding cs hc p a t (by omega) ht
  have ha7 : a < 0x7F := by
    have := (hsc a (by rw [h1]; simp)).2.1
    omega
  cases v with
  | nil => rw [h2] at hb; simp at hb
  | cons x v =>
    have hx : x ≤ 0x1FFFFF := hc x (by rw [h1]; simp)
    rw [List.flatMap_cons] at h2
    have hx80 : 0x80 ≤ x := by
      by_contra hlt
      rw [toUtf8_low x (by omega), hb] at h2
      simp only [List.cons_append, List.cons.injEq] at h2
      have := (isComplex_iff b (by omega)).1 hcx
      omega
    refine .inr (.inr ⟨toUtf8 x, x, _, h2, ⟨toUtf8_ne_nil x, (feed_toUtf8 {} rfl x hx).1⟩, fun y hy => ((toUtf8_high x hx80 hx).1 y hy).1, ?_⟩)
    obtain ⟨g1, g2, g3⟩ := hm u a x v h1 (by omega)
    have ga : (U a).gcb = .Other := (A a hpr.1 ha7).1
    have gi := D.ascii_incb a (by omega)
    have ge := D.ascii_extpict a (by omega)
    unfold processBreakable processInit
    simp only [ga, gi, ge, reduceCtorEq, false_and, if_false, Bool.false_eq_true]
    rw [if_neg (by omega)]
    have hcas : ∀ ri, cascade .Other (U x) 0 0 ri = .brk := by
      intro ri
      unfold cascade isCtl
      have h02 : ¬ (0 = 2) := by decide
      simp [g1, g2, g3]
    rw [hcas]

/-- **C63 (partial).**  It holds for every text without a combining character directly behind an ASCII character, for every
limit, CPU and vector width. -/
theorem C63_columns_partial {U : Table} (D : DataOk U) (A : AsciiOk U) (v : Variant) (w : Nat) (cs : List Nat)
    (hsc : Scannable cs) (hm : NoMarkAfterAscii U cs) (max : Nat) (R : Out)
    (hR : scanText U v w (State.init U) none [] (toUtf8Str cs) max = .ok R) : (R.events.map Event.cols).sum = R.count := by
  have hb := toUtf8Str_lt cs (fun c h => (hsc c h).2.2)
  have ha := asciiAlone_encoding D A cs hsc hm
  generalize toUtf8Str cs = T at hR hb ha
  unfold scanText at hR
  simp only [State.init, ne_eq, not_true_eq_false, if_false] at hR
  cases T with
  | nil => cases hR; rfl
  | cons b bs =>
    simp only [Mem.ok.injEq] at hR
    subst hR
    exact mainLoop_cols U v w max _ _ _ _ hb ha 0 (by simp) _ rfl (.inl rfl) (fun _ => .inl ⟨rfl, rfl⟩)

/-- **C63 (partial), any bytes.**  It also holds for every byte string, well formed or not, in which no byte in 0x20..0x7F
is directly followed by a byte that is not ASCII. -/
theorem C63_bytes_partial (U : Table) (v : Variant) (w : Nat) (text : List Nat) (hb : ∀ b ∈ text, b < 256)
    (hsep : ∀ p a b q, text = p ++ a :: b :: q → 0x20 ≤ a → a ≤ 0x7F → b < 0x80) (max : Nat) (R : Out)
    (hR : scanText U v w (State.init U) none [] text max = .ok R) : (R.events.map Event.cols).sum = R.count := by
  have ha : AsciiAlone U text := by
    intro p a t ht hpr b q hq hcx
    exfalso
    have h1 := hsep p a b q (by rw [ht, hq]) hpr.1 hpr.2
    have := (isComplex_iff b (by omega)).1 hcx
    omega
  unfold scanText at hR
  simp only [State.init, ne_eq, not_true_eq_false, if_false] at hR
  cases text with
  | nil => cases hR; rfl
  | cons b bs =>
    simp only [Mem.ok.injEq] at hR
    subst hR
    exact mainLoop_cols U v w max _ _ _ _ hb ha 0 (by simp) _ rfl (.inl rfl) (fun _ => .inl ⟨rfl, rfl⟩)

/-- The hypotheses are met by "aé̈👨‍❤️b" (a combining mark behind "é" and a ZWJ sequence) … -/
example : ∃ R, scanText toy .none 16 (State.init toy) none []
      (toUtf8Str [0x61, 0xE9, 0x301, 0x1F600, 0x200D, 0x2764, 0xFE0F, 0x62]) 200 = .ok R ∧
    (∀ c ∈ [0x61, 0xE9, 0x301, 0x1F600, 0x200D, 0x2764, 0xFE0F, 0x62], 0x20 ≤ c ∧ c ≠ 0x7F ∧ c ≤ 0x1FFFFF) ∧
    NoMarkAfterAscii toy [0x61, 0xE9, 0x301, 0x1F600, 0x200D, 0x2764, 0xFE0F, 0x62] ∧ R.count = 5 ∧ R.events.length = 4 :=
  ⟨_, rfl, by decide, noMark_of_pairs _ _ (by decide +kernel), by decide +kernel, by decide +kernel⟩

/-- … and by bytes that are not UTF-8. -/
example : ∃ R, scanText toy .none 16 (State.init toy) none [] [0xC3, 0xFF, 0x61, 0x62] 200 = .ok R ∧ R.count = 3 :=
  ⟨_, rfl, by decide +kernel⟩

end Verif.Props.Scan
