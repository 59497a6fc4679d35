import Verif.Props.NormForms
/-!
# C30, C31 The UTF-8 stream and the quick check, exactly
The algorithm of UAX #15, section 9, for all four forms, every text and every table.
-/
namespace Verif.Props.Norm
open Verif.Norm Verif.Spec.Norm Verif.Utf8 Verif.Convert

variable {T : Tables}

/-- The tables give `c` the value No for the form: it never occurs in the form. -/
def SaysNo (T : Tables) (f : Form) (c : Nat) : Prop :=
  match f with
  | .NFC => T.nfcNo c = true
  | .NFD => T.nfdNo c = true
  | .NFKC => T.nfkcNo c = true
  | .NFKD => T.nfkdNo c = true

/-- The tables give `c` the value Maybe for the form: it can occur in the form, depending on what precedes it.  There are no such values for the
decomposing forms. -/
def SaysMaybe (T : Tables) (f : Form) (c : Nat) : Prop :=
  match f with
  | .NFC => T.nfcNo c = false ∧ T.nfcMaybe c = true
  | .NFKC => T.nfkcNo c = false ∧ T.nfkcMaybe c = true
  | .NFD => False
  | .NFKD => False

theorem qcOf_no (f : Form) (c : Nat) : qcOf T f c = .No ↔ SaysNo T f c := by
  unfold qcOf SaysNo
  cases f <;> dsimp only
  · cases h1 : T.nfcNo c <;> cases h2 : T.nfcMaybe c <;> simp
  · cases h1 : T.nfdNo c <;> simp
  · cases h1 : T.nfkcNo c <;> cases h2 : T.nfkcMaybe c <;> simp
  · cases h1 : T.nfkdNo c <;> simp

theorem qcOf_maybe (f : Form) (c : Nat) : qcOf T f c = .Maybe ↔ SaysMaybe T f c := by
  unfold qcOf SaysMaybe
  cases f <;> dsimp only
  · cases h1 : T.nfcNo c <;> cases h2 : T.nfcMaybe c <;> simp
  · cases h1 : T.nfdNo c <;> simp
  · cases h1 : T.nfkcNo c <;> cases h2 : T.nfkcMaybe c <;> simp
  · cases h1 : T.nfkdNo c <;> simp

theorem quickCheckFrom_exact (f : Form) (cs : List Nat) : ∀ (last : Nat) (res : QC), res ≠ .No →
    (quickCheckFrom T f last res cs = .No ↔ ¬ ordFrom T.ccc last cs ∨ ∃ c ∈ cs, SaysNo T f c) ∧
    (quickCheckFrom T f last res cs = .Maybe ↔ (ordFrom T.ccc last cs ∧ ∀ c ∈ cs, ¬ SaysNo T f c) ∧ (res = .Maybe ∨ ∃ c ∈ cs, SaysMaybe T f c)) := by
  induction cs with
  | nil => intro last res hres; cases res <;> simp [quickCheckFrom, ordFrom] at hres ⊢
  | cons c cs ih =>
    intro last res hres
    rw [quickCheckFrom, ordFrom]
    by_cases ho : T.ccc c ≠ 0 ∧ last > T.ccc c
    · rw [if_pos ho]
      exact ⟨⟨fun _ => .inl fun h => h.1 ho, fun _ => rfl⟩, ⟨fun h => (nomatch h), fun h => absurd ho h.1.1.1⟩⟩
    · rw [if_neg ho]
      have hn := qcOf_no (T := T) f c
      have hm := qcOf_maybe (T := T) f c
      cases hq : qcOf T f c with
      | No =>
        rw [hq] at hn
        have hno := hn.1 rfl
        exact ⟨⟨fun _ => .inr ⟨c, List.mem_cons_self, hno⟩, fun _ => rfl⟩,
          ⟨fun h => (nomatch h), fun h => absurd hno (h.1.2 c List.mem_cons_self)⟩⟩
      | Maybe =>
        rw [hq] at hn hm
        have h1 : ¬ SaysNo T f c := fun h => nomatch hn.2 h
        have h2 : SaysMaybe T f c := hm.1 rfl
        obtain ⟨i1, i2⟩ := ih (T.ccc c) .Maybe (by simp)
        refine ⟨?_, ?_⟩
        · show quickCheckFrom T f (T.ccc c) .Maybe cs = .No ↔ _
          rw [i1]; simp only [List.mem_cons, exists_eq_or_imp, h1, false_or, ho, not_false_iff, true_and]
        · show quickCheckFrom T f (T.ccc c) .Maybe cs = .Maybe ↔ _
          rw [i2]; simp only [List.mem_cons, exists_eq_or_imp, forall_eq_or_imp, h1, h2, ho, not_false_iff, true_and, true_or, or_true, and_true]
      | Yes =>
        rw [hq] at hn hm
        have h1 : ¬ SaysNo T f c := fun h => nomatch hn.2 h
        have h2 : ¬ SaysMaybe T f c := fun h => nomatch hm.2 h
        obtain ⟨i1, i2⟩ := ih (T.ccc c) res hres
        refine ⟨?_, ?_⟩
        · show quickCheckFrom T f (T.ccc c) res cs = .No ↔ _
          rw [i1]; simp only [List.mem_cons, exists_eq_or_imp, h1, false_or, ho, not_false_iff, true_and]
        · show quickCheckFrom T f (T.ccc c) res cs = .Maybe ↔ _
          rw [i2]; simp only [List.mem_cons, exists_eq_or_imp, forall_eq_or_imp, h1, h2, ho, not_false_iff, true_and, false_or]

/-- **C31, exactly.** What `quick_check` answers, for all four forms, every text and every table: No if a mark stands behind one of a higher class or
some codepoint has the value No; otherwise Maybe if some codepoint has the value Maybe; otherwise Yes. -/
theorem C31_quick_check_exact (f : Form) (text : List Nat) :
    (quickCheck T f text = .No ↔ ¬ Ordered T.ccc text ∨ ∃ c ∈ text, SaysNo T f c) ∧
    (quickCheck T f text = .Maybe ↔ Ordered T.ccc text ∧ (∀ c ∈ text, ¬ SaysNo T f c) ∧ ∃ c ∈ text, SaysMaybe T f c) ∧
    (quickCheck T f text = .Yes ↔ Ordered T.ccc text ∧ ∀ c ∈ text, ¬ SaysNo T f c ∧ ¬ SaysMaybe T f c) := by
  obtain ⟨h1, h2⟩ := quickCheckFrom_exact (T := T) f text 0 .Yes (by simp)
  rw [ordFrom_iff] at h1 h2
  have h2' : quickCheck T f text = .Maybe ↔ Ordered T.ccc text ∧ (∀ c ∈ text, ¬ SaysNo T f c) ∧ ∃ c ∈ text, SaysMaybe T f c := by
    rw [← and_assoc]; unfold quickCheck; rw [h2]; simp
  refine ⟨h1, h2', ?_⟩
  have hsplit : quickCheck T f text = .Yes ↔ ¬ quickCheck T f text = .No ∧ ¬ quickCheck T f text = .Maybe := by
    cases quickCheck T f text <;> simp
  rw [hsplit, h2', show quickCheck T f text = .No ↔ _ from h1]
  constructor
  · rintro ⟨a, b⟩
    rw [not_or, not_not] at a
    have hno : ∀ c ∈ text, ¬ SaysNo T f c := fun c hc h => a.2 ⟨c, hc, h⟩
    exact ⟨a.1, fun c hc => ⟨hno c hc, fun h => b ⟨a.1, hno, c, hc, h⟩⟩⟩
  · rintro ⟨a, b⟩
    refine ⟨?_, ?_⟩
    · rintro (h | ⟨c, hc, h⟩)
      · exact h a
      · exact (b c hc).1 h
    · rintro ⟨_, _, c, hc, h⟩
      exact (b c hc).2 h

/-- **C31, exactly.** What `is_normalized` answers: it normalizes if and only if the quick check says Maybe. -/
theorem C31_is_normalized_exact (f : Form) (text : List Nat) :
    isNormalized T f text = true ↔ Ordered T.ccc text ∧ (∀ c ∈ text, ¬ SaysNo T f c) ∧
      ((∃ c ∈ text, SaysMaybe T f c) → normalize T f text = text) := by
  obtain ⟨h1, h2, h3⟩ := C31_quick_check_exact (T := T) f text
  unfold isNormalized
  cases hq : quickCheck T f text with
  | Yes =>
    obtain ⟨a, b⟩ := h3.1 hq
    exact ⟨fun _ => ⟨a, fun c hc => (b c hc).1, fun ⟨c, hc, h⟩ => absurd h (b c hc).2⟩, fun _ => rfl⟩
  | No =>
    refine ⟨fun h => absurd h (by simp), fun ⟨a, b, _⟩ => ?_⟩
    rcases h1.1 hq with h | ⟨c, hc, h⟩
    · exact absurd a h
    · exact absurd h (b c hc)
  | Maybe =>
    obtain ⟨a, b, c⟩ := h2.1 hq
    show decide (normalize T f text = text) = true ↔ _
    rw [decide_eq_true_iff]
    exact ⟨fun h => ⟨a, b, fun _ => h⟩, fun h => h.2.2 c⟩

/-- **C30, exactly, UTF-8.** What the UTF-8 streaming normalizer outputs in total, for arbitrary bytes in arbitrary chunks: the decoded text, with U+FFFD for
every ill-formed sequence the decoder reports, is cut before its boundaries, and the pieces are normalized one by one and encoded. -/
theorem C30_utf8_segments (f : Form) (chunks : List (List Nat)) (segs : List (List Nat))
    (h : Segments T f (replaced (Utf8.feed {} chunks.flatten).2) segs) :
    (u8chunks T f ⟨[], {}⟩ chunks).2 ++ (u8flush T f (u8chunks T f ⟨[], {}⟩ chunks).1).2 = toUtf8Str (segs.flatMap (normalize T f)) := by
  rw [u8chunks_eq, u8feed_eq, u8flush]
  rw [← toUtf8Str_append', C30_segments f _ segs h]

/-! ### Concrete instances -/

example : quickCheck toy .NFC [0x65, 0x301] = .Maybe :=
  (C31_quick_check_exact (T := toy) .NFC [0x65, 0x301]).2.1.2
    ⟨(ordFrom_iff _ _).1 (by unfold ordFrom ordFrom ordFrom; decide), by unfold SaysNo; decide, 0x301, by decide, by unfold SaysMaybe; decide⟩
example : quickCheck toy .NFD [0x61, 0x301, 0x323] = .No :=
  (C31_quick_check_exact (T := toy) .NFD _).1.2 (.inl fun h => h [0x61] [] 0x301 0x323 rfl (by unfold Reorderable; decide))
/-- Bytes in chunks that cut a codepoint. -/
example : (u8chunks toy .NFC ⟨[], {}⟩ [[0x65, 0xCC], [0x81, 0x62]]).2 ++ (u8flush toy .NFC (u8chunks toy .NFC ⟨[], {}⟩ [[0x65, 0xCC], [0x81, 0x62]]).1).2 =
    [0xC3, 0xA9, 0x62] :=
  (C30_utf8_segments (T := toy) .NFC [[0x65, 0xCC], [0x81, 0x62]] [[0x65, 0x301], [0x62]]
    ⟨by decide, by decide, by unfold Boundary; decide, by
      intro s hs c hc
      rcases List.mem_singleton.1 hs with rfl
      injection hc with hc; subst hc
      unfold Boundary; decide⟩).trans (by decide)

end Verif.Props.Norm
