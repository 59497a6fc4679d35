import Verif.Lemmas.ScanWrap2
import Verif.Props.ScanWrap
/-!
# Property C62, whatever the text around the character that did not fit
-/

namespace Verif.Props.Scan
open Verif.Scan Verif.Ucd Verif.Utf8 Verif.Grapheme Verif.Width Verif.Toy Verif.Spec.GB

/-- A character that may be the first one that is not on the line: not a mark, not half of a flag, and either of a class that is not joined to
itself or not too wide for what is left of the line by itself. -/
structure MayStop (U : Table) (count max c : Nat) : Prop where
  mark : (U c).gcb ≠ .Extend ∧ (U c).gcb ≠ .SpacingMark ∧ (U c).gcb ≠ .ZWJ
  flag : (U c).gcb ≠ .Regional_Indicator
  self : ((U c).gcb ≠ .L ∧ (U c).gcb ≠ .V ∧ (U c).gcb ≠ .T ∧ (U c).gcb ≠ .Prepend) ∨ count + clusterWidth U [c] ≤ max
  lf : (U c).gcb = .LF → c < 0x80

/-- A state left in front of a text by an earlier call does as well as a fresh one. -/
theorem same_as_fresh {U : Table} (D : DataOk U) (W : WidthOk U) (v : Variant) (w : Nat) (st : State) (hid : st.utf8.expectedLength = 0)
    (pre ks : List Nat) (hsc : ∀ x ∈ ks, x ≤ 0x1FFFFF) (count max : Nat) (hst : Halt.Ready U st (max - count) ks)
    (hm : ∀ c q, ks = c :: q → st.hint = 0 ∨ MayStop U count max c) (max' : Nat) (R Q : Out)
    (hR : scanText U v w st (some 0) pre (toUtf8Str ks) max' = .ok R)
    (hQ : scanText U v w (State.init U) none [] (toUtf8Str ks) max' = .ok Q) : Same R Q := by
  have hbt := toUtf8Str_lt _ hsc
  cases ks with
  | nil =>
    rw [str_nil] at hR hQ
    unfold scanText at hR hQ
    simp only at hR hQ
    rw [if_neg (by simpa using hid)] at hR
    rw [if_neg (by simp [State.init])] at hQ
    cases hR
    cases hQ
    exact ⟨rfl, rfl, rfl, rfl, rfl⟩
  | cons c ds =>
    by_cases hlt : c < 0x80
    · rw [str_cons, toUtf8_low c hlt] at hR hQ hbt
      exact scanText_same_ascii U v w st (State.init U) hid rfl (some 0) none rfl rfl _ _ c _ hlt hbt max' R Q hR hQ
    · have key : (isBreakable U st c).1 = (isBreakable U (State.init U) c).1 ∧ ((isBreakable U st c).2 = true ∨ (st.acc = {} ∧ st.reported = 0)) := by
        rcases hm c ds rfl with h0 | hm
        · have : isBreakable U st c = (processInit U c, true) := by unfold isBreakable; rw [if_pos h0]
          rw [this]
          exact ⟨rfl, .inl rfl⟩
        · have hg : Halt.Good U c := ⟨by omega, hm.mark.1, hm.mark.2.2, hm.mark.2.1, hm.flag, fun e => hlt (hm.lf e)⟩
          refine ⟨by rw [Halt.breakable_state D st hg]; rfl, ?_⟩
          rcases hst c ds rfl hg with h | h | h | ⟨h1, h2, h3⟩
          · exact .inl (Halt.breakable_border st hg (.inl h))
          · exact .inl (Halt.breakable_border st hg (.inr (.inl h)))
          · exact .inr h
          · refine .inl (Halt.breakable_border st hg (.inr (.inr ⟨?_, h2, h3⟩)))
            have hs := hm.self.resolve_right (by
              have : clusterWidth U [c] = (push U {} c).width := (C20_shortcut W c).symm
              rw [this]; omega)
            have e1 := hg.extend
            have e2 := hg.zwj
            have e3 := hg.mark
            have e4 := hg.lf
            have e5 := hg.flag
            obtain ⟨f1, f2, f3, f4⟩ := hs
            unfold Halt.Apart
            generalize (U c).gcb = B at *
            cases B <;> simp at *
      rw [str_cons] at hR hQ hbt
      have hhi := toUtf8_high c (by omega) (hsc c (List.mem_cons_self ..))
      exact Halt.scanText_same_halted U v w st (State.init U) hid rfl (some 0) none rfl rfl _ _ (toUtf8 c) _ c
        ⟨toUtf8_ne_nil c, (feed_toUtf8 {} rfl c (hsc c (List.mem_cons_self ..))).1⟩ (fun x hx => (hhi.1 x hx).1) hbt key.1 key.2 rfl max' R Q hR hQ

theorem idle_at (U : Table) (v : Variant) (w : Nat) (st : State) (hid : st.utf8.expectedLength = 0) (next : Option Int) (hnx : next.getD 0 = 0)
    (pre cs ks : List Nat) (hne : ks ≠ []) (hsc : ∀ x ∈ cs ++ ks, x ≤ 0x1FFFFF) (max : Nat) (R : Out)
    (hR : scanText U v w st next pre (toUtf8Str (cs ++ ks)) max = .ok R) (hn : R.next = (toUtf8Str cs).length) :
    R.st.utf8.expectedLength = 0 := by
  obtain ⟨R₁, h1, h2⟩ := scanText_idle_post U v w st next hid hnx pre _ (toUtf8Str_lt _ hsc) max
  rw [hR] at h1
  cases h1
  refine h2.hidle ?_
  rw [hn, str_append, List.length_append]
  have := str_pos ks hne
  omega

/-- **C62 (partial).**  Whatever the text, and however the first call came to stop in front of `c`: the next call is told the same as a fresh one,
if `c` is not a mark (`Extend`, `SpacingMark`, ZWJ), not half of a flag, and either is of a class that is not joined to itself (everything but jamo and
`Prepend`) or is itself not too wide for what is left of the line (it is something that follows in its cluster that did not fit).  Not covered: flags
(`C62_fails_flag`), marks that begin a cluster because they follow a control character, and a jamo or `Prepend` character that
itself had no room, for which the property is false (`C62_fails_hangul`). -/
theorem C62_any_partial {U : Table} (D : DataOk U) (W : WidthOk U) (v v' : Variant) (w w' : Nat) (cs : List Nat) (c : Nat) (ds : List Nat)
    (max max' : Nat) (R R' Q : Out) (hsc : ∀ x ∈ cs ++ c :: ds, x ≤ 0x1FFFFF) (hc : MayStop U R.count max c)
    (hR : scanText U v w (State.init U) none [] (toUtf8Str (cs ++ c :: ds)) max = .ok R)
    (hn : R.next = (toUtf8Str cs).length)
    (hR' : scanText U v' w' R.st (some 0) (toUtf8Str cs) (toUtf8Str (c :: ds)) max' = .ok R')
    (hQ : scanText U v' w' (State.init U) none [] (toUtf8Str (c :: ds)) max' = .ok Q) :
    R'.count = Q.count ∧ R'.start = Q.start ∧ R'.fin = Q.fin ∧ R'.next = Q.next ∧ R'.events = Q.events := by
  have h := same_as_fresh D W v' w' R.st (idle_at U v w (State.init U) rfl none rfl [] cs (c :: ds) (by simp) hsc max R hR hn) _ (c :: ds)
    (fun x hx => hsc x (List.mem_append_right _ hx)) R.count max
    (Halt.ready_from D v w (State.init U) rfl none rfl [] 0 cs (c :: ds) (fun _ _ _ _ => .inl rfl) max R hsc hR hn)
    (fun a q e => .inr (by cases e; exact hc)) max' R' Q hR' hQ
  exact ⟨h.count, h.start, h.fin, h.next, h.events⟩

/-- Why `MayStop` excludes halves of flags: "a" and then the flag 🇩🇪 on a line of one column.  The first call ends in front of the flag; told with the same
state, the flag at the beginning of the next line falls apart into two clusters, with a new state it is one. -/
theorem C62_fails_flag : ∃ R R' Q : Out, scanText toy .none 16 (State.init toy) none [] (toUtf8Str [0x61, 0x1F1E9, 0x1F1EA]) 1 = .ok R ∧
    R.next = (toUtf8Str [0x61]).length ∧
    scanText toy .none 16 R.st (some 0) (toUtf8Str [0x61]) (toUtf8Str [0x1F1E9, 0x1F1EA]) 10 = .ok R' ∧
    scanText toy .none 16 (State.init toy) none [] (toUtf8Str [0x1F1E9, 0x1F1EA]) 10 = .ok Q ∧
    (∃ a b, R'.events = [.cluster (toUtf8 0x1F1E9) a, .cluster (toUtf8 0x1F1EA) b]) ∧
    ∃ a, Q.events = [.cluster (toUtf8Str [0x1F1E9, 0x1F1EA]) a] :=
  ⟨_, _, _, rfl, by decide +kernel, rfl, rfl, ⟨1, 1, by decide +kernel⟩, ⟨1, by decide +kernel⟩⟩

/-- Why `MayStop` excludes marks: "a", a combining accent and "é" on a line of one column.  The first call ends between "a" and its accent (C66_fails_mark);
told with the same state, the accent has the column of the "a", with a new state it has none. -/
theorem C62_fails_mark : ∃ R R' Q : Out, scanText toy .none 16 (State.init toy) none [] (toUtf8Str [0x61, 0x301, 0xE9]) 1 = .ok R ∧
    R.next = (toUtf8Str [0x61]).length ∧
    scanText toy .none 16 R.st (some 0) (toUtf8Str [0x61]) (toUtf8Str [0x301, 0xE9]) 10 = .ok R' ∧
    scanText toy .none 16 (State.init toy) none [] (toUtf8Str [0x301, 0xE9]) 10 = .ok Q ∧
    R'.events = [.cluster (toUtf8 0x301) 1, .cluster (toUtf8 0xE9) 1] ∧ Q.events = [.cluster (toUtf8 0x301) 0, .cluster (toUtf8 0xE9) 1] :=
  ⟨_, _, _, rfl, by decide +kernel, rfl, rfl, by decide +kernel, by decide +kernel⟩

/-- A terminal writes a text line by line: it calls `scan_text` again and again with the same state, each time with what is left of the text and the
columns of the line, and is told `R` each time.  `cs` is what has been written before.  Every line ends in front of a character of `MayStop`. -/
inductive Wraps (U : Table) (v : Variant) (w : Nat) : State → List Nat → List Nat → List (Nat × Out) → Prop
  | done (st : State) (cs ks : List Nat) : Wraps U v w st cs ks []
  | line (st : State) (cs ds ks : List Nat) (max : Nat) (R : Out) (rest : List (Nat × Out)) : ds ++ ks ≠ [] →
      scanText U v w st (some 0) (toUtf8Str cs) (toUtf8Str (ds ++ ks)) max = .ok R → R.next = (toUtf8Str ds).length →
      (∀ c q, ks = c :: q → MayStop U R.count max c) → Wraps U v w R.st (cs ++ ds) ks rest → Wraps U v w st cs (ds ++ ks) ((max, R) :: rest)

/-- Every line is what a call with a fresh state makes of what is left of the text. -/
inductive WrapsFresh (U : Table) (v : Variant) (w : Nat) : List Nat → List (Nat × Out) → Prop
  | done (ks : List Nat) : WrapsFresh U v w ks []
  | line (ds ks : List Nat) (max : Nat) (R Q : Out) (rest : List (Nat × Out)) :
      scanText U v w (State.init U) none [] (toUtf8Str (ds ++ ks)) max = .ok Q →
      R.count = Q.count → R.start = Q.start → R.fin = Q.fin → R.next = Q.next → R.events = Q.events → Q.next = (toUtf8Str ds).length →
      WrapsFresh U v w ks rest → WrapsFresh U v w (ds ++ ks) ((max, R) :: rest)

theorem scanText_fresh_ok (U : Table) (v : Variant) (w : Nat) (text : List Nat) (max : Nat) : ∃ Q, scanText U v w (State.init U) none [] text max = .ok Q := by
  unfold scanText
  simp only [State.init, ne_eq, not_true_eq_false, if_false]
  cases text with
  | nil => exact ⟨_, rfl⟩
  | cons b bs => exact ⟨_, rfl⟩

theorem wraps_fresh {U : Table} (D : DataOk U) (W : WidthOk U) (v : Variant) (w : Nat) {st : State} {cs ks : List Nat} {lines : List (Nat × Out)}
    (h : Wraps U v w st cs ks lines) : ∀ (count max : Nat), (∀ x ∈ ks, x ≤ 0x1FFFFF) → (ks ≠ [] → st.utf8.expectedLength = 0) →
      Halt.Ready U st (max - count) ks → (∀ c q, ks = c :: q → st.hint = 0 ∨ MayStop U count max c) →
      WrapsFresh U v w ks lines := by
  induction h with
  | done st cs ks => intros; exact .done ks
  | line st cs ds ks max R rest hne hR hn hms _ ih =>
    intro count0 max0 hsc hid hst hm
    obtain ⟨Q, hQ⟩ := scanText_fresh_ok U v w (toUtf8Str (ds ++ ks)) max
    have h := same_as_fresh D W v w st (hid hne) _ (ds ++ ks) hsc count0 max0 hst hm max R Q hR hQ
    refine .line ds ks max R Q rest hQ h.count h.start h.fin h.next h.events (by rw [← h.next]; exact hn) ?_
    refine ih R.count max (fun x hx => hsc x (List.mem_append_right _ hx)) (fun hk => ?_) ?_ ?_
    · exact idle_at U v w st (hid hne) (some 0) rfl _ ds ks hk hsc max R hR hn
    · exact Halt.ready_from D v w st (hid hne) (some 0) rfl _ _ ds ks hst max R hsc hR hn
    · exact fun c q e => .inr (hms c q e)

/-- **C62 (partial).**  The same for any number of lines written with one state, whatever their limits: every one is what a call with a fresh state
makes of what is left of the text, if every line ends in front of a character as in `C62_any_partial`. -/
theorem C62_lines_partial {U : Table} (D : DataOk U) (W : WidthOk U) (v : Variant) (w : Nat) (cs : List Nat) (hsc : ∀ x ∈ cs, x ≤ 0x1FFFFF)
    (lines : List (Nat × Out)) (h : Wraps U v w (State.init U) [] cs lines) : WrapsFresh U v w cs lines :=
  wraps_fresh D W v w h 0 0 hsc (fun _ => rfl) (fun _ _ _ _ => .inl rfl) (fun _ _ _ => .inl rfl)

/-- "a😀❤\uFE0Fb" on lines of two columns: "a", "😀", the heart that has become wide, "b". -/
example : ∃ R1 R2 R3 R4, Wraps toy .none 16 (State.init toy) [] [0x61, 0x1F600, 0x2764, 0xFE0F, 0x62] [(2, R1), (2, R2), (2, R3), (2, R4)] ∧
    R1.count = 1 ∧ R2.count = 2 ∧ R3.count = 2 ∧ R4.count = 1 := by
  have ok : ∀ c n m, c ∈ [0x1F600, 0x2764, 0x62] → MayStop toy n m c := by
    intro c n m hc
    simp only [List.mem_cons, List.not_mem_nil, or_false] at hc
    rcases hc with rfl | rfl | rfl
    · exact ⟨by decide +kernel, by decide +kernel, .inl (by decide +kernel), fun h => absurd h (by decide +kernel)⟩
    · exact ⟨by decide +kernel, by decide +kernel, .inl (by decide +kernel), fun h => absurd h (by decide +kernel)⟩
    · exact ⟨by decide +kernel, by decide +kernel, .inl (by decide +kernel), fun h => absurd h (by decide +kernel)⟩
  refine ⟨_, _, _, _, .line _ [] [0x61] [0x1F600, 0x2764, 0xFE0F, 0x62] 2 _ _ (by simp) rfl (by decide +kernel) (fun c q e => ok c _ _ (by cases e; simp))
    (.line _ _ [0x1F600] [0x2764, 0xFE0F, 0x62] 2 _ _ (by simp) rfl (by decide +kernel) (fun c q e => ok c _ _ (by cases e; simp))
    (.line _ _ [0x2764, 0xFE0F] [0x62] 2 _ _ (by simp) rfl (by decide +kernel) (fun c q e => ok c _ _ (by cases e; simp))
    (.line _ _ [0x62] [] 2 _ _ (by simp) rfl (by decide +kernel) (fun c q e => by cases e) (.done _ _ _)))), ?_, ?_, ?_, ?_⟩
  all_goals decide +kernel

/-- Its hypotheses are met by a text with a `Prepend` character and an emoji sequence: "a", then 😀‍😀 on a line of two columns … -/
example : ∃ R R' Q, scanText toy .none 16 (State.init toy) none [] (toUtf8Str ([0x61] ++ 0x1F600 :: [0x200D, 0x1F600, 0x600, 0x62])) 2 = .ok R ∧
    R.next = (toUtf8Str [0x61]).length ∧ R.count = 1 ∧
    scanText toy .none 16 R.st (some 0) (toUtf8Str [0x61]) (toUtf8Str (0x1F600 :: [0x200D, 0x1F600, 0x600, 0x62])) 10 = .ok R' ∧
    scanText toy .none 16 (State.init toy) none [] (toUtf8Str (0x1F600 :: [0x200D, 0x1F600, 0x600, 0x62])) 10 = .ok Q ∧
    R'.count = 3 ∧ R'.events = Q.events := by
  refine ⟨_, _, _, rfl, by decide +kernel, by decide +kernel, rfl, rfl, by decide +kernel, ?_⟩
  exact (C62_any_partial toy_ok toy_width_ok .none .none 16 16 [0x61] 0x1F600 [0x200D, 0x1F600, 0x600, 0x62] 2 10 _ _ _
    (by intro x hx; simp at hx; omega) ⟨by decide +kernel, by decide +kernel, .inl (by decide +kernel), fun h => absurd h (by decide +kernel)⟩
    rfl (by decide +kernel) rfl rfl).2.2.2.2

/-- … and by a `Prepend` character (no column of its own here) that has room, when what it is joined to does not fit: "a", U+0600 and 😀 on a line of
two columns. -/
example : ∃ R R' Q, scanText toy .none 16 (State.init toy) none [] (toUtf8Str ([0x61] ++ 0x600 :: [0x1F600, 0x62])) 2 = .ok R ∧
    R.next = (toUtf8Str [0x61]).length ∧ R.count = 1 ∧
    scanText toy .none 16 R.st (some 0) (toUtf8Str [0x61]) (toUtf8Str (0x600 :: [0x1F600, 0x62])) 10 = .ok R' ∧
    scanText toy .none 16 (State.init toy) none [] (toUtf8Str (0x600 :: [0x1F600, 0x62])) 10 = .ok Q ∧
    R'.count = 3 ∧ R'.events = Q.events := by
  refine ⟨_, _, _, rfl, by decide +kernel, by decide +kernel, rfl, rfl, by decide +kernel, ?_⟩
  exact (C62_any_partial toy_ok toy_width_ok .none .none 16 16 [0x61] 0x600 [0x1F600, 0x62] 2 10 _ _ _
    (by intro x hx; simp at hx; omega) ⟨by decide +kernel, by decide +kernel, .inr (by decide +kernel), fun h => absurd h (by decide +kernel)⟩
    rfl (by decide +kernel) rfl rfl).2.2.2.2

end Verif.Props.Scan
