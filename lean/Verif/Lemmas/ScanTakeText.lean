import Verif.Props.ScanTake
/-!
# The machine with take-back on a text without control characters
-/

namespace Verif.Scan.Take
open Verif.Scan Verif.Ucd Verif.Utf8 Verif.Grapheme Verif.Width Verif.Props Verif.Props.Scan Verif.Spec.GB Verif.Spec

/-- A run of bytes that decodes to one codepoint. -/
theorem dRun_decoded (U : Table) (bs : List Nat) (hcx : ∀ b ∈ bs, 0x80 ≤ b ∧ b < 256) : ∀ (st : State) (here c : Nat),
    (st.utf8.expectedLength ≠ 0 ∨ ∀ b, bs[0]? = some b → isC1 b = false) → bs ≠ [] →
    (feed st.utf8 bs).2 = List.replicate (bs.length - 1) .incomplete ++ [.success c] →
    dRun U st here bs = dSuccess U { st with utf8 := (feed st.utf8 bs).1 } here c ∧
    hRun U st here bs = hSuccess U { st with utf8 := (feed st.utf8 bs).1 } here c := by
  induction bs with
  | nil => intro st here c _ hne; exact absurd rfl hne
  | cons b bs ih =>
    intro st here c h0 hne h
    have hb := hcx b (by simp)
    have hc : isComplex b = true := (isComplex_iff b hb.2).2 hb.1
    have hstop : mStops st b = false := by
      have hctl : isControl b = false := by unfold isControl; simp; omega
      unfold mStops
      rw [hctl]
      rcases h0 with h | h
      · simp [h]
      · simp [h b rfl]
    have hm : mByte U st b = mComplex U st b := by unfold mByte; rw [if_pos hc]
    simp only [dRun, hRun, hstop, Bool.false_eq_true, if_false, hm]
    unfold dByte hByte
    simp only [hc, if_true]
    simp only [feed] at h ⊢
    cases bs with
    | nil =>
      rcases hf : fromUtf8 st.utf8 b with ⟨u, r⟩
      rw [hf] at h
      simp [feed] at h
      subst h
      simp [dRun, hRun, feed]
    | cons b' bs =>
      simp only [List.length_cons, Nat.add_sub_cancel, List.replicate_succ, List.cons_append, List.cons.injEq] at h
      obtain ⟨h1, h2⟩ := h
      rcases hf : fromUtf8 st.utf8 b with ⟨u, r⟩
      rw [hf] at h1 h2
      simp only at h1 h2
      subst h1
      have hu := incomplete_pending _ _ _ hf
      have := ih (fun x hx => hcx x (by simp [hx])) { st with utf8 := u } here c (.inl hu) (by simp) (by
        simpa [List.replicate_succ] using h2)
      unfold mComplex
      rw [hf]
      simp only at this ⊢
      rw [this.1, this.2]
      simp

/-- One codepoint that is not ASCII. -/
theorem run_char (U : Table) (st : State) (here : Nat) (hid : st.utf8.expectedLength = 0) (c : Nat) (hc : 0x80 ≤ c) (hc' : c ≤ 0x1FFFFF) :
    ∃ (u : DecState) (k : Nat), u.expectedLength = 0 ∧ mRun U st (toUtf8 c) = ((mSuccess U { st with utf8 := u } c).1, k, []) ∧
      dRun U st here (toUtf8 c) = dSuccess U { st with utf8 := u } here c ∧ hRun U st here (toUtf8 c) = hSuccess U { st with utf8 := u } here c := by
  have hf := feed_toUtf8 st.utf8 hid c hc'
  have h := mRun_decoded U (toUtf8 c) (toUtf8_high c hc hc').1 st c (.inr (toUtf8_high c hc hc').2) (toUtf8_ne_nil c) hf.1
  have h' := dRun_decoded U (toUtf8 c) (toUtf8_high c hc hc').1 st here c (.inr (toUtf8_high c hc hc').2) (toUtf8_ne_nil c) hf.1
  exact ⟨_, _, hf.2.1, h.1, h'.1, h'.2⟩

/-- One ASCII character. -/
theorem run_ascii (U : Table) (st : State) (here : Nat) (hid : st.utf8.expectedLength = 0) (c : Nat) (h1 : 0x20 ≤ c) (h2 : c < 0x7F) :
    mRun U st (toUtf8 c) = (seed U st c, 1, []) ∧ dRun U st here (toUtf8 c) = 1 ∧ hRun U st here (toUtf8 c) = 0 := by
  have hp : ∀ b ∈ [c], Printable b := by intro b hb; simp at hb; subst hb; exact ⟨h1, by omega⟩
  have hb : ∀ b ∈ [c], b < 256 := by intro b hb; simp at hb; omega
  rw [toUtf8_low c (by omega)]
  have e1 := mRun_printables U [c] hb hp (by simp) st hid
  have e2 := dRun_printables U [c] hb hp here st hid
  exact ⟨e1, e2.1, e2.2 (by simp)⟩

/-- The smallest width while the codepoints are added, `base` included. -/
def lowest (U : Table) : Nat → Acc → List Nat → Nat
  | base, _, [] => base
  | base, s, c :: q => lowest U (min base (push U s c).width) (push U s c) q

theorem lowest_zero (U : Table) (q : List Nat) : ∀ s, lowest U 0 s q = 0 := by
  induction q with
  | nil => intro s; rfl
  | cons c q ih => intro s; unfold lowest; rw [Nat.zero_min]; exact ih _

theorem lowest_le_base (U : Table) (q : List Nat) : ∀ base s, lowest U base s q ≤ base := by
  induction q with
  | nil => intro base s; exact Nat.le_refl _
  | cons c q ih => intro base s; unfold lowest; exact Nat.le_trans (ih _ _) (Nat.min_le_left _ _)

theorem lowest_le (U : Table) (q : List Nat) : ∀ base s q', q' ≠ [] → q' <+: q → lowest U base s q ≤ (q'.foldl (push U) s).width := by
  induction q with
  | nil => intro base s q' hne h; rw [List.prefix_nil] at h; exact absurd h hne
  | cons c q ih =>
    intro base s q' hne h
    obtain ⟨x, t, rfl⟩ := List.exists_cons_of_ne_nil hne
    rw [List.cons_prefix_cons] at h
    obtain ⟨rfl, h⟩ := h
    unfold lowest
    by_cases ht : t = []
    · subst ht
      exact Nat.le_trans (lowest_le_base _ _ _ _) (Nat.min_le_right _ _)
    · exact ih _ _ t ht h

theorem lowest_mem (U : Table) (q : List Nat) : ∀ base s, lowest U base s q = base ∨
    ∃ q', q' ≠ [] ∧ q' <+: q ∧ lowest U base s q = (q'.foldl (push U) s).width := by
  induction q with
  | nil => intro base s; exact .inl rfl
  | cons c q ih =>
    intro base s
    unfold lowest
    rcases ih (min base (push U s c).width) (push U s c) with h | ⟨q', h1, h2, h3⟩
    · rcases Nat.le_total base (push U s c).width with hl | hl
      · left; rw [h, Nat.min_eq_left hl]
      · right
        refine ⟨[c], by simp, ?_, ?_⟩
        · rw [List.cons_prefix_cons]; exact ⟨rfl, List.nil_prefix⟩
        · rw [h, Nat.min_eq_right hl]; rfl
    · right
      refine ⟨c :: q', by simp, ?_, h3⟩
      rw [List.cons_prefix_cons]; exact ⟨rfl, h2⟩

/-- The state with the character `cl` open. -/
structure Opened (U : Table) (st : State) (cl : List Nat) : Prop where
  idle : st.utf8.expectedLength = 0
  hint : st.hint ≠ 0
  acc : st.acc = cl.foldl (push U) {}
  rep : st.reported = st.acc.width

/-- A text from a state with an open character. -/
structure Ran (U : Table) (st : State) (here base : Nat) (cl ds : List Nat) (st' : State) (q cl' : List Nat) (Y Q : List (List Nat)) : Prop where
  run : ∃ k, mRun U st (toUtf8Str ds) = (st', k, [])
  opened : Opened U st' cl'
  first : scanSplit U st.g cl ds = (cl ++ q) :: Q
  last : scanSplit U st.g cl ds = Y ++ [cl']
  more : ∀ es, scanSplit U st.g cl (ds ++ es) = Y ++ scanSplit U st'.g cl' es
  count : dRun U st here (toUtf8Str ds) + lowest U base (cl.foldl (push U) {}) q + here = accWidth U (cl ++ q) + cols U Q
  /-- what joins is a prefix of the text, and an ASCII-led character stays wide -/
  ascii : AH U (cl.foldl (push U) {}) → AG st.g → ∀ q', q' <+: q → 1 ≤ (q'.foldl (push U) (cl.foldl (push U) {})).width

theorem ran {U : Table} (D : DataOk U) (W : WidthOk U) (A : AsciiOk U) (V : VariationOk U) (ds : List Nat) :
    ∀ (st : State) (here base : Nat) (cl : List Nat), Opened U st cl → st.reported = base + here → Scannable ds →
    ∃ st' q cl' Y Q, Ran U st here base cl ds st' q cl' Y Q := by
  induction ds with
  | nil =>
    intro st here base cl ho hb _
    refine ⟨st, [], cl, [], [], ⟨0, by rw [str_nil]; rfl⟩, ho, by rw [List.append_nil]; rfl, rfl, fun _ => rfl, ?_, ?_⟩
    · rw [str_nil, List.append_nil]
      have : accWidth U cl = st.reported := by rw [ho.rep, ho.acc]; rfl
      show (0 : Int) + base + here = _
      rw [this, hb]
      show _ = _ + ((0 : Nat) : Int)
      push_cast; omega
    · intro h _ q' hq
      rw [List.prefix_nil] at hq
      subst hq
      exact h.width
  | cons c ds ih =>
    intro st here base cl ho hb hsc
    obtain ⟨hlo, hdel, hhi⟩ := hsc c (by simp)
    have hsc' : Scannable ds := fun x hx => hsc x (by simp [hx])
    have hw : accWidth U cl = st.reported := by rw [ho.rep, ho.acc]; rfl
    by_cases hlt : c < 0x80
    · have hc1 : 0x20 ≤ c ∧ c < 0x7F := by omega
      obtain ⟨r1, r2, r3⟩ := run_ascii U st here ho.idle c hc1.1 hc1.2
      have hwx : (push U {} c).width = 1 := push_ascii_width W A c hc1.1 hc1.2
      have ho' : Opened U (seed U st c) [c] := ⟨ho.idle, by show c ≠ 0; omega, rfl, hwx.symm⟩
      obtain ⟨st', q, cl', Y, Q, h⟩ := ih (seed U st c) 0 1 [c] ho' rfl hsc'
      obtain ⟨k, hk⟩ := h.run
      have hlow : lowest U 1 ([c].foldl (push U) {}) q = 1 := by
        rcases lowest_mem U q 1 ([c].foldl (push U) {}) with h' | ⟨q', h1, h2, h3⟩
        · exact h'
        · have h4 := h.ascii (AH.init A c hc1.1 hc1.2) (AG.init D A c hc1.1 hc1.2) q' h2
          have h5 := lowest_le_base U q 1 ([c].foldl (push U) {})
          omega
      have hcnt := h.count
      rw [hlow] at hcnt
      refine ⟨st', [], cl', cl :: Y, ([c] ++ q) :: Q, ⟨1 + k, ?_⟩, h.opened, ?_, ?_, ?_, ?_, ?_⟩
      · rw [str_cons, mRun_append U st _ _ _ _ r1, hk]
      · rw [scanSplit, if_pos hlt, List.append_nil]
        exact congrArg _ h.first
      · rw [scanSplit, if_pos hlt]
        exact congrArg _ h.last
      · intro es
        rw [List.cons_append, scanSplit, if_pos hlt]
        exact congrArg _ (h.more es)
      · rw [str_cons, dRun_append U _ _ st _ here _ r1, r2, r3, List.append_nil, cols_cons, hw, hb]
        show (1 : Int) + _ + base + here = _
        push_cast
        omega
      · intro h _ q' hq
        rw [List.prefix_nil] at hq
        subst hq
        exact h.width
    · obtain ⟨u, k0, hu, r1, r2, r3⟩ := run_char U st here ho.idle c (by omega) hhi
      have hbk : isBreakable U { st with utf8 := u } c = processBreakable U c st.g := by
        show (if st.hint = 0 then (processInit U c, true) else processBreakable U c st.g) = _
        rw [if_neg ho.hint]
      unfold mSuccess at r1
      unfold dSuccess at r2
      unfold hSuccess at r3
      rw [hbk] at r1 r2 r3
      cases hv : (processBreakable U c st.g).2 with
      | true =>
        rw [hv, if_pos rfl] at r1 r2 r3
        obtain ⟨st', q, cl', Y, Q, h⟩ := ih _ (push U {} c).width 0 [c] (⟨hu, by show c ≠ 0; omega, rfl, rfl⟩ :
          Opened U (mOpen U { utf8 := u, hint := c, g := (processBreakable U c st.g).1, acc := st.acc, reported := st.reported } c).1 [c]) (Nat.zero_add _).symm hsc'
        obtain ⟨k, hk⟩ := h.run
        have hcnt := h.count
        rw [lowest_zero] at hcnt
        refine ⟨st', [], cl', cl :: Y, ([c] ++ q) :: Q, ⟨k0 + k, ?_⟩, h.opened, ?_, ?_, ?_, ?_, ?_⟩
        · rw [str_cons, mRun_append U st _ _ _ _ r1, hk]
        · rw [scanSplit, if_neg hlt, if_pos hv, List.append_nil]
          exact congrArg _ h.first
        · rw [scanSplit, if_neg hlt, if_pos hv]
          exact congrArg _ h.last
        · intro es
          rw [List.cons_append, scanSplit, if_neg hlt, if_pos hv]
          exact congrArg _ (h.more es)
        · have hwb : accWidth U cl = base + here := hw.trans hb
          rw [str_cons, dRun_append U _ _ st _ here _ r1, r2, r3, List.append_nil, cols_cons, hwb]
          show _ + _ + (base : Int) + here = _
          push_cast
          omega
        · intro h _ q' hq
          rw [List.prefix_nil] at hq
          subst hq
          exact h.width
      | false =>
        rw [hv, if_neg (by simp)] at r1 r2 r3
        have hpush : (cl ++ [c]).foldl (push U) {} = push U st.acc c := by rw [List.foldl_append, ho.acc]; rfl
        have hb' : (push U st.acc c).width = min base (push U st.acc c).width + hRun U st here (toUtf8 c) := by
          rw [r3]
          simp only
          omega
        obtain ⟨st', q, cl', Y, Q, h⟩ := ih _ (hRun U st here (toUtf8 c)) (min base (push U st.acc c).width) (cl ++ [c])
          (⟨hu, by show c ≠ 0; omega, hpush.symm, rfl⟩ :
            Opened U (mJoin U { utf8 := u, hint := c, g := (processBreakable U c st.g).1, acc := st.acc, reported := st.reported } c).1 (cl ++ [c])) hb' hsc'
        obtain ⟨k, hk⟩ := h.run
        have hcnt := h.count
        have ea : cl ++ [c] ++ q = cl ++ (c :: q) := by simp
        rw [hpush, ea] at hcnt
        refine ⟨st', c :: q, cl', Y, Q, ⟨k0 + k, ?_⟩, h.opened, ?_, ?_, ?_, ?_, ?_⟩
        · rw [str_cons, mRun_append U st _ _ _ _ r1, hk]
        · rw [scanSplit, if_neg hlt, if_neg (by rw [hv]; simp), ← ea]
          exact h.first
        · rw [scanSplit, if_neg hlt, if_neg (by rw [hv]; simp)]
          exact h.last
        · intro es
          rw [List.cons_append, scanSplit, if_neg hlt, if_neg (by rw [hv]; simp)]
          exact h.more es
        · rw [str_cons, dRun_append U _ _ st _ here _ r1]
          have el : lowest U base (cl.foldl (push U) {}) (c :: q) = lowest U (min base (push U st.acc c).width) (push U st.acc c) q := by
            show lowest U (min base (push U (cl.foldl (push U) {}) c).width) (push U (cl.foldl (push U) {}) c) q = _
            rw [ho.acc]
          rw [el]
          have hd : dRun U st here (toUtf8 c) = (hRun U st here (toUtf8 c) : Int) - here := by
            rw [r2, r3]
            simp only
            omega
          rw [hd]
          generalize hRun U st here (toUtf8 c) = h' at hcnt
          simp only
          omega
        · intro hA hG q' hq
          cases q' with
          | nil => exact hA.width
          | cons x t =>
            rw [List.cons_prefix_cons] at hq
            obtain ⟨rfl, hq⟩ := hq
            obtain ⟨j1, j2⟩ := hG.join D V x (by omega) hv
            have := h.ascii (by rw [hpush, ho.acc]; exact hA.push V x j1) j2 t hq
            rw [hpush, ho.acc] at this
            exact this

end Verif.Scan.Take
