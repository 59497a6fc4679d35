import Verif.Props.ScanChunk
import Verif.Lemmas.ScanFit
/-!
# How much of the scanner's state a call depends on
-/

namespace Verif.Scan
open Verif.Ucd Verif.Utf8 Verif.Grapheme Verif.Width

/-- An idle decoder remembers nothing. -/
def DEq (a b : DecState) : Prop := a = b ∨ (a.expectedLength = 0 ∧ b.expectedLength = 0)

structure Eqv (a b : State) : Prop where
  utf8 : DEq a.utf8 b.utf8
  hint : a.hint = b.hint
  g : a.g = b.g
  acc : a.acc = b.acc
  reported : a.reported = b.reported

theorem DEq.len {a b : DecState} (h : DEq a b) : a.expectedLength = b.expectedLength := by
  rcases h with rfl | ⟨h1, h2⟩
  · rfl
  · rw [h1, h2]

theorem fromUtf8_deq {a b : DecState} (h : DEq a b) (x : Nat) (hx : x < 256) :
    (fromUtf8 a x).2 = (fromUtf8 b x).2 ∧ DEq (fromUtf8 a x).1 (fromUtf8 b x).1 := by
  rcases h with rfl | ⟨h1, h2⟩
  · exact ⟨rfl, .inl rfl⟩
  · rw [fromUtf8_idle a x h1, fromUtf8_idle b x h2, startByte_eq a x hx, startByte_eq b x hx]
    by_cases c1 : x < 0x80
    · rw [if_pos c1, if_pos c1]; exact ⟨rfl, .inr ⟨h1, h2⟩⟩
    rw [if_neg c1, if_neg c1]
    by_cases c2 : x < 0xC0
    · rw [if_pos c2, if_pos c2]; exact ⟨rfl, .inr ⟨rfl, rfl⟩⟩
    rw [if_neg c2, if_neg c2]
    by_cases c3 : x < 0xE0
    · rw [if_pos c3, if_pos c3]; exact ⟨rfl, .inl rfl⟩
    rw [if_neg c3, if_neg c3]
    by_cases c4 : x < 0xF0
    · rw [if_pos c4, if_pos c4]; exact ⟨rfl, .inl rfl⟩
    rw [if_neg c4, if_neg c4]
    by_cases c5 : x < 0xF8
    · rw [if_pos c5, if_pos c5]; exact ⟨rfl, .inl rfl⟩
    rw [if_neg c5, if_neg c5]
    exact ⟨rfl, .inr ⟨rfl, rfl⟩⟩

/-- Two runs of the loop that agree in everything but what an idle decoder remembers. -/
structure LEqv (L M : Loop) : Prop where
  st : Eqv L.st M.st
  count : L.count = M.count
  input : L.input = M.input
  clusterStart : L.clusterStart = M.clusterStart
  byteCount : L.byteCount = M.byteCount
  countedHere : L.countedHere = M.countedHere
  resultEnd : L.resultEnd = M.resultEnd
  events : L.events = M.events

inductive FEqv : Flow → Flow → Prop
  | go {L M} : LEqv L M → FEqv (.go L) (.go M)
  | stop {L M} : LEqv L M → FEqv (.stop L) (.stop M)

/-- `M` is `L` with another state. -/
theorem LEqv.eq {L M : Loop} (h : LEqv L M) : M = { L with st := M.st } := by
  obtain ⟨_, h1, h2, h3, h4, h5, h6, h7⟩ := h
  cases L; cases M
  simp only at *
  subst h1 h2 h3 h4 h5 h6 h7
  rfl

theorem flush_leqv (text : List Nat) (e : Nat) {L M : Loop} (h : LEqv L M) : LEqv (flush text e L) (flush text e M) := by
  unfold flush
  refine ⟨h.st, h.count, h.input, rfl, h.byteCount, h.countedHere, h.resultEnd, ?_⟩
  simp only [h.clusterStart, h.events, h.st.reported]

theorem openCluster_eqv (U : Table) (text : List Nat) (max p cp : Nat) {L M : Loop} (h : LEqv L M) :
    FEqv (openCluster U text max p cp L) (openCluster U text max p cp M) := by
  unfold openCluster
  have hf := flush_leqv text p h
  simp only [h.count]
  split
  · have : LEqv { L with input := p } { M with input := p } :=
      ⟨h.st, h.count, rfl, h.clusterStart, h.byteCount, h.countedHere, h.resultEnd, h.events⟩
    rw [h.count] at this
    exact .stop this
  · refine .go ⟨⟨h.st.utf8, h.st.hint, h.st.g, rfl, rfl⟩, rfl, hf.input, hf.clusterStart, hf.byteCount, rfl, congrArg Int.ofNat h.input, hf.events⟩

theorem joinCluster_eqv (U : Table) (max cp : Nat) {L M : Loop} (h : LEqv L M) :
    FEqv (joinCluster U max cp L) (joinCluster U max cp M) := by
  obtain ⟨⟨hu, hh, hg, ha, hr⟩, h1, h2, h3, h4, h5, h6, h7⟩ := h
  cases L with | mk s c i cs bc ch re ev =>
  cases M with | mk s' c' i' cs' bc' ch' re' ev' =>
  cases s with | mk u hi g a r =>
  cases s' with | mk u' hi' g' a' r' =>
  simp only at hu hh hg ha hr h1 h2 h3 h4 h5 h6 h7
  subst hh hg ha hr h1 h2 h3 h4 h5 h6 h7
  unfold joinCluster
  simp only
  have key : ∀ (s1 s2 : State) (c i cs bc ch re ev), Eqv s1 s2 → LEqv ⟨s1, c, i, cs, bc, ch, re, ev⟩ ⟨s2, c, i, cs, bc, ch, re, ev⟩ :=
    fun s1 s2 c i cs bc ch re ev h => ⟨h, rfl, rfl, rfl, rfl, rfl, rfl, rfl⟩
  split
  · split
    · exact .stop (key _ _ _ _ _ _ _ _ _ ⟨hu, rfl, rfl, rfl, rfl⟩)
    · exact .go (key _ _ _ _ _ _ _ _ _ ⟨hu, rfl, rfl, rfl, rfl⟩)
  · exact .go (key _ _ _ _ _ _ _ _ _ ⟨hu, rfl, rfl, rfl, rfl⟩)

theorem step_eqv (U : Table) (text : List Nat) (max b : Nat) (hb : b < 256) {L M : Loop} (h : LEqv L M) :
    FEqv (step U text max b L) (step U text max b M) := by
  unfold step
  rw [h.count]
  by_cases hc : M.count > max
  · rw [if_pos hc, if_pos hc]; exact .stop h
  rw [if_neg hc, if_neg hc, h.st.utf8.len]
  by_cases hk : (isControl b || !isComplex b || (M.st.utf8.expectedLength == 0 && isC1 b)) = true
  · rw [if_pos hk, if_pos hk]
    refine .stop ?_
    have hf := flush_leqv text L.input h
    unfold atControl
    rw [h.input] at hf ⊢
    refine ⟨⟨?_, rfl, rfl, rfl, rfl⟩, ?_, hf.input, hf.clusterStart, hf.byteCount, hf.countedHere, rfl, ?_⟩
    · simp only [h.st.utf8.len]
      split
      · exact .inl rfl
      · exact h.st.utf8
    · simp only [h.count, h.st.utf8.len]
    · simp only [hf.events, h.st.utf8.len]
  rw [if_neg hk, if_neg hk]
  obtain ⟨h2, h1⟩ := fromUtf8_deq h.st.utf8 b hb
  have hcons : ∀ u u', DEq u u' → LEqv (consume L u) (consume M u') := fun u u' hu =>
    ⟨⟨hu, h.st.hint, h.st.g, h.st.acc, h.st.reported⟩, h.count, by show L.input + 1 = M.input + 1; rw [h.input], h.clusterStart,
      by show L.byteCount + 1 = M.byteCount + 1; rw [h.byteCount], h.countedHere, h.resultEnd, h.events⟩
  generalize fromUtf8 L.st.utf8 b = p at h1 h2
  generalize fromUtf8 M.st.utf8 b = q at h1 h2
  obtain ⟨u, r⟩ := p
  obtain ⟨u', r'⟩ := q
  simp only at h1 h2
  subst h2
  have hc := hcons u u' h1
  cases r with
  | incomplete => exact .go hc
  | invalid =>
    refine .go ?_
    show LEqv (onInvalid U text (consume L u)) (onInvalid U text (consume M u'))
    generalize consume L u = L1 at hc
    generalize consume M u' = M1 at hc
    have hf := flush_leqv text (L1.input - L1.byteCount) hc
    unfold onInvalid
    rw [hc.input, hc.byteCount] at hf ⊢
    refine ⟨⟨.inr ⟨rfl, rfl⟩, rfl, rfl, rfl, rfl⟩, ?_, hf.input, hf.clusterStart, rfl, rfl, hf.resultEnd, ?_⟩
    · simp only [hc.count]
    · simp only [hf.events]
  | success cp =>
    show FEqv (onSuccess U text max cp (consume L u)) (onSuccess U text max cp (consume M u'))
    generalize consume L u = L1 at hc
    generalize consume M u' = M1 at hc
    unfold onSuccess
    have hbr : isBreakable U L1.st cp = isBreakable U M1.st cp := by unfold isBreakable; rw [hc.st.hint, hc.st.g]
    simp only [hbr]
    generalize isBreakable U M1.st cp = br
    have hl : LEqv { L1 with byteCount := 0, st := { L1.st with hint := cp, g := br.1 } }
        { M1 with byteCount := 0, st := { M1.st with hint := cp, g := br.1 } } :=
      ⟨⟨hc.st.utf8, rfl, rfl, hc.st.acc, hc.st.reported⟩, hc.count, hc.input, hc.clusterStart, rfl, hc.countedHere, hc.resultEnd, hc.events⟩
    have hp : L1.input - L1.byteCount = M1.input - M1.byteCount := by rw [hc.input, hc.byteCount]
    rw [hp]
    split
    · exact openCluster_eqv U text max _ cp hl
    · exact joinCluster_eqv U max cp hl

theorem loop_eqv (U : Table) (text : List Nat) (max : Nat) (rest : List Nat) (hb : ∀ b ∈ rest, b < 256) {L M : Loop} (h : LEqv L M) :
    LEqv (loop U text max rest L) (loop U text max rest M) := by
  induction rest generalizing L M with
  | nil => exact h
  | cons b rest ih =>
    have hs := step_eqv U text max b (hb b (List.mem_cons_self ..)) h
    unfold loop
    generalize step U text max b L = x at hs
    generalize step U text max b M = y at hs
    cases hs with
    | go h => exact ih (fun b hm => hb b (List.mem_cons_of_mem _ hm)) h
    | stop h => exact h

theorem resultStart_eqv {a b : State} (h : Eqv a b) : resultStart a = resultStart b := by
  unfold resultStart
  rcases h.utf8 with e | ⟨h1, h2⟩
  · rw [e]
  · rw [if_neg (by simpa using h1), if_neg (by simpa using h2)]

theorem scanNonAscii_eqv (U : Table) {a b : State} (h : Eqv a b) (text : List Nat) (hb : ∀ x ∈ text, x < 256) (max : Nat) :
    LEqv (scanNonAscii U a text max) (scanNonAscii U b text max) := by
  unfold scanNonAscii
  simp only
  have := loop_eqv U text max text hb (L := { st := a, resultEnd := resultStart a }) (M := { st := b, resultEnd := resultStart b })
    ⟨h, rfl, rfl, rfl, rfl, rfl, resultStart_eqv h, rfl⟩
  rw [this.input]
  exact flush_leqv text _ this

/-- Results that agree in all a caller sees, and states that agree in all later calls depend on. -/
structure OEqv (R Q : Out) : Prop where
  count : R.count = Q.count
  start : R.start = Q.start
  fin : R.fin = Q.fin
  next : R.next = Q.next
  events : R.events = Q.events
  st : Eqv R.st Q.st

theorem seed_eqv (U : Table) {a b : State} (h : DEq a.utf8 b.utf8) (c : Nat) : Eqv (seed U a c) (seed U b c) := ⟨h, rfl, rfl, rfl, rfl⟩

theorem mainLoop_eqv (U : Table) (v : Variant) (w max : Nat) (e : Int) (fuel : Nat) (complex : Bool) (text : List Nat) (hb : ∀ x ∈ text, x < 256)
    (base : Int) {R Q : Out} (h : OEqv R Q) :
    OEqv (mainLoop U v w max e fuel complex text base R) (mainLoop U v w max e fuel complex text base Q) := by
  induction fuel generalizing complex text base R Q with
  | zero => exact h
  | succ fuel ih =>
    unfold mainLoop
    rw [h.count, h.next]
    split
    · split
      · have hs := scanNonAscii_eqv U h.st text hb (max - Q.count)
        simp only [resultStart_eqv h.st, hs.resultEnd]
        generalize scanNonAscii U R.st text (max - Q.count) = S at hs
        generalize scanNonAscii U Q.st text (max - Q.count) = T at hs
        have hO : ∀ e' : Int, OEqv ⟨Q.count + S.count, R.start, e', S.st, base + S.input, R.events ++ S.events⟩
            ⟨Q.count + T.count, Q.start, e', T.st, base + T.input, Q.events ++ T.events⟩ := fun e' =>
          ⟨by simp only [hs.count], h.start, rfl, by simp only [hs.input], by simp only [hs.events, h.events], hs.st⟩
        split
        · exact hO _
        · exact ih false _ (fun x hx => hb x (List.mem_of_mem_drop hx)) _ (hO _)
      · simp only
        split
        · exact h
        · exact ih true _ (fun x hx => hb x (List.mem_of_mem_drop hx)) _
            ⟨rfl, h.start, by simp only [h.fin], rfl, by simp only [h.events], seed_eqv U h.st.utf8 _⟩
    · exact h

/-! ## A text that starts with a new cluster -/

/-- The loop before the first codepoint is complete: only the decoder has moved. -/
def opening (st : State) (u : DecState) (k : Nat) (re : Int) : Loop :=
  { st := { st with utf8 := u }, input := k, byteCount := k, resultEnd := re }

/-- The bytes of the first codepoint. -/
theorem loop_first (U : Table) (text : List Nat) (max : Nat) (re : Int) (c : Nat) (tail : List Nat) (bs : List Nat) (hne : bs ≠ [])
    (hcx : ∀ b ∈ bs, 0x80 ≤ b ∧ b < 256) (u : DecState) (k : Nat) (st : State)
    (h0 : u.expectedLength ≠ 0 ∨ ∀ b, bs[0]? = some b → isC1 b = false)
    (h : (feed u bs).2 = List.replicate (bs.length - 1) .incomplete ++ [.success c]) :
    loop U text max (bs ++ tail) (opening st u k re) =
      match onSuccess U text max c (opening st (feed u bs).1 (k + bs.length) re) with
      | .stop L' => L'
      | .go L' => loop U text max tail L' := by
  induction bs generalizing u k with
  | nil => exact absurd rfl hne
  | cons b bs ih =>
    have hb := hcx b (List.mem_cons_self ..)
    have hstop : (isControl b || !isComplex b || ((opening st u k re).st.utf8.expectedLength == 0 && isC1 b)) = false := by
      have h1 : isControl b = false := by unfold isControl; simp; omega
      have h2 : isComplex b = true := (Props.Scan.isComplex_iff b hb.2).2 hb.1
      rw [h1, h2]
      rcases h0 with h0 | h0
      · have : (u.expectedLength == 0) = false := by simpa using h0
        show (false || !true || (u.expectedLength == 0 && isC1 b)) = false
        rw [this]; rfl
      · rw [h0 b rfl]; simp
    have hcnt : ¬ (opening st u k re).count > max := by show ¬ 0 > max; omega
    have hl : ∀ L rest, loop U text max (b :: rest) L = (match step U text max b L with | .stop L' => L' | .go L' => loop U text max rest L') :=
      fun _ _ => rfl
    have hst : step U text max b (opening st u k re) = (match fromUtf8 u b with
      | (u', .incomplete) => Flow.go (consume (opening st u k re) u')
      | (u', .success cp) => onSuccess U text max cp (consume (opening st u k re) u')
      | (u', .invalid) => .go (onInvalid U text (consume (opening st u k re) u'))) := by
      unfold step
      rw [if_neg hcnt, if_neg (by rw [hstop]; simp)]
      rfl
    rw [List.cons_append, hl, hst]
    have hcons : ∀ u', consume (opening st u k re) u' = opening st u' (k + 1) re := fun _ => rfl
    simp only [hcons]
    rw [feed_cons] at h
    rw [feed_cons]
    cases bs with
    | nil =>
      simp only [feed, List.length_cons, List.length_nil, Nat.zero_add, Nat.sub_self, List.replicate_zero, List.nil_append,
        List.cons.injEq, and_true] at h
      rcases hf : fromUtf8 u b with ⟨u', r⟩
      rw [hf] at h
      simp only at h
      subst h
      simp only [feed, List.length_cons, List.length_nil, List.nil_append]
    | cons b' bs =>
      simp only [List.length_cons, Nat.add_sub_cancel, List.replicate_succ, List.cons_append, List.cons.injEq] at h
      rcases hf : fromUtf8 u b with ⟨u', r⟩
      rw [hf] at h
      simp only at h
      obtain ⟨rfl, h⟩ := h
      simp only
      have hp := Props.Scan.incomplete_pending u u' b hf
      have := ih (by simp) (fun x hx => hcx x (List.mem_cons_of_mem _ hx)) u' (k + 1) (.inl hp) (by simpa using h)
      rw [this]
      simp only [List.length_cons, Nat.add_assoc, Nat.add_comm 1]

/-- The first codepoint opens a cluster: what was open before is forgotten. -/
theorem onSuccess_opening (U : Table) (text : List Nat) (max c : Nat) (s : State) (u : DecState) (k : Nat)
    (hbt : (isBreakable U s c).2 = true) :
    onSuccess U text max c (opening s u k 0) =
      if (push U {} c).width > max then
        .stop { st := { s with utf8 := u, hint := c, g := (isBreakable U s c).1 }, resultEnd := 0 }
      else
        .go { st := ⟨u, c, (isBreakable U s c).1, push U {} c, (push U {} c).width⟩, count := (push U {} c).width, input := k,
              countedHere := (push U {} c).width, resultEnd := k } := by
  unfold onSuccess
  have hba : isBreakable U (opening s u k 0).st c = isBreakable U s c := rfl
  simp only [hba, hbt, if_true]
  unfold openCluster
  have h0 : (opening s u k 0).input - (opening s u k 0).byteCount = 0 := Nat.sub_self _
  have h1 : (opening s u k 0).count + (push U {} c).width = (push U {} c).width := Nat.zero_add _
  simp only [h0, h1]
  rfl

/-- The bytes of one codepoint that is not ASCII: they begin with a lead byte, and an idle decoder's memory does not matter. -/
theorem single_lead (bs : List Nat) (c : Nat) (hs : Single bs c) (hcx' : ∀ x ∈ bs, 0x80 ≤ x ∧ x < 256) :
    ∀ s0 : DecState, s0.expectedLength = 0 → feed s0 bs = feed {} bs ∧ ∀ x, bs[0]? = some x → isC1 x = false := by
  intro s0 h0
  obtain ⟨hne, h⟩ := hs
  cases bs with
  | nil => exact absurd rfl hne
  | cons x bs =>
    have hx := hcx' x (List.mem_cons_self ..)
    have hxc : isComplex x = true := (Props.Scan.isComplex_iff x hx.2).2 hx.1
    have hr : (fromUtf8 {} x).2 ≠ .invalid := by
      rw [feed_cons] at h
      intro hi
      simp only [hi] at h
      cases bs with
      | nil => simp at h
      | cons y bs => simp [List.replicate_succ] at h
    have hr0 : (fromUtf8 s0 x).2 ≠ .invalid := by
      rw [(fromUtf8_deq (a := s0) (b := {}) (.inr ⟨h0, rfl⟩) x hx.2).1]; exact hr
    refine ⟨feed_idle s0 h0 x bs hxc hr0, ?_⟩
    intro y hy
    simp only [List.getElem?_cons_zero, Option.some.injEq] at hy
    subst hy
    rw [fromUtf8_idle {} x rfl, startByte_eq {} x hx.2] at hr
    unfold isC1
    by_cases h9 : x < 0xC0
    · exfalso; rw [if_neg (by omega), if_pos h9] at hr; exact hr rfl
    · simp; omega

/-- Everything a caller sees of the two passes agrees when both begin by opening a cluster. -/
structure Seen (L M : Loop) : Prop where
  count : L.count = M.count
  input : L.input = M.input
  resultEnd : L.resultEnd = M.resultEnd
  events : L.events = M.events
  st : L.resultEnd = 0 ∨ Eqv L.st M.st

theorem scanNonAscii_first (U : Table) (a b : State) (ha : a.utf8.expectedLength = 0) (hb : b.utf8.expectedLength = 0)
    (bs tail : List Nat) (c : Nat) (hs : Single bs c) (hcx : ∀ x ∈ bs, 0x80 ≤ x) (ht : ∀ x ∈ bs ++ tail, x < 256) (max : Nat)
    (hbr : isBreakable U a c = isBreakable U b c) (hbt : (isBreakable U b c).2 = true) :
    Seen (scanNonAscii U a (bs ++ tail) max) (scanNonAscii U b (bs ++ tail) max) := by
  have hcx' : ∀ x ∈ bs, 0x80 ≤ x ∧ x < 256 := fun x hx => ⟨hcx x hx, ht x (List.mem_append_left _ hx)⟩
  have hlead := single_lead bs c hs hcx'
  have hu : ∀ s : State, s.utf8.expectedLength = 0 → scanNonAscii U s (bs ++ tail) max =
      flush (bs ++ tail) (match onSuccess U (bs ++ tail) max c (opening s (feed {} bs).1 bs.length 0) with
        | .stop L' => L'
        | .go L' => loop U (bs ++ tail) max tail L').input (match onSuccess U (bs ++ tail) max c (opening s (feed {} bs).1 bs.length 0) with
        | .stop L' => L'
        | .go L' => loop U (bs ++ tail) max tail L') := by
    intro s h
    have hr : resultStart s = 0 := by unfold resultStart; rw [if_neg (by simpa using h)]
    have hf := hlead s.utf8 h
    have := loop_first U (bs ++ tail) max 0 c tail bs hs.1 hcx' s.utf8 0 s (.inr hf.2) (by rw [hf.1]; exact hs.2)
    rw [Nat.zero_add, hf.1] at this
    unfold scanNonAscii
    rw [hr]
    simp only
    rw [show ({ st := s, resultEnd := 0 } : Loop) = opening s s.utf8 0 0 from rfl, this]
  rw [hu a ha, hu b hb, onSuccess_opening U _ max c a _ bs.length (by rw [hbr]; exact hbt),
    onSuccess_opening U _ max c b _ bs.length hbt, hbr]
  by_cases hw : (push U {} c).width > max
  · rw [if_pos hw, if_pos hw]
    exact ⟨rfl, rfl, rfl, rfl, .inl rfl⟩
  · rw [if_neg hw, if_neg hw]
    simp only
    generalize loop U (bs ++ tail) max tail _ = L
    rw [show L = L from rfl]
    exact ⟨rfl, rfl, rfl, rfl, .inr ⟨.inl rfl, rfl, rfl, rfl, rfl⟩⟩

/-- What a caller sees of a result. -/
structure Same (R Q : Out) : Prop where
  count : R.count = Q.count
  start : R.start = Q.start
  fin : R.fin = Q.fin
  next : R.next = Q.next
  events : R.events = Q.events

theorem OEqv.same {R Q : Out} (h : OEqv R Q) : Same R Q := ⟨h.count, h.start, h.fin, h.next, h.events⟩

/-- The first round of the main loop, beginning with a text that opens a cluster or with ASCII. -/
theorem mainLoop_first (U : Table) (v : Variant) (w max : Nat) (e : Int) (fuel : Nat) (complex : Bool) (text : List Nat)
    (hb : ∀ x ∈ text, x < 256) (a b : State) (ha : a.utf8.expectedLength = 0) (hb0 : b.utf8.expectedLength = 0)
    (hs : ∀ m, complex = true → Seen (scanNonAscii U a text m) (scanNonAscii U b text m)) :
    Same (mainLoop U v w max e fuel complex text 0 ⟨0, 0, 0, a, 0, []⟩) (mainLoop U v w max e fuel complex text 0 ⟨0, 0, 0, b, 0, []⟩) := by
  have hd : DEq a.utf8 b.utf8 := .inr ⟨ha, hb0⟩
  have ra : resultStart a = 0 := by unfold resultStart; rw [if_neg (by simpa using ha)]
  have rb : resultStart b = 0 := by unfold resultStart; rw [if_neg (by simpa using hb0)]
  cases fuel with
  | zero => exact ⟨rfl, rfl, rfl, rfl, rfl⟩
  | succ fuel =>
    unfold mainLoop
    simp only
    split
    · cases complex with
      | true =>
        have h := hs (max - 0) rfl
        simp only [if_true, ra, rb]
        generalize scanNonAscii U a text (max - 0) = S at h
        generalize scanNonAscii U b text (max - 0) = T at h
        rw [h.count, h.resultEnd, h.input, h.events]
        by_cases hc : (T.resultEnd - 0).toNat = 0
        · rw [if_pos hc, if_pos hc]; exact ⟨rfl, rfl, rfl, rfl, rfl⟩
        · rw [if_neg hc, if_neg hc]
          have hst : Eqv S.st T.st := by
            rcases h.st with h0 | h0
            · exfalso; rw [← h.resultEnd, h0] at hc; exact hc rfl
            · exact h0
          exact (mainLoop_eqv U v w max e fuel false _ (fun x hx => hb x (List.mem_of_mem_drop hx)) _
            (R := ⟨0 + T.count, 0, 0 + T.resultEnd, S.st, 0 + T.input, [] ++ T.events⟩)
            (Q := ⟨0 + T.count, 0, 0 + T.resultEnd, T.st, 0 + T.input, [] ++ T.events⟩) ⟨rfl, rfl, rfl, rfl, rfl, hst⟩).same
      | false =>
        simp only [Bool.false_eq_true, if_false]
        by_cases hn : scanAscii v w text (max - 0) = 0
        · rw [if_pos hn, if_pos hn]; exact ⟨rfl, rfl, rfl, rfl, rfl⟩
        · rw [if_neg hn, if_neg hn]
          have hst := seed_eqv U hd (text.getD (scanAscii v w text (max - 0) - 1) 0)
          generalize scanAscii v w text (max - 0) = n at hst
          exact (mainLoop_eqv U v w max e fuel true _ (fun x hx => hb x (List.mem_of_mem_drop hx)) _
            (R := ⟨0 + n, 0, 0 + n, seed U a (text.getD (n - 1) 0), 0 + n, [] ++ [.ascii (text.take n)]⟩)
            (Q := ⟨0 + n, 0, 0 + n, seed U b (text.getD (n - 1) 0), 0 + n, [] ++ [.ascii (text.take n)]⟩)
            ⟨rfl, rfl, rfl, rfl, rfl, hst⟩).same
    · exact ⟨rfl, rfl, rfl, rfl, rfl⟩

/-- Two calls on the same text, from two states in which no sequence is pending, agree when the text begins with an ASCII byte. -/
theorem scanText_same_ascii (U : Table) (v : Variant) (w : Nat) (a b : State) (ha : a.utf8.expectedLength = 0)
    (hb0 : b.utf8.expectedLength = 0) (na nb : Option Int) (hna : na.getD 0 = 0) (hnb : nb.getD 0 = 0) (pa pb : List Nat)
    (x : Nat) (tail : List Nat) (hx : x < 0x80) (ht : ∀ y ∈ x :: tail, y < 256) (max : Nat) (R Q : Out)
    (hR : scanText U v w a na pa (x :: tail) max = .ok R) (hQ : scanText U v w b nb pb (x :: tail) max = .ok Q) : Same R Q := by
  unfold scanText at hR hQ
  simp only at hR hQ
  rw [if_neg (by simpa using ha), hna] at hR
  rw [if_neg (by simpa using hb0), hnb] at hQ
  cases hR
  cases hQ
  refine mainLoop_first U v w max _ _ _ _ ht a b ha hb0 ?_
  intro m hc
  exfalso
  have := (Props.Scan.isComplex_iff x (by omega)).1 hc
  omega

/-- … or with a codepoint in front of which both states see a border. -/
theorem scanText_same_border (U : Table) (v : Variant) (w : Nat) (a b : State) (ha : a.utf8.expectedLength = 0)
    (hb0 : b.utf8.expectedLength = 0) (na nb : Option Int) (hna : na.getD 0 = 0) (hnb : nb.getD 0 = 0) (pa pb : List Nat)
    (bs tail : List Nat) (c : Nat) (hs : Single bs c) (hcx : ∀ x ∈ bs, 0x80 ≤ x) (ht : ∀ x ∈ bs ++ tail, x < 256)
    (hbr : isBreakable U a c = isBreakable U b c) (hbt : (isBreakable U b c).2 = true) (max : Nat) (R Q : Out)
    (hR : scanText U v w a na pa (bs ++ tail) max = .ok R) (hQ : scanText U v w b nb pb (bs ++ tail) max = .ok Q) : Same R Q := by
  unfold scanText at hR hQ
  simp only at hR hQ
  rw [if_neg (by simpa using ha), hna] at hR
  rw [if_neg (by simpa using hb0), hnb] at hQ
  have key := fun m => scanNonAscii_first U a b ha hb0 bs tail c hs hcx ht m hbr hbt
  generalize bs ++ tail = t at hR hQ key ht
  cases t with
  | nil =>
    simp only at hR hQ
    cases hR
    cases hQ
    exact ⟨rfl, rfl, rfl, rfl, rfl⟩
  | cons x t =>
    simp only at hR hQ
    cases hR
    cases hQ
    exact mainLoop_first U v w max _ _ _ _ ht a b ha hb0 (fun m _ => key m)

/-! ## The last codepoint a state remembers -/

/-- The codepoint the state's segmenter saw last is in `D`. -/
def Tracks (U : Table) (D : Nat → Prop) (st : State) : Prop := st.hint = 0 ∨ ∃ x, D x ∧ st.g.previousProperties = U x

theorem isBreakable_props (U : Table) (st : State) (x : Nat) : (isBreakable U st x).1.previousProperties = U x := by
  unfold isBreakable processInit processBreakable
  split
  · rfl
  · simp only
    repeat' split
    all_goals rfl

theorem onSuccess_tracks (U : Table) (D : Nat → Prop) (text : List Nat) (max c : Nat) (hc : D c) (L : Loop) :
    (∀ L', onSuccess U text max c L = .go L' → Tracks U D L'.st ∧ L'.st.utf8 = L.st.utf8) ∧
    (∀ L', onSuccess U text max c L = .stop L' → Tracks U D L'.st) := by
  have hp := isBreakable_props U L.st c
  unfold onSuccess openCluster joinCluster
  simp only
  generalize isBreakable U L.st c = br at hp
  refine ⟨fun L' h => ?_, fun L' h => ?_⟩
  · repeat' split at h
    all_goals first
      | (simp only [reduceCtorEq] at h)
      | (cases h; exact ⟨.inr ⟨c, hc, hp⟩, rfl⟩)
  · repeat' split at h
    all_goals first
      | (simp only [reduceCtorEq] at h)
      | (cases h; exact .inr ⟨c, hc, hp⟩)

theorem loop_tracks (U : Table) (D : Nat → Prop) (text : List Nat) (max : Nat) (rest : List Nat) (L : Loop) (h : Tracks U D L.st)
    (hd : ∀ x ∈ delivered L.st.utf8 rest, D x) : Tracks U D (loop U text max rest L).st := by
  induction rest generalizing L with
  | nil => exact h
  | cons b rest ih =>
    have hl : loop U text max (b :: rest) L = (match step U text max b L with | .stop L' => L' | .go L' => loop U text max rest L') := rfl
    rw [hl]
    unfold step
    by_cases h1 : L.count > max
    · rw [if_pos h1]; exact h
    rw [if_neg h1]
    by_cases h2 : (isControl b || !isComplex b || (L.st.utf8.expectedLength == 0 && isC1 b)) = true
    · rw [if_pos h2]; exact .inl rfl
    rw [if_neg h2]
    have hcx : isComplex b = true := by
      cases hc : isComplex b with
      | true => rfl
      | false => rw [hc] at h2; simp at h2
    simp only [delivered, hcx, if_true] at hd
    rcases hf : fromUtf8 L.st.utf8 b with ⟨u, r⟩
    rw [hf] at hd
    cases r with
    | incomplete => exact ih (consume L u) h hd
    | invalid => exact ih (onInvalid U text (consume L u)) (.inl rfl) hd
    | success c =>
      have ho := onSuccess_tracks U D text max c (hd c (List.mem_cons_self ..)) (consume L u)
      simp only
      generalize onSuccess U text max c (consume L u) = f at ho
      cases f with
      | stop L' => exact ho.2 L' rfl
      | go L' =>
        have := ho.1 L' rfl
        refine ih L' this.1 ?_
        rw [this.2]
        exact fun x hx => hd x (List.mem_cons_of_mem _ hx)

theorem delivered_deq {a b : DecState} (h : DEq a b) (t : List Nat) (ht : ∀ x ∈ t, x < 256) : delivered a t = delivered b t := by
  induction t generalizing a b with
  | nil => rfl
  | cons x t ih =>
    have ht' := fun y hy => ht y (List.mem_cons_of_mem x hy)
    unfold delivered
    split
    · have hf := fromUtf8_deq h x (ht x (List.mem_cons_self ..))
      rcases h1 : fromUtf8 a x with ⟨u, r⟩
      rcases h2 : fromUtf8 b x with ⟨u', r'⟩
      rw [h1, h2] at hf
      obtain ⟨hr, hu⟩ := hf
      simp only at hr hu
      subst hr
      cases r with
      | success c => simp only; rw [ih hu ht']
      | invalid => exact ih (.inr ⟨rfl, rfl⟩) ht'
      | incomplete => exact ih hu ht'
    · rw [ih (.inr ⟨idle_len a, idle_len b⟩) ht']

/-- Behind an ASCII byte the decoder starts afresh. -/
theorem delivered_suffix (u : DecState) (xs : List Nat) (b : Nat) (y : List Nat) (hb : isComplex b = false)
    (ht : ∀ x ∈ xs ++ b :: y, x < 256) (z : Nat) (hz : z ∈ delivered {} (b :: y)) : z ∈ delivered u (xs ++ b :: y) := by
  induction xs generalizing u with
  | nil =>
    simp only [List.nil_append, delivered, hb, Bool.false_eq_true, if_false, List.mem_cons] at hz ⊢
    rw [delivered_deq (.inr ⟨idle_len u, idle_len {}⟩) y (fun x hx => ht x (by simp [hx]))]
    exact hz
  | cons x xs ih =>
    have ih' := fun u => ih u (fun x hx => ht x (List.mem_cons_of_mem _ hx))
    simp only [List.cons_append]
    unfold delivered
    split
    · rcases fromUtf8 u x with ⟨u', r⟩
      cases r with
      | success c => exact List.mem_cons_of_mem _ (ih' _)
      | invalid => exact ih' _
      | incomplete => exact ih' _
    · exact List.mem_cons_of_mem _ (ih' _)

theorem delivered_ascii (xs : List Nat) (hxs : ∀ x ∈ xs, isComplex x = false) (y : List Nat) (ht : ∀ x ∈ xs ++ y, x < 256) :
    delivered {} (xs ++ y) = xs ++ delivered {} y := by
  induction xs with
  | nil => rfl
  | cons x xs ih =>
    simp only [List.cons_append, delivered, hxs x (List.mem_cons_self ..), Bool.false_eq_true, if_false]
    have h0 : idle ({} : DecState) = {} := rfl
    rw [h0, ih (fun z hz => hxs z (List.mem_cons_of_mem _ hz)) (fun z hz => ht z (List.mem_cons_of_mem _ hz))]

theorem mainLoop_tracks (U : Table) (D : Nat → Prop) (v : Variant) (w max : Nat) (e : Int) (fuel : Nat) (complex : Bool) (text : List Nat)
    (hb : ∀ x ∈ text, x < 256) (base : Int) (he : e = base + text.length) (R : Out) (h : Tracks U D R.st)
    (hi : R.st.utf8.expectedLength = 0 ∨ R.next = e)
    (hd : (complex = false ∧ ∃ b y, text = b :: y ∧ isComplex b = true) ∨ ∀ x ∈ delivered {} text, D x) :
    Tracks U D (mainLoop U v w max e fuel complex text base R).st := by
  induction fuel generalizing complex text base R with
  | zero => exact h
  | succ fuel ih =>
    unfold mainLoop
    by_cases hgo : R.count < max ∧ R.next ≠ e
    · rw [if_pos hgo]
      have hidle : R.st.utf8.expectedLength = 0 := hi.resolve_right hgo.2
      cases complex with
      | true =>
        have hd' : ∀ x ∈ delivered {} text, D x := by
          rcases hd with ⟨h, _⟩ | h
          · cases h
          · exact h
        have hS := scanNonAscii_post U R.st text (max - R.count)
        have hT : Tracks U D (scanNonAscii U R.st text (max - R.count)).st := by
          unfold scanNonAscii
          refine loop_tracks U D text _ text { st := R.st, resultEnd := resultStart R.st } h ?_
          rw [delivered_deq (b := {}) (.inr ⟨hidle, rfl⟩) _ hb]
          exact hd'
        have hr : resultStart R.st = 0 := by unfold resultStart; rw [if_neg (by simpa using hidle)]
        simp only [if_true]
        generalize scanNonAscii U R.st text (max - R.count) = S at hS hT
        rw [hr] at hS ⊢
        split
        · exact hT
        · have h1 := hS.hend
          have h2 := hS.hin
          have h3 := hS.hstart
          have hre : (S.resultEnd - 0).toNat ≤ text.length := by omega
          have hre2 : (S.resultEnd - 0) = ((S.resultEnd - 0).toNat : Int) := by omega
          refine ih false _ (fun x hx => hb x (List.mem_of_mem_drop hx)) _ ?_ _ hT ?_ ?_
          · rw [List.length_drop, he]; omega
          · by_cases hlt : S.input < text.length
            · exact .inl (hS.hidle hlt)
            · right
              show base + (S.input : Int) = e
              rw [he]; omega
          · generalize (S.resultEnd - 0).toNat = k at hre
            rcases hk : text.drop k with _ | ⟨b, y⟩
            · right; intro x hx; simp [delivered] at hx
            · cases hbc : isComplex b with
              | true => exact .inl ⟨rfl, b, y, rfl, hbc⟩
              | false =>
                right
                intro x hx
                have ht : text = text.take k ++ b :: y := by rw [← hk, List.take_append_drop]
                refine hd' x ?_
                rw [ht]
                exact delivered_suffix {} _ b y hbc (by rw [← ht]; exact hb) x hx
      | false =>
        simp only [Bool.false_eq_true, if_false]
        rcases hd with ⟨_, b, y, rfl, hbc⟩ | hd
        · have := scanAscii_complex v w (b :: y) hb (max - R.count) (fun x hx => by
            simp only [List.getElem?_cons_zero, Option.some.injEq] at hx; rw [← hx]; exact hbc)
          rw [if_pos this]; exact h
        · have hp := Props.Scan.C11_longest_prefix v w text hb (max - R.count)
          split
          · exact h
          · rename_i hn
            generalize scanAscii v w text (max - R.count) = n at hp hn
            have hxs : ∀ x ∈ text.take n, isComplex x = false := fun x hx => by
              have h1 := hp.printable x hx
              cases hc : isComplex x with
              | false => rfl
              | true =>
                have := (Props.Scan.isComplex_iff x (hb x (List.mem_of_mem_take hx))).1 hc
                exact absurd h1.2 (by omega)
            have hda := delivered_ascii (text.take n) hxs (text.drop n) (by rw [List.take_append_drop]; exact hb)
            rw [List.take_append_drop] at hda
            have hle := hp.le_size
            have hlast : text.getD (n - 1) 0 ∈ text.take n := by
              rw [List.getD_eq_getElem?_getD, List.getElem?_eq_getElem (by omega : n - 1 < text.length), Option.getD_some]
              have : (text.take n)[n - 1]'(by rw [List.length_take]; omega) = text[n - 1]'(by omega) := List.getElem_take ..
              rw [← this]
              exact List.getElem_mem _
            refine ih true _ (fun x hx => hb x (List.mem_of_mem_drop hx)) _ ?_ _ ?_ ?_ ?_
            · rw [List.length_drop, he]; omega
            · exact .inr ⟨_, hd _ (by rw [hda]; exact List.mem_append_left _ hlast), rfl⟩
            · exact .inl hidle
            · right
              intro x hx
              exact hd x (by rw [hda]; exact List.mem_append_right _ hx)
    · rw [if_neg hgo]; exact h

end Verif.Scan
