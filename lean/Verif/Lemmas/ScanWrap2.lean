import Verif.Lemmas.ScanWrap
import Verif.Lemmas.ScanLine
/-!
# The state of a call that stopped in front of a character, whatever the rest of the text
-/

namespace Verif.Scan.Halt
open Verif.Scan Verif.Ucd Verif.Utf8 Verif.Grapheme Verif.Width Verif.Props Verif.Props.Scan Verif.Spec.GB

/-- The character at the stop: not ASCII, and of a class that begins a grapheme cluster wherever it does not continue a Hangul syllable, follow a
`Prepend` or complete an emoji or a conjunct.  Flags are excluded. -/
structure Good (U : Table) (c : Nat) : Prop where
  high : 0x80 ≤ c
  extend : (U c).gcb ≠ .Extend
  zwj : (U c).gcb ≠ .ZWJ
  mark : (U c).gcb ≠ .SpacingMark
  flag : (U c).gcb ≠ .Regional_Indicator
  lf : (U c).gcb ≠ .LF

/-- Two characters `c` after one another are two grapheme clusters. -/
def Apart (U : Table) (c : Nat) : Prop := (U c).gcb = .Other ∨ (U c).gcb = .LV ∨ (U c).gcb = .LVT ∨ (U c).gcb = .Control ∨ (U c).gcb = .CR

/-- The segmenter last saw an ASCII character. -/
def AfterAscii (g : GState) : Prop :=
  (g.previousProperties.gcb = .Other ∨ g.previousProperties.gcb = .CR ∨ g.previousProperties.gcb = .LF ∨ g.previousProperties.gcb = .Control) ∧
    g.incbState = 0

/-- What a state in front of `c` remembers: nothing; an ASCII character; no part of a cluster; or `c` itself, which had no room. -/
def Halted (U : Table) (st : State) (c room : Nat) : Prop :=
  st.hint = 0 ∨ AfterAscii st.g ∨ (st.acc = {} ∧ st.reported = 0) ∨
    (room < (push U {} c).width ∧ st.g.previousProperties = U c ∧ ((U c).incb = .Consonant → st.g.incbState = 1))

def Ready (U : Table) (st : State) (room : Nat) (ks : List Nat) : Prop := ∀ c ds, ks = c :: ds → Good U c → Halted U st c room

theorem good_incb {U : Table} (D : DataOk U) {c : Nat} (hg : Good U c) : (U c).incb ≠ .Linker ∧ (U c).incb ≠ .Extend := by
  refine ⟨fun e => ?_, fun e => ?_⟩
  · rcases D.incb_extend c (.inr e) with h | h | h
    · exact hg.extend h
    · exact hg.zwj h
    · exact hg.mark h
  · rcases D.incb_extend c (.inl e) with h | h | h
    · exact hg.extend h
    · exact hg.zwj h
    · exact hg.mark h

theorem cascade_flag (A : GCB) (pb : Props) (i e : Nat) : cascade A pb i e 0 ≠ .joinFlag := by
  unfold cascade
  simp only
  have h01 : ¬ ((0 : Nat) = 1) := by decide
  simp only [h01, and_false, if_false]
  generalize isCtl A = x
  generalize isCtl pb.gcb = y
  repeat' split
  all_goals (intro h; cases h)

/-- What the segmenter remembers of `c` does not depend on what it remembered before. -/
theorem breakable_state {U : Table} (D : DataOk U) (st : State) {c : Nat} (hg : Good U c) : (isBreakable U st c).1 = processInit U c := by
  obtain ⟨n1, n2⟩ := good_incb D hg
  have hi : ∀ p, incbNext (U c) p = if (U c).incb = .Consonant then 1 else 0 := by
    intro p
    unfold incbNext
    split
    · rfl
    · rw [if_neg (fun h => n1 h.1), if_neg (fun h => n2 h.1)]
  have he : ∀ p, extpicNext (U c) p = if (U c).isExtPict then 1 else 0 := by
    intro p
    unfold extpicNext
    cases (U c).isExtPict
    · simp only [Bool.false_eq_true, or_false, if_false, hg.extend, hg.zwj, false_and]
      split
      · rfl
      · omega
    · simp
  unfold isBreakable
  split
  · rfl
  · unfold processBreakable processInit
    have h1 := hg.high
    simp only [hg.flag, hg.lf, and_false, if_false]
    rw [if_neg (by omega)]
    generalize hca : cascade st.g.previousProperties.gcb (U c) st.g.incbState st.g.extpicState 0 = r
    have hr : r ≠ .joinFlag := by rw [← hca]; exact cascade_flag _ _ _ _
    cases r with
    | brk => simp only [hi, he]
    | join => simp only [hi, he]
    | joinFlag => exact absurd rfl hr

theorem breakable_border {U : Table} (st : State) {c : Nat} (hg : Good U c)
    (h : st.hint = 0 ∨ AfterAscii st.g ∨ (Apart U c ∧ st.g.previousProperties = U c ∧ ((U c).incb = .Consonant → st.g.incbState = 1))) :
    (isBreakable U st c).2 = true := by
  unfold isBreakable
  split
  · rfl
  · rename_i hh
    have hc := hg.high
    have e1 := hg.extend
    have e2 := hg.zwj
    have e3 := hg.mark
    have e4 := hg.flag
    have hcas : cascade st.g.previousProperties.gcb (U c) st.g.incbState st.g.extpicState 0 = .brk := by
      rcases h.resolve_left hh with ⟨ha, hi⟩ | ⟨ha, hp, hi⟩
      · rw [hi]
        generalize st.g.previousProperties.gcb = A at ha
        unfold cascade isCtl
        rcases ha with rfl | rfl | rfl | rfl <;> simp [e1, e2, e3]
      · rw [hp]
        have hi' : ¬ ((U c).incb = .Consonant ∧ st.g.incbState = 2) := fun h => by have := hi h.1; omega
        unfold cascade isCtl
        simp only [hi', if_false]
        rcases ha with e | e | e | e | e <;> simp [e]
    unfold processBreakable
    simp only [e4, hg.lf, and_false, if_false]
    rw [if_neg (by omega), hcas]

/-- A codepoint that joins nothing is counted as one that opens a cluster. -/
theorem onSuccess_empty (U : Table) (text : List Nat) (max c : Nat) (s : State) (u : DecState) (k : Nat) (hacc : s.acc = {}) (hrep : s.reported = 0) :
    onSuccess U text max c (opening s u k 0) =
      if (push U {} c).width > max then
        .stop { st := { s with utf8 := u, hint := c, g := (isBreakable U s c).1 }, resultEnd := 0 }
      else
        .go { st := ⟨u, c, (isBreakable U s c).1, push U {} c, (push U {} c).width⟩, count := (push U {} c).width, input := k,
              countedHere := (push U {} c).width, resultEnd := k } := by
  cases hb : (isBreakable U s c).2 with
  | true => exact onSuccess_opening U text max c s u k hb
  | false =>
    unfold onSuccess
    have hba : isBreakable U (opening s u k 0).st c = isBreakable U s c := rfl
    simp only [hba, hb, Bool.false_eq_true, if_false]
    obtain ⟨su, sh, sg, sa, sr⟩ := s
    simp only at hacc hrep
    subst hacc hrep
    unfold joinCluster opening
    simp only [Nat.zero_le, ge_iff_le, if_true, Nat.sub_zero, Nat.zero_add]
    by_cases hw : (push U {} c).width > max
    · rw [if_pos ⟨by omega, hw⟩, if_pos hw]
      rfl
    · rw [if_neg (fun h => hw h.2), if_neg hw]

theorem scanNonAscii_first' (U : Table) (a b : State) (ha : a.utf8.expectedLength = 0) (hb : b.utf8.expectedLength = 0)
    (bs tail : List Nat) (c : Nat) (hs : Single bs c) (hcx : ∀ x ∈ bs, 0x80 ≤ x) (ht : ∀ x ∈ bs ++ tail, x < 256) (max : Nat)
    (hbr : (isBreakable U a c).1 = (isBreakable U b c).1) (hat : (isBreakable U a c).2 = true ∨ (a.acc = {} ∧ a.reported = 0))
    (hbt : (isBreakable U b c).2 = true) :
    Seen (scanNonAscii U a (bs ++ tail) max) (scanNonAscii U b (bs ++ tail) max) := by
  have hcx' : ∀ x ∈ bs, 0x80 ≤ x ∧ x < 256 := fun x hx => ⟨hcx x hx, ht x (List.mem_append_left _ hx)⟩
  have hlead := single_lead bs c hs hcx'
  have hu : ∀ s : State, s.utf8.expectedLength = 0 → scanNonAscii U s (bs ++ tail) max =
      flush (bs ++ tail) (match onSuccess U (bs ++ tail) max c (opening s (feed {} bs).1 bs.length 0) with
        | .stop L' => L'
        | .go L' => loop U (bs ++ tail) max tail L').input (match onSuccess U (bs ++ tail) max c (opening s (feed {} bs).1 bs.length 0) with
        | .stop L' => L'
        | .go L' => loop U (bs ++ tail) max tail L') := by
    intro s h
    have hr : resultStart s = 0 := by unfold resultStart; rw [if_neg (by simpa using h)]
    have hf := hlead s.utf8 h
    have := loop_first U (bs ++ tail) max 0 c tail bs hs.1 hcx' s.utf8 0 s (.inr hf.2) (by rw [hf.1]; exact hs.2)
    rw [Nat.zero_add, hf.1] at this
    unfold scanNonAscii
    rw [hr]
    simp only
    rw [show ({ st := s, resultEnd := 0 } : Loop) = opening s s.utf8 0 0 from rfl, this]
    rfl
  have hoa : onSuccess U (bs ++ tail) max c (opening a (feed {} bs).1 bs.length 0) =
      if (push U {} c).width > max then
        .stop { st := { a with utf8 := (feed {} bs).1, hint := c, g := (isBreakable U b c).1 }, resultEnd := 0 }
      else
        .go { st := ⟨(feed {} bs).1, c, (isBreakable U b c).1, push U {} c, (push U {} c).width⟩, count := (push U {} c).width, input := bs.length,
              countedHere := (push U {} c).width, resultEnd := bs.length } := by
    rw [← hbr]
    rcases hat with h | ⟨h1, h2⟩
    · exact onSuccess_opening U _ max c a _ bs.length h
    · exact onSuccess_empty U _ max c a _ bs.length h1 h2
  rw [hu a ha, hu b hb, hoa, onSuccess_opening U _ max c b _ bs.length hbt]
  by_cases hw : (push U {} c).width > max
  · rw [if_pos hw, if_pos hw]
    exact ⟨rfl, rfl, rfl, rfl, .inl rfl⟩
  · rw [if_neg hw, if_neg hw]
    simp only
    generalize loop U (bs ++ tail) max tail _ = L
    exact ⟨rfl, rfl, rfl, rfl, .inr ⟨.inl rfl, rfl, rfl, rfl, rfl⟩⟩

theorem scanText_same_halted (U : Table) (v : Variant) (w : Nat) (a b : State) (ha : a.utf8.expectedLength = 0)
    (hb0 : b.utf8.expectedLength = 0) (na nb : Option Int) (hna : na.getD 0 = 0) (hnb : nb.getD 0 = 0) (pa pb : List Nat)
    (bs tail : List Nat) (c : Nat) (hs : Single bs c) (hcx : ∀ x ∈ bs, 0x80 ≤ x) (ht : ∀ x ∈ bs ++ tail, x < 256)
    (hbr : (isBreakable U a c).1 = (isBreakable U b c).1) (hat : (isBreakable U a c).2 = true ∨ (a.acc = {} ∧ a.reported = 0))
    (hbt : (isBreakable U b c).2 = true) (max : Nat) (R Q : Out)
    (hR : scanText U v w a na pa (bs ++ tail) max = .ok R) (hQ : scanText U v w b nb pb (bs ++ tail) max = .ok Q) : Same R Q := by
  unfold scanText at hR hQ
  simp only at hR hQ
  rw [if_neg (by simpa using ha), hna] at hR
  rw [if_neg (by simpa using hb0), hnb] at hQ
  have key := fun m => scanNonAscii_first' U a b ha hb0 bs tail c hs hcx ht m hbr hat hbt
  generalize bs ++ tail = t at hR hQ key ht
  cases t with
  | nil =>
    simp only at hR hQ
    cases hR
    cases hQ
    exact ⟨rfl, rfl, rfl, rfl, rfl⟩
  | cons x t =>
    simp only at hR hQ
    cases hR
    cases hQ
    exact mainLoop_first U v w max _ _ _ _ ht a b ha hb0 (fun m _ => key m)

/-- The loop between two codepoints; `cl` is what the open cluster has in this pass. -/
structure Inv (U : Table) (N : Nat) (max : Nat) (cl rs : List Nat) (L : Loop) : Prop where
  start : L.clusterStart + (toUtf8Str (cl ++ rs)).length = N
  input : L.input + (toUtf8Str rs).length = N
  idle : L.st.utf8.expectedLength = 0
  bc : L.byteCount = 0
  re : L.resultEnd = L.input
  cnt : L.count ≤ max

/-- Where and how the loop ends. -/
structure Fin (U : Table) (N max : Nat) (ks : List Nat) (M : Loop) (ks' : List Nat) : Prop where
  suffix : ks' <:+ ks
  input : M.input + (toUtf8Str ks').length = N
  idle : M.st.utf8.expectedLength = 0
  re : M.resultEnd = M.input
  ready : Ready U M.st (max - M.count) ks'

theorem halt_loop {U : Table} (D : DataOk U) (T : List Nat) (N max : Nat) (rs : List Nat) (hsc : ∀ x ∈ rs, x ≤ 0x1FFFFF) :
    ∀ (cl : List Nat) (L : Loop), Inv U N max cl rs L → ∃ ks', Fin U N max (cl ++ rs) (loop U T max (toUtf8Str rs) L) ks' := by
  induction rs with
  | nil =>
    intro cl L h
    rw [str_nil]
    have hin := h.input
    rw [str_nil] at hin
    exact ⟨[], List.nil_suffix, by rw [str_nil]; exact hin, h.idle, h.re, fun c ds e => by cases e⟩
  | cons c rs ih =>
    intro cl L h
    have hsc' : ∀ x ∈ rs, x ≤ 0x1FFFFF := fun x hx => hsc x (List.mem_cons_of_mem _ hx)
    have hin := h.input
    have hst := h.start
    by_cases hlt : c < 0x80
    · have hcx : isComplex c = false := by
        cases h : isComplex c with
        | false => rfl
        | true => have := (isComplex_iff c (by omega)).1 h; omega
      have hlp : loop U T max (toUtf8Str (c :: rs)) L = atControl U T L := by
        rw [str_cons, toUtf8_low c hlt]
        show (match step U T max c L with | .stop L' => L' | .go L' => loop U T max _ L') = _
        have : step U T max c L = .stop (atControl U T L) := by
          unfold step
          rw [if_neg (by have := h.cnt; omega), if_pos (by rw [hcx]; simp)]
        rw [this]
      obtain ⟨-, -, e3, -, e5, e6⟩ := atControl_idle U T L h.idle
      rw [hlp]
      exact ⟨c :: rs, List.suffix_append .., by rw [e3]; exact hin, e6, by rw [e5, e3],
        fun a ds e hg => absurd hg.high (by cases e; omega)⟩
    · obtain ⟨u, hu, hlp⟩ := loop_char U T max c (by omega) (hsc c (List.mem_cons_self ..)) (toUtf8Str rs) L h.cnt h.idle h.bc
      rw [str_cons, hlp]
      rw [str_cons, List.length_append] at hin
      have hsub : (within L u (toUtf8 c).length).input - (within L u (toUtf8 c).length).byteCount = L.input := Nat.add_sub_cancel ..
      have hib : isBreakable U (within L u (toUtf8 c).length).st c = isBreakable U L.st c := rfl
      have hprops := isBreakable_props U L.st c
      have hon : onSuccess U T max c (within L u (toUtf8 c).length) =
          if (isBreakable U L.st c).2 then
            openCluster U T max L.input c
              { L with st := { L.st with utf8 := u, hint := c, g := (isBreakable U L.st c).1 }, input := L.input + (toUtf8 c).length, byteCount := 0 }
          else joinCluster U max c
              { L with st := { L.st with utf8 := u, hint := c, g := (isBreakable U L.st c).1 }, input := L.input + (toUtf8 c).length, byteCount := 0 } := by
        unfold onSuccess
        simp only [hib, hsub]
        rfl
      rw [hon]
      cases hv : (isBreakable U L.st c).2 with
      | true =>
        rw [if_pos rfl]
        unfold openCluster
        simp only
        by_cases hov : L.count + (push U {} c).width > max
        · rw [if_pos hov]
          simp only
          refine ⟨c :: rs, List.suffix_append .., ?_, hu, h.re, ?_⟩
          · show L.input + _ = N
            rw [str_cons, List.length_append]; exact hin
          · intro a ds e hg
            cases e
            right; right; right
            have hb := breakable_state D L.st hg
            refine ⟨?_, hprops, fun hi => ?_⟩
            · have := h.cnt
              show max - L.count < _; omega
            · show (isBreakable U L.st c).1.incbState = 1
              rw [hb]
              unfold processInit
              simp only [hi, if_true]
        · rw [if_neg hov]
          simp only
          obtain ⟨ks', hf⟩ := ih hsc' [c]
            { flush T L.input { L with st := { L.st with utf8 := u, hint := c, g := (isBreakable U L.st c).1 }, input := L.input + (toUtf8 c).length, byteCount := 0 } with
              count := L.count + (push U {} c).width, countedHere := (push U {} c).width,
              st := { utf8 := u, hint := c, g := (isBreakable U L.st c).1, acc := push U {} c, reported := (push U {} c).width }, resultEnd := ((L.input + (toUtf8 c).length : Nat) : Int) }
            { start := by
                show L.input + _ = N
                rw [List.singleton_append, str_cons, List.length_append]; exact hin
              input := by show L.input + _ + _ = N; omega
              idle := hu
              bc := rfl
              re := rfl
              cnt := by show L.count + _ ≤ max; omega
              }
          exact ⟨ks', hf.suffix.trans (List.suffix_append cl _), hf.input, hf.idle, hf.re, hf.ready⟩
      | false =>
        rw [if_neg (by simp)]
        have happ : cl ++ c :: rs = (cl ++ [c]) ++ rs := by rw [List.append_assoc]; rfl
        have goes : ∀ (cnt ch : Nat) (hc : cnt ≤ max), ∃ ks', Fin U N max (cl ++ c :: rs) (loop U T max (toUtf8Str rs)
            { L with st := { L.st with utf8 := u, hint := c, g := (isBreakable U L.st c).1, acc := push U L.st.acc c, reported := (push U L.st.acc c).width }, input := L.input + (toUtf8 c).length, byteCount := 0, count := cnt, countedHere := ch, resultEnd := ((L.input + (toUtf8 c).length : Nat) : Int) }) ks' := by
          intro cnt ch hc
          rw [happ]
          exact ih hsc' (cl ++ [c]) _
            { start := by rw [← happ]; exact hst
              input := by show L.input + _ + _ = N; omega
              idle := hu
              bc := rfl
              re := rfl
              cnt := hc
              }
        have hcnt := h.cnt
        unfold joinCluster
        simp only
        by_cases hge : (push U L.st.acc c).width ≥ L.st.reported
        · rw [if_pos hge]
          by_cases hgr : (push U L.st.acc c).width - L.st.reported ≠ 0 ∧ L.count + ((push U L.st.acc c).width - L.st.reported) > max
          · rw [if_pos hgr]
            exact ⟨cl ++ c :: rs, List.suffix_refl _, hst, hu, rfl, fun _ _ _ _ => .inr (.inr (.inl ⟨rfl, rfl⟩))⟩
          · rw [if_neg hgr]
            exact goes _ _ (by omega)
        · rw [if_neg hge]
          exact goes _ _ (by omega)

/-- One pass over text that is not ASCII. -/
theorem halt_pass {U : Table} (D : DataOk U) (ks : List Nat) (hsc : ∀ x ∈ ks, x ≤ 0x1FFFFF) (max : Nat) (st : State)
    (hid : st.utf8.expectedLength = 0) :
    ∃ ks', Fin U (toUtf8Str ks).length max ks (scanNonAscii U st (toUtf8Str ks) max) ks' := by
  have hr : resultStart st = 0 := by unfold resultStart; rw [if_neg (by simpa using hid)]
  obtain ⟨ks', h⟩ := halt_loop D (toUtf8Str ks) (toUtf8Str ks).length max ks hsc [] { st := st, resultEnd := resultStart st }
    { start := by show 0 + _ = _; rw [Nat.zero_add]; rfl
      input := by show 0 + _ = _; rw [Nat.zero_add]
      idle := hid
      bc := rfl
      re := hr
      cnt := Nat.zero_le _
      }
  exact ⟨ks', h.suffix, h.input, h.idle, h.re, h.ready⟩

/-- The ASCII characters at the front of a text. -/
theorem ascii_front (n : Nat) : ∀ (ks : List Nat), n ≤ (toUtf8Str ks).length → (∀ x ∈ ks, x ≤ 0x1FFFFF) → (∀ b ∈ (toUtf8Str ks).take n, b < 0x80) →
    ∃ xs ys, ks = xs ++ ys ∧ (toUtf8Str ks).take n = xs ∧ (toUtf8Str ks).drop n = toUtf8Str ys ∧ xs.length = n := by
  induction n with
  | zero => intro ks _ _ _; exact ⟨[], ks, rfl, rfl, rfl, rfl⟩
  | succ n ih =>
    intro ks hn hsc h
    cases ks with
    | nil => rw [str_nil] at hn; simp at hn
    | cons c ks =>
      have hc : c < 0x80 := by
        by_contra hc
        have hh := (toUtf8_high c (by omega) (hsc c (List.mem_cons_self ..))).1
        rw [str_cons] at h
        rcases hu : toUtf8 c with _ | ⟨b, t⟩
        · exact toUtf8_ne_nil c hu
        · rw [hu] at h hh
          have h1 := h b (by rw [List.cons_append, List.take_succ_cons]; exact List.mem_cons_self ..)
          have h2 := (hh b (List.mem_cons_self ..)).1
          omega
      have e : toUtf8Str (c :: ks) = c :: toUtf8Str ks := by rw [str_cons, toUtf8_low c hc]; rfl
      rw [e] at hn h ⊢
      rw [List.take_succ_cons, List.drop_succ_cons] at *
      obtain ⟨xs, ys, h1, h2, h3, h4⟩ := ih ks (by simpa using hn) (fun x hx => hsc x (List.mem_cons_of_mem _ hx))
        (fun b hb => h b (List.mem_cons_of_mem _ hb))
      exact ⟨c :: xs, ys, by rw [h1]; rfl, by rw [h2], h3, by simp [h4]⟩

theorem halt_main {U : Table} (D : DataOk U) (v : Variant) (w max : Nat) (fin : Int) (fuel : Nat) :
    ∀ (complex : Bool) (ks : List Nat) (base : Int) (R : Out), (∀ x ∈ ks, x ≤ 0x1FFFFF) → R.next = base →
      fin = base + (toUtf8Str ks).length → R.st.utf8.expectedLength = 0 →
      Ready U R.st (max - R.count) ks ∨ (complex = true ∧ R.count < max ∧ fuel ≠ 0) →
      ∃ ks', ks' <:+ ks ∧ (mainLoop U v w max fin fuel complex (toUtf8Str ks) base R).next + (toUtf8Str ks').length = fin ∧
        Ready U (mainLoop U v w max fin fuel complex (toUtf8Str ks) base R).st (max - (mainLoop U v w max fin fuel complex (toUtf8Str ks) base R).count) ks' := by
  induction fuel with
  | zero => intro complex ks base R _ hn hf _ hr; exact ⟨ks, List.suffix_refl _, by show R.next + _ = _; rw [hn, hf], hr.resolve_right (fun h => h.2.2 rfl)⟩
  | succ fuel ih =>
    intro complex ks base R hsc hn hf hid hr
    have hb : ∀ b ∈ toUtf8Str ks, b < 256 := toUtf8Str_lt _ hsc
    unfold mainLoop
    by_cases hgo : R.count < max ∧ R.next ≠ fin
    · rw [if_pos hgo]
      cases complex with
      | true =>
        obtain ⟨ks', hF⟩ := halt_pass D ks hsc (max - R.count) R.st hid
        have hrs : resultStart R.st = 0 := by unfold resultStart; rw [if_neg (by simpa using hid)]
        simp only [if_true]
        generalize scanNonAscii U R.st (toUtf8Str ks) (max - R.count) = S at hF
        have h1 := hF.input
        have hready : Ready U S.st (max - (R.count + S.count)) ks' := by rw [← Nat.sub_sub]; exact hF.ready
        have h2 := hF.re
        rw [hrs]
        have h3 : (S.resultEnd - 0).toNat = S.input := by omega
        rw [h3]
        split
        · exact ⟨ks', hF.suffix, by show base + (S.input : Int) + _ = fin; rw [hf, ← h1]; omega, hready⟩
        · obtain ⟨pre, hpre⟩ := hF.suffix
          have hdrop : (toUtf8Str ks).drop S.input = toUtf8Str ks' := by
            rw [← hpre, str_append] at h1 ⊢
            rw [List.length_append] at h1
            have : S.input = (toUtf8Str pre).length := by omega
            rw [this, List.drop_left]
          rw [hdrop]
          obtain ⟨ks2, g1, g2, g3⟩ := ih false ks' (base + S.input)
            { R with count := R.count + S.count, fin := base + S.resultEnd, st := S.st, next := base + S.input, events := R.events ++ S.events }
            (fun x hx => hsc x (hF.suffix.subset hx)) rfl (by rw [hf]; omega) hF.idle (.inl hready)
          exact ⟨ks2, g1.trans hF.suffix, g2, g3⟩
      | false =>
        simp only [Bool.false_eq_true, if_false]
        have hp := C11_longest_prefix v w (toUtf8Str ks) hb (max - R.count)
        split
        · exact ⟨ks, List.suffix_refl _, by rw [hn, hf], hr.resolve_right (fun h => by cases h.1)⟩
        · rename_i hn0
          generalize scanAscii v w (toUtf8Str ks) (max - R.count) = n at hp hn0
          have hle := hp.le_size
          obtain ⟨xs, ys, e1, e2, e3, e4⟩ := ascii_front n ks hle hsc (fun b hb => by have := (hp.printable b hb).2; omega)
          have hy : (toUtf8Str ks).getD (n - 1) 0 < 0x80 := by
            have hm : (toUtf8Str ks).getD (n - 1) 0 ∈ (toUtf8Str ks).take n := by
              rw [List.getD_eq_getElem?_getD, List.getElem?_eq_getElem (by omega : n - 1 < (toUtf8Str ks).length), Option.getD_some]
              have : ((toUtf8Str ks).take n)[n - 1]'(by rw [List.length_take]; omega) = (toUtf8Str ks)[n - 1]'(by omega) := List.getElem_take ..
              rw [← this]
              exact List.getElem_mem _
            have := (hp.printable _ hm).2
            omega
          generalize (toUtf8Str ks).getD (n - 1) 0 = y at hy
          rw [e3]
          have hlen : (toUtf8Str ks).length = n + (toUtf8Str ys).length := by
            have := congrArg List.length e3
            rw [List.length_drop] at this
            omega
          have hg := D.ascii_gcb y hy
          have hi := D.ascii_incb y hy
          have hinc : (processInit U y).incbState = 0 := by
            unfold processInit; simp only; rw [hi]; rfl
          obtain ⟨ks2, g1, g2, g3⟩ := ih true ys (base + n)
            { R with count := R.count + n, fin := R.fin + n, st := seed U R.st y, next := R.next + n, events := R.events ++ [.ascii ((toUtf8Str ks).take n)] }
            (fun x hx => hsc x (by rw [e1]; exact List.mem_append_right _ hx)) (by show R.next + _ = _; rw [hn]) (by rw [hf, hlen]; omega) hid
            (.inl (fun _ _ _ _ => .inr (.inl ⟨hg, hinc⟩)))
          exact ⟨ks2, g1.trans ⟨xs, e1.symm⟩, g2, g3⟩
    · rw [if_neg hgo]
      refine ⟨ks, List.suffix_refl _, by rw [hn, hf], ?_⟩
      rcases hr with hr | ⟨-, hr, -⟩
      · exact hr
      · have he : R.next = fin := by
          by_contra hne
          exact hgo ⟨hr, hne⟩
        cases ks with
        | nil => exact fun _ _ e => by cases e
        | cons c q =>
          have := str_pos (c :: q) (by simp)
          omega

theorem suffix_same {a b l : List Nat} (ha : a <:+ l) (hb : b <:+ l) (h : (toUtf8Str a).length = (toUtf8Str b).length) : a = b := by
  rcases List.suffix_or_suffix_of_suffix ha hb with h1 | h1
  · obtain ⟨t, rfl⟩ := h1
    rw [str_append, List.length_append] at h
    have : t = [] := by
      by_contra hne
      have := str_pos t hne
      omega
    rw [this, List.nil_append]
  · obtain ⟨t, rfl⟩ := h1
    rw [str_append, List.length_append] at h
    have : t = [] := by
      by_contra hne
      have := str_pos t hne
      omega
    rw [this, List.nil_append]

/-- The state of a call that stopped in front of `ks'`, begun with a state that was left in front of its text. -/
theorem ready_from {U : Table} (D : DataOk U) (v : Variant) (w : Nat) (st : State) (hid : st.utf8.expectedLength = 0) (next : Option Int)
    (hnx : next.getD 0 = 0) (pre : List Nat) (room : Nat) (cs ks' : List Nat) (hst : Ready U st room (cs ++ ks')) (max : Nat) (R : Out)
    (hsc : ∀ x ∈ cs ++ ks', x ≤ 0x1FFFFF)
    (hR : scanText U v w st next pre (toUtf8Str (cs ++ ks')) max = .ok R) (hn : R.next = (toUtf8Str cs).length) :
    Ready U R.st (max - R.count) ks' := by
  have hlen : (toUtf8Str (cs ++ ks')).length = (toUtf8Str cs).length + (toUtf8Str ks').length := by rw [str_append, List.length_append]
  rcases hk : cs ++ ks' with _ | ⟨c, ds⟩
  · have : ks' = [] := (List.append_eq_nil_iff.1 hk).2
    rw [this]
    exact fun _ _ e => by cases e
  obtain ⟨b, bs, hbs⟩ : ∃ b bs, toUtf8Str (cs ++ ks') = b :: bs := by
    rcases h : toUtf8Str (cs ++ ks') with _ | ⟨b, bs⟩
    · have := str_pos (cs ++ ks') (by rw [hk]; simp)
      rw [h] at this
      simp at this
    · exact ⟨b, bs, rfl⟩
  have hstart : Ready U st max (cs ++ ks') ∨ (isComplex b = true ∧ 0 < max) := by
    by_cases hlt : c < 0x80
    · left
      intro a q e hg
      rw [hk] at e
      cases e
      exact absurd hg.high (by omega)
    · rcases Nat.eq_zero_or_pos max with h0 | h0
      · left
        intro a q e hg
        rcases hst a q e hg with h | h | h | ⟨h1, h2⟩
        · exact .inl h
        · exact .inr (.inl h)
        · exact .inr (.inr (.inl h))
        · exact .inr (.inr (.inr ⟨by omega, h2⟩))
      · right
        refine ⟨?_, h0⟩
        have hhi := toUtf8_high c (by omega) (hsc c (by rw [hk]; exact List.mem_cons_self ..))
        rw [hk, str_cons] at hbs
        rcases hu : toUtf8 c with _ | ⟨b', t⟩
        · exact absurd hu (toUtf8_ne_nil c)
        · rw [hu] at hbs hhi
          cases hbs
          have := hhi.1 b (List.mem_cons_self ..)
          exact (isComplex_iff b this.2).2 this.1
  have key := halt_main D v w max ((toUtf8Str (cs ++ ks')).length) ((toUtf8Str (cs ++ ks')).length + 1)
    (isComplex b) (cs ++ ks') 0 { count := 0, start := 0, fin := 0, st := st, next := 0, events := [] } hsc rfl
    (by rw [Int.zero_add]) hid (hstart.imp id fun h => ⟨h.1, h.2, by omega⟩)
  have e : mainLoop U v w max ((toUtf8Str (cs ++ ks')).length) ((toUtf8Str (cs ++ ks')).length + 1) (isComplex b) (toUtf8Str (cs ++ ks')) 0
      { count := 0, start := 0, fin := 0, st := st, next := 0, events := [] } = R := by
    unfold scanText at hR
    simp only at hR
    rw [if_neg (by simpa using hid), hnx, hbs] at hR
    simp only [Mem.ok.injEq] at hR
    rw [hbs]
    exact hR
  rw [e] at key
  obtain ⟨k2, h1, h2, h3⟩ := key
  have := suffix_same h1 (List.suffix_append cs ks') (by rw [hn] at h2; omega)
  rw [← this]
  exact h3

end Verif.Scan.Halt
