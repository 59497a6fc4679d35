import Verif.Lemmas.ScanCols
import Verif.Props.ScanCols
/-!
# What the scanner has done at every character of a text that does not fit the line
-/

namespace Verif.Scan
open Verif.Ucd Verif.Utf8 Verif.Grapheme Verif.Width Verif.Props Verif.Props.Scan Verif.Spec.GB

/-- What a receiver is told by a call, character by character: the bytes and the columns.  ASCII characters are single. -/
def told : Event → List (List Nat × Nat)
  | .ascii bs => bs.map fun b => ([b], 1)
  | .cluster bs n => [(bs, n)]
  | .invalid => [([], 1)]

/-- The clusters as a receiver should be told about them. -/
def units (U : Table) (cls : List (List Nat)) : List (List Nat × Nat) :=
  cls.map fun cl => (toUtf8Str cl, clusterWidth U cl)

/-- Columns of a list of clusters. -/
def widths (U : Table) (cls : List (List Nat)) : Nat := (cls.map (clusterWidth U)).sum

theorem units_append (U : Table) (a b : List (List Nat)) : units U (a ++ b) = units U a ++ units U b := by
  unfold units; rw [List.map_append]

theorem widths_append (U : Table) (a b : List (List Nat)) : widths U (a ++ b) = widths U a + widths U b := by
  unfold widths; rw [List.map_append, List.sum_append]

theorem widths_one (U : Table) (a : List Nat) : widths U [a] = clusterWidth U a := by simp [widths]

/-- The loop within a character: `k` of its bytes have gone through the decoder. -/
def within (L : Loop) (u : DecState) (k : Nat) : Loop :=
  { L with st := { L.st with utf8 := u }, input := L.input + k, byteCount := k }

/-- The bytes of one character, wherever the loop is. -/
theorem loop_bytes (U : Table) (text : List Nat) (max c : Nat) (tail : List Nat) (L : Loop) (hcnt : L.count ≤ max) (bs : List Nat)
    (hne : bs ≠ []) (hcx : ∀ b ∈ bs, 0x80 ≤ b ∧ b < 256) (u : DecState) (k : Nat)
    (h0 : u.expectedLength ≠ 0 ∨ ∀ b, bs[0]? = some b → isC1 b = false)
    (h : (feed u bs).2 = List.replicate (bs.length - 1) .incomplete ++ [.success c]) :
    loop U text max (bs ++ tail) (within L u k) =
      match onSuccess U text max c (within L (feed u bs).1 (k + bs.length)) with
      | .stop L' => L'
      | .go L' => loop U text max tail L' := by
  induction bs generalizing u k with
  | nil => exact absurd rfl hne
  | cons b bs ih =>
    have hb := hcx b (List.mem_cons_self ..)
    have hstop : (isControl b || !isComplex b || ((within L u k).st.utf8.expectedLength == 0 && isC1 b)) = false := by
      have h1 : isControl b = false := by unfold isControl; simp; omega
      have h2 : isComplex b = true := (Props.Scan.isComplex_iff b hb.2).2 hb.1
      rw [h1, h2]
      rcases h0 with h0 | h0
      · have : (u.expectedLength == 0) = false := by simpa using h0
        show (false || !true || (u.expectedLength == 0 && isC1 b)) = false
        rw [this]; rfl
      · rw [h0 b rfl]; simp
    have hc : ¬ (within L u k).count > max := by show ¬ L.count > max; omega
    have hl : ∀ L rest, loop U text max (b :: rest) L = (match step U text max b L with | .stop L' => L' | .go L' => loop U text max rest L') :=
      fun _ _ => rfl
    have hst : step U text max b (within L u k) = (match fromUtf8 u b with
      | (u', .incomplete) => Flow.go (consume (within L u k) u')
      | (u', .success cp) => onSuccess U text max cp (consume (within L u k) u')
      | (u', .invalid) => .go (onInvalid U text (consume (within L u k) u'))) := by
      unfold step
      rw [if_neg hc, if_neg (by rw [hstop]; simp)]
      rfl
    rw [List.cons_append, hl, hst]
    have hcons : ∀ u', consume (within L u k) u' = within L u' (k + 1) := fun _ => rfl
    simp only [hcons]
    rw [feed_cons] at h
    rw [feed_cons]
    cases bs with
    | nil =>
      simp only [feed, List.length_cons, List.length_nil, Nat.zero_add, Nat.sub_self, List.replicate_zero, List.nil_append,
        List.cons.injEq, and_true] at h
      rcases hf : fromUtf8 u b with ⟨u', r⟩
      rw [hf] at h
      simp only at h
      subst h
      simp only [feed, List.length_cons, List.length_nil, List.nil_append]
    | cons b' bs =>
      simp only [List.length_cons, Nat.add_sub_cancel, List.replicate_succ, List.cons_append, List.cons.injEq] at h
      rcases hf : fromUtf8 u b with ⟨u', r⟩
      rw [hf] at h
      simp only at h
      obtain ⟨rfl, h⟩ := h
      simp only
      have hp := Props.Scan.incomplete_pending u u' b hf
      have := ih (by simp) (fun x hx => hcx x (List.mem_cons_of_mem _ hx)) u' (k + 1) (.inl hp) (by simpa using h)
      rw [this]
      simp only [List.length_cons, Nat.add_assoc, Nat.add_comm 1]

/-- One character that is not ASCII. -/
theorem loop_char (U : Table) (text : List Nat) (max c : Nat) (hc : 0x80 ≤ c) (hc' : c ≤ 0x1FFFFF) (tail : List Nat) (L : Loop)
    (hcnt : L.count ≤ max) (hid : L.st.utf8.expectedLength = 0) (hbc : L.byteCount = 0) :
    ∃ u : DecState, u.expectedLength = 0 ∧ loop U text max (toUtf8 c ++ tail) L =
      match onSuccess U text max c (within L u (toUtf8 c).length) with
      | .stop L' => L'
      | .go L' => loop U text max tail L' := by
  have hf := feed_toUtf8 L.st.utf8 hid c hc'
  have hh := toUtf8_high c hc hc'
  have h := loop_bytes U text max c tail L hcnt (toUtf8 c) (toUtf8_ne_nil c) hh.1 L.st.utf8 0 (.inr hh.2) hf.1
  refine ⟨_, hf.2.1, ?_⟩
  have e : within L L.st.utf8 0 = L := by
    cases L
    simp only at hbc
    subst hbc
    rfl
  rw [e, Nat.zero_add] at h
  exact h

/-- Without U+FE0E a cluster does not become narrower. -/
theorem accWidth_mono {U : Table} (W : WidthOk U) (l cl : List Nat) (h : 0xFE0E ∉ l) : accWidth U cl ≤ accWidth U (cl ++ l) := by
  induction l generalizing cl with
  | nil => rw [List.append_nil]; exact Nat.le_refl _
  | cons c l ih =>
    have h1 : c ≠ 0xFE0E := fun e => h (by simp [e])
    have h2 : 0xFE0E ∉ l := fun e => h (by simp [e])
    have hcur := (foldl_bound W.le_two cl {} 0 (init_bound U)).cur
    have hm := (push_width_mono W.le_two (cl.foldl (push U) {}) c h1 hcur).1
    have h3 : accWidth U cl ≤ accWidth U (cl ++ [c]) := by
      unfold accWidth
      rw [List.foldl_append]
      exact hm
    have h4 := ih (cl ++ [c]) h2
    rw [List.append_assoc] at h4
    exact Nat.le_trans h3 h4

/-- The clusters that could not be placed, and why. -/
def Why (U : Table) (max count : Nat) (back : List (List Nat)) : Prop :=
  back = [] ∨
  (∃ a cl bs, back = (a :: cl) :: bs ∧ 0x80 ≤ a ∧ max < count + clusterWidth U (a :: cl)) ∨
  (∃ a cl bs, back = (a :: cl) :: bs ∧ a < 0x80)

/-- What a pass over non-ASCII text has done: `done` before, then some of the clusters `X` that follow. -/
structure Filled (U : Table) (T : List Nat) (max : Nat) (done X : List (List Nat)) (M : Loop) (front back : List (List Nat)) : Prop where
  split : X = front ++ back
  count : M.count = widths U (done ++ front)
  fits : M.count ≤ max
  input : M.input = (toUtf8Str (done ++ front).flatten).length
  resultEnd : M.resultEnd = M.input
  events : (flush T M.input M).events.flatMap told = units U (done ++ front)
  idle : M.st.utf8.expectedLength = 0
  why : Why U max M.count back

theorem str_append (a b : List Nat) : toUtf8Str (a ++ b) = toUtf8Str a ++ toUtf8Str b := by
  simp only [toUtf8Str_eq, List.flatMap_append]

theorem str_cons (a : Nat) (b : List Nat) : toUtf8Str (a :: b) = toUtf8 a ++ toUtf8Str b := by
  simp only [toUtf8Str_eq, List.flatMap_cons]

theorem str_nil : toUtf8Str [] = [] := by simp only [toUtf8Str_eq, List.flatMap_nil]

theorem str_pos (l : List Nat) (h : l ≠ []) : 0 < (toUtf8Str l).length := by
  cases l with
  | nil => exact absurd rfl h
  | cons a l =>
    rw [str_cons, List.length_append]
    have := List.length_pos_iff.2 (toUtf8_ne_nil a)
    omega

theorem flatten_snoc {α} (a : List (List α)) (b : List α) : (a ++ [b]).flatten = a.flatten ++ b := by simp

/-- Handing over the open cluster. -/
theorem flush_told (U : Table) (W : WidthOk U) (T : List Nat) (done : List (List Nat)) (cl : List Nat) (hcl : cl ≠ []) (rest : List Nat)
    (hT : T = toUtf8Str done.flatten ++ (toUtf8Str cl ++ rest)) (L : Loop) (e : Nat)
    (hs : L.clusterStart = (toUtf8Str done.flatten).length) (he : e = L.clusterStart + (toUtf8Str cl).length)
    (hr : L.st.reported = accWidth U cl) (hev : L.events.flatMap told = units U done) :
    (flush T e L).events.flatMap told = units U (done ++ [cl]) := by
  have hp := str_pos cl hcl
  unfold flush
  simp only
  rw [if_pos (by omega), List.flatMap_append, hev, units_append]
  congr 1
  have hsl : (T.drop L.clusterStart).take (e - L.clusterStart) = toUtf8Str cl := by
    rw [hT, hs, List.drop_left, he, hs, Nat.add_sub_cancel_left, List.take_left]
  simp only [hsl, hr, units, List.map_cons, List.map_nil, told, List.flatMap_cons, List.flatMap_nil, List.append_nil,
    clusterWidth_eq_acc W]

theorem fill_loop {U : Table} (D : DataOk U) (W : WidthOk U) (A : AsciiOk U) (T : List Nat) (max : Nat) (cs : List Nat) :
    ∀ (L : Loop) (done : List (List Nat)) (a0 : Nat) (ct pre : List Nat) (a : Nat) (g : GState),
      T = toUtf8Str done.flatten ++ (toUtf8Str (a0 :: ct) ++ toUtf8Str cs) → 0x80 ≤ a0 →
      L.st.utf8.expectedLength = 0 → L.st.hint ≠ 0 → InvC U L.st.g pre a → InvC U g pre a → InvR U g pre a →
      L.st.acc = (a0 :: ct).foldl (push U) {} → L.st.reported = L.st.acc.width →
      L.count = widths U done + L.st.reported → L.count ≤ max →
      L.clusterStart = (toUtf8Str done.flatten).length → L.input = L.clusterStart + (toUtf8Str (a0 :: ct)).length →
      L.byteCount = 0 → L.countedHere = L.st.reported → L.resultEnd = L.input → L.events.flatMap told = units U done →
      Scannable cs → 0xFE0E ∉ cs → NoFlags U (a :: cs) → NoPrependAscii U (a :: cs) →
      ∃ front back, Filled U T max done ((a0 :: ct ++ (extendCluster U g cs).1) :: clusters U (extendCluster U g cs).2)
        (loop U T max (toUtf8Str cs) L) front back := by
  induction cs with
  | nil =>
    intro L done a0 ct pre a g hT h80 hid hh hc1 hc2 hr2 hacc hrep hcnt hmax hst hin hbc hch hre hev _ _ _ _
    have hw : L.st.reported = accWidth U (a0 :: ct) := by rw [hrep, hacc]; rfl
    refine ⟨[a0 :: ct], [], ?_⟩
    rw [str_nil]
    have hlp : loop U T max [] L = L := rfl
    rw [hlp]
    refine ⟨by simp [extendCluster, clusters, clustersLoop], ?_, hmax, ?_, hre, ?_, hid, .inl rfl⟩
    · rw [widths_append, widths_one, clusterWidth_eq_acc W, ← hw]; exact hcnt
    · rw [flatten_snoc, str_append, List.length_append, ← hst]; exact hin
    · exact flush_told U W T done (a0 :: ct) (by simp) _ hT L _ hst hin hw hev
  | cons c cs ih =>
    intro L done a0 ct pre a g hT h80 hid hh hc1 hc2 hr2 hacc hrep hcnt hmax hst hin hbc hch hre hev hsc hvs hnf hnp
    have hw : L.st.reported = accWidth U (a0 :: ct) := by rw [hrep, hacc]; rfl
    obtain ⟨hlo, hdel, hhi⟩ := hsc c (by simp)
    have hsc' : Scannable cs := fun x hx => hsc x (by simp [hx])
    have hvs' : 0xFE0E ∉ cs := fun h => hvs (by simp [h])
    have hcv : c ≠ 0xFE0E := fun h => hvs (by simp [h])
    have hver2 := verdict D g pre a c hc2 _ (e12_of_invR g pre a c hr2)
    have hno : ¬ ((U a).gcb = .Regional_Indicator ∧ (U a).gcb = (U c).gcb) := by
      rintro ⟨h1, h2⟩
      exact hnf [] a c cs rfl h1 (h2 ▸ h1)
    have hver1 := verdict D L.st.g pre a c hc1 (gb12x U) (by
      constructor
      · rintro ⟨h1, h2, _⟩; exact absurd ⟨h1, h2⟩ hno
      · intro h
        obtain ⟨h1, h2, _⟩ := (e12_of_invR g pre a c hr2).2 h
        exact absurd ⟨h1, h2⟩ hno)
    have hsame : (processBreakable U c L.st.g).2 = (processBreakable U c g).2 := by
      rw [Bool.eq_iff_iff, hver1, hver2]
    have hbrkExt : (processBreakable U c g).2 = true → extendCluster U g (c :: cs) = ([], c :: cs) := by
      intro hv
      unfold extendCluster
      rcases hp : processBreakable U c g with ⟨s', v⟩
      rw [hp] at hv; simp only at hv; subst hv; rfl
    by_cases hlt : c < 0x80
    · have hlt' : c < 0x7F := by omega
      have hA := A c hlo hlt'
      have hbrk : (processBreakable U c g).2 = true := by
        rw [hver2]
        refine ⟨?_, .inr (.inr ?_)⟩
        · rintro ⟨_, h⟩; rw [hA.1] at h; exact absurd h (by decide)
        · have hinc := D.ascii_incb c hlt
          have hep := D.ascii_extpict c hlt
          have hpp : (U a).gcb ≠ .Prepend := fun h => by have := hnp [] a c cs rfl h; omega
          unfold gb6 gb7 gb8 gb9 gb9a gb9b
            gb9c gb11x gb12x
          simp [hA.1, hinc, hep, hpp]
      have hcx : isComplex c = false := by
        cases h : isComplex c with
        | false => rfl
        | true => have := (isComplex_iff c (by omega)).1 h; omega
      have hlp : loop U T max (toUtf8Str (c :: cs)) L = atControl U T L := by
        rw [str_cons, toUtf8_low c hlt]
        show (match step U T max c L with | .stop L' => L' | .go L' => loop U T max _ L') = _
        have : step U T max c L = .stop (atControl U T L) := by
          unfold step
          rw [if_neg (by omega), if_pos (by rw [hcx]; simp)]
        rw [this]
      rw [hlp, hbrkExt hbrk, List.append_nil]
      have hfl : (flush T L.input L).events.flatMap told = units U (done ++ [a0 :: ct]) :=
        flush_told U W T done (a0 :: ct) (by simp) _ hT L _ hst hin hw hev
      have hat : (atControl U T L).events = (flush T L.input L).events ∧ (atControl U T L).count = L.count ∧
          (atControl U T L).input = L.input ∧ (atControl U T L).clusterStart = L.input ∧ (atControl U T L).resultEnd = L.input ∧
          (atControl U T L).st.utf8.expectedLength = 0 := by
        unfold atControl
        simp only [hid, ne_eq, not_true_eq_false, if_false]
        exact ⟨trivial, trivial, rfl, rfl, trivial, trivial⟩
      obtain ⟨e1, e2, e3, e4, e5, e6⟩ := hat
      refine ⟨[a0 :: ct], clusters U (c :: cs), rfl, ?_, by rw [e2]; exact hmax, ?_, by rw [e5, e3], ?_, e6, .inr (.inr ?_)⟩
      · rw [e2, widths_append, widths_one, clusterWidth_eq_acc W, ← hw]; exact hcnt
      · rw [e3, flatten_snoc, str_append, List.length_append, ← hst]; exact hin
      · have : (flush T (atControl U T L).input (atControl U T L)).events = (atControl U T L).events := by
          unfold flush
          simp only [e3, e4, gt_iff_lt, Nat.lt_irrefl, if_false]
        rw [this, e1]; exact hfl
      · rw [clusters_cons]; exact ⟨_, _, _, rfl, hlt⟩
    · obtain ⟨u, hu, hlp⟩ := loop_char U T max c (by omega) hhi (toUtf8Str cs) L hmax hid hbc
      rw [str_cons, hlp]
      have hbk : isBreakable U (within L u (toUtf8 c).length).st c = processBreakable U c L.st.g := by
        show (if L.st.hint = 0 then (processInit U c, true) else processBreakable U c L.st.g) = _
        rw [if_neg hh]
      have hsub : (within L u (toUtf8 c).length).input - (within L u (toUtf8 c).length).byteCount = L.input := Nat.add_sub_cancel ..
      have hon : onSuccess U T max c (within L u (toUtf8 c).length) =
          if (processBreakable U c L.st.g).2 then
            openCluster U T max L.input c
              { L with st := { L.st with utf8 := u, hint := c, g := (processBreakable U c L.st.g).1 }, input := L.input + (toUtf8 c).length, byteCount := 0 }
          else joinCluster U max c
              { L with st := { L.st with utf8 := u, hint := c, g := (processBreakable U c L.st.g).1 }, input := L.input + (toUtf8 c).length, byteCount := 0 } := by
        unfold onSuccess
        simp only [hbk, hsub]
        rfl
      rw [hon]
      cases hv : (processBreakable U c g).2 with
      | true =>
        rw [hsame, hv, if_pos rfl, hbrkExt hv, List.append_nil]
        have hB : BX U pre a c := hver2.1 hv
        have hre2 := reinit D g pre a c hc2 hr2 hB
        have hstep := step_core D L.st.g pre a c hc1
        by_cases hfit : L.count + (push U {} c).width > max
        · have hopen : openCluster U T max L.input c
              { L with st := { L.st with utf8 := u, hint := c, g := (processBreakable U c L.st.g).1 }, input := L.input + (toUtf8 c).length, byteCount := 0 } =
              .stop { L with st := { L.st with utf8 := u, hint := c, g := (processBreakable U c L.st.g).1 }, byteCount := 0 } := by
            unfold openCluster
            simp only
            rw [if_pos hfit]
          rw [hopen]
          simp only
          refine ⟨[a0 :: ct], clusters U (c :: cs), rfl, ?_, hmax, ?_, hre, ?_, hu, .inr (.inl ?_)⟩
          · rw [widths_append, widths_one, clusterWidth_eq_acc W, ← hw]; exact hcnt
          · rw [flatten_snoc, str_append, List.length_append, ← hst]; exact hin
          · exact flush_told U W T done (a0 :: ct) (by simp) _ hT { L with st := { L.st with utf8 := u, hint := c, g := (processBreakable U c L.st.g).1 }, byteCount := 0 }
              _ hst hin hw hev
          · rw [clusters_cons]
            refine ⟨c, _, _, rfl, by omega, ?_⟩
            have hsub : 0xFE0E ∉ (extendCluster U (processInit U c) cs).1 := by
              intro hm
              refine hvs' ?_
              rw [← extendCluster_append U (processInit U c) cs]
              exact List.mem_append_left _ hm
            have := accWidth_mono W _ [c] hsub
            rw [clusterWidth_eq_acc W]
            have e : accWidth U [c] = (push U {} c).width := rfl
            show max < L.count + accWidth U (c :: (extendCluster U (processInit U c) cs).1)
            rw [List.singleton_append] at this
            omega
        · have hopen : openCluster U T max L.input c
              { L with st := { L.st with utf8 := u, hint := c, g := (processBreakable U c L.st.g).1 }, input := L.input + (toUtf8 c).length, byteCount := 0 } =
              .go { st := ⟨u, c, (processBreakable U c L.st.g).1, push U {} c, (push U {} c).width⟩
                    count := L.count + (push U {} c).width, input := L.input + (toUtf8 c).length, clusterStart := L.input, byteCount := 0
                    countedHere := (push U {} c).width, resultEnd := ((L.input + (toUtf8 c).length : Nat) : Int)
                    events := (flush T L.input L).events } := by
            unfold openCluster
            simp only
            rw [if_neg hfit]
            rfl
          rw [hopen]
          simp only
          have key := ih { st := ⟨u, c, (processBreakable U c L.st.g).1, push U {} c, (push U {} c).width⟩
                           count := L.count + (push U {} c).width, input := L.input + (toUtf8 c).length, clusterStart := L.input, byteCount := 0
                           countedHere := (push U {} c).width, resultEnd := ((L.input + (toUtf8 c).length : Nat) : Int)
                           events := (flush T L.input L).events }
            (done ++ [a0 :: ct]) c [] (pre ++ [a]) c (processInit U c) ?_ (by omega) hu (show c ≠ 0 by omega) hstep hre2.1 hre2.2 rfl rfl ?_ (by simp only; omega)
            ?_ ?_ rfl rfl rfl ?_ hsc' hvs' (noFlags_tail hnf) hnp.tail
          · obtain ⟨front, back, hF⟩ := key
            refine ⟨(a0 :: ct) :: front, back, ?_, ?_, hF.fits, ?_, hF.resultEnd, ?_, hF.idle, hF.why⟩
            · rw [clusters_cons, List.cons_append]
              congr 1
              have := hF.split
              simpa using this
            · rw [hF.count, List.append_assoc]; rfl
            · rw [hF.input, List.append_assoc]; rfl
            · rw [hF.events, List.append_assoc]; rfl
          · rw [flatten_snoc, hT, str_append, str_cons c cs, str_cons c [], str_nil, List.append_nil, List.append_assoc]
          · show L.count + _ = widths U (done ++ [a0 :: ct]) + _
            rw [widths_append, widths_one, clusterWidth_eq_acc W, ← hw, ← hcnt]
          · rw [flatten_snoc, str_append, List.length_append, ← hst]; exact hin
          · rw [str_cons, str_nil, List.append_nil]
          · exact flush_told U W T done (a0 :: ct) (by simp) _ hT L _ hst hin hw hev
      | false =>
        rw [hsame, hv, if_neg (by simp)]
        have hsi := Verif.Grapheme.step_inv D g pre a c hc2 hr2 hv
        have hstep := step_core D L.st.g pre a c hc1
        have hcur := (foldl_bound W.le_two (a0 :: ct) {} 0 (init_bound U)).cur
        rw [← hacc] at hcur
        have hmono := (push_width_mono W.le_two L.st.acc c hcv hcur).1
        have hext : extendCluster U g (c :: cs) = (c :: (extendCluster U (processBreakable U c g).1 cs).1,
            (extendCluster U (processBreakable U c g).1 cs).2) := by
          rw [extendCluster]
          rcases hp : processBreakable U c g with ⟨s', v⟩
          rw [hp] at hv; simp only at hv; subst hv; rfl
        rw [hext]
        have hge : (push U L.st.acc c).width ≥ L.st.reported := by rw [hrep]; exact hmono
        by_cases hfit : (push U L.st.acc c).width - L.st.reported ≠ 0 ∧ L.count + ((push U L.st.acc c).width - L.st.reported) > max
        · have hj : joinCluster U max c
              { L with st := { L.st with utf8 := u, hint := c, g := (processBreakable U c L.st.g).1 }, input := L.input + (toUtf8 c).length, byteCount := 0 } =
              .stop { L with st := { L.st with utf8 := u, hint := c, g := (processBreakable U c L.st.g).1, acc := {}, reported := 0 }
                             count := L.count - L.countedHere, input := L.clusterStart, resultEnd := L.clusterStart, byteCount := 0 } := by
            unfold joinCluster
            simp only
            rw [if_pos hge, if_pos hfit]
          rw [hj]
          simp only
          have hc0 : L.count - L.countedHere = widths U done := by rw [hcnt, hch]; omega
          refine ⟨[], _, rfl, ?_, by simp only; omega, ?_, rfl, ?_, hu, .inr (.inl ?_)⟩
          · simp only [List.append_nil]; exact hc0
          · simp only [List.append_nil]; exact hst
          · simp only [List.append_nil]
            rw [← hev]
            unfold flush
            simp only [gt_iff_lt, Nat.lt_irrefl, if_false]
          · refine ⟨a0, ct ++ (c :: (extendCluster U (processBreakable U c g).1 cs).1), _, rfl, h80, ?_⟩
            show max < (L.count - L.countedHere) + _
            rw [clusterWidth_eq_acc W, hc0]
            have hsub : 0xFE0E ∉ (extendCluster U (processBreakable U c g).1 cs).1 := by
              intro hm
              refine hvs' ?_
              rw [← extendCluster_append U (processBreakable U c g).1 cs]
              exact List.mem_append_left _ hm
            have hm := accWidth_mono W _ (a0 :: ct ++ [c]) hsub
            have e : accWidth U (a0 :: ct ++ [c]) = (push U L.st.acc c).width := by
              unfold accWidth
              rw [List.foldl_append, ← hacc]; rfl
            rw [e] at hm
            have e2 : a0 :: ct ++ [c] ++ (extendCluster U (processBreakable U c g).1 cs).1 =
              a0 :: (ct ++ (c :: (extendCluster U (processBreakable U c g).1 cs).1)) := by simp
            rw [e2] at hm
            omega
        · have hj : joinCluster U max c
              { L with st := { L.st with utf8 := u, hint := c, g := (processBreakable U c L.st.g).1 }, input := L.input + (toUtf8 c).length, byteCount := 0 } =
              .go { st := ⟨u, c, (processBreakable U c L.st.g).1, push U L.st.acc c, (push U L.st.acc c).width⟩
                    count := L.count + ((push U L.st.acc c).width - L.st.reported), input := L.input + (toUtf8 c).length
                    clusterStart := L.clusterStart, byteCount := 0
                    countedHere := L.countedHere + ((push U L.st.acc c).width - L.st.reported)
                    resultEnd := ((L.input + (toUtf8 c).length : Nat) : Int), events := L.events } := by
            unfold joinCluster
            simp only
            rw [if_pos hge, if_neg hfit]
          rw [hj]
          simp only
          have key := ih { st := ⟨u, c, (processBreakable U c L.st.g).1, push U L.st.acc c, (push U L.st.acc c).width⟩
                           count := L.count + ((push U L.st.acc c).width - L.st.reported), input := L.input + (toUtf8 c).length
                           clusterStart := L.clusterStart, byteCount := 0
                           countedHere := L.countedHere + ((push U L.st.acc c).width - L.st.reported)
                           resultEnd := ((L.input + (toUtf8 c).length : Nat) : Int), events := L.events }
            done a0 (ct ++ [c]) (pre ++ [a]) c (processBreakable U c g).1 ?_ h80 hu (show c ≠ 0 by omega) hstep hsi.1 hsi.2 ?_ rfl ?_ ?_
            hst ?_ rfl ?_ rfl hev hsc' hvs' (noFlags_tail hnf) hnp.tail
          · obtain ⟨front, back, hF⟩ := key
            refine ⟨front, back, ?_, hF.count, hF.fits, hF.input, hF.resultEnd, hF.events, hF.idle, hF.why⟩
            rw [← hF.split]
            simp
          · rw [hT, show (a0 :: (ct ++ [c])) = (a0 :: ct) ++ [c] from rfl, str_append (a0 :: ct) [c], str_cons c cs, str_cons c [], str_nil,
              List.append_nil, List.append_assoc]
          · show push U L.st.acc c = _
            rw [hacc, show (a0 :: (ct ++ [c])) = (a0 :: ct) ++ [c] from rfl, List.foldl_append]; rfl
          · show L.count + _ = widths U done + _
            simp only; omega
          · simp only; omega
          · show L.input + _ = L.clusterStart + _
            rw [show (a0 :: (ct ++ [c])) = (a0 :: ct) ++ [c] from rfl, str_append, List.length_append, str_cons c [], str_nil, List.append_nil, hin]
            omega
          · show L.countedHere + _ = _
            simp only; omega

/-! ## The whole scan -/

/-- What `scan_text` has done when it returns. -/
structure Lined (U : Table) (cs : List Nat) (max : Nat) (R : Out) (front back : List (List Nat)) : Prop where
  split : clusters U cs = front ++ back
  told : R.events.flatMap told = units U front
  count : R.count = widths U front
  fits : R.count ≤ max
  start : R.start = 0
  next : R.next = (toUtf8Str front.flatten).length
  fin : R.fin = R.next
  why : back = [] ∨ R.count = max ∨ ∃ cl bs, back = cl :: bs ∧ max < R.count + clusterWidth U cl

/-- Between two rounds: the clusters `front` are placed, the text `rem` is to come. -/
structure Placed (U : Table) (cs : List Nat) (max : Nat) (front : List (List Nat)) (rem : List Nat) (R : Out) : Prop where
  text : cs = front.flatten ++ rem
  split : clusters U cs = front ++ clusters U rem
  told : R.events.flatMap told = units U front
  count : R.count = widths U front
  fits : R.count ≤ max
  start : R.start = 0
  next : R.next = (toUtf8Str front.flatten).length
  fin : R.fin = R.next
  idle : R.st.utf8.expectedLength = 0

theorem Placed.lined {U : Table} {cs : List Nat} {max : Nat} {front : List (List Nat)} {rem : List Nat} {R : Out}
    (h : Placed U cs max front rem R)
    (hw : rem = [] ∨ R.count = max ∨ ∃ cl bs, clusters U rem = cl :: bs ∧ max < R.count + clusterWidth U cl) :
    ∃ front back, Lined U cs max R front back := by
  refine ⟨front, clusters U rem, h.split, h.told, h.count, h.fits, h.start, h.next, h.fin, ?_⟩
  rcases hw with rfl | hw
  · exact .inl rfl
  · exact .inr hw

/-- The ASCII characters at the beginning of a text, at most `m`. -/
theorem ascii_prefix (rem : List Nat) : ∀ m : Nat, ∃ xs ys, rem = xs ++ ys ∧ xs.length ≤ m ∧ (∀ x ∈ xs, x < 0x80) ∧
    (xs.length = m ∨ ys = [] ∨ ∃ y q, ys = y :: q ∧ 0x80 ≤ y) := by
  induction rem with
  | nil => intro m; exact ⟨[], [], rfl, by simp, by simp, .inr (.inl rfl)⟩
  | cons c rem ih =>
    intro m
    by_cases hc : 0x80 ≤ c
    · exact ⟨[], c :: rem, rfl, by simp, by simp, .inr (.inr ⟨c, rem, rfl, hc⟩)⟩
    cases m with
    | zero => exact ⟨[], c :: rem, rfl, by simp, by simp, .inl rfl⟩
    | succ m =>
      obtain ⟨xs, ys, h1, h2, h3, h4⟩ := ih m
      refine ⟨c :: xs, ys, by rw [h1]; rfl, by simp; omega, ?_, ?_⟩
      · intro x hx
        rcases List.mem_cons.1 hx with rfl | hx
        · omega
        · exact h3 x hx
      · rcases h4 with h4 | h4
        · exact .inl (by simp; omega)
        · exact .inr h4

theorem str_ascii (xs : List Nat) (h : ∀ x ∈ xs, x < 0x80) : toUtf8Str xs = xs := by
  induction xs with
  | nil => exact str_nil
  | cons x xs ih =>
    rw [str_cons, toUtf8_low x (h x (by simp)), ih (fun y hy => h y (by simp [hy]))]
    rfl

theorem scanAscii_text (v : Variant) (w m : Nat) (xs ys : List Nat) (hsc : Scannable (xs ++ ys)) (hx : ∀ x ∈ xs, x < 0x80)
    (hm : xs.length ≤ m) (hs : xs.length = m ∨ ys = [] ∨ ∃ y q, ys = y :: q ∧ 0x80 ≤ y) :
    scanAscii v w (toUtf8Str (xs ++ ys)) m = xs.length := by
  have hc : ∀ c ∈ xs ++ ys, c ≤ 0x1FFFFF := fun c h => (hsc c h).2.2
  refine longest_unique _ m _ _ (C11_longest_prefix v w _ (toUtf8Str_lt _ hc) m) ?_
  rw [str_append, str_ascii xs hx]
  refine ⟨hm, by simp, ?_, ?_⟩
  · intro b hb
    rw [List.take_left] at hb
    have h1 := hsc b (by simp [hb])
    have h2 := hx b hb
    exact ⟨h1.1, by omega⟩
  · rcases hs with h | rfl | ⟨y, q, rfl, hy⟩
    · exact .inl h
    · right; left; rw [str_nil]; simp
    · right; right
      have hy' := hc y (by simp)
      rw [str_cons]
      have hh := (toUtf8_high y hy hy').1
      cases ht : toUtf8 y with
      | nil => exact absurd ht (toUtf8_ne_nil y)
      | cons b bs =>
        refine ⟨b, by simp, ?_⟩
        have := hh b (by rw [ht]; simp)
        rintro ⟨_, h⟩
        omega

/-- Nothing but a mark joins a printable ASCII character. -/
theorem ascii_breaks {U : Table} (D : DataOk U) (A : AsciiOk U) (a x : Nat) (h1 : 0x20 ≤ a) (h2 : a < 0x7F)
    (hx : (U x).gcb ≠ .Extend ∧ (U x).gcb ≠ .ZWJ ∧ (U x).gcb ≠ .SpacingMark) :
    (processBreakable U x (processInit U a)).2 = true := by
  obtain ⟨g1, g2, g3⟩ := hx
  have ga : (U a).gcb = .Other := (A a h1 h2).1
  have gi := D.ascii_incb a (by omega)
  have ge := D.ascii_extpict a (by omega)
  unfold processBreakable processInit
  simp only [ga, gi, ge, reduceCtorEq, false_and, if_false, Bool.false_eq_true]
  split
  · rfl
  have hcas : ∀ ri, cascade .Other (U x) 0 0 ri = .brk := by
    intro ri
    unfold cascade isCtl
    have h02 : ¬ (0 = 2) := by decide
    simp [g1, g2, g3]
  rw [hcas]

/-- Printable ASCII characters that are not followed by marks are clusters of their own. -/
theorem clusters_ascii {U : Table} (D : DataOk U) (A : AsciiOk U) (xs ys : List Nat) (hx : ∀ x ∈ xs, 0x20 ≤ x ∧ x < 0x7F)
    (hm : NoMarkAfterAscii U (xs ++ ys)) : clusters U (xs ++ ys) = xs.map (fun x => [x]) ++ clusters U ys := by
  induction xs with
  | nil => rfl
  | cons x xs ih =>
    have h0 := hx x (by simp)
    rw [List.cons_append, clusters_cons]
    have hext : extendCluster U (processInit U x) (xs ++ ys) = ([], xs ++ ys) := by
      cases hr : xs ++ ys with
      | nil => rfl
      | cons y r =>
        have hb := ascii_breaks D A x y h0.1 h0.2 (hm [] x y r (by rw [List.cons_append, hr]; rfl) (by omega))
        unfold extendCluster
        rcases hp : processBreakable U y (processInit U x) with ⟨s', v⟩
        rw [hp] at hb; simp only at hb; subst hb; rfl
    rw [hext]
    simp only [List.map_cons, List.cons_append]
    rw [ih (fun z hz => hx z (by simp [hz])) (fun p a z q e => hm (x :: p) a z q (by rw [List.cons_append, e]; rfl))]

/-- In which situations a round begins. -/
def Ready (U : Table) (max : Nat) (complex : Bool) (front : List (List Nat)) (rem : List Nat) (R : Out) : Prop :=
  match complex with
  | false => rem = [] ∨ (∃ y q, rem = y :: q ∧ y < 0x80) ∨
      (∃ y q, rem = y :: q ∧ 0x80 ≤ y ∧ ∃ cl bs, clusters U rem = cl :: bs ∧ max < R.count + clusterWidth U cl)
  | true => R.count = max ∨ rem = [] ∨ (∃ y q, rem = y :: q ∧ 0x80 ≤ y ∧ (R.st.hint = 0 ∨
      ∃ b x, front.flatten = b ++ [x] ∧ 0x20 ≤ x ∧ x < 0x7F ∧ R.st.hint = x ∧ R.st.g = processInit U x))

/-- The hypotheses on the text. -/
structure Plain (U : Table) (cs : List Nat) : Prop where
  scannable : Scannable cs
  noVs15 : 0xFE0E ∉ cs
  noFlags : NoFlags U cs
  noPrepend : NoPrependAscii U cs
  noMark : NoMarkAfterAscii U cs

theorem Plain.suffix {U : Table} {p cs : List Nat} (h : Plain U (p ++ cs)) : Plain U cs where
  scannable := fun c hc => h.scannable c (List.mem_append_right _ hc)
  noVs15 := fun hc => h.noVs15 (List.mem_append_right _ hc)
  noFlags := fun q x y r e => h.noFlags (p ++ q) x y r (by rw [e, List.append_assoc])
  noPrepend := fun q x y r e => h.noPrepend (p ++ q) x y r (by rw [e, List.append_assoc])
  noMark := fun q x y r e => h.noMark (p ++ q) x y r (by rw [e, List.append_assoc])

/-- A pass over a text that begins with a character that is not ASCII and opens a cluster. -/
theorem fill_pass {U : Table} (D : DataOk U) (W : WidthOk U) (A : AsciiOk U) (c : Nat) (cs : List Nat) (hc : 0x80 ≤ c)
    (P : Plain U (c :: cs)) (st : State) (hid : st.utf8.expectedLength = 0)
    (hst : st.hint = 0 ∨ ∃ x, 0x20 ≤ x ∧ x < 0x7F ∧ st.hint = x ∧ st.g = processInit U x ∧
      (U c).gcb ≠ .Extend ∧ (U c).gcb ≠ .ZWJ ∧ (U c).gcb ≠ .SpacingMark) (max : Nat) :
    ∃ M front back, scanNonAscii U st (toUtf8Str (c :: cs)) max = flush (toUtf8Str (c :: cs)) M.input M ∧
      Filled U (toUtf8Str (c :: cs)) max [] (clusters U (c :: cs)) M front back := by
  have hhi := (P.scannable c (by simp)).2.2
  have hr : resultStart st = 0 := by unfold resultStart; rw [if_neg (by simpa using hid)]
  refine ⟨loop U (toUtf8Str (c :: cs)) max (toUtf8Str (c :: cs)) { st := st, resultEnd := 0 }, ?_⟩
  have hsn : scanNonAscii U st (toUtf8Str (c :: cs)) max =
      flush (toUtf8Str (c :: cs)) (loop U (toUtf8Str (c :: cs)) max (toUtf8Str (c :: cs)) { st := st, resultEnd := 0 }).input
        (loop U (toUtf8Str (c :: cs)) max (toUtf8Str (c :: cs)) { st := st, resultEnd := 0 }) := by
    unfold scanNonAscii
    rw [hr]
  rw [hsn]
  suffices h : ∃ front back, Filled U (toUtf8Str (c :: cs)) max [] (clusters U (c :: cs))
      (loop U (toUtf8Str (c :: cs)) max (toUtf8Str (c :: cs)) { st := st, resultEnd := 0 }) front back by
    obtain ⟨front, back, h⟩ := h
    exact ⟨front, back, rfl, h⟩
  -- what the segmenter knows after the first character
  have hg : (isBreakable U st c).2 = true ∧ ∃ pre, InvC U (isBreakable U st c).1 pre c ∧ InvC U (processInit U c) pre c ∧
      InvR U (processInit U c) pre c := by
    rcases hst with h0 | ⟨x, h1, h2, h3, h4, h5⟩
    · unfold isBreakable
      rw [if_pos h0]
      exact ⟨rfl, [], (init_first c).1, (init_first c).1, (init_first c).2⟩
    · unfold isBreakable
      rw [if_neg (by omega), h4]
      have hb := ascii_breaks D A x c h1 h2 h5
      have hi := init_first (U := U) x
      have hB : BX U [] x c := (verdict D (processInit U x) [] x c hi.1 _ (e12_of_invR (processInit U x) [] x c hi.2)).1 hb
      have hre := reinit D (processInit U x) [] x c hi.1 hi.2 hB
      exact ⟨hb, [] ++ [x], step_core D (processInit U x) [] x c hi.1, hre.1, hre.2⟩
  obtain ⟨hbr, pre, hc1, hc2, hr2⟩ := hg
  obtain ⟨u, hu, hlp⟩ := loop_char U (toUtf8Str (c :: cs)) max c hc hhi (toUtf8Str cs) { st := st, resultEnd := 0 } (Nat.zero_le _) hid rfl
  have hsplit : toUtf8Str (c :: cs) = toUtf8 c ++ toUtf8Str cs := str_cons c cs
  rw [← hsplit] at hlp
  rw [hlp]
  have hop : within { st := st, resultEnd := 0 } u (toUtf8 c).length = opening st u (toUtf8 c).length 0 := by
    unfold within opening
    simp only [Nat.zero_add]
  rw [hop, onSuccess_opening U _ max c st u _ hbr]
  by_cases hw : (push U {} c).width > max
  · rw [if_pos hw]
    simp only
    refine ⟨[], clusters U (c :: cs), rfl, rfl, Nat.zero_le _, ?_, rfl, rfl, hu, .inr (.inl ?_)⟩
    · show 0 = (toUtf8Str []).length
      rw [str_nil]; rfl
    · rw [clusters_cons]
      refine ⟨c, _, _, rfl, hc, ?_⟩
      have hsub : 0xFE0E ∉ (extendCluster U (processInit U c) cs).1 := by
        intro hm
        refine P.noVs15 (List.mem_cons_of_mem _ ?_)
        rw [← extendCluster_append U (processInit U c) cs]
        exact List.mem_append_left _ hm
      have := accWidth_mono W _ [c] hsub
      have e : accWidth U [c] = (push U {} c).width := rfl
      rw [clusterWidth_eq_acc W]
      rw [List.singleton_append] at this
      show max < 0 + _
      omega
  · rw [if_neg hw]
    simp only
    have hTail : Plain U cs := Plain.suffix (p := [c]) P
    have key := fill_loop D W A (toUtf8Str (c :: cs)) max cs
      { st := ⟨u, c, (isBreakable U st c).1, push U {} c, (push U {} c).width⟩, count := (push U {} c).width, input := (toUtf8 c).length,
        countedHere := (push U {} c).width, resultEnd := (toUtf8 c).length } [] c [] pre c (processInit U c)
      (by rw [List.flatten_nil, str_nil, List.nil_append, str_cons c [], str_nil, List.append_nil]; exact hsplit) hc hu (show c ≠ 0 by omega)
      hc1 hc2 hr2 rfl rfl (by show _ = 0 + _; rw [Nat.zero_add]) (by simp only; omega) (by rw [List.flatten_nil, str_nil]; rfl)
      (by show _ = 0 + _; rw [str_cons, str_nil, List.append_nil, Nat.zero_add]) rfl rfl rfl rfl hTail.scannable hTail.noVs15 P.noFlags P.noPrepend
    obtain ⟨front, back, hF⟩ := key
    refine ⟨front, back, ?_, hF.count, hF.fits, hF.input, hF.resultEnd, hF.events, hF.idle, hF.why⟩
    rw [← hF.split, clusters_cons]
    rfl

theorem clusters_flatten' (U : Table) (n : Nat) : ∀ cs : List Nat, cs.length ≤ n → (clusters U cs).flatten = cs := by
  induction n with
  | zero =>
    intro cs h
    have : cs = [] := List.eq_nil_of_length_eq_zero (by omega)
    subst this
    rfl
  | succ n ih =>
    intro cs h
    cases cs with
    | nil => rfl
    | cons c cs =>
      have ha := extendCluster_append U (processInit U c) cs
      have hl := congrArg List.length ha
      rw [List.length_append] at hl
      simp only [List.length_cons] at h
      rw [clusters_cons, List.flatten_cons, ih _ (by omega), List.cons_append, ha]

theorem clusters_rest (U : Table) (f : List (List Nat)) : ∀ (cs : List Nat) (b : List (List Nat)), clusters U cs = f ++ b →
    clusters U b.flatten = b := by
  induction f with
  | nil =>
    intro cs b h
    rw [List.nil_append] at h
    rw [← h, clusters_flatten' U _ cs (Nat.le_refl _)]
  | cons x f ih =>
    intro cs b h
    cases cs with
    | nil => exact absurd h (by simp [clusters, clustersLoop])
    | cons c cs =>
      rw [clusters_cons, List.cons_append, List.cons.injEq] at h
      exact ih _ _ h.2

theorem fill_main {U : Table} (D : DataOk U) (W : WidthOk U) (A : AsciiOk U) (v : Variant) (w max : Nat) (cs : List Nat) (P : Plain U cs)
    (fuel : Nat) : ∀ (complex : Bool) (front : List (List Nat)) (rem : List Nat) (R : Out), (toUtf8Str rem).length < fuel →
      Placed U cs max front rem R → Ready U max complex front rem R →
      ∃ front back, Lined U cs max (mainLoop U v w max (toUtf8Str cs).length fuel complex (toUtf8Str rem) R.next R) front back := by
  induction fuel with
  | zero => intro complex front rem R hf; omega
  | succ fuel ih =>
    intro complex front rem R hf hP hR
    have hPr : Plain U rem := Plain.suffix (p := front.flatten) (by rw [← hP.text]; exact P)
    have hlen : ((toUtf8Str cs).length : Int) = R.next + (toUtf8Str rem).length := by
      rw [hP.next, hP.text, str_append, List.length_append]; push_cast; rfl
    unfold mainLoop
    by_cases hgo : R.count < max ∧ R.next ≠ ((toUtf8Str cs).length : Int)
    · rw [if_pos hgo]
      have hne : rem ≠ [] := by
        intro h
        rw [h, str_nil] at hlen
        exact hgo.2 (by rw [hlen]; simp)
      cases complex with
      | true =>
        simp only [if_true]
        obtain ⟨y, q, rfl, hy, hst⟩ : ∃ y q, rem = y :: q ∧ 0x80 ≤ y ∧ (R.st.hint = 0 ∨
            ∃ b x, front.flatten = b ++ [x] ∧ 0x20 ≤ x ∧ x < 0x7F ∧ R.st.hint = x ∧ R.st.g = processInit U x) := by
          rcases hR with h | h | h
          · omega
          · exact absurd h hne
          · exact h
        have hst' : R.st.hint = 0 ∨ ∃ x, 0x20 ≤ x ∧ x < 0x7F ∧ R.st.hint = x ∧ R.st.g = processInit U x ∧
            (U y).gcb ≠ .Extend ∧ (U y).gcb ≠ .ZWJ ∧ (U y).gcb ≠ .SpacingMark := by
          rcases hst with h | ⟨b, x, h1, h2, h3, h4, h5⟩
          · exact .inl h
          · refine .inr ⟨x, h2, h3, h4, h5, P.noMark b x y q ?_ (by omega)⟩
            rw [hP.text, h1, List.append_assoc]; rfl
        obtain ⟨M, f, bk, hM, hF⟩ := fill_pass D W A y q hy hPr R.st hP.idle hst' (max - R.count)
        have hr : resultStart R.st = 0 := by unfold resultStart; rw [if_neg (by simpa using hP.idle)]
        rw [hM, hr]
        have hS : (flush (toUtf8Str (y :: q)) M.input M).count = M.count ∧ (flush (toUtf8Str (y :: q)) M.input M).resultEnd = M.resultEnd ∧
            (flush (toUtf8Str (y :: q)) M.input M).input = M.input ∧ (flush (toUtf8Str (y :: q)) M.input M).st = M.st := ⟨rfl, rfl, rfl, rfl⟩
        obtain ⟨s1, s2, s3, s4⟩ := hS
        have hev := hF.events
        generalize flush (toUtf8Str (y :: q)) M.input M = S at s1 s2 s3 s4 hev
        rw [s1, s2, s3, s4, hF.resultEnd]
        have hin := hF.input
        rw [List.nil_append] at hin hev
        have hcnt := hF.count
        rw [List.nil_append] at hcnt
        -- what is left
        have hq : y :: q = f.flatten ++ bk.flatten := by
          rw [← List.flatten_append, ← hF.split, clusters_flatten' U _ _ (Nat.le_refl _)]
        have hbk : clusters U bk.flatten = bk := clusters_rest U f _ _ hF.split
        have hP' : Placed U cs max (front ++ f) bk.flatten
            { R with count := R.count + M.count, fin := R.next + M.input, st := M.st, next := R.next + M.input, events := R.events ++ S.events } := by
          refine ⟨?_, ?_, ?_, ?_, ?_, hP.start, ?_, rfl, hF.idle⟩
          · rw [hP.text, hq, List.flatten_append, List.append_assoc]
          · rw [hP.split, hF.split, hbk, List.append_assoc]
          · show (R.events ++ S.events).flatMap told = _
            rw [List.flatMap_append, hP.told, hev, units_append]
          · show R.count + M.count = _
            rw [hP.count, hcnt, widths_append]
          · show R.count + M.count ≤ max
            have := hF.fits
            omega
          · show R.next + (M.input : Int) = _
            rw [hP.next, hin, List.flatten_append, str_append, List.length_append]; push_cast; rfl
        have hwhy := hF.why
        have hz : ((M.input : Int) - 0).toNat = M.input := by omega
        rw [hz]
        by_cases h0 : M.input = 0
        · rw [if_pos h0]
          refine hP'.lined ?_
          rcases hwhy with h | ⟨a, cl, bs, h1, h2, h3⟩ | ⟨a, cl, bs, h1, h2⟩
          · left; rw [h]; rfl
          · right; right
            rw [hbk]
            refine ⟨_, _, h1, ?_⟩
            show max < R.count + M.count + _
            omega
          · exfalso
            have hf0 : f.flatten = [] := by
              by_contra hne
              have := str_pos _ hne
              omega
            rw [hf0, h1] at hq
            simp only [List.nil_append, List.flatten_cons, List.cons_append, List.cons.injEq] at hq
            omega
        · rw [if_neg h0]
          have hdrop : (toUtf8Str (y :: q)).drop M.input = toUtf8Str bk.flatten := by
            rw [hq, str_append, hin, List.drop_left]
          rw [hdrop]
          have hlt : (toUtf8Str bk.flatten).length < fuel := by
            rw [← hdrop, List.length_drop]
            have : M.input ≤ (toUtf8Str (y :: q)).length := by
              rw [hq, str_append, hin, List.length_append]; omega
            omega
          refine ih false (front ++ f) bk.flatten _ hlt hP' ?_
          rcases hwhy with h | ⟨a, cl, bs, h1, h2, h3⟩ | ⟨a, cl, bs, h1, h2⟩
          · left; rw [h]; rfl
          · right; right
            refine ⟨a, cl ++ bs.flatten, by rw [h1]; rfl, h2, a :: cl, bs, by rw [hbk, h1], ?_⟩
            show max < R.count + M.count + _
            omega
          · right; left
            exact ⟨a, cl ++ bs.flatten, by rw [h1]; rfl, h2⟩
      | false =>
        simp only [Bool.false_eq_true, if_false]
        obtain ⟨xs, ys, h1, h2, h3, h4⟩ := ascii_prefix rem (max - R.count)
        have hscan := scanAscii_text v w (max - R.count) xs ys (by rw [← h1]; exact hPr.scannable) h3 h2 h4
        rw [← h1] at hscan
        rw [hscan]
        by_cases h0 : xs.length = 0
        · rw [if_pos h0]
          have hx0 : xs = [] := List.eq_nil_of_length_eq_zero h0
          rw [hx0, List.nil_append] at h1
          refine hP.lined ?_
          rcases hR with h | ⟨y, q, h, hy⟩ | ⟨y, q, h, hy, hn⟩
          · exact absurd h hne
          · exfalso
            rcases h4 with h4 | h4 | ⟨y', q', h4, hy'⟩
            · omega
            · rw [h4] at h1; exact hne h1
            · rw [h1, h4] at h
              simp only [List.cons.injEq] at h
              omega
          · exact .inr (.inr hn)
        · rw [if_neg h0]
          have hxs : xs ≠ [] := fun e => h0 (by rw [e]; rfl)
          have hpr : ∀ x ∈ xs, 0x20 ≤ x ∧ x < 0x7F := by
            intro x hx
            have := hPr.scannable x (by rw [h1]; exact List.mem_append_left _ hx)
            have := h3 x hx
            omega
          have hstr : toUtf8Str rem = xs ++ toUtf8Str ys := by rw [h1, str_append, str_ascii xs h3]
          have hdrop : (toUtf8Str rem).drop xs.length = toUtf8Str ys := by rw [hstr, List.drop_left]
          have htake : (toUtf8Str rem).take xs.length = xs := by rw [hstr, List.take_left]
          obtain ⟨zs, z, hz⟩ : ∃ zs z, xs = zs ++ [z] := by
            rcases List.eq_nil_or_concat xs with h | ⟨zs, z, h⟩
            · exact absurd h hxs
            · exact ⟨zs, z, by rw [h]; simp⟩
          have hget : (toUtf8Str rem).getD (xs.length - 1) 0 = z := by
            rw [hstr, hz]
            simp [List.getD_eq_getElem?_getD]
          rw [hdrop, htake, hget]
          have hlt : (toUtf8Str ys).length < fuel := by
            rw [← hdrop, List.length_drop]
            have : 0 < xs.length := Nat.pos_of_ne_zero h0
            have : xs.length ≤ (toUtf8Str rem).length := by rw [hstr, List.length_append]; omega
            omega
          have hflat : (xs.map (fun x => [x])).flatten = xs := by
            clear * -
            induction xs with
            | nil => rfl
            | cons x xs ih => rw [List.map_cons, List.flatten_cons, ih]; rfl
          have hP' : Placed U cs max (front ++ xs.map (fun x => [x])) ys
              { R with count := R.count + xs.length, fin := R.fin + xs.length, st := seed U R.st z, next := R.next + xs.length,
                       events := R.events ++ [Event.ascii xs] } := by
            have hcw : ∀ x ∈ xs, clusterWidth U [x] = 1 := by
              intro x hx
              obtain ⟨p1, p2⟩ := hpr x hx
              rw [clusterWidth_eq_acc W]
              exact push_ascii_width W A x p1 p2
            refine ⟨?_, ?_, ?_, ?_, ?_, hP.start, ?_, ?_, hP.idle⟩
            · rw [hP.text, h1, List.flatten_append, hflat, List.append_assoc]
            · rw [hP.split, h1, clusters_ascii D A xs ys hpr (by rw [← h1]; exact hPr.noMark), List.append_assoc]
            · show (R.events ++ [Event.ascii xs]).flatMap told = _
              rw [List.flatMap_append, hP.told, units_append]
              congr 1
              simp only [List.flatMap_cons, List.flatMap_nil, List.append_nil, told, units, List.map_map]
              refine List.map_congr_left fun x hx => ?_
              simp only [Function.comp]
              rw [hcw x hx, str_ascii [x] (by intro y hy; simp at hy; rw [hy]; exact h3 x hx)]
            · show R.count + xs.length = _
              rw [hP.count, widths_append]
              congr 1
              unfold widths
              clear * - hcw
              induction xs with
              | nil => rfl
              | cons x xs ih =>
                simp only [List.map_cons, List.sum_cons, List.length_cons]
                rw [hcw x (by simp), ← ih (fun y hy => hcw y (by simp [hy]))]
                omega
            · show R.count + xs.length ≤ max
              omega
            · show R.next + (xs.length : Int) = _
              rw [hP.next, List.flatten_append, hflat, str_append, List.length_append, str_ascii xs h3]; push_cast; rfl
            · show R.fin + (xs.length : Int) = R.next + (xs.length : Int)
              rw [hP.fin]
          refine ih true _ ys _ hlt hP' ?_
          rcases h4 with h4 | h4 | ⟨y, q, h4, hy⟩
          · left
            show R.count + xs.length = max
            omega
          · exact .inr (.inl h4)
          · refine .inr (.inr ⟨y, q, h4, hy, .inr ⟨front.flatten ++ zs, z, ?_, (hpr z (by rw [hz]; simp)).1, (hpr z (by rw [hz]; simp)).2, rfl, rfl⟩⟩)
            rw [List.flatten_append, hflat, hz, List.append_assoc]
    · rw [if_neg hgo]
      refine hP.lined ?_
      by_cases hc : R.count < max
      · left
        have : R.next = ((toUtf8Str cs).length : Int) := by
          by_contra h
          exact hgo ⟨hc, h⟩
        by_contra hne
        have := str_pos rem hne
        omega
      · have := hP.fits
        exact .inr (.inl (by omega))

end Verif.Scan
