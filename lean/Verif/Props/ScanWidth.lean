import Verif.Props.ScanChunk
/-!
# Property C46: the columns the scanner counts are the width of the text
-/

namespace Verif.Props.Scan
open Verif.Scan Verif.Ucd Verif.Utf8 Verif.Grapheme Verif.Width Verif.Toy Verif.Spec.GB

/-- What the UCD says about printable ASCII: an ordinary character of one column. -/
def AsciiOk (U : Table) : Prop := ∀ c, 0x20 ≤ c → c < 0x7F → (U c).gcb = .Other ∧ (U c).charWidth = 1

/-- Text the scanner does not stop at: no C0 controls and no DEL, and codepoints in range. -/
def Scannable (cs : List Nat) : Prop := ∀ c ∈ cs, 0x20 ≤ c ∧ c ≠ 0x7F ∧ c ≤ 0x1FFFFF

/-- No `Prepend` character directly in front of an ASCII character. -/
def NoPrependAscii (U : Table) (cs : List Nat) : Prop :=
  ∀ p x y q, cs = p ++ x :: y :: q → (U x).gcb = .Prepend → 0x80 ≤ y

theorem noFlags_tail {U : Table} {a : Nat} {cs : List Nat} (h : NoFlags U (a :: cs)) : NoFlags U cs :=
  fun p x y q e => h (a :: p) x y q (by rw [e]; rfl)

theorem NoPrependAscii.tail {U : Table} {a : Nat} {cs : List Nat} (h : NoPrependAscii U (a :: cs)) : NoPrependAscii U cs :=
  fun p x y q e => h (a :: p) x y q (by rw [e]; rfl)

theorem clustersLoop_fuel (U : Table) (n m : Nat) (text : List Nat) (hn : text.length ≤ n) (hm : text.length ≤ m) :
    clustersLoop U n text = clustersLoop U m text := by
  rw [C15_terminates U text n hn, C15_terminates U text m hm]

theorem push_ascii_width {U : Table} (W : WidthOk U) (A : AsciiOk U) (c : Nat) (h1 : 0x20 ≤ c) (h2 : c < 0x7F) :
    (push U {} c).width = 1 := by
  have := C20_shortcut W c
  simp only [accWidth, List.foldl_cons, List.foldl_nil, clusterWidth, width1] at this
  rw [this, (A c h1 h2).2]

theorem clusters_cons (U : Table) (c : Nat) (cs : List Nat) :
    clusters U (c :: cs) = (c :: (extendCluster U (processInit U c) cs).1) ::
      clusters U (extendCluster U (processInit U c) cs).2 := by
  have hl := congrArg List.length (extendCluster_append U (processInit U c) cs)
  rw [List.length_append] at hl
  simp only [clusters, List.length_cons, clustersLoop, advance]
  rw [clustersLoop_fuel U cs.length _ _ (by omega) (Nat.le_refl _)]

/-- The scanner in the middle of a cluster `cl`, reading the rest `cs` of the text. -/
theorem scan_rest {U : Table} (D : DataOk U) (W : WidthOk U) (A : AsciiOk U) (cs : List Nat) :
    ∀ (st : State) (pre cl : List Nat) (a : Nat) (g : GState),
      st.utf8.expectedLength = 0 → st.hint ≠ 0 → InvC U st.g pre a → InvC U g pre a → InvR U g pre a →
      st.acc = cl.foldl (push U) {} → st.reported = st.acc.width →
      Scannable cs → 0xFE0E ∉ cs → NoFlags U (a :: cs) → NoPrependAscii U (a :: cs) →
      (mRun U st (cs.flatMap toUtf8)).2.2 = [] ∧
      (mRun U st (cs.flatMap toUtf8)).2.1 + st.reported =
        accWidth U (cl ++ (extendCluster U g cs).1) + ((clusters U (extendCluster U g cs).2).map (clusterWidth U)).sum := by
  induction cs with
  | nil =>
    intro st pre cl a g _ _ _ _ _ hacc hrep _ _ _ _
    simp [mRun, extendCluster, clusters, clustersLoop, hrep, hacc, accWidth]
  | cons c cs ih =>
    intro st pre cl a g hid hh hc1 hc2 hr2 hacc hrep hsc hvs hnf hnp
    obtain ⟨hlo, hdel, hhi⟩ := hsc c (by simp)
    have hsc' : Scannable cs := fun x hx => hsc x (by simp [hx])
    have hvs' : 0xFE0E ∉ cs := fun h => hvs (by simp [h])
    have hcv : c ≠ 0xFE0E := fun h => hvs (by simp [h])
    have hver2 := verdict D g pre a c hc2 _ (e12_of_invR g pre a c hr2)
    have hno : ¬ ((U a).gcb = .Regional_Indicator ∧ (U a).gcb = (U c).gcb) := by
      rintro ⟨h1, h2⟩
      exact hnf [] a c cs rfl h1 (h2 ▸ h1)
    have hver1 := verdict D st.g pre a c hc1 (gb12x U) (by
      constructor
      · rintro ⟨h1, h2, _⟩; exact absurd ⟨h1, h2⟩ hno
      · intro h
        obtain ⟨h1, h2, _⟩ := (e12_of_invR g pre a c hr2).2 h
        exact absurd ⟨h1, h2⟩ hno)
    have hsame : (processBreakable U c st.g).2 = (processBreakable U c g).2 := by
      rw [Bool.eq_iff_iff, hver1, hver2]
    rw [List.flatMap_cons]
    by_cases hlt : c < 0x80
    · -- printable ASCII
      have hlt' : c < 0x7F := by omega
      have hA := A c hlo hlt'
      have hbrk : (processBreakable U c g).2 = true := by
        rw [hver2]
        refine ⟨?_, .inr (.inr ?_)⟩
        · rintro ⟨_, h⟩; rw [hA.1] at h; exact absurd h (by decide)
        · have hinc := D.ascii_incb c hlt
          have hep := D.ascii_extpict c hlt
          have hpp : (U a).gcb ≠ .Prepend := fun h => by have := hnp [] a c cs rfl h; omega
          unfold gb6 gb7 gb8 gb9 gb9a gb9b gb9c gb11x gb12x
          simp [hA.1, hinc, hep, hpp]
      have hB : BX U pre a c := hver2.1 hbrk
      have hre := reinit D g pre a c hc2 hr2 hB
      rw [toUtf8_low c hlt]
      have hcx : isComplex c = false := by
        cases h : isComplex c with
        | false => rfl
        | true => have := (isComplex_iff c (by omega)).1 h; omega
      have hstop : mStops st c = false := by
        unfold mStops isControl isC1; simp; omega
      have hp0 : pend st = 0 := by unfold pend; rw [if_neg (by simpa using hid)]
      have hm : mByte U st c = (seed U st c, 1) := by
        unfold mByte; rw [if_neg (by simp [hcx]), idle_of _ hid, hp0]
      have hw1 := push_ascii_width W A c hlo hlt'
      obtain ⟨g1, g2⟩ := ih (seed U st c) (pre ++ [a]) [c] c (processInit U c) hid (by show c ≠ 0; omega) hre.1 hre.1 hre.2
        rfl (by show 1 = (push U {} c).width; rw [hw1]) hsc' hvs' (noFlags_tail hnf) hnp.tail
      have hext : extendCluster U g (c :: cs) = ([], c :: cs) := by
        unfold extendCluster
        rcases hp : processBreakable U c g with ⟨s', v⟩
        rw [hp] at hbrk; simp only at hbrk; subst hbrk; rfl
      rw [hext]
      simp only [List.cons_append, List.nil_append, mRun, hstop, hm, Bool.false_eq_true, if_false, List.append_nil]
      refine ⟨g1, ?_⟩
      rw [clusters_cons]
      simp only [List.map_cons, List.sum_cons]
      rw [clusterWidth_eq_acc W]
      have hrs : (seed U st c).reported = 1 := rfl
      rw [hrs] at g2
      have hcl : accWidth U cl = st.reported := by rw [hrep, hacc]; rfl
      simp only [List.cons_append, List.nil_append] at g2
      omega
    · obtain ⟨u, hu, hrun, _⟩ := mRun_char U st hid c (by omega) hhi
      have happ := mRun_append U st _ _ (cs.flatMap toUtf8) _ hrun
      rw [happ]
      have hbk : isBreakable U { st with utf8 := u } c = processBreakable U c st.g := by
        unfold isBreakable; rw [if_neg hh]
      simp only
      unfold mSuccess
      rw [hbk]
      cases hv : (processBreakable U c g).2 with
      | true =>
        rw [hsame, hv, if_pos rfl]
        have hB : BX U pre a c := hver2.1 hv
        have hre := reinit D g pre a c hc2 hr2 hB
        have hstep := step_core D st.g pre a c hc1
        obtain ⟨g1, g2⟩ := ih (mOpen U { st with utf8 := u, hint := c, g := (processBreakable U c st.g).1 } c).1 (pre ++ [a]) [c] c
          (processInit U c) hu (by show c ≠ 0; omega) hstep hre.1 hre.2 rfl rfl hsc' hvs' (noFlags_tail hnf) hnp.tail
        have hext : extendCluster U g (c :: cs) = ([], c :: cs) := by
          unfold extendCluster
          rcases hp : processBreakable U c g with ⟨s', v⟩
          rw [hp] at hv; simp only at hv; subst hv; rfl
        rw [hext, List.append_nil, clusters_cons]
        refine ⟨g1, ?_⟩
        simp only [List.map_cons, List.sum_cons]
        rw [clusterWidth_eq_acc W]
        have hrs : (mOpen U { st with utf8 := u, hint := c, g := (processBreakable U c st.g).1 } c).1.reported =
          (mOpen U { st with utf8 := u, hint := c, g := (processBreakable U c st.g).1 } c).2 := rfl
        rw [hrs] at g2
        have hcl : accWidth U cl = st.reported := by rw [hrep, hacc]; rfl
        simp only [List.cons_append, List.nil_append] at g2
        omega
      | false =>
        rw [hsame, hv, if_neg (by simp)]
        have hsi := step_inv D g pre a c hc2 hr2 hv
        have hstep := step_core D st.g pre a c hc1
        have hcur := (foldl_bound W.le_two cl {} 0 (init_bound U)).cur
        rw [← hacc] at hcur
        have hmono := (push_width_mono W.le_two st.acc c hcv hcur).1
        obtain ⟨g1, g2⟩ := ih (mJoin U { st with utf8 := u, hint := c, g := (processBreakable U c st.g).1 } c).1 (pre ++ [a]) (cl ++ [c]) c
          (processBreakable U c g).1 hu (by show c ≠ 0; omega) hstep hsi.1 hsi.2
          (by show push U st.acc c = _; rw [hacc, List.foldl_append]; rfl) rfl hsc' hvs' (noFlags_tail hnf) hnp.tail
        have hext : extendCluster U g (c :: cs) = (c :: (extendCluster U (processBreakable U c g).1 cs).1,
            (extendCluster U (processBreakable U c g).1 cs).2) := by
          rw [extendCluster]
          rcases hp : processBreakable U c g with ⟨s', v⟩
          rw [hp] at hv; simp only at hv; subst hv; rfl
        rw [hext]
        refine ⟨g1, ?_⟩
        simp only [List.append_assoc, List.singleton_append] at g2 ⊢
        have hrs : (mJoin U { st with utf8 := u, hint := c, g := (processBreakable U c st.g).1 } c).1.reported =
          (push U st.acc c).width := rfl
        have hrd : (mJoin U { st with utf8 := u, hint := c, g := (processBreakable U c st.g).1 } c).2 =
          (push U st.acc c).width - st.reported := rfl
        rw [hrs] at g2
        rw [hrd]
        omega

/-- The property as a user expects it: scanning a text that contains nothing the scanner stops at, without a column
limit in the way, counts exactly the columns `grapheme_cluster_width(text)` reports. -/
def C46_Width : Prop :=
  ∀ (U : Table) (v : Variant) (w k : Nat) (cs : List Nat) (max : Nat) (R : Out), DataOk U → WidthOk U → AsciiOk U →
    Scannable cs → 3 * (toUtf8Str cs).length + 2 ≤ max →
    scanText U v w (State.init U) none [] (toUtf8Str cs) max = .ok R → R.count = textWidth U k (toUtf8Str cs)

/-- **C46 (partial).**  They agree for every text without U+FE0E, without two adjacent regional indicators and without
a `Prepend` character directly in front of an ASCII character; on every CPU and with every vector width. -/
theorem C46_width_partial {U : Table} (D : DataOk U) (W : WidthOk U) (A : AsciiOk U) (v : Variant) (w k : Nat)
    (cs : List Nat) (hsc : Scannable cs) (hvs : 0xFE0E ∉ cs) (hnf : NoFlags U cs) (hnp : NoPrependAscii U cs)
    (max : Nat) (hmax : 3 * (toUtf8Str cs).length + 2 ≤ max) (R : Out)
    (hR : scanText U v w (State.init U) none [] (toUtf8Str cs) max = .ok R) :
    R.count = textWidth U k (toUtf8Str cs) ∧ R.next = (toUtf8Str cs).length := by
  have hc : ∀ c ∈ cs, c ≤ 0x1FFFFF := fun c h => (hsc c h).2.2
  have hb : ∀ b ∈ toUtf8Str cs, b < 256 := by
    rw [toUtf8Str_eq]
    intro b hb
    obtain ⟨c, _, h⟩ := List.mem_flatMap.1 hb
    exact toUtf8_lt256 c b h
  have hv : 0xFE0E ∉ delivered {} (toUtf8Str cs) := by rw [delivered_encoded U cs hc {} rfl]; exact hvs
  obtain ⟨b1, b2, _⟩ := scanText_machine W.le_two v w (State.init U) none rfl [] _ hb (SInv.init U) max hmax hv R hR
  rw [C21_sum U k cs hc, b1, b2]
  suffices h : (mRun U (State.init U) (toUtf8Str cs)).2.2 = [] ∧
      (mRun U (State.init U) (toUtf8Str cs)).2.1 = ((clusters U cs).map (clusterWidth U)).sum by
    refine ⟨h.2, ?_⟩
    rw [h.1]; simp
  rw [toUtf8Str_eq]
  cases cs with
  | nil => simp [mRun, clusters, clustersLoop]
  | cons c cs =>
    obtain ⟨hlo, hdel, hhi⟩ := hsc c (by simp)
    have hsc' : Scannable cs := fun x hx => hsc x (by simp [hx])
    have hvs' : 0xFE0E ∉ cs := fun h => hvs (by simp [h])
    rw [List.flatMap_cons, clusters_cons, List.map_cons, List.sum_cons, clusterWidth_eq_acc W]
    have hin := init_first (U := U) c
    by_cases hlt : c < 0x80
    · have hlt' : c < 0x7F := by omega
      have hw1 := push_ascii_width W A c hlo hlt'
      rw [toUtf8_low c hlt]
      have hcx : isComplex c = false := by
        cases h : isComplex c with
        | false => rfl
        | true => have := (isComplex_iff c (by omega)).1 h; omega
      have hstop : mStops (State.init U) c = false := by
        unfold mStops isControl isC1; simp; omega
      have hm : mByte U (State.init U) c = (seed U (State.init U) c, 1) := by
        unfold mByte; rw [if_neg (by simp [hcx])]; rfl
      obtain ⟨g1, g2⟩ := scan_rest D W A cs (seed U (State.init U) c) [] [c] c (processInit U c) rfl (by show c ≠ 0; omega)
        hin.1 hin.1 hin.2 rfl (by show 1 = (push U {} c).width; rw [hw1]) hsc' hvs' hnf hnp
      simp only [List.cons_append, List.nil_append, mRun, hstop, hm, Bool.false_eq_true, if_false]
      refine ⟨g1, ?_⟩
      have hrs : (seed U (State.init U) c).reported = 1 := rfl
      rw [hrs] at g2
      simp only [List.cons_append, List.nil_append] at g2
      omega
    · obtain ⟨u, hu, hrun, _⟩ := mRun_char U (State.init U) rfl c (by omega) hhi
      have happ := mRun_append U (State.init U) _ _ (cs.flatMap toUtf8) _ hrun
      rw [happ]
      have hbk : isBreakable U { State.init U with utf8 := u } c = (processInit U c, true) := rfl
      simp only
      unfold mSuccess
      rw [hbk, if_pos rfl]
      obtain ⟨g1, g2⟩ := scan_rest D W A cs (mOpen U { State.init U with utf8 := u, hint := c, g := processInit U c } c).1 [] [c] c
        (processInit U c) hu (by show c ≠ 0; omega) hin.1 hin.1 hin.2 rfl rfl hsc' hvs' hnf hnp
      refine ⟨g1, ?_⟩
      have hrs : (mOpen U { State.init U with utf8 := u, hint := c, g := processInit U c } c).1.reported =
          (mOpen U { State.init U with utf8 := u, hint := c, g := processInit U c } c).2 := rfl
      rw [hrs] at g2
      simp only [List.cons_append, List.nil_append] at g2
      exact (Nat.add_comm _ _).trans g2

theorem toy_ascii_ok : AsciiOk toy := by
  have key : ∀ c, c < 0x7F → 0x20 ≤ c → (toy c).gcb = .Other ∧ (toy c).charWidth = 1 := by decide +kernel
  exact fun c h1 h2 => key c h2 h1

/-- The full property is false: behind any other character, the two halves of a flag are counted as two
clusters. -/
theorem C46_fails_flag : ¬ C46_Width := by
  intro h
  have := h toy .none 16 16 [0x61, 0x1F1E6, 0x1F1E7] 40 _ toy_ok toy_width_ok toy_ascii_ok (by
    intro c hc; simp at hc; omega) (by decide) rfl
  revert this
  decide +kernel

/-- The hypotheses of the partial theorem are met by text like `"aé̈👨‍❤️क्क"` (ASCII, Latin with a mark, an emoji ZWJ
sequence, a Devanagari conjunct). -/
example : ∃ R, scanText toy .none 16 (State.init toy) none []
      (toUtf8Str [0x61, 0xE9, 0x301, 0x1F600, 0x200D, 0x2764, 0xFE0F, 0x915, 0x94D, 0x915]) 200 = .ok R ∧
    R.count = 6 ∧ R.count = textWidth toy 16 (toUtf8Str [0x61, 0xE9, 0x301, 0x1F600, 0x200D, 0x2764, 0xFE0F, 0x915, 0x94D, 0x915]) :=
  ⟨_, rfl, by decide +kernel, by decide +kernel⟩

end Verif.Props.Scan
