import Verif.Props.ScanAscii
import Verif.Lemmas.Utf8
import Mathlib.Tactic.Common
/-!
# Loop invariants of the scanner
-/

namespace Verif.Scan
open Verif.Ucd Verif.Utf8 Verif.Grapheme Verif.Width

/-- Bytes handed to the receiver by one call. -/
def sliceBytes : Event → List Nat
  | .ascii b => b
  | .cluster b _ => b
  | .invalid => []

/-- Bytes handed to the receiver, in order. -/
def slices (es : List Event) : List Nat := es.flatMap sliceBytes

theorem slices_append (a b : List Event) : slices (a ++ b) = slices a ++ slices b := by simp [slices]

@[simp] theorem slices_nil : slices [] = [] := rfl
@[simp] theorem slices_invalid : slices [.invalid] = [] := rfl
@[simp] theorem slices_ascii (b : List Nat) : slices [.ascii b] = b := by simp [slices, sliceBytes]
@[simp] theorem slices_cluster (b : List Nat) (n : Nat) : slices [.cluster b n] = b := by simp [slices, sliceBytes]

theorem flush_slices (text : List Nat) (e : Nat) (L : Loop) (h : L.clusterStart ≤ e)
    (hs : slices L.events = text.take L.clusterStart) : slices (flush text e L).events = text.take e := by
  unfold flush
  simp only
  split
  · rw [slices_append, hs, slices_cluster, ← List.take_add]
    congr 1; omega
  · rw [hs]; congr 1; omega

theorem flush_invalid (text : List Nat) (e : Nat) (L : Loop) : .invalid ∈ (flush text e L).events ↔ .invalid ∈ L.events := by
  unfold flush
  simp only
  split
  · simp
  · rfl

/-- What `fromUtf8` leaves behind. -/
theorem fromUtf8_success_idle (s u : DecState) (b v : Nat) (h : fromUtf8 s b = (u, .success v)) : u.expectedLength = 0 := by
  unfold fromUtf8 startByte finish at h
  repeat' split at h
  all_goals first | (simp only [Prod.mk.injEq, reduceCtorEq, and_false] at h) | skip
  all_goals first | (obtain ⟨rfl, _⟩ := h; first | rfl | assumption) | skip

/-- Invariant of the loop at scan.cpp:113; `r0` is `resultStart`. -/
structure LInv (text : List Nat) (max : Nat) (r0 : Int) (L : Loop) : Prop where
  hin : L.input ≤ text.length
  hcs : L.clusterStart + L.byteCount ≤ L.input
  hcount : L.countedHere ≤ L.count
  hend : L.resultEnd + L.byteCount ≤ L.input
  hstart : r0 ≤ L.resultEnd
  hslices : slices L.events = text.take L.clusterStart
  hmax : L.count ≤ max + 1
  hvalid : .invalid ∉ L.events → L.count ≤ max
  hidle : max < L.count → L.st.utf8.expectedLength = 0
  hcplx : ∀ i : Nat, i < L.input → ∀ b, text[i]? = some b → isComplex b = true

/-- A byte at which the scanner stops: C0 control, or a byte in 0x80..0x9F (at a boundary). -/
def StopByte (b : Nat) : Prop := isControl b = true ∨ isC1 b = true

/-- Facts when the loop is left. -/
structure LPost (text : List Nat) (max : Nat) (r0 : Int) (L : Loop) : Prop where
  hin : L.input ≤ text.length
  hcs : L.clusterStart ≤ L.input
  hend : L.resultEnd ≤ L.input
  hstart : r0 ≤ L.resultEnd
  hslices : slices L.events = text.take L.clusterStart
  hmax : L.count ≤ max + 1
  hvalid : .invalid ∉ L.events → L.count ≤ max
  hidle : L.input < text.length → L.st.utf8.expectedLength = 0
  hfront : L.input = text.length ∨ max < L.count ∨
    (L.resultEnd = L.input ∧ ∃ b, text[L.input]? = some b ∧ (isControl b = true ∨ isComplex b = false ∨ isC1 b = true)) ∨
    (∀ b, text[L.resultEnd.toNat]? = some b → isComplex b = true)

theorem step_inv (U : Table) (text : List Nat) (max : Nat) (r0 : Int) (hr0 : r0 ≤ 0) (b : Nat) (L : Loop)
    (h : LInv text max r0 L) (hb : text[L.input]? = some b) :
    (∀ L', step U text max b L = .go L' → LInv text max r0 L' ∧ L'.input = L.input + 1) ∧
    (∀ L', step U text max b L = .stop L' → LPost text max r0 L') := by
  obtain ⟨hlt, hbe⟩ := List.getElem?_eq_some_iff.1 hb
  unfold step
  by_cases hc : L.count > max
  · rw [if_pos hc]
    refine ⟨fun L' e => (by simp at e), fun L' e => ?_⟩
    simp only [Flow.stop.injEq] at e
    subst e
    exact ⟨h.hin, by have := h.hcs; omega, by have := h.hend; omega, h.hstart, h.hslices, h.hmax, h.hvalid,
      fun _ => h.hidle hc, .inr (.inl hc)⟩
  rw [if_neg hc]
  split
  · rename_i hctl
    refine ⟨fun L' e => (by simp at e), fun L' e => ?_⟩
    simp only [Flow.stop.injEq] at e
    subst e
    have hcsl : L.clusterStart ≤ L.input := by have := h.hcs; omega
    have hsl := flush_slices text L.input L hcsl h.hslices
    refine ⟨h.hin, Nat.le_refl _, Int.le_refl _, ?_, ?_, ?_, ?_, ?_, ?_⟩
    · show r0 ≤ (L.input : Int); omega
    · show slices (if _ then _ else _) = text.take L.input
      split
      · rw [slices_append, hsl]; simp
      · exact hsl
    · show (if _ then _ else _) ≤ max + 1
      split
      · exact Nat.succ_le_succ (Nat.le_of_not_lt hc)
      · have : L.count ≤ max := Nat.le_of_not_lt hc
        exact Nat.le_succ_of_le this
    · intro hno
      show (if _ then _ else _) ≤ max
      have hno' : Event.invalid ∉ (if L.st.utf8.expectedLength ≠ 0 then (flush text L.input L).events ++ [.invalid]
          else (flush text L.input L).events) := hno
      split
      · rename_i he; rw [if_pos he] at hno'; simp at hno'
      · omega
    · intro _
      show (if _ then ({} : DecState) else _).expectedLength = 0
      split
      · rfl
      · rename_i he; simpa using he
    · right; right; left
      refine ⟨rfl, b, hb, ?_⟩
      simp only [Bool.or_eq_true, Bool.and_eq_true, Bool.not_eq_true', beq_iff_eq] at hctl
      rcases hctl with (h1 | h1) | h1
      · exact .inl h1
      · exact .inr (.inl h1)
      · exact .inr (.inr h1.2)
  rename_i hctl
  have hcx : isComplex b = true := by
    simp only [Bool.or_eq_true, Bool.not_eq_true', not_or] at hctl
    simpa using hctl.1.2
  have hcplx' : ∀ i : Nat, i < L.input + 1 → ∀ x, text[i]? = some x → isComplex x = true := by
    intro i h2 x hx
    by_cases hi : i < L.input
    · exact h.hcplx i hi x hx
    · have : i = L.input := by omega
      subst this
      rw [hb] at hx
      cases hx
      exact hcx
  have hcs := h.hcs
  have hend := h.hend
  cases hr : fromUtf8 L.st.utf8 b with
  | mk u r =>
    cases r with
    | incomplete =>
      simp only
      refine ⟨fun L' e => ?_, fun L' e => (by simp at e)⟩
      simp only [Flow.go.injEq] at e
      subst e
      refine ⟨⟨?_, ?_, h.hcount, ?_, h.hstart, h.hslices, h.hmax, h.hvalid, ?_, hcplx'⟩, rfl⟩
      · show L.input + 1 ≤ _; omega
      · show L.clusterStart + (L.byteCount + 1) ≤ L.input + 1; omega
      · show L.resultEnd + ((L.byteCount + 1 : Nat) : Int) ≤ ((L.input + 1 : Nat) : Int)
        omega
      · intro hm
        have : max < L.count := hm
        omega
    | invalid =>
      simp only
      refine ⟨fun L' e => ?_, fun L' e => (by simp at e)⟩
      simp only [Flow.go.injEq] at e
      subst e
      refine ⟨⟨?_, ?_, ?_, ?_, h.hstart, ?_, ?_, ?_, ?_, hcplx'⟩, rfl⟩
      · show L.input + 1 ≤ _; omega
      · show (L.input + 1 - (L.byteCount + 1)) + 0 ≤ L.input + 1; omega
      · show 0 ≤ _; omega
      · show L.resultEnd + ((0 : Nat) : Int) ≤ ((L.input + 1 : Nat) : Int)
        omega
      · show slices ((flush text (L.input + 1 - (L.byteCount + 1)) (consume L u)).events ++ [.invalid]) =
          text.take (L.input + 1 - (L.byteCount + 1))
        rw [slices_append, flush_slices text _ (consume L u) (by show L.clusterStart ≤ _; omega) h.hslices]
        simp
      · show L.count + 1 ≤ max + 1; omega
      · intro hno
        exact absurd (by show Event.invalid ∈ (flush text _ _).events ++ [.invalid]; simp) hno
      · intro _; rfl
    | success cp =>
      simp only
      have hidle := fromUtf8_success_idle _ _ _ _ hr
      unfold onSuccess
      simp only
      split
      · -- opens a cluster
        unfold openCluster
        simp only
        split
        · refine ⟨fun L' e => (by simp at e), fun L' e => ?_⟩
          simp only [Flow.stop.injEq] at e
          subst e
          refine ⟨?_, ?_, ?_, h.hstart, h.hslices, h.hmax, h.hvalid, ?_, ?_⟩
          · show L.input + 1 - (L.byteCount + 1) ≤ _; omega
          · show L.clusterStart ≤ L.input + 1 - (L.byteCount + 1); omega
          · show L.resultEnd ≤ ((L.input + 1 - (L.byteCount + 1) : Nat) : Int); omega
          · intro _; exact hidle
          · right; right; right
            show ∀ x, text[L.resultEnd.toNat]? = some x → _
            intro x hx
            exact hcplx' _ (by omega) x hx
        · rename_i hfit
          refine ⟨fun L' e => ?_, fun L' e => (by simp at e)⟩
          simp only [Flow.go.injEq] at e
          subst e
          have hfit' : ¬ (L.count + (push U {} cp).width > max) := hfit
          refine ⟨⟨?_, ?_, ?_, ?_, ?_, ?_, ?_, ?_, ?_, ?_⟩, rfl⟩
          · show L.input + 1 ≤ _; omega
          · show (L.input + 1 - (L.byteCount + 1)) + 0 ≤ L.input + 1; omega
          · show (push U {} cp).width ≤ L.count + (push U {} cp).width; omega
          · show ((L.input + 1 : Nat) : Int) + ((0 : Nat) : Int) ≤ ((L.input + 1 : Nat) : Int)
            omega
          · show r0 ≤ ((L.input + 1 : Nat) : Int); omega
          · exact flush_slices text _ _ (by show L.clusterStart ≤ L.input + 1 - (L.byteCount + 1); omega) h.hslices
          · show L.count + (push U {} cp).width ≤ max + 1; omega
          · intro _; show L.count + (push U {} cp).width ≤ max; omega
          · intro _; exact hidle
          · exact hcplx'
      · unfold joinCluster
        simp only
        split
        · split
          · refine ⟨fun L' e => (by simp at e), fun L' e => ?_⟩
            simp only [Flow.stop.injEq] at e
            subst e
            refine ⟨?_, Nat.le_refl _, Int.le_refl _, ?_, h.hslices, ?_, ?_, ?_, ?_⟩
            · show L.clusterStart ≤ _; omega
            · show r0 ≤ (L.clusterStart : Int); omega
            · show L.count - L.countedHere ≤ max + 1; omega
            · intro _; show L.count - L.countedHere ≤ max; omega
            · intro _; exact hidle
            · right; right; right
              show ∀ x, text[((L.clusterStart : Nat) : Int).toNat]? = some x → _
              intro x hx
              exact hcplx' L.clusterStart (by omega) x hx
          · rename_i hfit
            have hfit' : ¬ ((push U L.st.acc cp).width - L.st.reported ≠ 0 ∧
              L.count + ((push U L.st.acc cp).width - L.st.reported) > max) := hfit
            have hle : L.count + ((push U L.st.acc cp).width - L.st.reported) ≤ max := by
              by_cases h0 : (push U L.st.acc cp).width - L.st.reported = 0
              · rw [h0]; omega
              · exact Nat.le_of_not_lt fun hg => hfit' ⟨h0, hg⟩
            have hct := h.hcount
            refine ⟨fun L' e => ?_, fun L' e => (by simp at e)⟩
            simp only [Flow.go.injEq] at e
            subst e
            refine ⟨⟨?_, ?_, ?_, ?_, ?_, h.hslices, ?_, ?_, ?_, hcplx'⟩, rfl⟩
            · show L.input + 1 ≤ _; omega
            · show L.clusterStart + 0 ≤ L.input + 1; omega
            · show L.countedHere + ((push U L.st.acc cp).width - L.st.reported)
                ≤ L.count + ((push U L.st.acc cp).width - L.st.reported)
              omega
            · show ((L.input + 1 : Nat) : Int) + ((0 : Nat) : Int) ≤ ((L.input + 1 : Nat) : Int)
              omega
            · show r0 ≤ ((L.input + 1 : Nat) : Int); omega
            · show L.count + ((push U L.st.acc cp).width - L.st.reported) ≤ max + 1; omega
            · intro _; exact hle
            · intro _; exact hidle
        · have hct := h.hcount
          refine ⟨fun L' e => ?_, fun L' e => (by simp at e)⟩
          simp only [Flow.go.injEq] at e
          subst e
          have hm := Nat.min_le_right (L.st.reported - (push U L.st.acc cp).width) L.countedHere
          have hm' : ∀ m, m ≤ L.countedHere → L.countedHere - m ≤ L.count - m := by intros; omega
          have hm2 : ∀ m, L.count - m ≤ max := by intros; omega
          refine ⟨⟨?_, ?_, ?_, ?_, ?_, h.hslices, ?_, ?_, ?_, hcplx'⟩, rfl⟩
          · show L.input + 1 ≤ _; omega
          · show L.clusterStart + 0 ≤ L.input + 1; omega
          · exact hm' _ hm
          · show ((L.input + 1 : Nat) : Int) + ((0 : Nat) : Int) ≤ ((L.input + 1 : Nat) : Int)
            omega
          · show r0 ≤ ((L.input + 1 : Nat) : Int); omega
          · exact Nat.le_succ_of_le (hm2 _)
          · intro _; exact hm2 _
          · intro _; exact hidle

theorem loop_post (U : Table) (text : List Nat) (max : Nat) (r0 : Int) (hr0 : r0 ≤ 0) (rest : List Nat) (L : Loop)
    (h : LInv text max r0 L) (hrest : rest = text.drop L.input) : LPost text max r0 (loop U text max rest L) := by
  induction rest generalizing L with
  | nil =>
    have hlen : L.input = text.length := by
      have h1 := List.drop_eq_nil_iff.1 hrest.symm
      have := h.hin
      omega
    have hcs := h.hcs
    have hend := h.hend
    show LPost text max r0 L
    exact ⟨h.hin, by omega, by omega, h.hstart, h.hslices, h.hmax, h.hvalid,
      fun hl => by have : L.input < text.length := hl; omega, .inl hlen⟩
  | cons b rest ih =>
    have hb : text[L.input]? = some b := by
      have : (text.drop L.input)[0]? = some b := by rw [← hrest]; rfl
      rw [List.getElem?_drop] at this
      exact this
    obtain ⟨h1, h2⟩ := step_inv U text max r0 hr0 b L h hb
    unfold loop
    cases hs : step U text max b L with
    | stop L' => exact h2 L' hs
    | go L' =>
      obtain ⟨h3, h4⟩ := h1 L' hs
      refine ih L' h3 ?_
      rw [h4, ← List.drop_drop, ← hrest]
      rfl

theorem resultStart_le (st : State) : resultStart st ≤ 0 := by
  unfold resultStart
  split <;> omega

/-- Facts about one call of `scan_for_text_nonascii`. -/
structure SPost (text : List Nat) (max : Nat) (r0 : Int) (S : Loop) : Prop where
  hin : S.input ≤ text.length
  hend : S.resultEnd ≤ S.input
  hstart : r0 ≤ S.resultEnd
  hslices : slices S.events = text.take S.input
  hmax : S.count ≤ max + 1
  hvalid : .invalid ∉ S.events → S.count ≤ max
  hidle : S.input < text.length → S.st.utf8.expectedLength = 0
  hfront : S.input = text.length ∨ max < S.count ∨
    (S.resultEnd = S.input ∧ ∃ b, text[S.input]? = some b ∧ (isControl b = true ∨ isComplex b = false ∨ isC1 b = true)) ∨
    (∀ b, text[S.resultEnd.toNat]? = some b → isComplex b = true)

theorem scanNonAscii_post (U : Table) (st : State) (text : List Nat) (max : Nat) :
    SPost text max (resultStart st) (scanNonAscii U st text max) := by
  have hp := loop_post U text max (resultStart st) (resultStart_le st) text { st := st, resultEnd := resultStart st }
    ⟨Nat.zero_le _, Nat.le_refl _, Nat.le_refl _, by have := resultStart_le st; simpa using this, Int.le_refl _, rfl,
      Nat.zero_le _, fun _ => Nat.zero_le _, fun h => absurd h (Nat.not_lt_zero _), fun i hi => absurd hi (Nat.not_lt_zero _)⟩ rfl
  unfold scanNonAscii
  simp only
  exact ⟨hp.hin, hp.hend, hp.hstart, flush_slices text _ _ hp.hcs hp.hslices, hp.hmax,
    fun h => hp.hvalid (fun h' => h ((flush_invalid _ _ _).2 h')), hp.hidle, hp.hfront⟩

/-- Invariant of the loop scan.cpp:287 for a call that does not resume a sequence: the view starts at offset
`i` of the text `T`. -/
structure MInv (T : List Nat) (max : Nat) (complex : Bool) (i n : Nat) (R : Out) : Prop where
  hin : i ≤ n
  hnl : n ≤ T.length
  hstart : R.start = 0
  hfin : R.fin = i
  hnext : R.next = n
  hslices : slices R.events = T.take n
  hsync : n = i ∨ (complex = false ∧ ∀ b, T[i]? = some b → isComplex b = true)
  hidle : n < T.length → R.st.utf8.expectedLength = 0
  hmax : R.count ≤ max + 1
  hvalid : .invalid ∉ R.events → R.count ≤ max

/-- Facts about the result of a call that does not resume a sequence. -/
structure MPost (T : List Nat) (max : Nat) (R : Out) : Prop where
  hstart : R.start = 0
  hfin : 0 ≤ R.fin
  hend : R.fin ≤ R.next
  hnext : R.next ≤ T.length
  hslices : slices R.events = T.take R.next.toNat
  hidle : R.next < T.length → R.st.utf8.expectedLength = 0
  hmax : R.count ≤ max + 1
  hvalid : .invalid ∉ R.events → R.count ≤ max

theorem MInv.post {T : List Nat} {max : Nat} {complex : Bool} {i n : Nat} {R : Out} (h : MInv T max complex i n R) :
    MPost T max R := by
  have h1 := h.hfin
  have h2 := h.hnext
  have h3 := h.hin
  have h4 := h.hnl
  refine ⟨h.hstart, by omega, by omega, by omega, ?_, ?_, h.hmax, h.hvalid⟩
  · rw [h2]; exact h.hslices
  · intro hl; exact h.hidle (by omega)

theorem scanAscii_complex (v : Variant) (w : Nat) (text : List Nat) (hb : ∀ b ∈ text, b < 256) (m : Nat)
    (h : ∀ b, text[0]? = some b → isComplex b = true) : scanAscii v w text m = 0 := by
  have hl := Props.Scan.C11_longest_prefix v w text hb m
  generalize scanAscii v w text m = n at hl
  cases n with
  | zero => rfl
  | succ n =>
    cases text with
    | nil => have := hl.le_size; simp at this
    | cons a t =>
      have h1 := hl.printable a (by simp)
      have h2 := (Props.Scan.isComplex_iff a (hb a (by simp))).1 (h a rfl)
      exact absurd h1.2 (by omega)

theorem mainLoop_post (U : Table) (v : Variant) (w max : Nat) (T : List Nat) (hb : ∀ b ∈ T, b < 256) (fuel : Nat)
    (complex : Bool) (i n : Nat) (R : Out) (h : MInv T max complex i n R) :
    MPost T max (mainLoop U v w max T.length fuel complex (T.drop i) i R) := by
  induction fuel generalizing complex i n R with
  | zero => exact h.post
  | succ fuel ih =>
    unfold mainLoop
    split
    · rename_i hcond
      have h2 := h.hnext
      have hnl := h.hnl
      have hin := h.hin
      have hnlt : n < T.length := by omega
      have hidle := h.hidle hnlt
      split
      · rename_i hcx
        have hni : n = i := by
          rcases h.hsync with h | h
          · exact h
          · rw [hcx] at h; simp at h
        subst hni
        have hp := scanNonAscii_post U R.st (T.drop n) (max - R.count)
        have hr : resultStart R.st = 0 := by unfold resultStart; rw [if_neg (by simpa using hidle)]
        simp only [hr] at hp ⊢
        generalize scanNonAscii U R.st (T.drop n) (max - R.count) = S at hp
        have p1 := hp.hin
        have p2 := hp.hend
        have p3 := hp.hstart
        have p4 := hp.hmax
        rw [List.length_drop] at p1
        have hpost : MPost T max { R with
            count := R.count + S.count, fin := (n : Int) + S.resultEnd, st := S.st, next := (n : Int) + S.input,
            events := R.events ++ S.events } := by
          refine ⟨h.hstart, ?_, ?_, ?_, ?_, ?_, ?_, ?_⟩
          · show 0 ≤ (n : Int) + S.resultEnd; omega
          · show (n : Int) + S.resultEnd ≤ n + S.input; omega
          · show (n : Int) + S.input ≤ T.length; omega
          · show slices (R.events ++ S.events) = T.take ((n : Int) + S.input).toNat
            rw [slices_append, h.hslices, hp.hslices, ← List.take_add]
            rfl
          · intro hl
            have : (n : Int) + S.input < T.length := hl
            exact hp.hidle (by rw [List.length_drop]; omega)
          · show R.count + S.count ≤ max + 1; omega
          · intro hno
            have hno' : Event.invalid ∉ R.events ++ S.events := hno
            rw [List.mem_append, not_or] at hno'
            have := hp.hvalid hno'.2
            show R.count + S.count ≤ max
            omega
        split
        · exact hpost
        · rename_i hcons
          obtain ⟨e, he⟩ : ∃ e : Nat, S.resultEnd = e := ⟨S.resultEnd.toNat, by omega⟩
          have hec : (S.resultEnd - 0).toNat = e := by omega
          rw [hec]
          rw [List.drop_drop]
          by_cases hcont : n + S.input < T.length ∧ R.count + S.count < max
          · have := ih false (n + e) (n + S.input) { R with
              count := R.count + S.count, fin := (n : Int) + S.resultEnd, st := S.st, next := (n : Int) + S.input,
              events := R.events ++ S.events } ?_
            · rw [show ((n + e : Nat) : Int) = (n : Int) + (e : Int) by omega] at this
              exact this
            · refine ⟨by omega, by omega, h.hstart, ?_, ?_, ?_, ?_, ?_, hpost.hmax, hpost.hvalid⟩
              · show (n : Int) + S.resultEnd = ((n + e : Nat) : Int); omega
              · show (n : Int) + S.input = ((n + S.input : Nat) : Int); omega
              · show slices (R.events ++ S.events) = T.take (n + S.input)
                rw [slices_append, h.hslices, hp.hslices, ← List.take_add]
              · rcases hp.hfront with hf | hf | hf | hf
                · rw [List.length_drop] at hf; omega
                · exfalso; omega
                · left; omega
                · right
                  refine ⟨rfl, fun b hb => hf b ?_⟩
                  rw [List.getElem?_drop, he]
                  exact hb
              · intro hl
                exact hp.hidle (by rw [List.length_drop]; omega)
          · -- the loop is left at its next test
            cases fuel with
            | zero => exact hpost
            | succ fuel =>
              unfold mainLoop
              rw [if_neg]
              · exact hpost
              · intro hh
                have q1 : R.count + S.count < max := hh.1
                have q2 : (n : Int) + S.input ≠ T.length := hh.2
                exact hcont ⟨by omega, q1⟩
      · rename_i hcx
        have hcf : complex = false := by simpa using hcx
        have hbd : ∀ b ∈ T.drop i, b < 256 := fun b h => hb b (List.mem_of_mem_drop h)
        have hlp := Props.Scan.C11_longest_prefix v w (T.drop i) hbd (max - R.count)
        simp only
        split
        · exact h.post
        · rename_i hn0
          have hni : n = i := by
            rcases h.hsync with h | h
            · exact h
            · exfalso
              refine hn0 (scanAscii_complex v w _ hbd _ fun b hb' => h.2 b ?_)
              rwa [List.getElem?_drop] at hb'
          subst hni
          generalize scanAscii v w (T.drop n) (max - R.count) = k at hlp hn0
          have l1 := hlp.le_max
          have l2 := hlp.le_size
          rw [List.length_drop] at l2
          rw [List.drop_drop]
          have hf := h.hfin
          have := ih true (n + k) (n + k) { R with
              count := R.count + k
              fin := R.fin + k
              st := seed U R.st ((T.drop n).getD (k - 1) 0)
              next := R.next + k
              events := R.events ++ [.ascii ((T.drop n).take k)] } ?_
          · rw [show ((n + k : Nat) : Int) = (n : Int) + (k : Int) by omega] at this
            exact this
          · refine ⟨Nat.le_refl _, by omega, h.hstart, ?_, ?_, ?_, .inl rfl, fun _ => hidle, ?_, ?_⟩
            · show R.fin + (k : Int) = ((n + k : Nat) : Int); omega
            · show R.next + (k : Int) = ((n + k : Nat) : Int); omega
            · show slices (R.events ++ [.ascii ((T.drop n).take k)]) = T.take (n + k)
              rw [slices_append, h.hslices, slices_ascii, ← List.take_add]
            · show R.count + k ≤ max + 1; omega
            · intro _; show R.count + k ≤ max; omega
    · exact h.post

/-- Column bounds of the loop, whatever the state. -/
theorem mainLoop_count (U : Table) (v : Variant) (w max : Nat) (e : Int) (fuel : Nat) (complex : Bool)
    (text : List Nat) (hb : ∀ b ∈ text, b < 256) (base : Int) (R : Out) (h1 : R.count ≤ max + 1)
    (h2 : .invalid ∉ R.events → R.count ≤ max) :
    (mainLoop U v w max e fuel complex text base R).count ≤ max + 1 ∧
    (.invalid ∉ (mainLoop U v w max e fuel complex text base R).events →
      (mainLoop U v w max e fuel complex text base R).count ≤ max) := by
  induction fuel generalizing complex text base R with
  | zero => exact ⟨h1, h2⟩
  | succ fuel ih =>
    unfold mainLoop
    split
    · rename_i hcond
      split
      · have hp := scanNonAscii_post U R.st text (max - R.count)
        simp only
        generalize scanNonAscii U R.st text (max - R.count) = S at hp
        have p4 := hp.hmax
        have g1 : R.count + S.count ≤ max + 1 := by omega
        have g2 : .invalid ∉ R.events ++ S.events → R.count + S.count ≤ max := by
          intro hno
          rw [List.mem_append, not_or] at hno
          have := hp.hvalid hno.2
          omega
        split
        · exact ⟨g1, g2⟩
        · exact ih false _ (fun b h => hb b (List.mem_of_mem_drop h)) _ _ g1 g2
      · simp only
        have hlp := (Props.Scan.C11_longest_prefix v w text hb (max - R.count)).le_max
        split
        · exact ⟨h1, h2⟩
        · refine ih true _ (fun b h => hb b (List.mem_of_mem_drop h)) _ _ ?_ ?_
          · show R.count + scanAscii v w text (max - R.count) ≤ max + 1; omega
          · intro _; show R.count + scanAscii v w text (max - R.count) ≤ max; omega
    · exact ⟨h1, h2⟩

/-- `text.length + 1` iterations suffice. -/
theorem mainLoop_fuel (U : Table) (v : Variant) (w max : Nat) (e : Int) (f f' : Nat) (complex : Bool)
    (text : List Nat) (base : Int) (R : Out) (h : text.length < f) (h' : text.length < f') :
    mainLoop U v w max e f complex text base R = mainLoop U v w max e f' complex text base R := by
  induction f generalizing f' complex text base R with
  | zero => omega
  | succ f ih =>
    cases f' with
    | zero => omega
    | succ f' =>
      have step : ∀ c k b' R', k ≠ 0 → (text = [] → k = 0) →
          mainLoop U v w max e f c (text.drop k) b' R' = mainLoop U v w max e f' c (text.drop k) b' R' := by
        intro c k b' R' hk ht
        have : text ≠ [] := fun h => hk (ht h)
        have hpos := List.length_pos_iff.2 this
        exact ih f' c _ b' R' (by rw [List.length_drop]; omega) (by rw [List.length_drop]; omega)
      unfold mainLoop
      split
      · split
        · simp only
          split
          · rfl
          · rename_i hc
            refine step _ _ _ _ hc fun ht => ?_
            subst ht
            simp [scanNonAscii, loop, flush]
        · simp only
          split
          · rfl
          · rename_i hc
            refine step _ _ _ _ hc fun ht => ?_
            subst ht
            cases v <;> simp [scanAscii, vecPart, vecLoop, scalarPart]
      · rfl

/-- A call that starts between two codepoints: the decoder is idle and `state.next` is `nullptr` or the start
of the text. -/
theorem scanText_idle_post (U : Table) (v : Variant) (w : Nat) (st : State) (next : Option Int)
    (hidle : st.utf8.expectedLength = 0) (hnext : next.getD 0 = 0) (pre text : List Nat) (hb : ∀ b ∈ text, b < 256)
    (max : Nat) : ∃ R, scanText U v w st next pre text max = .ok R ∧ MPost text max R := by
  unfold scanText
  simp only
  rw [if_neg (by simpa using hidle)]
  have hinv : ∀ c, MInv text max c 0 0
      { count := 0, start := 0, fin := 0, st := st, next := next.getD 0, events := [] } := fun c =>
    ⟨Nat.le_refl _, Nat.zero_le _, rfl, rfl, hnext, by simp, .inl rfl, fun _ => hidle, Nat.zero_le _, fun _ => Nat.zero_le _⟩
  cases text with
  | nil => exact ⟨_, rfl, (hinv false).post⟩
  | cons b bs =>
    exact ⟨_, rfl, mainLoop_post U v w max (b :: bs) hb _ (isComplex b) 0 0 _ (hinv _)⟩

end Verif.Scan
