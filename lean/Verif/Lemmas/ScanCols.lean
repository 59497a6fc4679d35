import Verif.Lemmas.ScanWrap
/-!
# Columns handed to the receiver
-/

namespace Verif.Scan
open Verif.Ucd Verif.Utf8 Verif.Grapheme Verif.Width

/-- Columns one call on the receiver stands for: one per ASCII character, the width of a cluster, and the one column a
replacement character takes. -/
def Event.cols : Event → Nat
  | .ascii bytes => bytes.length
  | .cluster _ n => n
  | .invalid => 1

def colsum (es : List Event) : Nat := (es.map Event.cols).sum

theorem colsum_append (a b : List Event) : colsum (a ++ b) = colsum a + colsum b := by simp [colsum]

theorem colsum_flush (text : List Nat) (e : Nat) (L : Loop) :
    colsum (flush text e L).events = colsum L.events + if e > L.clusterStart then L.st.reported else 0 := by
  unfold flush
  simp only
  split
  · rw [colsum_append]; simp [colsum, Event.cols]
  · rfl

/-- No cluster is open (bytes of an invalid sequence may wait to be handed over, with no columns), or the open one has been counted entirely by this pass. -/
inductive JInv (L : Loop) : Prop
  | idle (h1 : L.clusterStart + L.byteCount ≤ L.input) (h2 : L.st.hint = 0) (h3 : L.st.reported = 0) (h4 : colsum L.events = L.count)
  | cluster (h1 : L.clusterStart + L.byteCount < L.input) (h2 : L.countedHere = L.st.reported)
      (h3 : colsum L.events + L.st.reported = L.count)

theorem JInv.done {L : Loop} (h : JInv L) (text : List Nat) : colsum (flush text L.input L).events = L.count := by
  rw [colsum_flush]
  cases h with
  | idle h1 h2 h3 h4 => rw [h3, h4]; split <;> rfl
  | cluster h1 h2 h3 => rw [if_pos (by omega)]; exact h3

theorem onSuccess_cols (U : Table) (text : List Nat) (max c : Nat) (L : Loop) (h : JInv L) (hb : 0 < L.byteCount) :
    (∀ L', onSuccess U text max c L = .go L' → JInv L') ∧
    (∀ L', onSuccess U text max c L = .stop L' → colsum (flush text L'.input L').events = L'.count) := by
  unfold onSuccess
  cases h with
  | idle h1 h2 h3 h4 =>
    have hbr : (isBreakable U L.st c).2 = true := by unfold isBreakable; rw [if_pos h2]
    simp only [hbr, if_true]
    unfold openCluster
    simp only
    refine ⟨fun L' h => ?_, fun L' h => ?_⟩
    · split at h
      · simp only [reduceCtorEq] at h
      · cases h
        refine .cluster ?_ rfl ?_
        · show L.input - L.byteCount + 0 < L.input; omega
        · show colsum (flush text _ _).events + _ = _
          rw [colsum_flush]
          simp only
          rw [h3, h4]
          split <;> omega
    · split at h
      · cases h
        rw [colsum_flush]
        simp only
        rw [h3, h4]; split <;> rfl
      · simp only [reduceCtorEq] at h
  | cluster h1 h2 h3 =>
    simp only
    split
    · unfold openCluster
      simp only
      refine ⟨fun L' h => ?_, fun L' h => ?_⟩
      · split at h
        · simp only [reduceCtorEq] at h
        · cases h
          refine .cluster ?_ rfl ?_
          · show L.input - L.byteCount + 0 < L.input; omega
          · show colsum (flush text _ _).events + _ = _
            rw [colsum_flush]
            simp only
            rw [if_pos (by omega), h3]
      · split at h
        · cases h
          rw [colsum_flush]
          simp only
          rw [if_pos (by omega), h3]
        · simp only [reduceCtorEq] at h
    · unfold joinCluster
      simp only
      generalize hw : (push U L.st.acc c).width = width
      refine ⟨fun L' h => ?_, fun L' h => ?_⟩
      · split at h
        · split at h
          · simp only [reduceCtorEq] at h
          · cases h
            refine .cluster (by show L.clusterStart + 0 < L.input; omega) ?_ ?_
            · show L.countedHere + _ = width; omega
            · show colsum L.events + width = L.count + _; omega
        · cases h
          refine .cluster (by show L.clusterStart + 0 < L.input; omega) ?_ ?_
          · show L.countedHere - _ = width; omega
          · show colsum L.events + width = L.count - _; omega
      · split at h
        · split at h
          · cases h
            rw [colsum_flush]
            simp only
            rw [if_neg (by omega)]
            omega
          · simp only [reduceCtorEq] at h
        · simp only [reduceCtorEq] at h

theorem loop_cols (U : Table) (text : List Nat) (max : Nat) (rest : List Nat) (L : Loop) (h : JInv L) :
    colsum (flush text (loop U text max rest L).input (loop U text max rest L)).events = (loop U text max rest L).count := by
  induction rest generalizing L with
  | nil => exact h.done text
  | cons b rest ih =>
    have hl : loop U text max (b :: rest) L = (match step U text max b L with | .stop L' => L' | .go L' => loop U text max rest L') := rfl
    rw [hl]
    unfold step
    by_cases h1 : L.count > max
    · rw [if_pos h1]; exact h.done text
    rw [if_neg h1]
    by_cases h2 : (isControl b || !isComplex b || (L.st.utf8.expectedLength == 0 && isC1 b)) = true
    · rw [if_pos h2]
      have hd := h.done text
      show colsum (flush text L.input (atControl U text L)).events = (atControl U text L).count
      have hn : ¬ L.input > (atControl U text L).clusterStart := Nat.lt_irrefl _
      rw [colsum_flush, if_neg hn]
      unfold atControl
      simp only
      split
      · rw [colsum_append, hd]; rfl
      · exact hd
    rw [if_neg h2]
    have hcons : ∀ u, JInv (consume L u) := fun u => by
      cases h with
      | idle h1 h2 h3 h4 => exact .idle (by show L.clusterStart + (L.byteCount + 1) ≤ L.input + 1; omega) h2 h3 h4
      | cluster h1 h2 h3 => exact .cluster (by show L.clusterStart + (L.byteCount + 1) < L.input + 1; omega) h2 h3
    rcases hf : fromUtf8 L.st.utf8 b with ⟨u, r⟩
    cases r with
    | incomplete => exact ih _ (hcons u)
    | invalid =>
      refine ih _ (.idle ?_ rfl rfl ?_)
      · show L.input + 1 - (L.byteCount + 1) + 0 ≤ L.input + 1
        omega
      · show colsum ((flush text _ (consume L u)).events ++ [.invalid]) = L.count + 1
        rw [colsum_append, colsum_flush]
        have hI : (consume L u).input - (consume L u).byteCount = L.input - L.byteCount := by
          show L.input + 1 - (L.byteCount + 1) = _; omega
        rw [hI]
        show colsum L.events + (if L.input - L.byteCount > L.clusterStart then L.st.reported else 0) + 1 = L.count + 1
        cases h with
        | idle h1 h2 h3 h4 => rw [h3, h4]; split <;> rfl
        | cluster h1 h2 h3 => rw [if_pos (by omega), h3]
    | success c =>
      have ho := onSuccess_cols U text max c (consume L u) (hcons u) (Nat.succ_pos _)
      simp only
      generalize onSuccess U text max c (consume L u) = f at ho
      cases f with
      | stop L' => exact ho.2 L' rfl
      | go L' => exact ih L' (ho.1 L' rfl)

/-- The text `t` does not continue what the state has open: it begins with a byte the pass stops at, with an invalid byte, or
with a whole codepoint in front of which the segmenter sees a border. -/
def Opens (U : Table) (st : State) (t : List Nat) : Prop :=
  ∀ b q, t = b :: q → isComplex b = true →
    isC1 b = true ∨ (fromUtf8 {} b).2 = .invalid ∨
    ∃ bs x tl, t = bs ++ tl ∧ Single bs x ∧ (∀ y ∈ bs, 0x80 ≤ y) ∧ (isBreakable U st x).2 = true

theorem scanNonAscii_cols (U : Table) (st : State) (hidle : st.utf8.expectedLength = 0) (text : List Nat) (hb : ∀ b ∈ text, b < 256)
    (max : Nat) (h : (st.hint = 0 ∧ st.reported = 0) ∨ Opens U st text) :
    colsum (scanNonAscii U st text max).events = (scanNonAscii U st text max).count := by
  have hr : resultStart st = 0 := by unfold resultStart; rw [if_neg (by simpa using hidle)]
  rcases h with ⟨h1, h2⟩ | h
  · exact loop_cols U text max text { st := st, resultEnd := resultStart st } (.idle (Nat.le_refl 0) h1 h2 rfl)
  · unfold scanNonAscii
    rw [hr]
    simp only
    cases text with
    | nil => rfl
    | cons b q =>
      have hl : ∀ L, loop U (b :: q) max (b :: q) L = (match step U (b :: q) max b L with | .stop L' => L' | .go L' => loop U (b :: q) max q L') :=
        fun _ => rfl
      have hstep : ∀ L : Loop, L.count = 0 → L.st = st → step U (b :: q) max b L =
          if isControl b || !isComplex b || (st.utf8.expectedLength == 0 && isC1 b) then .stop (atControl U (b :: q) L)
          else match fromUtf8 st.utf8 b with
          | (u, .incomplete) => .go (consume L u)
          | (u, .success cp) => onSuccess U (b :: q) max cp (consume L u)
          | (u, .invalid) => .go (onInvalid U (b :: q) (consume L u)) := by
        intro L h0 hs
        unfold step
        rw [if_neg (by omega), hs]
        rfl
      have hctl : ∀ L : Loop, L.st = st → L.input = 0 → L.clusterStart = 0 → L.events = [] → L.count = 0 →
          colsum (flush (b :: q) (atControl U (b :: q) L).input (atControl U (b :: q) L)).events = (atControl U (b :: q) L).count := by
        intro L h1 h2 h3 h4 h5
        unfold atControl
        simp only [h1, hidle, ne_eq, not_true_eq_false, if_false]
        rw [colsum_flush]
        unfold flush
        simp only [h2, h3, h4, h5, gt_iff_lt, Nat.lt_irrefl, if_false]
        rfl
      by_cases hstop : (isControl b || !isComplex b || (st.utf8.expectedLength == 0 && isC1 b)) = true
      · rw [hl, hstep _ rfl rfl, if_pos hstop]
        exact hctl _ rfl rfl rfl rfl rfl
      · have hcx : isComplex b = true := by
          cases hc : isComplex b with
          | true => rfl
          | false => rw [hc] at hstop; simp at hstop
        rcases h b q rfl hcx with h | h | ⟨bs, x, tl, he, hs, hbs, hbr⟩
        · exfalso
          rw [h, hidle] at hstop; simp at hstop
        · rw [hl, hstep _ rfl rfl, if_neg hstop]
          have h' := (fromUtf8_deq (a := st.utf8) (b := {}) (.inr ⟨hidle, rfl⟩) b (hb b (List.mem_cons_self ..))).1
          rw [h] at h'
          rcases hf : fromUtf8 st.utf8 b with ⟨u, r⟩
          rw [hf] at h'
          simp only at h'
          subst h'
          refine loop_cols U (b :: q) max q _ (.idle (Nat.zero_le _) rfl rfl rfl)
        · rw [he] at hb ⊢
          have hlead := single_lead bs x hs (fun y hy => ⟨hbs y hy, hb y (List.mem_append_left _ hy)⟩) st.utf8 hidle
          have := loop_first U (bs ++ tl) max 0 x tl bs hs.1 (fun y hy => ⟨hbs y hy, hb y (List.mem_append_left _ hy)⟩) st.utf8 0 st
            (.inr hlead.2) (by rw [hlead.1]; exact hs.2)
          rw [show ({ st := st, resultEnd := 0 } : Loop) = opening st st.utf8 0 0 from rfl, this,
            onSuccess_opening U _ max x st _ _ hbr]
          by_cases hw : (push U {} x).width > max
          · rw [if_pos hw]; rfl
          · rw [if_neg hw]
            simp only
            refine loop_cols U (bs ++ tl) max tl _ (.cluster ?_ rfl ?_)
            · show 0 + 0 < 0 + bs.length
              have := List.length_pos_iff.2 hs.1
              omega
            · show 0 + _ = _; simp

theorem Opens.ascii {U : Table} {st : State} {a : Nat} {t : List Nat} (ha : a ≠ 0)
    (h : ∀ b q, t = b :: q → isComplex b = true → isC1 b = true ∨ (fromUtf8 {} b).2 = .invalid ∨
      ∃ bs x tl, t = bs ++ tl ∧ Single bs x ∧ (∀ y ∈ bs, 0x80 ≤ y) ∧ (processBreakable U x (processInit U a)).2 = true) :
    Opens U (seed U st a) t := by
  intro b q hq hc
  rcases h b q hq hc with h | h | ⟨bs, x, tl, h1, h2, h3, h4⟩
  · exact .inl h
  · exact .inr (.inl h)
  · refine .inr (.inr ⟨bs, x, tl, h1, h2, h3, ?_⟩)
    unfold isBreakable
    rw [if_neg (show ¬ (seed U st a).hint = 0 from ha)]
    exact h4

/-- Nothing behind a printable ASCII character continues its cluster or is cut short. -/
def AsciiAlone (U : Table) (text : List Nat) : Prop :=
  ∀ p a t, text = p ++ a :: t → Props.Scan.Printable a →
    ∀ b q, t = b :: q → isComplex b = true → isC1 b = true ∨ (fromUtf8 {} b).2 = .invalid ∨
      ∃ bs x tl, t = bs ++ tl ∧ Single bs x ∧ (∀ y ∈ bs, 0x80 ≤ y) ∧ (processBreakable U x (processInit U a)).2 = true

theorem AsciiAlone.drop {U : Table} {text : List Nat} (h : AsciiAlone U text) (k : Nat) : AsciiAlone U (text.drop k) :=
  fun p a t he => h (text.take k ++ p) a t (by rw [List.append_assoc, ← he, List.take_append_drop])

theorem mainLoop_cols (U : Table) (v : Variant) (w max : Nat) (e : Int) (fuel : Nat) (complex : Bool) (text : List Nat)
    (hb : ∀ x ∈ text, x < 256) (ha : AsciiAlone U text) (base : Int) (he : e = base + text.length) (R : Out)
    (h : colsum R.events = R.count) (hi : R.st.utf8.expectedLength = 0 ∨ R.next = e)
    (hc : complex = true → (R.st.hint = 0 ∧ R.st.reported = 0) ∨ Opens U R.st text) :
    colsum (mainLoop U v w max e fuel complex text base R).events = (mainLoop U v w max e fuel complex text base R).count := by
  induction fuel generalizing complex text base R with
  | zero => exact h
  | succ fuel ih =>
    unfold mainLoop
    by_cases hgo : R.count < max ∧ R.next ≠ e
    · rw [if_pos hgo]
      have hidle : R.st.utf8.expectedLength = 0 := hi.resolve_right hgo.2
      cases complex with
      | true =>
        have hS := scanNonAscii_post U R.st text (max - R.count)
        have hT := scanNonAscii_cols U R.st hidle text hb (max - R.count) (hc rfl)
        have hr : resultStart R.st = 0 := by unfold resultStart; rw [if_neg (by simpa using hidle)]
        simp only [if_true]
        generalize scanNonAscii U R.st text (max - R.count) = S at hS hT
        rw [hr] at hS ⊢
        have hsum : colsum (R.events ++ S.events) = R.count + S.count := by rw [colsum_append, h, hT]
        split
        · exact hsum
        · have h1 := hS.hend
          have h2 := hS.hin
          have h3 := hS.hstart
          refine ih false _ (fun x hx => hb x (List.mem_of_mem_drop hx)) (ha.drop _) _ ?_ _ hsum ?_ (fun h => by cases h)
          · rw [List.length_drop, he]; omega
          · by_cases hlt : S.input < text.length
            · exact .inl (hS.hidle hlt)
            · right
              show base + (S.input : Int) = e
              rw [he]; omega
      | false =>
        simp only [Bool.false_eq_true, if_false]
        have hp := Props.Scan.C11_longest_prefix v w text hb (max - R.count)
        split
        · exact h
        · rename_i hn
          generalize scanAscii v w text (max - R.count) = n at hp hn
          have hle := hp.le_size
          have hlt : n - 1 < text.length := by omega
          have hget : text.getD (n - 1) 0 = text[n - 1] := by
            rw [List.getD_eq_getElem?_getD, List.getElem?_eq_getElem hlt, Option.getD_some]
          have hsplit : text = text.take (n - 1) ++ text[n - 1] :: text.drop n := by
            have h1 : text.drop (n - 1) = text[n - 1] :: text.drop (n - 1 + 1) := List.drop_eq_getElem_cons hlt
            rw [show n - 1 + 1 = n by omega] at h1
            rw [← h1, List.take_append_drop]
          have hmem : text[n - 1] ∈ text.take n := by
            have : (text.take n)[n - 1]'(by rw [List.length_take]; omega) = text[n - 1]'(by omega) := List.getElem_take ..
            rw [← this]
            exact List.getElem_mem _
          have hpr := hp.printable _ hmem
          refine ih true _ (fun x hx => hb x (List.mem_of_mem_drop hx)) (ha.drop _) _ ?_ _ ?_ (.inl hidle) (fun _ => .inr ?_)
          · rw [List.length_drop, he]; omega
          · show colsum (R.events ++ [.ascii (text.take n)]) = R.count + n
            rw [colsum_append, h]
            simp [colsum, Event.cols, hle]
          · show Opens U (seed U R.st (text.getD (n - 1) 0)) (text.drop n)
            rw [hget]
            refine Opens.ascii ?_ (ha _ _ _ hsplit hpr)
            have := hpr.1
            omega
    · rw [if_neg hgo]; exact h

end Verif.Scan
