import Verif.Lemmas.ScanCols
/-!
# Calls that resume a sequence
-/

namespace Verif.Scan
open Verif.Ucd Verif.Utf8 Verif.Grapheme Verif.Width

/-- `resultEnd` is still where it was, or lies in the text. -/
theorem step_resultEnd (U : Table) (text : List Nat) (max b : Nat) (L : Loop) (r0 : Int) (h : L.resultEnd = r0 ∨ 0 ≤ L.resultEnd) :
    (∀ L', step U text max b L = .go L' → L'.resultEnd = r0 ∨ 0 ≤ L'.resultEnd) ∧
    (∀ L', step U text max b L = .stop L' → L'.resultEnd = r0 ∨ 0 ≤ L'.resultEnd) := by
  have hpos : ∀ n : Nat, (n : Int) = r0 ∨ (0 : Int) ≤ n := fun n => .inr (by omega)
  unfold step
  by_cases h1 : L.count > max
  · rw [if_pos h1]
    exact ⟨fun L' h => (by cases h), fun L' he => by cases he; exact h⟩
  rw [if_neg h1]
  split
  · exact ⟨fun L' h => (by cases h), fun L' he => by cases he; exact hpos _⟩
  · rcases fromUtf8 L.st.utf8 b with ⟨u, r⟩
    cases r with
    | incomplete => exact ⟨fun L' he => (by cases he; exact h), fun L' h => by cases h⟩
    | invalid => exact ⟨fun L' he => (by cases he; exact h), fun L' h => by cases h⟩
    | success c =>
      simp only
      unfold onSuccess openCluster joinCluster
      simp only
      refine ⟨fun L' he => ?_, fun L' he => ?_⟩
      · repeat' split at he
        all_goals first
          | (simp only [reduceCtorEq] at he)
          | (cases he; exact hpos _)
      · repeat' split at he
        all_goals first
          | (simp only [reduceCtorEq] at he)
          | (cases he; first | exact h | exact hpos _)

theorem loop_resultEnd (U : Table) (text : List Nat) (max : Nat) (rest : List Nat) (L : Loop) (r0 : Int)
    (h : L.resultEnd = r0 ∨ 0 ≤ L.resultEnd) :
    (loop U text max rest L).resultEnd = r0 ∨ 0 ≤ (loop U text max rest L).resultEnd := by
  induction rest generalizing L with
  | nil => exact h
  | cons b rest ih =>
    have hl : loop U text max (b :: rest) L = (match step U text max b L with | .stop L' => L' | .go L' => loop U text max rest L') := rfl
    rw [hl]
    have hs := step_resultEnd U text max b L r0 h
    generalize step U text max b L = f at hs
    cases f with
    | stop L' => exact hs.2 L' rfl
    | go L' => exact ih L' (hs.1 L' rfl)

/-- Pointers only: invariant of the main loop for any base address. -/
structure PInv (max : Nat) (e lo : Int) (complex : Bool) (text : List Nat) (base : Int) (R : Out) : Prop where
  he : e = base + text.length
  hlo : lo ≤ base
  hfin : R.fin = base
  hnext : base ≤ R.next
  hend : R.next ≤ e
  hidle : R.next < e → R.st.utf8.expectedLength = 0
  hsync : complex = false → R.next = base ∨ R.next = e ∨ max ≤ R.count ∨ ∀ b, text[0]? = some b → isComplex b = true

structure PPost (e lo : Int) (R Q : Out) : Prop where
  hstart : Q.start = R.start
  hlo : lo ≤ Q.fin
  hend : Q.fin ≤ Q.next
  hnext : Q.next ≤ e
  hidle : Q.next < e → Q.st.utf8.expectedLength = 0

theorem mainLoop_ptr (U : Table) (v : Variant) (w max : Nat) (e lo : Int) (fuel : Nat) (complex : Bool) (text : List Nat)
    (hb : ∀ b ∈ text, b < 256) (base : Int) (R : Out) (h : PInv max e lo complex text base R) :
    PPost e lo R (mainLoop U v w max e fuel complex text base R) := by
  have hdone : ∀ (base : Int) (text : List Nat) (c : Bool) (R : Out), PInv max e lo c text base R → PPost e lo R R := fun base text c R h =>
    ⟨rfl, by rw [h.hfin]; exact h.hlo, by rw [h.hfin]; exact h.hnext, h.hend, h.hidle⟩
  induction fuel generalizing complex text base R with
  | zero => exact hdone _ _ _ _ h
  | succ fuel ih =>
    unfold mainLoop
    by_cases hgo : R.count < max ∧ R.next ≠ e
    · rw [if_pos hgo]
      have h1 := h.hend
      have h2 := h.hlo
      have h3 := h.he
      have h4 := h.hnext
      have hlt : R.next < e := by have := hgo.2; omega
      have hidle := h.hidle hlt
      cases complex with
      | true =>
        have hp := scanNonAscii_post U R.st text (max - R.count)
        have hr : resultStart R.st = 0 := by unfold resultStart; rw [if_neg (by simpa using hidle)]
        simp only [if_true, hr] at hp ⊢
        generalize scanNonAscii U R.st text (max - R.count) = S at hp
        have p1 := hp.hin
        have p2 := hp.hend
        have p3 := hp.hstart
        have hid : base + (S.input : Int) < e → S.st.utf8.expectedLength = 0 := fun hl => hp.hidle (by omega)
        split
        · exact ⟨rfl, by show lo ≤ base + S.resultEnd; omega, by show base + S.resultEnd ≤ base + S.input; omega,
            by show base + (S.input : Int) ≤ e; omega, hid⟩
        · have hk : S.resultEnd = ((S.resultEnd - 0).toNat : Int) := by omega
          generalize (S.resultEnd - 0).toNat = k at hk
          have := ih false (text.drop k) (fun b h => hb b (List.mem_of_mem_drop h)) (base + k)
            { R with count := R.count + S.count, fin := base + S.resultEnd, st := S.st, next := base + S.input, events := R.events ++ S.events } ?_
          · exact ⟨this.hstart, this.hlo, this.hend, this.hnext, this.hidle⟩
          · refine ⟨?_, by omega, by show base + S.resultEnd = base + k; omega, by show base + (k : Int) ≤ base + S.input; omega,
              by show base + (S.input : Int) ≤ e; omega, hid, fun _ => ?_⟩
            · rw [List.length_drop]; omega
            · show base + (S.input : Int) = base + k ∨ base + (S.input : Int) = e ∨ max ≤ R.count + S.count ∨ _
              rcases hp.hfront with hf | hf | hf | hf
              · right; left; omega
              · right; right; left; omega
              · left; omega
              · right; right; right
                intro b hb'
                refine hf b ?_
                rw [List.getElem?_drop] at hb'
                rw [hk]
                exact hb'
      | false =>
        simp only [Bool.false_eq_true, if_false]
        have hlp := Props.Scan.C11_longest_prefix v w text hb (max - R.count)
        split
        · exact hdone _ _ _ _ h
        · rename_i hn0
          have hni : R.next = base := by
            rcases h.hsync rfl with h | h | h | h
            · exact h
            · exact absurd h hgo.2
            · omega
            · exact absurd (scanAscii_complex v w text hb _ h) hn0
          generalize scanAscii v w text (max - R.count) = k at hlp hn0
          have l2 := hlp.le_size
          have hf := h.hfin
          have := ih true (text.drop k) (fun b h => hb b (List.mem_of_mem_drop h)) (base + k)
            { R with count := R.count + k, fin := R.fin + k, st := seed U R.st (text.getD (k - 1) 0), next := R.next + k,
                     events := R.events ++ [.ascii (text.take k)] } ?_
          · exact ⟨this.hstart, this.hlo, this.hend, this.hnext, this.hidle⟩
          · refine ⟨?_, by omega, by show R.fin + (k : Int) = base + k; omega, by show base + (k : Int) ≤ R.next + k; omega,
              by show R.next + (k : Int) ≤ e; omega, fun _ => hidle, fun h => by cases h⟩
            rw [List.length_drop]; omega
    · rw [if_neg hgo]; exact hdone _ _ _ _ h

/-- A call that resumes a sequence whose bytes lie directly in front of the text. -/
theorem scanText_ptr (U : Table) (v : Variant) (w : Nat) (st : State) (next : Option Int) (hp : st.utf8.expectedLength ≠ 0)
    (pre text : List Nat) (hb : ∀ b ∈ text, b < 256) (hpre : ∀ b ∈ pre, b < 256) (hk : 0 < st.utf8.currentLength)
    (hlen : st.utf8.currentLength ≤ pre.length)
    (hcx : ∀ b ∈ pre.drop (pre.length - st.utf8.currentLength), 0x80 ≤ b) (max : Nat) :
    ∃ R, scanText U v w st next pre text max = .ok R ∧ R.start = -(st.utf8.currentLength : Int) ∧
      R.start ≤ R.fin ∧ R.fin ≤ R.next ∧ R.next ≤ text.length ∧ (R.next < text.length → R.st.utf8.expectedLength = 0) := by
  have hS := scanNonAscii_post U st text max
  have hr : resultStart st = -(st.utf8.currentLength : Int) := by unfold resultStart; rw [if_pos hp]
  have hre : (scanNonAscii U st text max).resultEnd = -(st.utf8.currentLength : Int) ∨ 0 ≤ (scanNonAscii U st text max).resultEnd := by
    have := loop_resultEnd U text max text { st := st, resultEnd := resultStart st } _ (.inl rfl)
    rw [hr] at this
    rw [show (scanNonAscii U st text max).resultEnd = (loop U text max text { st := st, resultEnd := resultStart st }).resultEnd from rfl, hr]
    exact this
  unfold scanText
  simp only
  rw [if_pos hp, hr] at *
  generalize scanNonAscii U st text max = S at hS hre
  generalize st.utf8.currentLength = k at *
  have p1 := hS.hin
  have p2 := hS.hend
  have key : ∀ (c : Bool) (fuel : Nat) (t : List Nat), (∀ b ∈ t, b < 256) → (text.length : Int) = S.resultEnd + t.length →
      -(k : Int) ≤ S.resultEnd →
      (c = false → (S.input : Int) = S.resultEnd ∨ (S.input : Int) = text.length ∨ max ≤ S.count ∨ ∀ b, t[0]? = some b → isComplex b = true) →
      ∃ R, (Mem.ok (mainLoop U v w max text.length fuel c t S.resultEnd
          { count := S.count, start := -(k : Int), fin := S.resultEnd, st := S.st, next := S.input, events := S.events }) : Mem Out) = .ok R ∧
        R.start = -(k : Int) ∧ R.start ≤ R.fin ∧ R.fin ≤ R.next ∧ R.next ≤ text.length ∧ (R.next < text.length → R.st.utf8.expectedLength = 0) := by
    intro c fuel t ht he hlo hsync
    have := mainLoop_ptr U v w max text.length (-(k : Int)) fuel c t ht S.resultEnd
      { count := S.count, start := -(k : Int), fin := S.resultEnd, st := S.st, next := S.input, events := S.events }
      ⟨he, hlo, rfl, p2, by show (S.input : Int) ≤ text.length; omega,
        fun h => hS.hidle (by have h' : (S.input : Int) < text.length := h; omega), hsync⟩
    refine ⟨_, rfl, this.hstart, ?_, this.hend, this.hnext, this.hidle⟩
    rw [this.hstart]
    exact this.hlo
  have hdone : ∃ R, (Mem.ok ({ count := S.count, start := -(k : Int), fin := S.resultEnd, st := S.st, next := S.input, events := S.events } : Out)) = Mem.ok R ∧
      R.start = -(k : Int) ∧ R.start ≤ R.fin ∧ R.fin ≤ R.next ∧ R.next ≤ text.length ∧ (R.next < text.length → R.st.utf8.expectedLength = 0) :=
    ⟨_, rfl, rfl, by show -(k : Int) ≤ S.resultEnd; omega, p2, by show (S.input : Int) ≤ text.length; omega,
      fun h => hS.hidle (by have h' : (S.input : Int) < text.length := h; omega)⟩
  by_cases h0 : 0 ≤ S.resultEnd
  · rw [if_pos h0]
    rcases hd : text.drop S.resultEnd.toNat with _ | ⟨b, bs⟩
    · exact hdone
    · have hl := congrArg List.length hd
      rw [List.length_drop] at hl
      have hl' : 0 < (b :: bs).length := Nat.succ_pos _
      refine key _ _ _ (fun x hx => hb x (List.mem_of_mem_drop (hd ▸ hx))) (by omega) (by omega) ?_
      intro hc
      rcases hS.hfront with hf | hf | hf | hf
      · right; left; omega
      · right; right; left; omega
      · left; omega
      · exfalso
        have := hf b (by
          have h1 := congrArg (·[0]?) hd
          simpa using h1)
        rw [this] at hc
        cases hc
  · rw [if_neg h0]
    have hre' : S.resultEnd = -(k : Int) := hre.resolve_right h0
    have hab : S.resultEnd.natAbs = k := by omega
    rw [hab, if_pos hlen]
    rcases hd : pre.drop (pre.length - k) ++ text with _ | ⟨b, bs⟩
    · exact hdone
    · have hl := congrArg List.length hd
      rw [List.length_append, List.length_drop] at hl
      refine key _ _ _ (fun x hx => ?_) (by omega) (by omega) ?_
      · rw [← hd, List.mem_append] at hx
        rcases hx with hx | hx
        · exact hpre x (List.mem_of_mem_drop hx)
        · exact hb x hx
      · intro hc
        exfalso
        have hm : b ∈ pre.drop (pre.length - k) := by
          rcases hq : pre.drop (pre.length - k) with _ | ⟨y, ys⟩
          · have := congrArg List.length hq
            rw [List.length_drop] at this
            simp at this
            omega
          · rw [hq] at hd
            simp only [List.cons_append, List.cons.injEq] at hd
            rw [← hd.1]
            exact List.mem_cons_self ..
        have h1 := (Props.Scan.isComplex_iff b (hpre b (List.mem_of_mem_drop hm))).2 (hcx b hm)
        rw [h1] at hc
        cases hc

/-! ## Where the bytes of a pending sequence lie -/

/-- The last `k` bytes of `B` are not ASCII, and there are that many. -/
structure LastHigh (k : Nat) (B : List Nat) : Prop where
  pos : 0 < k
  le : k ≤ B.length
  high : ∀ b ∈ B.drop (B.length - k), 0x80 ≤ b

theorem LastHigh.snoc {k : Nat} {B : List Nat} (h : LastHigh k B) (b : Nat) (hb : 0x80 ≤ b) : LastHigh (k + 1) (B ++ [b]) := by
  refine ⟨Nat.succ_pos _, by rw [List.length_append]; have := h.le; simp; omega, ?_⟩
  have := h.le
  rw [List.length_append, List.length_singleton, show B.length + 1 - (k + 1) = B.length - k by omega,
    List.drop_append_of_le_length (by omega)]
  intro x hx
  rcases List.mem_append.1 hx with hx | hx
  · exact h.high x hx
  · simp at hx; omega

theorem LastHigh.one (B : List Nat) (b : Nat) (hb : 0x80 ≤ b) : LastHigh 1 (B ++ [b]) := by
  refine ⟨Nat.one_pos, by simp, ?_⟩
  intro x hx
  simp at hx
  omega

theorem LastHigh.suffix {k : Nat} {B p : List Nat} (h : LastHigh k B) : LastHigh k (p ++ B) := by
  have := h.le
  refine ⟨h.pos, by rw [List.length_append]; omega, ?_⟩
  rw [List.length_append, show p.length + B.length - k = p.length + (B.length - k) by omega, ← List.drop_drop, List.drop_left]
  exact h.high

theorem incomplete_len (s u : DecState) (b : Nat) (h : fromUtf8 s b = (u, .incomplete)) :
    (s.expectedLength = 0 ∧ u.currentLength = 1) ∨ (s.expectedLength ≠ 0 ∧ u.currentLength = s.currentLength + 1) := by
  unfold fromUtf8 startByte finish at h
  split at h
  · rename_i h0
    left
    refine ⟨h0, ?_⟩
    repeat' split at h
    all_goals first
      | (simp only [Prod.mk.injEq, reduceCtorEq, and_false] at h; done)
      | (obtain ⟨rfl, _⟩ := Prod.mk.inj h; rfl)
  · rename_i h0
    right
    refine ⟨h0, ?_⟩
    repeat' split at h
    all_goals first
      | (simp only [Prod.mk.injEq, reduceCtorEq, and_false] at h; done)
      | (obtain ⟨rfl, _⟩ := Prod.mk.inj h; rfl)

theorem onSuccess_idle (U : Table) (text : List Nat) (max c : Nat) (L : Loop) (h : L.st.utf8.expectedLength = 0) :
    (∀ L', onSuccess U text max c L = .go L' → L'.st.utf8.expectedLength = 0) ∧
    (∀ L', onSuccess U text max c L = .stop L' → L'.st.utf8.expectedLength = 0) := by
  unfold onSuccess openCluster joinCluster
  simp only
  refine ⟨fun L' he => ?_, fun L' he => ?_⟩
  · repeat' split at he
    all_goals first
      | (simp only [reduceCtorEq] at he)
      | (cases he; exact h)
  · repeat' split at he
    all_goals first
      | (simp only [reduceCtorEq] at he)
      | (cases he; exact h)

theorem onSuccess_input (U : Table) (text : List Nat) (max c : Nat) (L : Loop) :
    ∀ L', onSuccess U text max c L = .go L' → L'.input = L.input := by
  unfold onSuccess openCluster joinCluster
  simp only
  intro L' he
  repeat' split at he
  all_goals first
    | (simp only [reduceCtorEq] at he)
    | (cases he; rfl)

theorem loop_pend (U : Table) (pre text : List Nat) (hb : ∀ b ∈ text, b < 256) (max : Nat) (rest : List Nat) (L : Loop)
    (hrest : rest = text.drop L.input) (h : L.st.utf8.expectedLength ≠ 0 → LastHigh L.st.utf8.currentLength (pre ++ text.take L.input)) :
    (loop U text max rest L).st.utf8.expectedLength ≠ 0 →
      LastHigh (loop U text max rest L).st.utf8.currentLength (pre ++ text.take (loop U text max rest L).input) := by
  induction rest generalizing L with
  | nil => exact h
  | cons b rest ih =>
    have hget : text[L.input]? = some b := by
      have := congrArg (·[0]?) hrest
      simpa using this.symm
    obtain ⟨hlt, hbe⟩ := List.getElem?_eq_some_iff.1 hget
    have htake : text.take (L.input + 1) = text.take L.input ++ [b] := by rw [List.take_add_one, hget]; rfl
    have hrest' : rest = text.drop (L.input + 1) := by
      have := congrArg List.tail hrest
      rw [List.tail_drop] at this
      simpa using this
    have hl : loop U text max (b :: rest) L = (match step U text max b L with | .stop L' => L' | .go L' => loop U text max rest L') := rfl
    rw [hl]
    unfold step
    by_cases h1 : L.count > max
    · rw [if_pos h1]; exact h
    rw [if_neg h1]
    by_cases h2 : (isControl b || !isComplex b || (L.st.utf8.expectedLength == 0 && isC1 b)) = true
    · rw [if_pos h2]
      intro hp
      exfalso
      refine hp ?_
      show (atControl U text L).st.utf8.expectedLength = 0
      unfold atControl
      simp only
      split
      · rfl
      · rename_i hn; simpa using hn
    rw [if_neg h2]
    have hcx : isComplex b = true := by
      cases hc : isComplex b with
      | true => rfl
      | false => rw [hc] at h2; simp at h2
    have hb80 : 0x80 ≤ b := (Props.Scan.isComplex_iff b (hb b (hbe ▸ List.getElem_mem _))).1 hcx
    rcases hf : fromUtf8 L.st.utf8 b with ⟨u, r⟩
    cases r with
    | incomplete =>
      refine ih (consume L u) hrest' ?_
      intro _
      show LastHigh u.currentLength (pre ++ text.take (L.input + 1))
      rw [htake, ← List.append_assoc]
      rcases incomplete_len _ _ _ hf with ⟨_, h4⟩ | ⟨h3, h4⟩
      · rw [h4]; exact LastHigh.one _ b hb80
      · rw [h4]; exact (h h3).snoc b hb80
    | invalid => exact ih (onInvalid U text (consume L u)) hrest' (fun h => absurd rfl h)
    | success c =>
      have hidle : (consume L u).st.utf8.expectedLength = 0 := fromUtf8_success_idle _ _ _ _ hf
      have ho := onSuccess_idle U text max c (consume L u) hidle
      have hi := onSuccess_input U text max c (consume L u)
      simp only
      generalize onSuccess U text max c (consume L u) = f at ho hi
      cases f with
      | stop L' => exact fun hp => absurd (ho.2 L' rfl) hp
      | go L' =>
        refine ih L' ?_ (fun hp => absurd (ho.1 L' rfl) hp)
        rw [hi L' rfl]
        exact hrest'

theorem scanNonAscii_pend (U : Table) (st : State) (pre text : List Nat) (hb : ∀ b ∈ text, b < 256) (max : Nat)
    (h : st.utf8.expectedLength ≠ 0 → LastHigh st.utf8.currentLength pre) :
    (scanNonAscii U st text max).st.utf8.expectedLength ≠ 0 →
      LastHigh (scanNonAscii U st text max).st.utf8.currentLength (pre ++ text) := by
  intro hp
  have h1 := loop_pend U pre text hb max text { st := st, resultEnd := resultStart st } rfl (by simpa using h) hp
  have hS := scanNonAscii_post U st text max
  have hin : (scanNonAscii U st text max).input = text.length := by
    by_contra hne
    exact hp (hS.hidle (by have := hS.hin; omega))
  have hin' : (loop U text max text { st := st, resultEnd := resultStart st }).input = text.length := hin
  rw [hin', List.take_length] at h1
  exact h1

theorem mainLoop_pend (U : Table) (v : Variant) (w max : Nat) (e : Int) (B : List Nat) (fuel : Nat) (complex : Bool) (text : List Nat)
    (hb : ∀ b ∈ text, b < 256) (p : List Nat) (hB : B = p ++ text) (base : Int) (he : e = base + text.length) (R : Out)
    (hi : R.st.utf8.expectedLength = 0 ∨ R.next = e)
    (h : R.st.utf8.expectedLength ≠ 0 → LastHigh R.st.utf8.currentLength B) :
    (mainLoop U v w max e fuel complex text base R).st.utf8.expectedLength ≠ 0 →
      LastHigh (mainLoop U v w max e fuel complex text base R).st.utf8.currentLength B := by
  induction fuel generalizing complex text base R p with
  | zero => exact h
  | succ fuel ih =>
    unfold mainLoop
    by_cases hgo : R.count < max ∧ R.next ≠ e
    · rw [if_pos hgo]
      have hidle : R.st.utf8.expectedLength = 0 := hi.resolve_right hgo.2
      cases complex with
      | true =>
        have hS := scanNonAscii_post U R.st text (max - R.count)
        have hpend := scanNonAscii_pend U R.st [] text hb (max - R.count) (fun h => absurd hidle h)
        have hr : resultStart R.st = 0 := by unfold resultStart; rw [if_neg (by simpa using hidle)]
        simp only [if_true]
        generalize scanNonAscii U R.st text (max - R.count) = S at hS hpend
        rw [hr] at hS ⊢
        have hpB : S.st.utf8.expectedLength ≠ 0 → LastHigh S.st.utf8.currentLength B := fun hp => by
          rw [hB]; exact (hpend hp).suffix
        split
        · exact hpB
        · have h1 := hS.hend
          have h2 := hS.hin
          have h3 := hS.hstart
          have hk : S.resultEnd = ((S.resultEnd - 0).toNat : Int) := by omega
          generalize (S.resultEnd - 0).toNat = k at hk
          refine ih false (text.drop k) (fun x hx => hb x (List.mem_of_mem_drop hx)) (p ++ text.take k)
            (by rw [List.append_assoc, List.take_append_drop, hB]) _ ?_ _ ?_ hpB
          · rw [List.length_drop, he]; omega
          · by_cases hlt : S.input < text.length
            · exact .inl (hS.hidle hlt)
            · right
              show base + (S.input : Int) = e
              rw [he]; omega
      | false =>
        simp only [Bool.false_eq_true, if_false]
        have hp := Props.Scan.C11_longest_prefix v w text hb (max - R.count)
        split
        · exact h
        · rename_i hn
          generalize scanAscii v w text (max - R.count) = n at hp hn
          have hle := hp.le_size
          refine ih true _ (fun x hx => hb x (List.mem_of_mem_drop hx)) (p ++ text.take n)
            (by rw [List.append_assoc, List.take_append_drop, hB]) _ ?_ _ (.inl hidle) (fun h => absurd hidle h)
          rw [List.length_drop, he]; omega
    · rw [if_neg hgo]; exact h

/-- The bytes of a sequence that a call leaves pending are the last bytes of the buffer. -/
theorem scanText_pend (U : Table) (v : Variant) (w : Nat) (st : State) (next : Option Int) (pre text : List Nat)
    (hb : ∀ b ∈ text, b < 256) (hpre : ∀ b ∈ pre, b < 256)
    (h : st.utf8.expectedLength ≠ 0 → LastHigh st.utf8.currentLength pre) (max : Nat) (R : Out)
    (hR : scanText U v w st next pre text max = .ok R) :
    R.st.utf8.expectedLength ≠ 0 → LastHigh R.st.utf8.currentLength (pre ++ text) := by
  unfold scanText at hR
  simp only at hR
  by_cases hp : st.utf8.expectedLength ≠ 0
  · rw [if_pos hp] at hR
    have hS := scanNonAscii_post U st text max
    have hpend := scanNonAscii_pend U st pre text hb max h
    generalize scanNonAscii U st text max = S at hS hR hpend
    have h2 := hS.hin
    have h1 := hS.hend
    have hi : S.st.utf8.expectedLength = 0 ∨ (S.input : Int) = text.length := by
      by_cases hlt : S.input < text.length
      · exact .inl (hS.hidle hlt)
      · right; omega
    by_cases h0 : 0 ≤ S.resultEnd
    · rw [if_pos h0] at hR
      rcases hd : text.drop S.resultEnd.toNat with _ | ⟨b, bs⟩
      · rw [hd] at hR; cases hR; exact hpend
      · rw [hd] at hR
        cases hR
        have hl := congrArg List.length hd
        rw [List.length_drop] at hl
        have hl' : 0 < (b :: bs).length := Nat.succ_pos _
        refine mainLoop_pend U v w max _ _ _ _ _ (fun x hx => hb x (List.mem_of_mem_drop (hd ▸ hx))) (pre ++ text.take S.resultEnd.toNat) ?_ _
          (by omega) _ hi hpend
        rw [← hd, List.append_assoc, List.take_append_drop]
    · rw [if_neg h0] at hR
      by_cases hle : S.resultEnd.natAbs ≤ pre.length
      · rw [if_pos hle] at hR
        rcases hd : pre.drop (pre.length - S.resultEnd.natAbs) ++ text with _ | ⟨b, bs⟩
        · rw [hd] at hR; cases hR; exact hpend
        · rw [hd] at hR
          cases hR
          have hl := congrArg List.length hd
          rw [List.length_append, List.length_drop] at hl
          refine mainLoop_pend U v w max _ _ _ _ _ (fun x hx => ?_) (pre.take (pre.length - S.resultEnd.natAbs)) ?_ _ (by omega) _ hi hpend
          · rw [← hd, List.mem_append] at hx
            rcases hx with hx | hx
            · exact hpre x (List.mem_of_mem_drop hx)
            · exact hb x hx
          · rw [← hd, ← List.append_assoc, List.take_append_drop]
      · rw [if_neg hle] at hR
        cases hR
  · rw [if_neg hp] at hR
    have hidle : st.utf8.expectedLength = 0 := by simpa using hp
    cases text with
    | nil => cases hR; exact fun h => absurd hidle h
    | cons b bs =>
      cases hR
      exact mainLoop_pend U v w max _ _ _ _ _ hb pre rfl 0 (by simp) _ (.inl hidle) (fun h => absurd hidle h)

/-! ## The width of the open cluster -/

theorem onSuccess_sinv {U : Table} (hw : ∀ c, (U c).charWidth ≤ 2) (text : List Nat) (max c : Nat) (L : Loop) (h : SInv L.st) :
    (∀ L', onSuccess U text max c L = .go L' → SInv L'.st) ∧ (∀ L', onSuccess U text max c L = .stop L' → SInv L'.st) := by
  have h0 : (0:Int) ≤ ({} : Acc).current ∧ ({} : Acc).current ≤ 2 := by simp
  have ho := push_cur hw {} c h0
  have hj := push_cur hw L.st.acc c h.cur
  unfold onSuccess openCluster joinCluster
  simp only
  refine ⟨fun L' he => ?_, fun L' he => ?_⟩
  · repeat' split at he
    all_goals first
      | (simp only [reduceCtorEq] at he)
      | (cases he; exact ⟨ho, Nat.le_succ _⟩)
      | (cases he; exact ⟨hj, Nat.le_succ _⟩)
  · repeat' split at he
    all_goals first
      | (simp only [reduceCtorEq] at he)
      | (cases he; exact ⟨h.cur, h.rep⟩)
      | (cases he; exact ⟨h0, Nat.zero_le _⟩)

theorem loop_sinv {U : Table} (hw : ∀ c, (U c).charWidth ≤ 2) (text : List Nat) (max : Nat) (rest : List Nat) (L : Loop) (h : SInv L.st) :
    SInv (loop U text max rest L).st := by
  have h0 : ∀ (u : DecState) (g : GState), SInv { utf8 := u, hint := 0, g := g, acc := {}, reported := 0 } := fun u g =>
    ⟨by simp, by simp [Acc.width]⟩
  induction rest generalizing L with
  | nil => exact h
  | cons b rest ih =>
    have hl : loop U text max (b :: rest) L = (match step U text max b L with | .stop L' => L' | .go L' => loop U text max rest L') := rfl
    rw [hl]
    unfold step
    by_cases h1 : L.count > max
    · rw [if_pos h1]; exact h
    rw [if_neg h1]
    split
    · rename_i heq
      split at heq
      · cases heq; exact h0 _ _
      · rcases hf : fromUtf8 L.st.utf8 b with ⟨u, r⟩
        rw [hf] at heq
        cases r with
        | incomplete => cases heq
        | invalid => cases heq
        | success c => exact (onSuccess_sinv hw text max c (consume L u) ⟨h.cur, h.rep⟩).2 _ heq
    · rename_i heq
      split at heq
      · cases heq
      · rcases hf : fromUtf8 L.st.utf8 b with ⟨u, r⟩
        rw [hf] at heq
        cases r with
        | incomplete => cases heq; exact ih _ ⟨h.cur, h.rep⟩
        | invalid => cases heq; exact ih _ (h0 _ _)
        | success c => exact ih _ ((onSuccess_sinv hw text max c (consume L u) ⟨h.cur, h.rep⟩).1 _ heq)

theorem mainLoop_sinv {U : Table} (hw : ∀ c, (U c).charWidth ≤ 2) (v : Variant) (w max : Nat) (e : Int) (fuel : Nat) (complex : Bool)
    (text : List Nat) (base : Int) (R : Out) (h : SInv R.st) : SInv (mainLoop U v w max e fuel complex text base R).st := by
  have h0 : (0:Int) ≤ ({} : Acc).current ∧ ({} : Acc).current ≤ 2 := by simp
  induction fuel generalizing complex text base R with
  | zero => exact h
  | succ fuel ih =>
    unfold mainLoop
    split
    · split
      · have hs : SInv (scanNonAscii U R.st text (max - R.count)).st := loop_sinv hw text _ text { st := R.st, resultEnd := resultStart R.st } h
        simp only
        generalize scanNonAscii U R.st text (max - R.count) = S at hs
        split
        · exact hs
        · exact ih _ _ _ _ hs
      · simp only
        split
        · exact h
        · refine ih _ _ _ _ ⟨push_cur hw {} _ h0, ?_⟩
          show (push U {} _).width ≤ 1 + 1
          exact push_fresh_width hw _
    · exact h

theorem scanText_sinv {U : Table} (hw : ∀ c, (U c).charWidth ≤ 2) (v : Variant) (w : Nat) (st : State) (next : Option Int)
    (pre text : List Nat) (max : Nat) (h : SInv st) (R : Out) (hR : scanText U v w st next pre text max = .ok R) : SInv R.st := by
  have hs : SInv (scanNonAscii U st text max).st := loop_sinv hw text max text { st := st, resultEnd := resultStart st } h
  unfold scanText at hR
  simp only at hR
  repeat' split at hR
  all_goals cases hR
  all_goals first
    | exact hs
    | exact h
    | exact mainLoop_sinv hw _ _ _ _ _ _ _ _ _ hs
    | exact mainLoop_sinv hw _ _ _ _ _ _ _ _ _ h

/-! ## A resumed pass without invalid sequences -/

theorem measureCp_le {U : Table} (hw : ∀ c, (U c).charWidth ≤ 2) (s : Acc) (c : Nat) (h : 0 ≤ s.current ∧ s.current ≤ 2) :
    (measureCp U c s).total + (measureCp U c s).current ≤ s.total + s.current + 2 := by
  have hwc := hw c
  unfold measureCp
  split
  · simp only
    split
    · omega
    · split <;> omega
  · split
    · simp only; omega
    · split <;> simp only <;> omega

theorem push_width_le {U : Table} (hw : ∀ c, (U c).charWidth ≤ 2) (s : Acc) (c : Nat) (h : 0 ≤ s.current ∧ s.current ≤ 2) :
    (push U s c).width ≤ s.width + 2 := by
  by_cases hc : c = 0xFE0E
  · have hp : (push U s c).total + (push U s c).current ≤ s.total + s.current + 2 := by
      unfold push push'
      simp only
      split
      · simp only; omega
      rw [if_neg (by omega), if_neg (by omega)]
      split
      · simp only; split <;> omega
      split
      · simp only; omega
      rw [if_neg (by omega)]
      exact measureCp_le hw _ c h
    unfold Acc.width
    split <;> split <;> omega
  · exact (push_width_mono hw s c hc h).2

theorem fromUtf8_incomplete_pending {s u : DecState} {b : Nat} (h : fromUtf8 s b = (u, .incomplete)) : u.expectedLength ≠ 0 := by
  unfold fromUtf8 startByte finish at h
  repeat' split at h
  all_goals first | (simp only [Prod.mk.injEq, reduceCtorEq, and_false] at h) | skip
  all_goals (obtain ⟨rfl, _⟩ := h; first | exact Nat.succ_ne_zero _ | assumption)

theorem mainLoop_mem (U : Table) (v : Variant) (w max : Nat) (e : Int) (fuel : Nat) (complex : Bool) (text : List Nat)
    (base : Int) (R : Out) {x : Event} (h : x ∈ R.events) : x ∈ (mainLoop U v w max e fuel complex text base R).events := by
  induction fuel generalizing complex text base R with
  | zero => exact h
  | succ fuel ih =>
    unfold mainLoop
    simp only
    split
    · split
      · split
        · exact List.mem_append.2 (.inl h)
        · exact ih _ _ _ _ (List.mem_append.2 (.inl h))
      · split
        · exact h
        · exact ih _ _ _ _ (List.mem_append.2 (.inl h))
    · exact h

/-- Within the loop of a resumed call: something invalid has been seen, or the pending sequence is still pending, or the
reported end keeps up with the input. -/
def RInv (L : Loop) : Prop :=
  .invalid ∈ L.events ∨ (L.count = 0 ∧ L.st.utf8.expectedLength ≠ 0 ∧ SInv L.st) ∨
    (0 ≤ L.resultEnd ∧ L.resultEnd + L.byteCount = L.input)

def RPost (text : List Nat) (L : Loop) : Prop :=
  .invalid ∈ L.events ∨ L.input = text.length ∨ L.resultEnd = L.input

theorem flush_mem {text : List Nat} {e : Nat} {L : Loop} {x : Event} (h : x ∈ L.events) : x ∈ (flush text e L).events := by
  unfold flush
  simp only
  split
  · exact List.mem_append.2 (.inl h)
  · exact h

theorem onSuccess_mem {U : Table} {text : List Nat} {max c : Nat} {L : Loop} (h : Event.invalid ∈ L.events) :
    (∀ L', onSuccess U text max c L = .go L' → .invalid ∈ L'.events) ∧ (∀ L', onSuccess U text max c L = .stop L' → .invalid ∈ L'.events) := by
  unfold onSuccess openCluster joinCluster
  simp only
  refine ⟨fun L' he => ?_, fun L' he => ?_⟩
  · repeat' split at he
    all_goals first
      | (simp only [reduceCtorEq] at he)
      | (cases he; exact flush_mem h)
      | (cases he; exact h)
  · repeat' split at he
    all_goals first
      | (simp only [reduceCtorEq] at he)
      | (cases he; exact h)

theorem step_mem {U : Table} {text : List Nat} {max b : Nat} {L : Loop} (h : Event.invalid ∈ L.events) :
    (∀ L', step U text max b L = .go L' → .invalid ∈ L'.events) ∧ (∀ L', step U text max b L = .stop L' → .invalid ∈ L'.events) := by
  unfold step
  by_cases h1 : L.count > max
  · rw [if_pos h1]
    exact ⟨fun L' he => (by cases he), fun L' he => (by cases he; exact h)⟩
  rw [if_neg h1]
  split
  · refine ⟨fun L' he => (by cases he), fun L' he => ?_⟩
    cases he
    show Event.invalid ∈ (if _ then _ else _)
    split
    · exact List.mem_append.2 (.inr (List.mem_singleton.2 rfl))
    · exact flush_mem h
  · rcases hf : fromUtf8 L.st.utf8 b with ⟨u, r⟩
    cases r with
    | incomplete => exact ⟨fun L' he => (by cases he; exact h), fun L' he => (by cases he)⟩
    | invalid => exact ⟨fun L' he => (by cases he; exact List.mem_append.2 (.inr (List.mem_singleton.2 rfl))), fun L' he => (by cases he)⟩
    | success c => exact onSuccess_mem (L := consume L u) h

theorem step_rinv {U : Table} (hw : ∀ c, (U c).charWidth ≤ 2) (text : List Nat) (max b : Nat) (h3 : 3 ≤ max) (r0 : Int) (L : Loop)
    (hi : LInv text max r0 L) (h : RInv L) :
    (∀ L', step U text max b L = .go L' → RInv L') ∧ (∀ L', step U text max b L = .stop L' → RPost text L') := by
  by_cases hinv : Event.invalid ∈ L.events
  · exact ⟨fun L' he => .inl ((step_mem hinv).1 L' he), fun L' he => .inl ((step_mem hinv).2 L' he)⟩
  have hcnt := hi.hvalid hinv
  have hcs := hi.hcs
  unfold step
  rw [if_neg (by omega)]
  split
  · refine ⟨fun L' he => (by cases he), fun L' he => ?_⟩
    cases he
    exact .inr (.inr rfl)
  · rcases hf : fromUtf8 L.st.utf8 b with ⟨u, r⟩
    cases r with
    | incomplete =>
      refine ⟨fun L' he => ?_, fun L' he => (by cases he)⟩
      cases he
      rcases h with h | ⟨g1, g2, g3⟩ | ⟨g1, g2⟩
      · exact absurd h hinv
      · refine .inr (.inl ⟨g1, ?_, ⟨g3.cur, g3.rep⟩⟩)
        exact fromUtf8_incomplete_pending hf
      · refine .inr (.inr ⟨g1, ?_⟩)
        show L.resultEnd + ((L.byteCount + 1 : Nat) : Int) = ((L.input + 1 : Nat) : Int)
        omega
    | invalid =>
      exact ⟨fun L' he => (by cases he; exact .inl (List.mem_append.2 (.inr (List.mem_singleton.2 rfl)))), fun L' he => (by cases he)⟩
    | success c =>
      simp only
      have hkeep : ∀ (x : Int) (n : Nat), x = n → 0 ≤ x ∧ x + ((0 : Nat) : Int) = n := by intros; omega
      refine ⟨fun L' he => ?_, fun L' he => ?_⟩
      · right; right
        unfold onSuccess openCluster joinCluster at he
        simp only at he
        repeat' split at he
        all_goals first
          | (simp only [reduceCtorEq] at he)
          | (cases he; exact hkeep _ _ rfl)
      · rcases h with h | ⟨g1, g2, g3⟩ | ⟨g1, g2⟩
        · exact absurd h hinv
        · exfalso
          have hf1 := push_fresh_width hw c
          have hf2 := push_width_le hw L.st.acc c g3.cur
          have hf3 := g3.rep
          unfold onSuccess openCluster joinCluster consume at he
          simp only at he
          repeat' split at he
          all_goals first
            | (simp only [reduceCtorEq] at he)
            | omega
        · unfold onSuccess openCluster joinCluster consume at he
          simp only at he
          repeat' split at he
          all_goals first
            | (simp only [reduceCtorEq] at he)
            | (cases he; right; right; show L.resultEnd = ((L.input + 1 - (L.byteCount + 1) : Nat) : Int); omega)
            | (cases he; right; right; rfl)

theorem loop_rinv {U : Table} (hw : ∀ c, (U c).charWidth ≤ 2) (text : List Nat) (max : Nat) (h3 : 3 ≤ max) (r0 : Int) (hr0 : r0 ≤ 0)
    (rest : List Nat) (L : Loop) (hi : LInv text max r0 L) (hrest : rest = text.drop L.input) (h : RInv L) :
    RPost text (loop U text max rest L) := by
  induction rest generalizing L with
  | nil =>
    have h1 := List.drop_eq_nil_iff.1 hrest.symm
    have := hi.hin
    exact .inr (.inl (by show L.input = _; omega))
  | cons b rest ih =>
    have hb : text[L.input]? = some b := by
      have : (text.drop L.input)[0]? = some b := by rw [← hrest]; rfl
      rw [List.getElem?_drop] at this
      exact this
    obtain ⟨h1, h2⟩ := step_inv U text max r0 hr0 b L hi hb
    obtain ⟨g1, g2⟩ := step_rinv (b := b) hw text max h3 r0 L hi h
    unfold loop
    cases hs : step U text max b L with
    | stop L' => exact g2 L' hs
    | go L' =>
      obtain ⟨h3', h4⟩ := h1 L' hs
      refine ih L' h3' ?_ (g1 L' hs)
      rw [h4, ← List.drop_drop, ← hrest]
      rfl

theorem scanNonAscii_rpost {U : Table} (hw : ∀ c, (U c).charWidth ≤ 2) (st : State) (hp : st.utf8.expectedLength ≠ 0) (hs : SInv st)
    (text : List Nat) (max : Nat) (h3 : 3 ≤ max) (hno : .invalid ∉ (scanNonAscii U st text max).events) :
    (scanNonAscii U st text max).input = text.length ∨
      (scanNonAscii U st text max).resultEnd = (scanNonAscii U st text max).input := by
  have h := loop_rinv hw text max h3 (resultStart st) (resultStart_le st) text { st := st, resultEnd := resultStart st }
    ⟨Nat.zero_le _, Nat.le_refl _, Nat.le_refl _, by have := resultStart_le st; simpa using this, Int.le_refl _, rfl,
      Nat.zero_le _, fun _ => Nat.zero_le _, fun h => absurd h (Nat.not_lt_zero _), fun i hi => absurd hi (Nat.not_lt_zero _)⟩ rfl
    (.inr (.inl ⟨rfl, hp, hs⟩))
  rcases h with h | h | h
  · exact absurd (flush_mem h) hno
  · exact .inl h
  · exact .inr h

theorem mainLoop_start (U : Table) (v : Variant) (w max : Nat) (e : Int) (fuel : Nat) (complex : Bool) (text : List Nat)
    (base : Int) (R : Out) (s : Int) :
    mainLoop U v w max e fuel complex text base { R with start := s } =
      { mainLoop U v w max e fuel complex text base R with start := s } := by
  induction fuel generalizing complex text base R with
  | zero => rfl
  | succ fuel ih =>
    unfold mainLoop
    simp only
    split
    · split
      · split
        · rfl
        · rw [← ih]
      · split
        · rfl
        · rw [← ih]
    · rfl

theorem scanText_resumed_slices {U : Table} (hw : ∀ c, (U c).charWidth ≤ 2) (v : Variant) (w : Nat) (st : State) (next : Option Int)
    (hp : st.utf8.expectedLength ≠ 0) (hs : SInv st) (pre text : List Nat) (hb : ∀ b ∈ text, b < 256) (max : Nat) (h3 : 3 ≤ max)
    (R : Out) (hR : scanText U v w st next pre text max = .ok R) (hno : .invalid ∉ R.events) :
    slices R.events = text.take R.next.toNat ∧ R.count ≤ max := by
  have hsp := scanNonAscii_post U st text max
  have hrp := scanNonAscii_rpost hw st hp hs text max h3
  unfold scanText at hR
  simp only at hR
  rw [if_pos hp] at hR
  generalize scanNonAscii U st text max = S at *
  have hev : .invalid ∉ S.events → (S.input = text.length ∨ S.resultEnd = S.input) := hrp
  have hnoS : .invalid ∉ S.events := by
    intro h
    apply hno
    repeat' split at hR
    all_goals cases hR
    all_goals first
      | exact h
      | exact mainLoop_mem _ _ _ _ _ _ _ _ _ _ h
  rcases hev hnoS with h | h
  · have : R = { count := S.count, start := resultStart st, fin := S.resultEnd, st := S.st, next := S.input, events := S.events } := by
      repeat' split at hR
      all_goals cases hR
      all_goals first
        | rfl
        | exact mainLoop_done _ _ _ _ _ _ _ _ _ _ (by show ((S.input : Nat) : Int) = text.length; omega)
    rw [this]
    exact ⟨hsp.hslices, hsp.hvalid hnoS⟩
  · rw [if_pos (by omega)] at hR
    have hto : S.resultEnd.toNat = S.input := by omega
    rw [hto] at hR
    split at hR
    · cases hR
      exact ⟨hsp.hslices, hsp.hvalid hnoS⟩
    · rename_i b bs hd
      cases hR
      have hm := mainLoop_start U v w max text.length (text.length + 1) (isComplex b) (b :: bs) S.resultEnd
        { count := S.count, start := 0, fin := S.resultEnd, st := S.st, next := S.input, events := S.events } (resultStart st)
      simp only at hm
      rw [hm] at hno ⊢
      have := mainLoop_post U v w max text hb (text.length + 1) (isComplex b) S.input S.input
        { count := S.count, start := 0, fin := S.resultEnd, st := S.st, next := S.input, events := S.events }
        ⟨Nat.le_refl _, hsp.hin, rfl, h, rfl, hsp.hslices, .inl rfl, hsp.hidle, hsp.hmax, hsp.hvalid⟩
      rw [hd] at this
      rw [h] at this hno ⊢
      exact ⟨this.hslices, this.hvalid hno⟩

end Verif.Scan
