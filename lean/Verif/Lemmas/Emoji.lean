import Verif.Model.Emoji
import Verif.Spec.Emoji

namespace Verif.Emoji
open Verif.Spec.Emoji

/-! ## The automaton, abstractly -/

/-- One step of the scanner automaton: dead end, a token ends here, or on to a state (with the token label if the
text read so far is a token). -/
inductive Next where
  | dead
  | final (e : Bool)
  | go (q : Nat) (l : Option Bool)
deriving DecidableEq, Repr

def delta (q : Nat) (c : Int) : Next :=
  match q with
  | 2 => if c = 0 ∨ c = 1 then .go 3 (some false) else if c = 2 then .go 3 (some true)
         else if c = 3 then .go 7 (some true) else if c = 6 then .go 8 (some false)
         else if c = 7 then .go 9 (some false) else if c = 13 then .go 11 (some true) else .final false
  | 3 => if c = 9 then .final true else if c = 10 then .go 0 none else if c = 11 then .final false
         else if c = 12 then .go 5 (some true) else .dead
  | 0 => if c = 3 then .go 6 (some true) else if c = 7 ∨ c = 13 ∨ c = 0 ∨ c = 1 ∨ c = 2 then .go 4 (some true)
         else .dead
  | 4 => if c = 10 then .go 0 none else if c = 12 then .go 5 (some true) else .dead
  | 5 => if c = 10 then .go 0 none else .dead
  | 6 => if c = 4 ∨ c = 12 then .go 5 (some true) else if c = 10 then .go 0 none else .dead
  | 7 => if c = 4 ∨ c = 12 then .go 5 (some true) else if c = 9 then .final true
         else if c = 10 then .go 0 none else if c = 11 then .final false else .dead
  | 8 => if c = 6 then .final true else .dead
  | 9 => if c = 9 then .final true else if c = 10 then .go 0 none else if c = 11 then .final false
         else if c = 12 then .go 10 (some true) else .dead
  | 10 => if c = 8 then .final true else if c = 10 then .go 0 none else .dead
  | 11 => if c = 9 then .final true else if c = 10 then .go 0 none else if c = 11 then .final false
         else if c = 12 then .go 5 (some true) else if c = 14 then .go 1 none else .dead
  | 1 => if c = 14 then .go 1 none else if c = 15 then .final true else .dead
  | _ => .dead

/-- Longest match of the abstract automaton; `fb` is the last token seen. -/
def lm : Nat → Nat → Nat × Bool → List Int → Nat × Bool
  | _, _, fb, [] => fb
  | q, p, fb, c :: cs =>
    match delta q c with
    | .dead => fb
    | .final e => (p + 1, e)
    | .go q' (some e) => lm q' (p + 1) (p + 1, e) cs
    | .go q' none => lm q' (p + 1) fb cs

/-- The label of reading exactly the (non-empty) word from `q`. -/
def acc : Nat → List Int → Option Bool
  | _, [] => none
  | q, c :: v =>
    match delta q c with
    | .dead => none
    | .final e => if v = [] then some e else none
    | .go q' l => if v = [] then l else acc q' v

/-! ## The tables implement `delta` -/

theorem searchSingle_some {base : Nat} {c : Int} {fuel lo hi i : Nat} (h : searchSingle base c fuel lo hi = some i) :
    c = (rd transKeys (base + i) : Nat) := by
  induction fuel generalizing lo hi with
  | zero => simp [searchSingle] at h
  | succ n ih =>
    simp only [searchSingle] at h
    split at h
    · simp at h
    · split at h
      · exact ih h
      · split at h
        · exact ih h
        · simp at h; subst h; omega

theorem searchRange_some {base : Nat} {c : Int} {fuel lo hi i : Nat} (h : searchRange base c fuel lo hi = some i) :
    (rd transKeys (base + 2 * i) : Nat) ≤ c ∧ c ≤ (rd transKeys (base + 2 * i + 1) : Nat) := by
  induction fuel generalizing lo hi with
  | zero => simp [searchRange] at h
  | succ n ih =>
    simp only [searchRange] at h
    split at h
    · simp at h
    · split at h
      · exact ih h
      · split at h
        · exact ih h
        · simp at h; subst h; omega

theorem rd_transKeys_le (i : Nat) : rd transKeys i ≤ 15 := by
  unfold rd
  rw [List.getD_eq_getElem?_getD]
  by_cases h : i < transKeys.length
  · rw [List.getElem?_eq_getElem h]
    have : ∀ x ∈ transKeys, x ≤ 15 := by decide
    exact this _ (List.getElem_mem h)
  · simp [List.getElem?_eq_none (by omega : transKeys.length ≤ i)]

/-- Categories that are in no key range take the last transition of the state. -/
theorem trans_other (cs : Nat) (c : Int) (h : c < 0 ∨ 15 < c) : trans cs c = trans cs (-1) := by
  have key : ∀ d : Int, (d < 0 ∨ 15 < d) → trans cs d =
      rd indicies (rd indexOffsets cs + rd singleLengths cs + rd rangeLengths cs) := by
    intro d hd
    unfold trans
    have h1 : searchSingle (rd keyOffsets cs) d (rd singleLengths cs) 0 (rd singleLengths cs) = none := by
      cases hs : searchSingle (rd keyOffsets cs) d (rd singleLengths cs) 0 (rd singleLengths cs) with
      | none => rfl
      | some i => have := searchSingle_some hs; have := rd_transKeys_le (rd keyOffsets cs + i); omega
    have h2 : searchRange (rd keyOffsets cs + rd singleLengths cs) d (rd rangeLengths cs) 0 (rd rangeLengths cs)
        = none := by
      cases hs : searchRange (rd keyOffsets cs + rd singleLengths cs) d (rd rangeLengths cs) 0 (rd rangeLengths cs) with
      | none => rfl
      | some i =>
        have := searchRange_some hs
        have := rd_transKeys_le (rd keyOffsets cs + rd singleLengths cs + 2 * i + 1); omega
    rw [h1, h2]
  rw [key c h, key (-1) (by omega)]

theorem delta_other (q : Nat) (c : Int) (h : c < 0 ∨ 15 < c) : delta q c = delta q (-1) := by
  have h0 : ∀ k : Nat, k ≤ 15 → c ≠ (k : Int) := by omega
  have a0 := h0 0 (by decide); have a1 := h0 1 (by decide); have a2 := h0 2 (by decide); have a3 := h0 3 (by decide)
  have a4 := h0 4 (by decide); have a6 := h0 6 (by decide); have a7 := h0 7 (by decide); have a8 := h0 8 (by decide)
  have a9 := h0 9 (by decide); have a10 := h0 10 (by decide); have a11 := h0 11 (by decide)
  have a12 := h0 12 (by decide); have a13 := h0 13 (by decide); have a14 := h0 14 (by decide)
  have a15 := h0 15 (by decide)
  norm_cast at *
  unfold delta
  split <;> simp_all

/-- Which transitions may stand for which abstract step. -/
def compat (q : Nat) (n : Next) (t : Nat) : Bool :=
  match n with
  | .dead => (t = 0 && (q = 0 || q = 3)) || (t = 16 && [4, 5, 6, 7, 10, 11].contains q) ||
      (t = 17 && (q = 8 || q = 9)) || (t = 3 && q = 1)
  | .final true => t = 5
  | .final false => t = 14 || t = 9
  | .go q' (some true) => [1, 2, 7, 8, 12, 15, 18].contains t && rd transTargs t = q' &&
      [3, 4, 5, 6, 7, 10, 11].contains q'
  | .go q' (some false) => ([6, 11].contains t && rd transTargs t = q' && (q' = 3 || q' = 9)) ||
      (t = 10 && q' = 8 && rd transTargs t = q' && q = 2)
  | .go q' none => [4, 13].contains t && rd transTargs t = q' && q ≠ 8 && q ≠ 2 &&
      ((q' = 0 && q ≠ 1) || (q' = 1 && (q = 11 || q = 1)))

theorem compat_all (q : Nat) (hq : q < 12) (c : Int) : compat q (delta q c) (trans q c) = true := by
  have key : ∀ q ∈ List.range 12, ∀ c ∈ List.range 17, compat q (delta q ((c : Int) - 1)) (trans q ((c : Int) - 1)) = true := by
    decide +kernel
  by_cases h : c < 0 ∨ 15 < c
  · rw [delta_other q c h, trans_other q c h]
    exact key q (by simpa using hq) 0 (by decide)
  · have := key q (by simpa using hq) (c + 1).toNat (by simp; omega)
    rwa [show ((c + 1).toNat : Int) - 1 = c by omega] at this

theorem delta_lt (q : Nat) (c : Int) (q' : Nat) (l : Option Bool) (h : delta q c = .go q' l) : q' < 12 := by
  unfold delta at h
  split at h <;> (repeat' split at h) <;> simp at h <;> omega

theorem doTrans_te {t p te act : Nat} (h : t ∈ [1, 2, 7, 8, 12, 15, 18]) : doTrans t p te act = .cont (p + 1) 2 := by
  simp only [List.mem_cons, List.not_mem_nil, or_false] at h
  rcases h with rfl | rfl | rfl | rfl | rfl | rfl | rfl <;> rfl

theorem doTrans_te_text {t p te act : Nat} (h : t ∈ [6, 11]) : doTrans t p te act = .cont (p + 1) 3 := by
  simp only [List.mem_cons, List.not_mem_nil, or_false] at h
  rcases h with rfl | rfl <;> rfl

theorem doTrans_skip {t p te act : Nat} (h : t ∈ [4, 10, 13]) : doTrans t p te act = .cont te act := by
  simp only [List.mem_cons, List.not_mem_nil, or_false] at h
  rcases h with rfl | rfl | rfl <;> rfl

theorem doTrans_switch {p te : Nat} {e : Bool} : doTrans 0 p te (if e then 2 else 3) = .ret te e := by
  cases e <;> rfl

/-- The scanner memory and the last token agree. -/
structure Rel (q p te act : Nat) (fb : Nat × Bool) : Prop where
  mem : q ≠ 8 → q ≠ 2 → te = fb.1 ∧ act = if fb.2 then 2 else 3
  here : q ∈ [4, 5, 6, 7, 8, 9, 10, 11] → fb.1 = p
  emoji : q ∈ [1, 4, 5, 6, 7, 10, 11] → fb.2 = true
  text : q ∈ [8, 9] → fb.2 = false

theorem dead_ret (q t p te act : Nat) (fb : Nat × Bool) (hc : compat q .dead t = true) (h : Rel q p te act fb) :
    doTrans t p te act = .ret fb.1 fb.2 := by
  simp only [compat, Bool.or_eq_true, Bool.and_eq_true, decide_eq_true_eq, List.contains_iff_mem] at hc
  rcases hc with ((⟨rfl, hc⟩ | ⟨rfl, hc⟩) | ⟨rfl, hc⟩) | ⟨rfl, hc⟩
  · have := h.mem (by omega) (by omega)
    rw [this.1, this.2]; exact doTrans_switch
  · have h1 := h.here (by simp only [List.mem_cons, List.not_mem_nil, or_false] at hc ⊢; omega)
    have h2 := h.emoji (by simp only [List.mem_cons, List.not_mem_nil, or_false] at hc ⊢; omega)
    rw [h1, h2]; rfl
  · have h1 := h.here (by simp only [List.mem_cons, List.not_mem_nil, or_false] at hc ⊢; omega)
    have h2 := h.text (by simp only [List.mem_cons, List.not_mem_nil, or_false] at hc ⊢; omega)
    rw [h1, h2]; rfl
  · have h1 := (h.mem (by omega) (by omega)).1
    have h2 := h.emoji (by simp [hc])
    rw [← h1, h2]; rfl

theorem eof_dead (q p te act : Nat) (fb : Nat × Bool) (hq : q < 12) (h2 : q ≠ 2) (h : Rel q p te act fb) :
    scanFrom q p te act [] = some fb := by
  have h1 : rd eofTrans q > 0 := by
    have : ∀ q ∈ List.range 12, q ≠ 2 → rd eofTrans q > 0 := by decide
    exact this q (by simpa using hq) h2
  have h3 : compat q .dead (rd eofTrans q - 1) = true := by
    have : ∀ q ∈ List.range 12, q ≠ 2 → compat q .dead (rd eofTrans q - 1) = true := by decide
    exact this q (by simpa using hq) h2
  have h4 := dead_ret q (rd eofTrans q - 1) p te act fb h3 h
  simp only [scanFrom, if_pos h1, h4]

theorem scanFrom_lm (rest : List Int) (q p te act : Nat) (fb : Nat × Bool) (hq : q < 12) (h2 : q = 2 → rest ≠ [])
    (h : Rel q p te act fb) : scanFrom q p te act rest = some (lm q p fb rest) := by
  induction rest generalizing q p te act fb with
  | nil => exact eof_dead q p te act fb hq (fun e => h2 e rfl) h
  | cons c rest ih =>
    have hc := compat_all q hq c
    simp only [scanFrom, lm]
    cases hd : delta q c with
    | dead =>
      rw [hd] at hc
      rw [dead_ret q _ p te act fb hc h]
    | final e =>
      rw [hd] at hc
      cases e <;> simp [compat] at hc
      · rcases hc with hc | hc <;> rw [hc] <;> rfl
      · rw [hc]; rfl
    | go q' l =>
      have hq' := delta_lt q c q' l hd
      rw [hd] at hc
      cases l with
      | none =>
        simp only [compat, Bool.and_eq_true, decide_eq_true_eq, List.contains_iff_mem, ne_eq] at hc
        obtain ⟨⟨⟨⟨ht, hta⟩, hn8⟩, hn2⟩, hor⟩ := hc
        have : trans q c ∈ [4, 10, 13] := by
          simp only [List.mem_cons, List.not_mem_nil, or_false] at ht ⊢; omega
        rw [doTrans_skip this]
        simp only [hta]
        have hm := h.mem hn8 hn2
        refine ih q' (p + 1) te act fb hq' ?_ ?_
        · rintro rfl; simp at hor
        · simp only [Bool.or_eq_true, Bool.and_eq_true, decide_eq_true_eq] at hor
          rcases hor with ⟨rfl, _⟩ | ⟨rfl, hor⟩
          · exact ⟨fun _ _ => hm, by simp, by simp, by simp⟩
          · refine ⟨fun _ _ => hm, by simp, fun _ => h.emoji ?_, by simp⟩
            rcases hor with rfl | rfl <;> simp
      | some e =>
        cases e with
        | true =>
          simp only [compat, Bool.and_eq_true, decide_eq_true_eq, List.contains_iff_mem] at hc
          obtain ⟨⟨ht, hta⟩, hm⟩ := hc
          rw [doTrans_te ht]
          simp only [hta]
          refine ih q' (p + 1) (p + 1) 2 (p + 1, true) hq' ?_ ⟨fun _ _ => ⟨rfl, rfl⟩, fun _ => rfl, fun _ => rfl, ?_⟩
          · rintro rfl; simp at hm
          · intro h'
            simp only [List.mem_cons, List.not_mem_nil, or_false] at hm h'
            omega
        | false =>
          simp only [compat, Bool.or_eq_true, Bool.and_eq_true, decide_eq_true_eq, List.contains_iff_mem] at hc
          rcases hc with ⟨⟨ht, hta⟩, hm⟩ | ⟨⟨⟨ht, hm⟩, hta⟩, h22⟩
          · rw [doTrans_te_text ht]
            simp only [hta]
            refine ih q' (p + 1) (p + 1) 3 (p + 1, false) hq' ?_ ⟨fun _ _ => ⟨rfl, rfl⟩, fun _ => rfl, ?_, fun _ => rfl⟩
            · rintro rfl; simp at hm
            · intro h'
              simp only [List.mem_cons, List.not_mem_nil, or_false] at h'
              omega
          · rw [doTrans_skip (by simp [ht])]
            simp only [hta]
            subst hm
            refine ih 8 (p + 1) te act (p + 1, false) hq' (by omega)
              ⟨fun h => absurd rfl h, fun _ => rfl, by simp, fun _ => rfl⟩

/-! ## Longest match -/

theorem lm_spec (rest : List Int) (q p : Nat) (fb : Nat × Bool) :
    (lm q p fb rest = fb ∧ ∀ k, 0 < k → k ≤ rest.length → acc q (rest.take k) = none) ∨
    (∃ k e, 0 < k ∧ k ≤ rest.length ∧ lm q p fb rest = (p + k, e) ∧ acc q (rest.take k) = some e ∧
      ∀ m, k < m → m ≤ rest.length → acc q (rest.take m) = none) := by
  induction rest generalizing q p fb with
  | nil => exact Or.inl ⟨rfl, by simp; omega⟩
  | cons c rest ih =>
    have hk : ∀ k, 0 < k → acc q ((c :: rest).take k) =
        match delta q c with
        | .dead => none
        | .final e => if rest.take (k - 1) = [] then some e else none
        | .go q' l => if rest.take (k - 1) = [] then l else acc q' (rest.take (k - 1)) := by
      intro k hk
      obtain ⟨k, rfl⟩ : ∃ j, k = j + 1 := ⟨k - 1, by omega⟩
      simp [acc]
    have hne : ∀ k, 1 < k → k ≤ (c :: rest).length → rest.take (k - 1) ≠ [] := by
      intro k h1 h2 h3
      have := congrArg List.length h3
      rw [List.length_take, List.length_nil] at this
      rw [List.length_cons] at h2
      omega
    simp only [lm]
    cases hd : delta q c with
    | dead =>
      left
      refine ⟨rfl, fun k h1 _ => ?_⟩
      rw [hk k h1, hd]
    | final e =>
      right
      refine ⟨1, e, by omega, by simp, rfl, by rw [hk 1 (by omega), hd]; simp, fun m h1 h2 => ?_⟩
      rw [hk m (by omega), hd]
      simp only
      rw [if_neg (hne m h1 h2)]
    | go q' l =>
      have hk2 : ∀ k, 1 < k → k ≤ (c :: rest).length → acc q ((c :: rest).take k) = acc q' (rest.take (k - 1)) := by
        intro k h1 h2
        rw [hk k (by omega), hd]
        simp only
        rw [if_neg (hne k h1 h2)]
      have hk1 : acc q ((c :: rest).take 1) = l := by rw [hk 1 (by omega), hd]; simp
      have main : ∀ fb', (lm q' (p + 1) fb' rest = fb' ∧ ∀ k, 1 < k → k ≤ (c :: rest).length →
            acc q ((c :: rest).take k) = none) ∨
          (∃ k e, 0 < k ∧ k ≤ (c :: rest).length ∧ lm q' (p + 1) fb' rest = (p + k, e) ∧
            acc q ((c :: rest).take k) = some e ∧
            ∀ m, k < m → m ≤ (c :: rest).length → acc q ((c :: rest).take m) = none) := by
        intro fb'
        rcases ih q' (p + 1) fb' with ⟨h1, h2⟩ | ⟨k, e, h1, h2, h3, h4, h5⟩
        · left
          refine ⟨h1, fun k hk1 hk2' => ?_⟩
          rw [hk2 k hk1 hk2']
          exact h2 (k - 1) (by omega) (by simp at hk2'; omega)
        · right
          refine ⟨k + 1, e, by omega, by simp; omega, by rw [h3]; congr 1; omega, ?_, fun m h6 h7 => ?_⟩
          · rw [hk2 (k + 1) (by omega) (by simp; omega)]; simpa using h4
          · rw [hk2 m (by omega) h7]; exact h5 (m - 1) (by omega) (by simp at h7; omega)
      cases l with
      | none =>
        rcases main fb with ⟨h1, h2⟩ | h
        · left
          refine ⟨h1, fun k hk1' hk2' => ?_⟩
          by_cases h : k = 1
          · rw [h, hk1]
          · exact h2 k (by omega) hk2'
        · exact Or.inr h
      | some e =>
        right
        rcases main (p + 1, e) with ⟨h1, h2⟩ | h
        · exact ⟨1, e, by omega, by simp, h1, hk1, h2⟩
        · exact h

end Verif.Emoji
