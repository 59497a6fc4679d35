import Verif.Props.Utf8
/-!
# C04, C05: what the incremental decoder reports for every byte string

`Reports` reads a byte string as a sequence of pieces (complete sequences, stray bytes, sequences cut off by the lead byte of
the next one, an unfinished sequence at the end) and says what is reported for each byte.
-/

namespace Verif.Props

open Verif.Utf8

/-- The lead byte that cuts off an unfinished sequence is itself reported as invalid. -/
def marked (cutOff : Bool) (rs : List Result) : List Result := if cutOff then .invalid :: rs.tail else rs

/-- `Reports cutOff bytes rs`: the bytes are reported as `rs`; `cutOff`: the sequence before was cut off. -/
inductive Reports : Bool → List Nat → List Result → Prop
  | nil : Reports false [] []
  /-- all bytes of a sequence but the last are incomplete, the last one delivers the codepoint -/
  | complete {i bs v rest rs} : Loose bs v → (i = true → 2 ≤ bs.length) → Reports false rest rs →
      Reports i (bs ++ rest) (marked i (List.replicate (bs.length - 1) .incomplete ++ [.success v]) ++ rs)
  /-- a byte that starts no sequence -/
  | stray {b rest rs} : 0x80 ≤ b → (b < 0xC0 ∨ 0xF8 ≤ b) → Reports false rest rs → Reports false (b :: rest) (.invalid :: rs)
  /-- the beginning of a sequence, then a lead byte -/
  | cut {i p t v b rest rs} : Loose (p ++ t) v → p ≠ [] → t ≠ [] → 0xC0 ≤ b → b < 0xF8 → Reports true (b :: rest) rs →
      Reports i (p ++ b :: rest) (marked i (List.replicate p.length .incomplete) ++ rs)
  /-- the beginning of a sequence, then nothing -/
  | unfinished {i p t v} : Loose (p ++ t) v → p ≠ [] → t ≠ [] → Reports i p (marked i (List.replicate p.length .incomplete))

/-- the state fits the flag -/
def Fit (i : Bool) (s : DecState) : Prop := if i then s.expectedLength ≠ 0 else s.expectedLength = 0

theorem lead_step {i : Bool} {s : DecState} (hs : Fit i s) {b : Nat} (h1 : 0xC0 ≤ b) (h2 : b < 0xF8) :
    fromUtf8 s b = (if b < 0xE0 then ⟨b - 0xC0, 2, 1⟩ else if b < 0xF0 then ⟨b - 0xE0, 3, 1⟩ else ⟨b - 0xF0, 4, 1⟩,
      if i then .invalid else .incomplete) := by
  have hst : ∀ s' : DecState, startByte s' b = (if b < 0xE0 then ⟨b - 0xC0, 2, 1⟩ else if b < 0xF0 then ⟨b - 0xE0, 3, 1⟩ else ⟨b - 0xF0, 4, 1⟩, .incomplete) := by
    intro s'
    rw [startByte_eq s' b (by omega), if_neg (by omega), if_neg (by omega)]
    split
    · rfl
    · split
      · rfl
      · rfl
  cases i with
  | false => rw [fromUtf8_idle s b hs, hst]; rfl
  | true => rw [fromUtf8_lead s b h1 h2 hs, hst]; rfl

theorem cont_step (ch e k b : Nat) (hb : b < 256) (he : e ≠ 0) (hl : b < 0xC0 ∨ 0xF8 ≤ b) (hc : ch < 2 ^ 26) :
    fromUtf8 ⟨ch, e, k⟩ b = if k + 1 < e then (⟨ch * 64 + b % 64, e, k + 1⟩, .incomplete)
      else (⟨ch * 64 + b % 64, 0, k + 1⟩, .success (ch * 64 + b % 64)) := fromUtf8_cont ⟨ch, e, k⟩ b hb he hl hc

theorem feed_cons (s : DecState) (b : Nat) (bs : List Nat) :
    feed s (b :: bs) = ((feed (fromUtf8 s b).1 bs).1, (fromUtf8 s b).2 :: (feed (fromUtf8 s b).1 bs).2) := rfl

/-- A complete sequence. -/
theorem feed_complete {bs : List Nat} {v : Nat} (h : Loose bs v) (hb : ∀ x ∈ bs, x < 256) {i : Bool} (hi : i = true → 2 ≤ bs.length)
    {s : DecState} (hs : Fit i s) :
    (feed s bs).1.expectedLength = 0 ∧ (feed s bs).2 = marked i (List.replicate (bs.length - 1) .incomplete ++ [.success v]) := by
  cases h with
  | one h1 =>
    have : i = false := by
      cases i with
      | false => rfl
      | true => exact absurd (hi rfl) (by simp)
    subst this
    rw [feed_cons, fromUtf8_idle s v hs, startByte_eq s v (by omega), if_pos h1]
    exact ⟨hs, rfl⟩
  | @two b0 b1 h1 h2 h3 =>
    have x1 := hb b1 (by simp)
    rw [feed_cons, lead_step hs h1 (by omega), if_pos h2, feed_cons]
    simp only
    rw [cont_step _ _ _ _ x1 (by decide) h3 (by omega), if_neg (by decide)]
    cases i <;> exact ⟨rfl, rfl⟩
  | @three b0 b1 b2 h1 h2 h3 h4 =>
    have x1 := hb b1 (by simp)
    have x2 := hb b2 (by simp)
    rw [feed_cons, lead_step hs (by omega) (by omega), if_neg (by omega), if_pos h2, feed_cons]
    simp only
    rw [cont_step _ _ _ _ x1 (by decide) h3 (by omega), if_pos (by decide), feed_cons]
    simp only
    rw [cont_step _ _ _ _ x2 (by decide) h4 (by omega), if_neg (by decide)]
    rw [show ((b0 - 224) * 64 + b1 % 64) * 64 + b2 % 64 = (b0 - 0xE0) * 4096 + b1 % 64 * 64 + b2 % 64 by omega]
    cases i <;> exact ⟨rfl, rfl⟩
  | @four b0 b1 b2 b3 h1 h2 h3 h4 h5 =>
    have x1 := hb b1 (by simp)
    have x2 := hb b2 (by simp)
    have x3 := hb b3 (by simp)
    rw [feed_cons, lead_step hs (by omega) (by omega), if_neg (by omega), if_neg (by omega), feed_cons]
    simp only
    rw [cont_step _ _ _ _ x1 (by decide) h3 (by omega), if_pos (by decide), feed_cons]
    simp only
    rw [cont_step _ _ _ _ x2 (by decide) h4 (by omega), if_pos (by decide), feed_cons]
    simp only
    rw [cont_step _ _ _ _ x3 (by decide) h5 (by omega), if_neg (by decide)]
    rw [show (((b0 - 240) * 64 + b1 % 64) * 64 + b2 % 64) * 64 + b3 % 64 = (b0 - 0xF0) * 262144 + b1 % 64 * 4096 + b2 % 64 * 64 + b3 % 64 by omega]
    cases i <;> exact ⟨rfl, rfl⟩

/-- The beginning of a sequence. -/
theorem feed_begin {p t : List Nat} {v : Nat} (h : Loose (p ++ t) v) (hp : p ≠ []) (ht : t ≠ []) (hb : ∀ x ∈ p, x < 256) {i : Bool}
    {s : DecState} (hs : Fit i s) :
    (feed s p).1.expectedLength ≠ 0 ∧ (feed s p).2 = marked i (List.replicate p.length .incomplete) := by
  generalize hq : p ++ t = q at h
  obtain ⟨a, p, rfl⟩ := List.exists_cons_of_ne_nil hp
  obtain ⟨c, t, rfl⟩ := List.exists_cons_of_ne_nil ht
  cases h with
  | one h1 =>
    have := congrArg List.length hq
    simp at this
  | @two b0 b1 h1 h2 h3 =>
    rcases p with _ | ⟨b, p⟩
    · simp only [List.nil_append, List.cons_append, List.cons.injEq] at hq
      obtain ⟨rfl, -, -⟩ := hq
      rw [feed_cons, lead_step hs h1 (by omega), if_pos h2]
      cases i <;> exact ⟨by simp [feed], rfl⟩
    · have := congrArg List.length hq
      simp at this
  | @three b0 b1 b2 h1 h2 h3 h4 =>
    rcases p with _ | ⟨b, p⟩
    · simp only [List.nil_append, List.cons_append, List.cons.injEq] at hq
      obtain ⟨rfl, -⟩ := hq
      rw [feed_cons, lead_step hs (by omega) (by omega), if_neg (by omega), if_pos h2]
      cases i <;> exact ⟨by simp [feed], rfl⟩
    · rcases p with _ | ⟨b', p⟩
      · simp only [List.nil_append, List.cons_append, List.cons.injEq] at hq
        obtain ⟨rfl, rfl, -⟩ := hq
        have x1 := hb b (by simp)
        rw [feed_cons, lead_step hs (by omega) (by omega), if_neg (by omega), if_pos h2, feed_cons]
        simp only
        rw [cont_step _ _ _ _ x1 (by decide) h3 (by omega), if_pos (by decide)]
        cases i <;> exact ⟨by simp [feed], rfl⟩
      · have := congrArg List.length hq
        simp at this
  | @four b0 b1 b2 b3 h1 h2 h3 h4 h5 =>
    rcases p with _ | ⟨b, p⟩
    · simp only [List.nil_append, List.cons_append, List.cons.injEq] at hq
      obtain ⟨rfl, -⟩ := hq
      rw [feed_cons, lead_step hs (by omega) (by omega), if_neg (by omega), if_neg (by omega)]
      cases i <;> exact ⟨by simp [feed], rfl⟩
    · rcases p with _ | ⟨b', p⟩
      · simp only [List.nil_append, List.cons_append, List.cons.injEq] at hq
        obtain ⟨rfl, rfl, -⟩ := hq
        have x1 := hb b (by simp)
        rw [feed_cons, lead_step hs (by omega) (by omega), if_neg (by omega), if_neg (by omega), feed_cons]
        simp only
        rw [cont_step _ _ _ _ x1 (by decide) h3 (by omega), if_pos (by decide)]
        cases i <;> exact ⟨by simp [feed], rfl⟩
      · rcases p with _ | ⟨b'', p⟩
        · simp only [List.nil_append, List.cons_append, List.cons.injEq] at hq
          obtain ⟨rfl, rfl, rfl, -⟩ := hq
          have x1 := hb b (by simp)
          have x2 := hb b' (by simp)
          rw [feed_cons, lead_step hs (by omega) (by omega), if_neg (by omega), if_neg (by omega), feed_cons]
          simp only
          rw [cont_step _ _ _ _ x1 (by decide) h3 (by omega), if_pos (by decide), feed_cons]
          simp only
          rw [cont_step _ _ _ _ x2 (by decide) h4 (by omega), if_pos (by decide)]
          cases i <;> exact ⟨by simp [feed], rfl⟩
        · have := congrArg List.length hq
          simp at this

theorem reports_sound {i : Bool} {bytes : List Nat} {rs : List Result} (h : Reports i bytes rs) (hb : ∀ x ∈ bytes, x < 256) {s : DecState}
    (hs : Fit i s) : (feed s bytes).2 = rs := by
  induction h generalizing s with
  | nil => rfl
  | @complete i bs v rest rs hl hi _ ih =>
    obtain ⟨h1, h2⟩ := feed_complete hl (fun x hx => hb x (List.mem_append_left _ hx)) hi hs
    rw [feed_append, h2, ih (fun x hx => hb x (List.mem_append_right _ hx)) (s := (feed s bs).1) h1]
  | @stray b rest rs h1 h2 _ ih =>
    have hb' := hb b (List.mem_cons_self ..)
    have : fromUtf8 s b = ({ s with currentLength := 1, expectedLength := 0 }, .invalid) := by
      rw [fromUtf8_idle s b hs, startByte_eq s b hb', if_neg (by omega)]
      split
      · rfl
      · rw [if_neg (by omega), if_neg (by omega), if_neg (by omega)]
    rw [feed_cons, this]
    simp only
    rw [ih (fun x hx => hb x (List.mem_cons_of_mem _ hx)) (by exact rfl)]
  | @cut i p t v b rest rs hl hp ht h1 h2 _ ih =>
    obtain ⟨h3, h4⟩ := feed_begin hl hp ht (fun x hx => hb x (List.mem_append_left _ hx)) hs
    rw [feed_append, h4, ih (fun x hx => hb x (List.mem_append_right _ hx)) (s := (feed s p).1) h3]
  | unfinished hl hp ht => exact (feed_begin hl hp ht hb hs).2

/-- a byte that may follow a lead byte -/
def Follows (b : Nat) : Prop := b < 0xC0 ∨ 0xF8 ≤ b

instance (b : Nat) : Decidable (Follows b) := by unfold Follows; infer_instance

/-- Every string can be read. -/
theorem reports_total (n : Nat) : ∀ bytes : List Nat, bytes.length ≤ n → (∀ x ∈ bytes, x < 256) →
    ∀ i : Bool, (i = true → ∃ b rest, bytes = b :: rest ∧ 0xC0 ≤ b ∧ b < 0xF8) → ∃ rs, Reports i bytes rs := by
  induction n with
  | zero =>
    intro bytes hn hb i hi
    have : bytes = [] := List.eq_nil_of_length_eq_zero (by omega)
    subst this
    cases i with
    | false => exact ⟨_, .nil⟩
    | true => obtain ⟨b, rest, h, -⟩ := hi rfl; cases h
  | succ n ih =>
    intro bytes hn hb i hi
    rcases bytes with _ | ⟨b0, r⟩
    · cases i with
      | false => exact ⟨_, .nil⟩
      | true => obtain ⟨b, rest, h, -⟩ := hi rfl; cases h
    have hr : ∀ (q r' : List Nat), r = q ++ r' → ∃ rs, Reports false r' rs := fun q r' e => by
      refine ih r' ?_ ?_ false (fun h => by cases h)
      · rw [e] at hn; simp only [List.length_cons, List.length_append] at hn; omega
      · intro x hx; exact hb x (List.mem_cons_of_mem _ (e ▸ List.mem_append_right _ hx))
    have hcut : ∀ (q : List Nat) (b : Nat) (r' : List Nat), r = q ++ b :: r' → ¬ Follows b → ∃ rs, Reports true (b :: r') rs := fun q b r' e hf => by
      refine ih (b :: r') ?_ ?_ true (fun _ => ⟨b, r', rfl, ?_⟩)
      · rw [e] at hn; simp only [List.length_cons, List.length_append] at hn ⊢; omega
      · intro x hx; exact hb x (List.mem_cons_of_mem _ (e ▸ List.mem_append_right _ hx))
      · unfold Follows at hf; omega
    have h0 := hb b0 (List.mem_cons_self ..)
    by_cases hlead : 0xC0 ≤ b0 ∧ b0 < 0xF8
    · -- a lead byte: `k` bytes are to follow
      have main : ∀ (k : Nat) (p : List Nat), (∀ x, x.length = k → (∀ y ∈ x, Follows y) → ∃ v, Loose (p ++ x) v) → 2 ≤ p.length + k → p ≠ [] →
          ∀ q r', r = q ++ r' → b0 :: q = p → ∃ rs, Reports i (p ++ r') rs := by
        intro k
        induction k with
        | zero =>
          intro p hl h2 hp q r' e _
          obtain ⟨v, hv⟩ := hl [] rfl (by simp)
          rw [List.append_nil] at hv
          obtain ⟨rs, h⟩ := hr q r' e
          exact ⟨_, .complete hv (fun _ => by omega) h⟩
        | succ k ihk =>
          intro p hl h2 hp q r' e hq
          rcases r' with _ | ⟨b, r'⟩
          · obtain ⟨v, hv⟩ := hl (List.replicate (k + 1) 0) (by simp) (by intro y hy; rw [(List.mem_replicate.1 hy).2]; exact .inl (by decide))
            rw [List.append_nil]
            exact ⟨_, .unfinished hv hp (by simp)⟩
          · by_cases hf : Follows b
            · have := ihk (p ++ [b]) (fun x hx hy => by
                obtain ⟨v, hv⟩ := hl (b :: x) (by simp [hx]) (by intro y hy'; rcases List.mem_cons.1 hy' with rfl | hy'; exact hf; exact hy y hy')
                exact ⟨v, by rw [List.append_assoc]; exact hv⟩) (by simp; omega) (by simp) (q ++ [b]) r' (by rw [e, List.append_assoc]; rfl)
                (by rw [← hq]; rfl)
              rw [List.append_assoc] at this
              exact this
            · obtain ⟨v, hv⟩ := hl (List.replicate (k + 1) 0) (by simp) (by intro y hy; rw [(List.mem_replicate.1 hy).2]; exact .inl (by decide))
              obtain ⟨rs, h⟩ := hcut q b r' e hf
              unfold Follows at hf
              exact ⟨_, .cut hv hp (by simp) (by omega) (by omega) h⟩
      have key : ∃ k, 1 ≤ k ∧ ∀ x, x.length = k → (∀ y ∈ x, Follows y) → ∃ v, Loose ([b0] ++ x) v := by
        by_cases h2 : b0 < 0xE0
        · refine ⟨1, by omega, fun x hx hy => ?_⟩
          match x, hx with
          | [b1], _ => exact ⟨_, .two hlead.1 h2 (hy b1 (by simp))⟩
        · by_cases h3 : b0 < 0xF0
          · refine ⟨2, by omega, fun x hx hy => ?_⟩
            match x, hx with
            | [b1, b2], _ => exact ⟨_, .three (by omega) h3 (hy b1 (by simp)) (hy b2 (by simp))⟩
          · refine ⟨3, by omega, fun x hx hy => ?_⟩
            match x, hx with
            | [b1, b2, b3], _ => exact ⟨_, .four (by omega) (by omega) (hy b1 (by simp)) (hy b2 (by simp)) (hy b3 (by simp))⟩
      obtain ⟨k, hk, hl⟩ := key
      exact main k [b0] hl (by simp; omega) (by simp) [] r rfl rfl
    · have : i = false := by
        cases i with
        | false => rfl
        | true => obtain ⟨b, rest, h, h1⟩ := hi rfl; cases h; exact absurd h1 hlead
      subst this
      obtain ⟨rs, h⟩ := hr [] r rfl
      by_cases ha : b0 < 0x80
      · exact ⟨_, .complete (bs := [b0]) (.one ha) (fun h => by cases h) h⟩
      · exact ⟨_, .stray (by omega) (by omega) h⟩

/-- **C04, exactly.** For every byte string the decoder's reports are those of its reading: `Reports` holds of what the decoder
reports and of nothing else. -/
theorem C04_exact (bytes : List Nat) (hb : ∀ x ∈ bytes, x < 256) (rs : List Result) :
    Reports false bytes rs ↔ (feed {} bytes).2 = rs := by
  constructor
  · intro h; exact reports_sound h hb rfl
  · intro h
    obtain ⟨rs', h'⟩ := reports_total _ bytes (Nat.le_refl _) hb false (fun h => by cases h)
    have := reports_sound h' hb (s := {}) rfl
    rw [h] at this
    rw [this]; exact h'

/-- All cases: a letter, a stray byte, `E2 82` cut off by a complete `C3 A9`, `F0` unfinished. -/
example : Reports false [0x41, 0x80, 0xE2, 0x82, 0xC3, 0xA9, 0xF0] [.success 0x41, .invalid, .incomplete, .incomplete, .invalid, .success 0xE9, .incomplete] :=
  .complete (bs := [0x41]) (.one (by decide)) (by decide)
    (.stray (by decide) (by decide)
      (.cut (i := false) (p := [0xE2, 0x82]) (t := [0x80]) (.three (by decide) (by decide) (by decide) (by decide)) (by decide) (by decide) (by decide) (by decide)
        (.complete (i := true) (bs := [0xC3, 0xA9]) (.two (by decide) (by decide) (by decide)) (by decide)
          (.unfinished (i := false) (p := [0xF0]) (t := [0x80, 0x80, 0x80]) (.four (by decide) (by decide) (by decide) (by decide) (by decide)) (by decide) (by decide)))))

/-- `p` is the proper beginning of a sequence. -/
def Begins (p : List Nat) : Prop := p ≠ [] ∧ ∃ t v, t ≠ [] ∧ Loose (p ++ t) v

theorem reports_pending {i : Bool} {bytes : List Nat} {rs : List Result} (h : Reports i bytes rs) (hb : ∀ x ∈ bytes, x < 256) {s : DecState}
    (hs : Fit i s) (he : (feed s bytes).1.expectedLength ≠ 0) : ∃ pre p, bytes = pre ++ p ∧ Begins p := by
  induction h generalizing s with
  | nil => exact absurd hs he
  | @complete i bs v rest rs hl hi _ ih =>
    obtain ⟨h1, -⟩ := feed_complete hl (fun x hx => hb x (List.mem_append_left _ hx)) hi hs
    rw [feed_append] at he
    obtain ⟨pre, p, rfl, h⟩ := ih (fun x hx => hb x (List.mem_append_right _ hx)) (s := (feed s bs).1) h1 he
    exact ⟨bs ++ pre, p, (List.append_assoc ..).symm, h⟩
  | @stray b rest rs h1 h2 _ ih =>
    have hb' := hb b (List.mem_cons_self ..)
    have : fromUtf8 s b = ({ s with currentLength := 1, expectedLength := 0 }, .invalid) := by
      rw [fromUtf8_idle s b hs, startByte_eq s b hb', if_neg (by omega)]
      split
      · rfl
      · rw [if_neg (by omega), if_neg (by omega), if_neg (by omega)]
    rw [feed_cons, this] at he
    obtain ⟨pre, p, rfl, h⟩ := ih (fun x hx => hb x (List.mem_cons_of_mem _ hx)) (by exact rfl) he
    exact ⟨b :: pre, p, rfl, h⟩
  | @cut i q t v b rest rs hl hp ht h1 h2 _ ih =>
    obtain ⟨h3, -⟩ := feed_begin hl hp ht (fun x hx => hb x (List.mem_append_left _ hx)) hs
    rw [feed_append] at he
    obtain ⟨pre, p, e, h⟩ := ih (fun x hx => hb x (List.mem_append_right _ hx)) (s := (feed s q).1) h3 he
    exact ⟨q ++ pre, p, by rw [e, List.append_assoc], h⟩
  | @unfinished i p t v hl hp ht => exact ⟨[], p, rfl, hp, t, v, ht, hl⟩

/-- A lead byte starts a new sequence whatever came before. -/
theorem fit_any (s : DecState) : ∃ i, Fit i s := by
  by_cases h : s.expectedLength = 0
  · exact ⟨false, h⟩
  · exact ⟨true, h⟩

theorem getLast?_append_marked (xs : List Result) (i : Bool) (n : Nat) (r : Result) :
    (xs ++ marked i (List.replicate (n + 1) .incomplete ++ [r])).getLast? = some r := by
  have : marked i (List.replicate (n + 1) .incomplete ++ [r]) = (marked i (List.replicate (n + 1) .incomplete)) ++ [r] := by
    cases i <;> simp [marked, List.replicate_succ]
  rw [this, ← List.append_assoc, List.getLast?_concat]

/-- A beginning and one more ASCII byte: longer beginning, or complete. -/
theorem begins_snoc {p : List Nat} (h : Begins p) {c : Nat} (hc : c < 0x80) : Begins (p ++ [c]) ∨ ∃ w, Loose (p ++ [c]) w := by
  obtain ⟨hp, t, v, ht, h⟩ := h
  generalize hq : p ++ t = q at h
  obtain ⟨a, p, rfl⟩ := List.exists_cons_of_ne_nil hp
  obtain ⟨d, t, rfl⟩ := List.exists_cons_of_ne_nil ht
  have hcc : c < 0xC0 ∨ 0xF8 ≤ c := .inl (by omega)
  cases h with
  | one h1 =>
    have := congrArg List.length hq
    simp at this
  | @two b0 b1 h1 h2 h3 =>
    rcases p with _ | ⟨b, p⟩
    · simp only [List.nil_append, List.cons_append, List.cons.injEq] at hq
      obtain ⟨rfl, -, -⟩ := hq
      exact .inr ⟨_, .two h1 h2 hcc⟩
    · have := congrArg List.length hq
      simp at this
  | @three b0 b1 b2 h1 h2 h3 h4 =>
    rcases p with _ | ⟨b, p⟩
    · simp only [List.nil_append, List.cons_append, List.cons.injEq] at hq
      obtain ⟨rfl, -⟩ := hq
      exact .inl ⟨by simp, [0], _, by simp, .three h1 h2 hcc (.inl (by decide))⟩
    · rcases p with _ | ⟨b', p⟩
      · simp only [List.nil_append, List.cons_append, List.cons.injEq] at hq
        obtain ⟨rfl, rfl, -⟩ := hq
        exact .inr ⟨_, .three h1 h2 h3 hcc⟩
      · have := congrArg List.length hq
        simp at this
  | @four b0 b1 b2 b3 h1 h2 h3 h4 h5 =>
    rcases p with _ | ⟨b, p⟩
    · simp only [List.nil_append, List.cons_append, List.cons.injEq] at hq
      obtain ⟨rfl, -⟩ := hq
      exact .inl ⟨by simp, [0, 0], _, by simp, .four h1 h2 hcc (.inl (by decide)) (.inl (by decide))⟩
    · rcases p with _ | ⟨b', p⟩
      · simp only [List.nil_append, List.cons_append, List.cons.injEq] at hq
        obtain ⟨rfl, rfl, -⟩ := hq
        exact .inl ⟨by simp, [0], _, by simp, .four h1 h2 h3 hcc (.inl (by decide))⟩
      · rcases p with _ | ⟨b'', p⟩
        · simp only [List.nil_append, List.cons_append, List.cons.injEq] at hq
          obtain ⟨rfl, rfl, rfl, -⟩ := hq
          exact .inr ⟨_, .four h1 h2 h3 h4 hcc⟩
        · have := congrArg List.length hq
          simp at this

/-- **C05, exactly.** After a history `h` the next ASCII character is decoded if and only if the history does not end in the
beginning of a sequence, or (by coincidence) the end of it and the character form an overlong encoding of that character. -/
theorem C05_ascii_iff (h : List Nat) (hb : ∀ x ∈ h, x < 256) (c : Nat) (hc : c < 0x80) :
    (feed {} (h ++ [c])).2.getLast? = some (.success c) ↔
      (¬ ∃ pre p, h = pre ++ p ∧ Begins p) ∨ ∃ pre p, h = pre ++ p ∧ p ≠ [] ∧ Loose (p ++ [c]) c := by
  have hlast : ∀ pre p w, h = pre ++ p → p ≠ [] → Loose (p ++ [c]) w → (feed {} (h ++ [c])).2.getLast? = some (.success w) := by
    rintro pre p w rfl hp hl
    obtain ⟨i, hi⟩ := fit_any (feed {} pre).1
    obtain ⟨a, p, rfl⟩ := List.exists_cons_of_ne_nil hp
    obtain ⟨-, h2⟩ := feed_complete hl (by
      intro x hx
      rcases List.mem_append.1 hx with hx | hx
      · exact hb x (List.mem_append_right _ hx)
      · simp at hx; omega) (fun _ => by simp) hi
    rw [List.append_assoc, feed_append, h2]
    have : (a :: p ++ [c]).length - 1 = p.length + 1 := by simp
    rw [this]
    exact getLast?_append_marked ..
  constructor
  · intro hs
    by_cases hpend : ∃ pre p, h = pre ++ p ∧ Begins p
    · right
      obtain ⟨pre, p, e, hp⟩ := hpend
      rcases begins_snoc hp hc with hl | ⟨w, hl⟩
      · exfalso
        obtain ⟨-, t, v, ht, hl⟩ := hl
        obtain ⟨i, hi⟩ := fit_any (feed {} pre).1
        obtain ⟨-, h2⟩ := feed_begin hl (by simp) ht (by
          intro x hx
          rcases List.mem_append.1 hx with hx | hx
          · exact hb x (e ▸ List.mem_append_right _ hx)
          · simp at hx; omega) hi
        obtain ⟨a, p, rfl⟩ := List.exists_cons_of_ne_nil hp.1
        rw [e, List.append_assoc, feed_append, h2] at hs
        have : (a :: p ++ [c]).length = p.length + 1 + 1 := by simp
        rw [this, List.replicate_succ' (n := p.length + 1)] at hs
        simp only [getLast?_append_marked] at hs
        cases hs
      · have := hlast pre p w e hp.1 hl
        rw [hs] at this
        cases this
        exact ⟨pre, p, e, hp.1, hl⟩
    · exact .inl hpend
  · rintro (hn | ⟨pre, p, e, hp, hl⟩)
    · obtain ⟨rs, hr⟩ := reports_total _ h (Nat.le_refl _) hb false (fun h => by cases h)
      have he : (feed {} h).1.expectedLength = 0 := by
        by_contra he
        exact hn (reports_pending hr hb (s := {}) rfl he)
      rw [feed_append, feed_cons, fromUtf8_idle _ c he, startByte_eq _ c (by omega), if_pos hc]
      simp [List.getLast?_append, feed]
    · exact hlast pre p c e hp hl

/-- The two ways: a clean history, and the overlong `C1 A8` spelled `C1 68`; and a history after which the character is lost. -/
example : (¬ ∃ pre p, ([] : List Nat) = pre ++ p ∧ Begins p) ∧ Loose ([0xC1] ++ [0x68]) 0x68 ∧ (∃ pre p, [0x41, 0xC3] = pre ++ p ∧ Begins p) := by
  refine ⟨?_, .two (by decide) (by decide) (by decide), [0x41], [0xC3], rfl, by simp, [0x80], _, by simp, .two (by decide) (by decide) (by decide)⟩
  rintro ⟨pre, p, e, hp, -⟩
  simp at e
  exact hp e.2

end Verif.Props
