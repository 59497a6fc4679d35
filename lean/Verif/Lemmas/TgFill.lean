import Verif.Lemmas.TgMap
import Verif.Spec.UcdAssign
/-!
# Lemmas about the passes that fill the codepoint records
-/

namespace Verif.Tg
open Verif.Utf8 (Mem)
open Verif.Spec.Ucd

/-- One entry applied to the record of codepoint `c`. -/
def stepE (idx : Str → Option Nat) (set : Nat → Rec → Rec) (c : Nat) (rec : Rec) (e : Entry) : Rec :=
  if e.1 ≤ c ∧ c ≤ e.2.1 then
    match idx e.2.2 with
    | none => rec
    | some i => set i rec
  else rec

/-- All entries of a file applied to the record of codepoint `c`. -/
def runE (idx : Str → Option Nat) (set : Nat → Rec → Rec) (es : List Entry) (c : Nat) (rec : Rec) : Rec :=
  es.foldl (stepE idx set c) rec

def ents (rs : List PRange) : List Entry := rs.map fun r => (r.first, r.last, r.property)

/-- The entries of a grouped file, each with the value `key group range`. -/
def gents (key : Str → PRange → Str) (gs : List (Str × List PRange)) : List Entry :=
  gs.flatMap fun g => g.2.map fun r => (r.first, r.last, key g.1 r)

theorem fillLoop_ok (f : Rec → Rec) (n : Nat) (cp : Nat) (R : Records) (h : n = 0 ∨ cp + n ≤ count) :
    fillLoop f n cp R = .ok fun c => if cp ≤ c ∧ c < cp + n then f (R c) else R c := by
  induction n generalizing cp R with
  | zero =>
    unfold fillLoop
    congr 1; funext c
    rw [if_neg (by omega)]
  | succ n ih =>
    unfold fillLoop update
    rw [if_pos (by omega)]
    simp only
    rw [ih _ _ (by omega)]
    congr 1; funext c
    by_cases h1 : c = cp
    · rw [if_neg (by omega), if_pos h1, if_pos (by omega)]
    · rw [if_neg h1]
      by_cases h2 : cp + 1 ≤ c ∧ c < cp + 1 + n
      · rw [if_pos h2, if_pos (by omega)]
      · rw [if_neg h2, if_neg (by omega)]

theorem fillRange_ok (f : Rec → Rec) (r : PRange) (R : Records) (h : r.last < count) :
    fillRange f r R = .ok fun c => if r.first ≤ c ∧ c ≤ r.last then f (R c) else R c := by
  unfold fillRange
  rw [fillLoop_ok _ _ _ _ (by omega)]
  congr 1; funext c
  by_cases h1 : r.first ≤ c ∧ c ≤ r.last
  · rw [if_pos h1, if_pos (by omega)]
  · rw [if_neg h1, if_neg (by omega)]

theorem fillAll_ok (f : PRange → Option (Rec → Rec)) (key : PRange → Str) (idx : Str → Option Nat) (set : Nat → Rec → Rec)
    (hf : ∀ r, f r = (idx (key r)).map set) (rs : List PRange) (h : ∀ r ∈ rs, r.last < count) (R : Records) :
    fillAll f rs R = .ok fun c => runE idx set (rs.map fun r => (r.first, r.last, key r)) c (R c) := by
  induction rs generalizing R with
  | nil => rfl
  | cons r rs ih =>
    have hr := h r (by simp)
    have ih := ih (fun r hr => h r (by simp [hr]))
    unfold fillAll
    rw [hf r]
    cases hi : idx (key r) with
    | none =>
      simp only [Option.map_none]
      rw [ih]
      congr 1; funext c
      simp [runE, stepE, hi]
    | some i =>
      simp only [Option.map_some]
      rw [fillRange_ok _ _ _ hr]
      simp only
      rw [ih]
      congr 1; funext c
      simp [runE, stepE, hi]

theorem fillGroups_ok (f : Str → PRange → Option (Rec → Rec)) (key : Str → PRange → Str) (idx : Str → Option Nat)
    (set : Nat → Rec → Rec) (hf : ∀ n r, f n r = (idx (key n r)).map set) (gs : List (Str × List PRange))
    (h : ∀ g ∈ gs, ∀ r ∈ g.2, r.last < count) (R : Records) :
    fillGroups f gs R = .ok fun c => runE idx set (gents key gs) c (R c) := by
  induction gs generalizing R with
  | nil => rfl
  | cons g gs ih =>
    obtain ⟨n, rs⟩ := g
    have ih := ih (fun g hg => h g (by simp [hg]))
    unfold fillGroups
    rw [fillAll_ok (f n) (key n) idx set (hf n) rs (h (n, rs) (by simp))]
    simp only
    rw [ih]
    congr 1; funext c
    simp [runE, gents]

theorem setBases_ok (bs : List Nat) (R : Records) :
    ∃ R', setBases bs R = .ok R' ∧ ∀ c < count, R' c =
      runE (fun _ => some 1) (fun m rec => { rec with flags2 := rec.flags2 ||| m }) (bs.map fun b => (b, b, [])) c (R c) := by
  induction bs generalizing R with
  | nil => exact ⟨R, rfl, fun _ _ => rfl⟩
  | cons b bs ih =>
    unfold setBases
    by_cases hb : b < count
    · rw [if_pos hb]
      unfold update
      rw [if_pos hb]
      simp only
      obtain ⟨R', h1, h2⟩ := ih (fun c => if c = b then { R c with flags2 := (R c).flags2 ||| 0x01 } else R c)
      refine ⟨R', h1, fun c hc => ?_⟩
      rw [h2 c hc]
      simp only [runE, List.map_cons, List.foldl_cons, stepE]
      congr 1
      by_cases h3 : c = b
      · rw [if_pos h3, if_pos (by omega)]
      · rw [if_neg h3, if_neg (by omega)]
    · rw [if_neg hb]
      obtain ⟨R', h1, h2⟩ := ih R
      refine ⟨R', h1, fun c hc => ?_⟩
      rw [h2 c hc]
      simp only [runE, List.map_cons, List.foldl_cons, stepE]
      rw [if_neg (by omega)]

/-- A pass leaves every field alone that its setter leaves alone. -/
theorem runE_pres {α : Type} (π : Rec → α) (idx : Str → Option Nat) (set : Nat → Rec → Rec)
    (hp : ∀ i rec, π (set i rec) = π rec) (es : List Entry) (c : Nat) (rec : Rec) : π (runE idx set es c rec) = π rec := by
  induction es generalizing rec with
  | nil => rfl
  | cons e es ih =>
    show π (runE idx set es c (stepE idx set c rec e)) = π rec
    rw [ih]
    unfold stepE
    split
    · split
      · rfl
      · exact hp _ _
    · rfl

theorem assigns_cons (e : Entry) (es : List Entry) (c : Nat) (v : Str) :
    Assigns (e :: es) c v ↔ (e.1 ≤ c ∧ c ≤ e.2.1 ∧ e.2.2 = v) ∨ Assigns es c v := by
  simp [Assigns]

/-- What a pass that sets a field to the index of the value does. -/
theorem runE_assign {α : Type} (π : Rec → α) (idx : Str → Option Nat) (set : Nat → Rec → Rec) (val : Nat → α)
    (hs : ∀ i rec, π (set i rec) = val i) (es : List Entry) (c : Nat)
    (hc : ∀ v w, Assigns es c v → Assigns es c w → v = w) (rec : Rec) :
    (∀ v, Assigns es c v → ∀ i, idx v = some i → π (runE idx set es c rec) = val i) ∧
      ((∀ v, Assigns es c v → idx v = none) → π (runE idx set es c rec) = π rec) := by
  induction es generalizing rec with
  | nil => exact ⟨fun v h => by simp [Assigns] at h, fun _ => rfl⟩
  | cons e es ih =>
    have ih := ih (fun v w hv hw => hc v w ((assigns_cons _ _ _ _).2 (Or.inr hv)) ((assigns_cons _ _ _ _).2 (Or.inr hw)))
      (stepE idx set c rec e)
    constructor
    · intro v hv i hi
      show π (runE idx set es c (stepE idx set c rec e)) = val i
      by_cases hr : ∃ w, Assigns es c w
      · obtain ⟨w, hw⟩ := hr
        have : w = v := hc w v ((assigns_cons _ _ _ _).2 (Or.inr hw)) hv
        subst this
        exact ih.1 _ hw i hi
      · rw [ih.2 (fun w hw => absurd ⟨w, hw⟩ hr)]
        rcases (assigns_cons _ _ _ _).1 hv with ⟨h1, h2, h3⟩ | h
        · unfold stepE
          rw [if_pos ⟨h1, h2⟩, h3, hi]
          exact hs _ _
        · exact absurd ⟨v, h⟩ hr
    · intro hn
      show π (runE idx set es c (stepE idx set c rec e)) = π rec
      rw [ih.2 (fun v hv => hn v ((assigns_cons _ _ _ _).2 (Or.inr hv)))]
      unfold stepE
      by_cases h1 : e.1 ≤ c ∧ c ≤ e.2.1
      · rw [if_pos h1, hn e.2.2 ((assigns_cons _ _ _ _).2 (Or.inl ⟨h1.1, h1.2, rfl⟩))]
      · rw [if_neg h1]

/-- What a pass that switches flags on does. -/
theorem runE_flags (π : Rec → Nat) (idx : Str → Option Nat) (set : Nat → Rec → Rec)
    (hs : ∀ m rec, π (set m rec) = π rec ||| m) (es : List Entry) (c b : Nat) (rec : Rec) :
    (π (runE idx set es c rec)).testBit b = true ↔
      (π rec).testBit b = true ∨ ∃ v m, Assigns es c v ∧ idx v = some m ∧ m.testBit b = true := by
  induction es generalizing rec with
  | nil => simp [runE, Assigns]
  | cons e es ih =>
    show (π (runE idx set es c (stepE idx set c rec e))).testBit b = true ↔ _
    rw [ih]
    simp only [assigns_cons]
    unfold stepE
    by_cases h1 : e.1 ≤ c ∧ c ≤ e.2.1
    · rw [if_pos h1]
      cases hi : idx e.2.2 with
      | none =>
        simp only
        constructor
        · rintro (h | ⟨v, m, h2, h3, h4⟩)
          · exact Or.inl h
          · exact Or.inr ⟨v, m, Or.inr h2, h3, h4⟩
        · rintro (h | ⟨v, m, ⟨-, -, h2⟩ | h2, h3, h4⟩)
          · exact Or.inl h
          · rw [← h2, hi] at h3; simp at h3
          · exact Or.inr ⟨v, m, h2, h3, h4⟩
      | some m0 =>
        simp only [hs, Nat.testBit_or, Bool.or_eq_true]
        constructor
        · rintro ((h | h) | ⟨v, m, h2, h3, h4⟩)
          · exact Or.inl h
          · exact Or.inr ⟨_, m0, Or.inl ⟨h1.1, h1.2, rfl⟩, hi, h⟩
          · exact Or.inr ⟨v, m, Or.inr h2, h3, h4⟩
        · rintro (h | ⟨v, m, ⟨-, -, h2⟩ | h2, h3, h4⟩)
          · exact Or.inl (Or.inl h)
          · rw [← h2, hi] at h3; simp at h3; subst h3; exact Or.inl (Or.inr h4)
          · exact Or.inr ⟨v, m, h2, h3, h4⟩
    · rw [if_neg h1]
      constructor
      · rintro (h | ⟨v, m, h2, h3, h4⟩)
        · exact Or.inl h
        · exact Or.inr ⟨v, m, Or.inr h2, h3, h4⟩
      · rintro (h | ⟨v, m, ⟨a, b', -⟩ | h2, h3, h4⟩)
        · exact Or.inl h
        · exact absurd ⟨a, b'⟩ h1
        · exact Or.inr ⟨v, m, h2, h3, h4⟩

end Verif.Tg
