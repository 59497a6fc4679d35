import Verif.Model.Grapheme
import Verif.Spec.Grapheme
import Mathlib.Data.List.Induction
/-! Helper lemmas for the grapheme segmenter. -/

namespace Verif.Grapheme
open Verif.Ucd Verif.Spec.GB

/-- `pre` ends in an `S` followed by any number of `T`s. -/
def Chain (S T : Nat → Prop) (pre : List Nat) : Prop :=
  ∃ p c m, pre = p ++ c :: m ∧ S c ∧ ∀ x ∈ m, T x

/-- … at least one of which is an `L`. -/
def Chain2 (S T L : Nat → Prop) (pre : List Nat) : Prop :=
  ∃ p c m, pre = p ++ c :: m ∧ S c ∧ (∀ x ∈ m, T x) ∧ ∃ x ∈ m, L x

theorem chain_snoc (S T : Nat → Prop) (pre : List Nat) (b : Nat) :
    Chain S T (pre ++ [b]) ↔ S b ∨ (T b ∧ Chain S T pre) := by
  constructor
  · rintro ⟨p, c, m, h1, h2, h3⟩
    cases m using List.reverseRecOn with
    | nil =>
      have := List.append_inj' h1 rfl
      simp at this
      left; rw [this.2]; exact h2
    | append_singleton m x =>
      have : pre ++ [b] = (p ++ c :: m) ++ [x] := by rw [h1]; simp
      have := List.append_inj' this rfl
      simp at this
      right
      refine ⟨this.2 ▸ h3 x (by simp), p, c, m, this.1, h2, fun y hy => h3 y (by simp [hy])⟩
  · rintro (h | ⟨h, p, c, m, h1, h2, h3⟩)
    · exact ⟨pre, b, [], rfl, h, by simp⟩
    · refine ⟨p, c, m ++ [b], by rw [h1]; simp, h2, ?_⟩
      intro x hx
      rcases List.mem_append.1 hx with hx | hx
      · exact h3 x hx
      · simp at hx; rw [hx]; exact h

theorem chain2_snoc (S T L : Nat → Prop) (pre : List Nat) (b : Nat) :
    Chain2 S T L (pre ++ [b]) ↔ T b ∧ ((L b ∧ Chain S T pre) ∨ Chain2 S T L pre) := by
  constructor
  · rintro ⟨p, c, m, h1, h2, h3, x, hx, hL⟩
    cases m using List.reverseRecOn with
    | nil => simp at hx
    | append_singleton m y =>
      have : pre ++ [b] = (p ++ c :: m) ++ [y] := by rw [h1]; simp
      have := List.append_inj' this rfl
      simp at this
      obtain ⟨h4, rfl⟩ := this
      refine ⟨h3 b (by simp), ?_⟩
      rcases List.mem_append.1 hx with hx | hx
      · right; exact ⟨p, c, m, h4, h2, fun z hz => h3 z (by simp [hz]), x, hx, hL⟩
      · simp at hx; subst hx
        left; exact ⟨hL, p, c, m, h4, h2, fun z hz => h3 z (by simp [hz])⟩
  · rintro ⟨hb, ⟨hL, p, c, m, h1, h2, h3⟩ | ⟨p, c, m, h1, h2, h3, x, hx, hL⟩⟩
    · refine ⟨p, c, m ++ [b], by rw [h1]; simp, h2, ?_, b, by simp, hL⟩
      intro x hx
      rcases List.mem_append.1 hx with hx | hx
      · exact h3 x hx
      · simp at hx; rw [hx]; exact hb
    · refine ⟨p, c, m ++ [b], by rw [h1]; simp, h2, ?_, x, by simp [hx], hL⟩
      intro x hx
      rcases List.mem_append.1 hx with hx | hx
      · exact h3 x hx
      · simp at hx; rw [hx]; exact hb

theorem not_chain_nil (S T : Nat → Prop) : ¬ Chain S T [] := by
  rintro ⟨p, c, m, h, _⟩; simp at h

theorem not_chain2_nil (S T L : Nat → Prop) : ¬ Chain2 S T L [] := by
  rintro ⟨p, c, m, h, _⟩; simp at h

theorem chain2_chain (S T L : Nat → Prop) (pre) (h : Chain2 S T L pre) : Chain S T pre := by
  obtain ⟨p, c, m, h1, h2, h3, _⟩ := h
  exact ⟨p, c, m, h1, h2, h3⟩

variable (U : Table)

def IsRI (c : Nat) : Bool := (U c).gcb = .Regional_Indicator

/-- number of regional indicators the text ends with -/
def trail (pre : List Nat) : Nat := (pre.reverse.takeWhile (IsRI U)).length

theorem trail_snoc (pre : List Nat) (b : Nat) :
    trail U (pre ++ [b]) = if (U b).gcb = .Regional_Indicator then trail U pre + 1 else 0 := by
  simp only [trail, List.reverse_append, List.reverse_cons, List.reverse_nil, List.nil_append,
    List.cons_append, List.takeWhile_cons]
  by_cases h : (U b).gcb = .Regional_Indicator <;> simp [IsRI, h]

theorem trail_odd (pre : List Nat) :
    trail U pre % 2 = 1 ↔ ∃ p ris, pre = p ++ ris ∧
      (∀ x ∈ ris, (U x).gcb = .Regional_Indicator) ∧ ris.length % 2 = 1 ∧
      (∀ q y, p = q ++ [y] → (U y).gcb ≠ .Regional_Indicator) := by
  constructor
  · intro h
    refine ⟨(pre.reverse.dropWhile (IsRI U)).reverse, (pre.reverse.takeWhile (IsRI U)).reverse, ?_, ?_, ?_, ?_⟩
    · rw [← List.reverse_append, List.takeWhile_append_dropWhile, List.reverse_reverse]
    · intro x hx
      have := List.all_eq_true.1 (List.all_takeWhile (p := IsRI U) (l := pre.reverse)) x (List.mem_reverse.1 hx)
      simpa [IsRI] using this
    · simpa [trail] using h
    · intro q y hq
      have hq' : pre.reverse.dropWhile (IsRI U) = y :: q.reverse := by
        have := congrArg List.reverse hq
        simpa using this
      have := List.head?_dropWhile_not (IsRI U) pre.reverse
      rw [hq'] at this
      simpa [IsRI] using this
  · rintro ⟨p, ris, rfl, h2, h3, h4⟩
    have : trail U (p ++ ris) = ris.length := by
      simp only [trail, List.reverse_append]
      rw [List.takeWhile_append_of_pos]
      · rw [List.length_append, List.length_reverse]
        suffices (p.reverse.takeWhile (IsRI U)).length = 0 by omega
        cases p using List.reverseRecOn with
        | nil => rfl
        | append_singleton q y =>
          have := h4 q y rfl
          simp [List.takeWhile_cons, IsRI, this]
      · intro x hx
        simpa [IsRI] using h2 x (List.mem_reverse.1 hx)
    omega

def isCons (c : Nat) : Prop := (U c).incb = .Consonant
def isExtLink (c : Nat) : Prop := (U c).incb = .Extend ∨ (U c).incb = .Linker
def isLink (c : Nat) : Prop := (U c).incb = .Linker
def isEp (c : Nat) : Prop := (U c).isExtPict = true
def isExtZwj (c : Nat) : Prop := (U c).gcb = .Extend ∨ (U c).gcb = .ZWJ

/-- What the state says about the text `pre ++ [a]` read so far (everything but the flag counter). -/
structure InvC (s : GState) (pre : List Nat) (a : Nat) : Prop where
  cp : s.previousCodepoint = a
  props : s.previousProperties = U a
  incb1 : s.incbState ≥ 1 ↔ Chain (isCons U) (isExtLink U) (pre ++ [a])
  incb2 : s.incbState = 2 ↔ Chain2 (isCons U) (isExtLink U) (isLink U) (pre ++ [a])
  incbLe : s.incbState ≤ 2
  ep : s.extpicState = 1 ↔ Chain (isEp U) (isExtZwj U) (pre ++ [a])
  epLe : s.extpicState ≤ 1

/-- Is the trailing run of regional indicators preceded by a Prepend? -/
def prep (pre : List Nat) : Nat :=
  if (pre.reverse.dropWhile (IsRI U)).head?.map (fun c => (U c).gcb) = some .Prepend then 1 else 0

theorem prep_snoc (pre : List Nat) (b : Nat) :
    prep U (pre ++ [b]) = if (U b).gcb = .Regional_Indicator then prep U pre
      else if (U b).gcb = .Prepend then 1 else 0 := by
  simp only [prep, List.reverse_append, List.reverse_cons, List.reverse_nil, List.nil_append,
    List.cons_append, List.dropWhile_cons]
  by_cases h : (U b).gcb = .Regional_Indicator <;> simp [IsRI, h]

theorem prep_le (pre : List Nat) : prep U pre ≤ 1 := by unfold prep; split <;> omega

/-- The value of the flag counter after reading `pre`. -/
def ctr (pre : List Nat) : Nat := if trail U pre = 0 then 0 else trail U pre - prep U pre

def InvR (s : GState) (pre : List Nat) (a : Nat) : Prop := s.riCounter = ctr U (pre ++ [a]) % 2

variable {U}

/-- The state right after `grapheme_process_init(b)` describes `pre ++ [b]` provided the chains do not
continue through `b`. -/
theorem init_core (pre : List Nat) (b : Nat)
    (h1 : isExtLink U b → ¬ Chain (isCons U) (isExtLink U) pre)
    (h2 : isExtZwj U b → ¬ Chain (isEp U) (isExtZwj U) pre) :
    InvC U (processInit U b) pre b := by
  refine ⟨rfl, rfl, ?_, ?_, ?_, ?_, ?_⟩
  · simp only [processInit, chain_snoc]
    split
    · rename_i h; simp [isCons, h]
    · rename_i h
      constructor
      · intro h'; omega
      · rintro (h' | ⟨h', h''⟩)
        · exact absurd h' h
        · exact absurd h'' (h1 h')
  · simp only [processInit, chain2_snoc]
    constructor
    · intro h; split at h <;> omega
    · rintro ⟨h, ⟨_, h'⟩ | h'⟩
      · exact absurd h' (h1 h)
      · exact absurd (chain2_chain _ _ _ _ h') (h1 h)
  · simp only [processInit]; split <;> omega
  · simp only [processInit, chain_snoc]
    split
    · rename_i h; simp [isEp, h]
    · rename_i h
      constructor
      · intro h'; omega
      · rintro (h' | ⟨h', h''⟩)
        · exact absurd h' h
        · exact absurd h'' (h2 h')
  · simp only [processInit]; split <;> omega

theorem init_first (c : Nat) : InvC U (processInit U c) [] c ∧ InvR U (processInit U c) [] c := by
  refine ⟨init_core [] c (fun _ => not_chain_nil _ _) (fun _ => not_chain_nil _ _), ?_⟩
  simp only [InvR, ctr, trail_snoc, prep_snoc, processInit]
  split <;> simp [trail, prep]

/-- Fields of the state after a step, uniformly. -/
theorem step_fields (s : GState) (b : Nat) :
    (processBreakable U b s).1.previousCodepoint = b ∧
    (processBreakable U b s).1.previousProperties = U b := by
  simp only [processBreakable]
  split
  · simp
  split
  · simp
  split <;> simp

theorem step_incb (s : GState) (b : Nat) :
    (processBreakable U b s).1.incbState =
      if s.previousProperties.gcb = .CR ∧ (U b).gcb = .LF then s.incbState
      else if s.previousCodepoint < 128 ∧ b < 128 then 0 else incbNext (U b) s.incbState := by
  simp only [processBreakable]
  split
  · rfl
  split
  · rfl
  split <;> rfl

theorem step_extpic (s : GState) (b : Nat) :
    (processBreakable U b s).1.extpicState =
      if s.previousProperties.gcb = .CR ∧ (U b).gcb = .LF then s.extpicState
      else if s.previousCodepoint < 128 ∧ b < 128 then 0 else extpicNext (U b) s.extpicState := by
  simp only [processBreakable]
  split
  · rfl
  split
  · rfl
  split <;> rfl

theorem step_core (D : DataOk U) (s : GState) (pre : List Nat) (a b : Nat) (h : InvC U s pre a) :
    InvC U (processBreakable U b s).1 (pre ++ [a]) b := by
  have hf := step_fields (U := U) s b
  have hi := step_incb (U := U) s b
  have he := step_extpic (U := U) s b
  rw [h.cp, h.props] at hi he
  have hLk : isLink U b → isExtLink U b := fun h => .inr h
  -- incb: state describes the chain in every path
  have key : ∀ n, (processBreakable U b s).1.incbState = n → n = incbNext (U b) s.incbState := by
    intro n hn
    rw [← hn, hi]
    split
    · rename_i hc
      have hb := (D.crlf_plain b (.inr hc.2)).1
      have ha := (D.crlf_plain a (.inl hc.1)).1
      have : ¬ s.incbState ≥ 1 := by
        rw [h.incb1, chain_snoc]
        simp [isCons, isExtLink, ha]
      simp [incbNext, hb]; omega
    split
    · rename_i hc
      have hb := D.ascii_incb b hc.2
      simp [incbNext, hb]
    · rfl
  have keyE : (processBreakable U b s).1.extpicState = extpicNext (U b) s.extpicState := by
    rw [he]
    split
    · rename_i hc
      have hb := (D.crlf_plain b (.inr hc.2)).2
      have ha := (D.crlf_plain a (.inl hc.1)).2
      have : ¬ s.extpicState = 1 := by
        rw [h.ep, chain_snoc]
        simp [isEp, isExtZwj, ha, hc.1]
      have := h.epLe
      simp [extpicNext, hb]; omega
    split
    · rename_i hc
      have hb := D.ascii_extpict b hc.2
      have := h.epLe
      have hg : ¬ ((U b).gcb = .Extend ∨ (U b).gcb = .ZWJ) := by
        rcases D.ascii_gcb b hc.2 with h | h | h | h <;> simp [h]
      simp only [extpicNext, hb, hg]
      split <;> simp_all
    · rfl
  have key := key _ rfl
  have hle := h.incbLe
  refine ⟨hf.1, hf.2, ?_, ?_, ?_, ?_, ?_⟩
  · rw [key, chain_snoc, ← h.incb1]
    simp only [incbNext, isCons, isExtLink]
    cases hb : (U b).incb <;> simp <;> (try split) <;> omega
  · rw [key, chain2_snoc, ← h.incb1, ← h.incb2]
    simp only [incbNext, isLink, isExtLink]
    cases hb : (U b).incb <;> simp <;> (try split) <;> omega
  · rw [key, incbNext]
    repeat' split
    all_goals omega
  · rw [keyE, chain_snoc, ← h.ep]
    have := h.epLe
    simp only [extpicNext, isEp, isExtZwj]
    cases hb : (U b).isExtPict
    · simp only [Bool.false_eq_true, or_false, if_false, false_or]
      by_cases h1 : s.extpicState = 1
      · simp only [h1]; simp [or_iff_not_imp_left]
      · have : s.extpicState = 0 := by omega
        simp [this]
    · simp
  · have := h.epLe
    rw [keyE, extpicNext]
    repeat' split
    all_goals omega

/-! ### The verdict -/

theorem _root_.Verif.Spec.GB.NoZwjExtendZwj.prefix {l r : List Nat} (h : NoZwjExtendZwj U (l ++ r)) : NoZwjExtendZwj U l := by
  intro p z m z' q hl
  exact h p z m z' (q ++ r) (by rw [hl]; simp)

theorem zwj_chain_extend (D : DataOk U) (l : List Nat) (a : Nat) (hz : NoZwjExtendZwj U (l ++ [a]))
    (ha : (U a).gcb = .ZWJ) :
    Chain (isEp U) (isExtZwj U) (l ++ [a]) ↔
      ∃ p e m z, l ++ [a] = p ++ e :: (m ++ [z]) ∧ (U e).isExtPict ∧
        (∀ x ∈ m, (U x).gcb = .Extend) ∧ (U z).gcb = .ZWJ := by
  constructor
  · intro h
    rw [chain_snoc] at h
    rcases h with h | ⟨_, p, e, m, h1, h2, h3⟩
    · have := D.extpict_gcb a h
      rw [ha] at this; cases this
    · refine ⟨p, e, m, a, by rw [h1]; simp, h2, ?_, ha⟩
      intro x hx
      -- the last ZWJ in m would violate the hypothesis
      suffices ∀ (m : List Nat) (p : List Nat), l = p ++ m → (∀ x ∈ m, isExtZwj U x) →
          ∀ x ∈ m, (U x).gcb = .Extend from
        this m (p ++ [e]) (by rw [h1]; simp) h3 x hx
      intro m
      induction m with
      | nil => simp
      | cons y m ih =>
        intro p hp hm
        have ih := ih (p ++ [y]) (by rw [hp]; simp) (fun x hx => hm x (by simp [hx]))
        intro x hx
        rcases List.mem_cons.1 hx with rfl | hx
        · rcases hm x (by simp) with h | h
          · exact h
          · exact absurd ha (hz p x m a [] (by rw [hp]; simp) h ih)
        · exact ih x hx
  · rintro ⟨p, e, m, z, h1, h2, h3, h4⟩
    refine ⟨p, e, m ++ [z], h1, h2, ?_⟩
    intro x hx
    rcases List.mem_append.1 hx with hx | hx
    · exact .inl (h3 x hx)
    · simp at hx; rw [hx]; exact .inr h4

theorem isCtl_iff (g : GCB) : isCtl g = true ↔ g = .Control ∨ g = .CR ∨ g = .LF := by
  cases g <;> simp [isCtl]

theorem cascade_brk (A : GCB) (pb : Props) (i e ri : Nat) : cascade A pb i e ri = .brk ↔
    (A = .Control ∨ A = .CR ∨ A = .LF) ∨ (pb.gcb = .Control ∨ pb.gcb = .CR ∨ pb.gcb = .LF) ∨
    ¬ ((A = .L ∧ (pb.gcb = .L ∨ pb.gcb = .V ∨ pb.gcb = .LV ∨ pb.gcb = .LVT)) ∨
       ((A = .LV ∨ A = .V) ∧ (pb.gcb = .V ∨ pb.gcb = .T)) ∨
       ((A = .LVT ∨ A = .T) ∧ pb.gcb = .T) ∨
       (pb.gcb = .Extend ∨ pb.gcb = .ZWJ) ∨ pb.gcb = .SpacingMark ∨ A = .Prepend ∨
       (pb.incb = .Consonant ∧ i = 2) ∨ (A = .ZWJ ∧ pb.isExtPict ∧ e = 1) ∨
       (A = .Regional_Indicator ∧ A = pb.gcb ∧ ri = 1)) := by
  unfold cascade
  simp only [isCtl_iff]
  split
  · rename_i g; simp only [g, true_or, or_true, not_true, or_false]
  rename_i g4; simp only [g4, false_or]
  split
  · rename_i g; simp only [g, true_or, or_true, not_true, or_false]
  rename_i g5; simp only [g5, false_or]
  split
  · rename_i g; simp [g]
  rename_i g6; simp only [g6, false_or]
  split
  · rename_i g; simp [g]
  rename_i g7; simp only [g7, false_or]
  split
  · rename_i g; simp [g]
  rename_i g8; simp only [g8, false_or]
  split
  · rename_i g; simp [g]
  rename_i g9; simp only [g9, false_or]
  split
  · rename_i g; simp [g]
  rename_i g9a; simp only [g9a, false_or]
  split
  · rename_i g; simp [g]
  rename_i g9b; simp only [g9b, false_or]
  split
  · rename_i g; simp [g]
  rename_i g9c; simp only [g9c, false_or]
  split
  · rename_i g; simp [g]
  rename_i g11; simp only [g11, false_or]
  split
  · rename_i g; exact ⟨fun h => (by cases h), fun h => absurd g h⟩
  · rename_i g; exact ⟨fun _ => g, fun _ => rfl⟩

theorem verdict (D : DataOk U) (s : GState) (pre : List Nat) (a b : Nat) (h : InvC U s pre a)
    (G12 : List Nat → Nat → Prop)
    (e12 : ((U a).gcb = .Regional_Indicator ∧ (U a).gcb = (U b).gcb ∧ s.riCounter = 1) ↔
      G12 (pre ++ [a]) b) :
    (processBreakable U b s).2 = true ↔ BoundaryWith U (gb11x U) G12 pre a b := by
  have e9c : ((U b).incb = .Consonant ∧ s.incbState = 2) ↔ gb9c U (pre ++ [a]) b := by
    rw [h.incb2]; rfl
  have e11 : ((U a).gcb = .ZWJ ∧ (U b).isExtPict ∧ s.extpicState = 1) ↔ gb11x U (pre ++ [a]) b := by
    rw [h.ep, gb11x]
    constructor
    · rintro ⟨h1, h2, h3⟩
      refine ⟨h2, ?_⟩
      rw [chain_snoc] at h3
      rcases h3 with h3 | ⟨_, p, e, m, h4, h5, h6⟩
      · have := D.extpict_gcb a h3
        rw [h1] at this; cases this
      · exact ⟨p, e, m, a, by rw [h4]; simp, h5, h6, h1⟩
    · rintro ⟨h1, p, e, m, z, h2, h3, h4, h5⟩
      have ha : (U a).gcb = .ZWJ := by
        have : pre ++ [a] = (p ++ e :: m) ++ [z] := by rw [h2]; simp
        have := List.append_inj' this rfl
        simp at this
        rw [this.2]; exact h5
      refine ⟨ha, h1, p, e, m ++ [z], h2, h3, ?_⟩
      intro x hx
      rcases List.mem_append.1 hx with hx | hx
      · exact h4 x hx
      · simp at hx; rw [hx]; exact .inr h5
  unfold BoundaryWith
  rw [← e9c, ← e11, ← e12]
  simp only [processBreakable, h.cp, h.props]
  by_cases h3 : (U a).gcb = .CR ∧ (U b).gcb = .LF
  · simp [h3, gb3]
  rw [if_neg h3]
  have h3' : ¬ gb3 U a b := h3
  by_cases hasc : a < 128 ∧ b < 128
  · rw [if_pos hasc]
    have ha := D.ascii_gcb a hasc.1
    have hb := D.ascii_gcb b hasc.2
    have hbi := D.ascii_incb b hasc.2
    have hbe := D.ascii_extpict b hasc.2
    simp only [h3', not_false_eq_true, true_and, gb4, gb5, gb6, gb7, gb8, gb9, gb9a, gb9b, hbi, hbe]
    rcases ha with ha | ha | ha | ha <;> rcases hb with hb | hb | hb | hb <;> simp [ha, hb]
  rw [if_neg hasc]
  have hri : ((U a).gcb = .Regional_Indicator ∧ (U a).gcb = (U b).gcb ∧ s.riCounter = 1) ↔
      ((U a).gcb = .Regional_Indicator ∧ (U a).gcb = (U b).gcb ∧
        (if (U b).gcb = .Regional_Indicator then s.riCounter else 0) = 1) := by
    constructor
    · rintro ⟨h1, h2, h4⟩
      rw [if_pos (h2 ▸ h1)]
      exact ⟨h1, h2, h4⟩
    · rintro ⟨h1, h2, h4⟩
      rw [if_pos (h2 ▸ h1)] at h4
      exact ⟨h1, h2, h4⟩
  rw [hri]
  generalize (if (U b).gcb = .Regional_Indicator then s.riCounter else 0) = ri
  refine Iff.trans (b := cascade (U a).gcb (U b) s.incbState s.extpicState ri = .brk) ?_ ?_
  · cases cascade (U a).gcb (U b) s.incbState s.extpicState ri <;> simp
  simp only [h3', not_false_eq_true, true_and]
  exact cascade_brk _ _ _ _ _

/-! ### The flag counter -/

theorem cascade_joinFlag (A : GCB) (pb : Props) (i e ri : Nat) (h : cascade A pb i e ri = .joinFlag) :
    A = .Regional_Indicator ∧ A = pb.gcb ∧ ri = 1 := by
  unfold cascade at h
  simp only at h
  by_cases g12 : A = .Regional_Indicator ∧ A = pb.gcb ∧ ri = 1
  · exact g12
  · rw [if_neg g12] at h
    repeat' split at h
    all_goals cases h

theorem cascade_ri_pair (pb : Props) (i e : Nat) (hb : pb.gcb = .Regional_Indicator)
    (hc : pb.incb ≠ .Consonant) :
    cascade .Regional_Indicator pb i e 1 = .joinFlag := by
  simp [cascade, hb, hc, isCtl]

theorem step_ri_not (s : GState) (b : Nat) (hb : (U b).gcb ≠ .Regional_Indicator) :
    (processBreakable U b s).1.riCounter = 0 := by
  simp only [processBreakable, hb, if_false]
  split
  · rfl
  split
  · rfl
  split
  · rfl
  · rfl
  · rename_i h
    exact absurd (cascade_joinFlag _ _ _ _ _ h).2.2 (by omega)

/-- A regional indicator that joins the previous codepoint (not a Prepend) closes an open flag. -/
theorem ri_join (D : DataOk U) (s : GState) (b : Nat) (hb : (U b).gcb = .Regional_Indicator)
    (hp : s.previousProperties.gcb ≠ .Prepend) (hv : (processBreakable U b s).2 = false) :
    s.previousProperties.gcb = .Regional_Indicator ∧ s.riCounter = 1 ∧
      (processBreakable U b s).1.riCounter = 0 := by
  have hinc : (U b).incb ≠ .Consonant := fun h => (D.incb_consonant b h).2.2.2 hb
  have hep : ¬ (U b).isExtPict = true := fun h => by rw [D.extpict_gcb b h] at hb; cases hb
  simp only [processBreakable] at hv ⊢
  rw [if_neg (by simp [hb])] at hv ⊢
  by_cases hasc : s.previousCodepoint < 128 ∧ b < 128
  · rw [if_pos hasc] at hv; cases hv
  rw [if_neg hasc] at hv ⊢
  have hnb : cascade s.previousProperties.gcb (U b) s.incbState s.extpicState
      (if (U b).gcb = .Regional_Indicator then s.riCounter else 0) ≠ .brk := by
    intro h; rw [h] at hv; cases hv
  rw [Ne, cascade_brk] at hnb
  simp only [hb, if_true, hinc, hep, hp] at hnb
  simp at hnb
  obtain ⟨h1, h2⟩ := hnb.2
  have h2 : s.riCounter = 1 := h2
  refine ⟨h1, h2, ?_⟩
  rw [h1, hb, h2]
  have := cascade_ri_pair (U b) s.incbState s.extpicState hb hinc
  simp only [if_true, this]

theorem at_snoc (R : List Nat → Nat → Nat → Prop) (p : List Nat) (a b : Nat) :
    (∃ p' a', p ++ [a] = p' ++ [a'] ∧ R p' a' b) ↔ R p a b := by
  constructor
  · rintro ⟨p', a', h, hb⟩
    have := List.append_inj' h rfl
    simp at this
    rw [this.1, this.2]; exact hb
  · intro h; exact ⟨p, a, rfl, h⟩

/-- Abbreviation for the code's boundary. -/
abbrev BX (U : Table) (pre : List Nat) (a b : Nat) : Prop := BoundaryWith U (gb11x U) (gb12x U) pre a b

theorem last_unique (p : List Nat) (P : Nat → Prop) (q : List Nat) (y : Nat) (h : p = q ++ [y]) :
    (∃ q y, p = q ++ [y] ∧ P y) ↔ P y := by
  constructor
  · rintro ⟨q', y', h', hy⟩
    have := List.append_inj' (h.symm.trans h') rfl
    simp at this
    rw [this.2]; exact hy
  · intro hy; exact ⟨q, y, h, hy⟩

theorem run_trail (p ris : List Nat) (h2 : ∀ x ∈ ris, (U x).gcb = .Regional_Indicator)
    (h4 : ∀ q y, p = q ++ [y] → (U y).gcb ≠ .Regional_Indicator) :
    trail U (p ++ ris) = ris.length ∧
      (prep U (p ++ ris) = 1 ↔ ∃ q y, p = q ++ [y] ∧ (U y).gcb = .Prepend) := by
  induction ris using List.reverseRecOn with
  | nil =>
    cases p using List.reverseRecOn with
    | nil => simp [trail, prep]
    | append_singleton q y =>
      have := h4 q y rfl
      rw [last_unique _ (fun y => (U y).gcb = .Prepend) q y rfl]
      simp only [List.append_nil, trail_snoc, prep_snoc, this, if_false]
      by_cases h : (U y).gcb = .Prepend <;> simp [h]
  | append_singleton ris x ih =>
    have ih := ih (fun x hx => h2 x (by simp [hx]))
    have hx := h2 x (by simp)
    rw [← List.append_assoc, trail_snoc, prep_snoc, if_pos hx, if_pos hx, ih.1]
    exact ⟨by simp, ih.2⟩

theorem run_exists (l : List Nat) : ∃ p ris, l = p ++ ris ∧
    (∀ x ∈ ris, (U x).gcb = .Regional_Indicator) ∧
    (∀ q y, p = q ++ [y] → (U y).gcb ≠ .Regional_Indicator) := by
  refine ⟨(l.reverse.dropWhile (IsRI U)).reverse, (l.reverse.takeWhile (IsRI U)).reverse, ?_, ?_, ?_⟩
  · rw [← List.reverse_append, List.takeWhile_append_dropWhile, List.reverse_reverse]
  · intro x hx
    have := List.all_eq_true.1 (List.all_takeWhile (p := IsRI U) (l := l.reverse)) x (List.mem_reverse.1 hx)
    simpa [IsRI] using this
  · intro q y hq
    have hq' : l.reverse.dropWhile (IsRI U) = y :: q.reverse := by
      have := congrArg List.reverse hq
      simpa using this
    have := List.head?_dropWhile_not (IsRI U) l.reverse
    rw [hq'] at this
    simpa [IsRI] using this

theorem ctr_odd (l : List Nat) : ctr U l % 2 = 1 ↔ ∃ p ris, l = p ++ ris ∧
    (∀ x ∈ ris, (U x).gcb = .Regional_Indicator) ∧ ris ≠ [] ∧
    (∀ q y, p = q ++ [y] → (U y).gcb ≠ .Regional_Indicator) ∧
    ((∃ q y, p = q ++ [y] ∧ (U y).gcb = .Prepend) ∧ ris.length % 2 = 0 ∨
     (¬ ∃ q y, p = q ++ [y] ∧ (U y).gcb = .Prepend) ∧ ris.length % 2 = 1) := by
  have key : ∀ p ris, l = p ++ ris → (∀ x ∈ ris, (U x).gcb = .Regional_Indicator) →
      (∀ q y, p = q ++ [y] → (U y).gcb ≠ .Regional_Indicator) →
      (ctr U l % 2 = 1 ↔ ris ≠ [] ∧
        ((∃ q y, p = q ++ [y] ∧ (U y).gcb = .Prepend) ∧ ris.length % 2 = 0 ∨
         (¬ ∃ q y, p = q ++ [y] ∧ (U y).gcb = .Prepend) ∧ ris.length % 2 = 1)) := by
    intro p ris hl h2 h3
    obtain ⟨h5, h6⟩ := run_trail p ris h2 h3
    rw [← h6, ← hl]
    rw [← hl] at h5
    have hle := prep_le U l
    have hne : ris ≠ [] ↔ ris.length ≠ 0 := by simp
    rw [hne, ctr, h5]
    split <;> omega
  constructor
  · intro h
    obtain ⟨p, ris, hl, h2, h3⟩ := run_exists (U := U) l
    have := (key p ris hl h2 h3).1 h
    exact ⟨p, ris, hl, h2, this.1, h3, this.2⟩
  · rintro ⟨p, ris, hl, h2, h3, h4, h5⟩
    exact (key p ris hl h2 h4).2 ⟨h3, h5⟩

theorem e12_of_invR (s : GState) (pre : List Nat) (a b : Nat) (hr : InvR U s pre a) :
    ((U a).gcb = .Regional_Indicator ∧ (U a).gcb = (U b).gcb ∧ s.riCounter = 1) ↔
      gb12x U (pre ++ [a]) b := by
  rw [gb12x, ← ctr_odd, hr]
  constructor
  · rintro ⟨h1, h2, h3⟩; exact ⟨h2 ▸ h1, h3⟩
  · rintro ⟨h1, h2⟩
    have ha : (U a).gcb = .Regional_Indicator := by
      rw [ctr, trail_snoc] at h2
      by_cases h : (U a).gcb = .Regional_Indicator
      · exact h
      · simp [h] at h2
    exact ⟨ha, by rw [ha, h1], h2⟩

theorem boundary_ext_false (D : DataOk U) (pre : List Nat) (a b : Nat)
    (ha : ¬ gb4 U a) (hb : (U b).gcb = .Extend ∨ (U b).gcb = .ZWJ ∨ (U b).gcb = .SpacingMark) :
    ¬ BX U pre a b := by
  rintro ⟨_, h | h | h⟩
  · exact ha h
  · unfold gb5 at h; rcases hb with hb | hb | hb <;> simp [hb] at h
  · apply h
    unfold gb9 gb9a
    rcases hb with hb | hb | hb <;> simp [hb]

theorem chain_not_gb4 (D : DataOk U) (pre : List Nat) (a : Nat)
    (h : Chain (isCons U) (isExtLink U) (pre ++ [a]) ∨ Chain (isEp U) (isExtZwj U) (pre ++ [a])) :
    ¬ gb4 U a := by
  simp only [chain_snoc] at h
  unfold gb4
  rcases h with (h | ⟨h, _⟩) | (h | ⟨h, _⟩)
  · have := D.incb_consonant a h; simp [this]
  · rcases D.incb_extend a h with h | h | h <;> simp [h]
  · have := D.extpict_gcb a h; simp [this]
  · rcases h with h | h <;> simp [h]

/-- State after re-initialising at a boundary. -/
theorem reinit (D : DataOk U) (s : GState) (pre : List Nat) (a b : Nat) (hc : InvC U s pre a)
    (hr : InvR U s pre a) (hB : BX U pre a b) :
    InvC U (processInit U b) (pre ++ [a]) b ∧ InvR U (processInit U b) (pre ++ [a]) b := by
  constructor
  · apply init_core
    · intro h hch
      exact boundary_ext_false D pre a b (chain_not_gb4 D pre a (.inl hch)) (D.incb_extend b h) hB
    · intro h hch
      exact boundary_ext_false D pre a b (chain_not_gb4 D pre a (.inr hch))
        (h.elim .inl (fun h => .inr (.inl h))) hB
  · simp only [InvR, ctr]
    rw [trail_snoc, prep_snoc]
    simp only [processInit]
    split
    · rename_i hb
      rcases hB.2 with h | h | h
      · -- `a` is a control
        have : (U a).gcb ≠ .Regional_Indicator ∧ (U a).gcb ≠ .Prepend := by
          unfold gb4 at h
          rcases h with h | h | h <;> simp [h]
        simp [trail_snoc, prep_snoc, this]
      · unfold gb5 at h; simp [hb] at h
      · have hodd : ¬ ctr U (pre ++ [a]) % 2 = 1 := by
          intro hodd
          have g12 : gb12x U (pre ++ [a]) b := ⟨hb, (ctr_odd _).1 hodd⟩
          apply h; simp [g12]
        have hpr : ¬ (U a).gcb = .Prepend := by
          intro hpr; apply h; simp [gb9b, hpr]
        have hle := prep_le U (pre ++ [a])
        rw [ctr] at hodd
        rw [if_neg (by omega)]
        by_cases hr : (U a).gcb = .Regional_Indicator
        · have : trail U (pre ++ [a]) ≠ 0 := by rw [trail_snoc, if_pos hr]; omega
          rw [if_neg this] at hodd
          omega
        · simp [trail_snoc, prep_snoc, hr, hpr]
    · simp

theorem step_inv (D : DataOk U) (s : GState) (pre : List Nat) (a b : Nat) (hc : InvC U s pre a)
    (hr : InvR U s pre a) (hv : (processBreakable U b s).2 = false) :
    InvC U (processBreakable U b s).1 (pre ++ [a]) b ∧ InvR U (processBreakable U b s).1 (pre ++ [a]) b := by
  refine ⟨step_core D s pre a b hc, ?_⟩
  simp only [InvR, ctr]
  rw [trail_snoc, prep_snoc]
  by_cases hb : (U b).gcb = .Regional_Indicator
  · simp only [hb, if_true]
    rw [if_neg (by omega)]
    by_cases hp : (U a).gcb = .Prepend
    · have h0 : s.riCounter = 0 := by rw [hr, ctr, trail_snoc]; simp [hp]
      have h1 : (processBreakable U b s).1.riCounter = 0 := by
        simp only [processBreakable, h0, ite_self]
        split
        · rfl
        split
        · rfl
        split
        · rfl
        · rfl
        · rename_i h
          exact absurd (cascade_joinFlag _ _ _ _ _ h).2.2 (by omega)
      rw [h1]; simp [trail_snoc, prep_snoc, hp]
    · have := ri_join D s b hb (by rw [hc.props]; exact hp) hv
      rw [this.2.2]
      have hr' := this.2.1
      have ha := this.1
      rw [hc.props] at ha
      rw [hr, ctr] at hr'
      have : trail U (pre ++ [a]) ≠ 0 := by rw [trail_snoc, if_pos ha]; omega
      rw [if_neg this] at hr'
      have hle := prep_le U (pre ++ [a])
      omega
  · rw [step_ri_not s b hb]; simp [hb]

theorem extendCluster_append (U : Table) (s : GState) (cs : List Nat) :
    (extendCluster U s cs).1 ++ (extendCluster U s cs).2 = cs := by
  induction cs generalizing s with
  | nil => rfl
  | cons c cs ih =>
    simp only [extendCluster]
    generalize processBreakable U c s = d
    obtain ⟨s', v⟩ := d
    cases v
    · simp [ih s']
    · rfl

theorem advance_append (U : Table) (cs : List Nat) : (advance U cs).1 ++ (advance U cs).2 = cs := by
  cases cs with
  | nil => rfl
  | cons c cs => simp [advance, extendCluster_append]

theorem extendCluster_spec (D : DataOk U) (cs : List Nat) (s : GState) (pre : List Nat) (a : Nat)
    (hc : InvC U s pre a) (hr : InvR U s pre a) :
    (∀ u b v, (extendCluster U s cs).1 = u ++ b :: v → ¬ BoundaryX U (pre ++ [a] ++ u) b) ∧
    (∀ b r, (extendCluster U s cs).2 = b :: r →
      BoundaryX U (pre ++ [a] ++ (extendCluster U s cs).1) b ∧
      InvC U (processInit U b) (pre ++ [a] ++ (extendCluster U s cs).1) b ∧
      InvR U (processInit U b) (pre ++ [a] ++ (extendCluster U s cs).1) b) := by
  induction cs generalizing s pre a with
  | nil => simp [extendCluster]
  | cons c cs ih =>
    have hver := verdict D s pre a c hc _ (e12_of_invR s pre a c hr)
    simp only [extendCluster]
    cases hv : processBreakable U c s with
    | mk s' v =>
      rw [hv] at hver
      cases v with
      | true =>
        simp only
        have hB : BX U pre a c := hver.1 rfl
        refine ⟨by simp, ?_⟩
        intro b r hbr
        injection hbr with h1 h2
        subst h1
        have := reinit D s pre a c hc hr hB
        simp only [List.append_nil]
        exact ⟨(at_snoc (BX U) pre a c).2 hB, this.1, this.2⟩
      | false =>
        simp only
        have hB : ¬ BX U pre a c := fun h => by have := hver.2 h; cases this
        have hstep := step_inv D s pre a c hc hr (by rw [hv])
        rw [hv] at hstep
        have ih := ih s' (pre ++ [a]) c hstep.1 hstep.2
        refine ⟨?_, ?_⟩
        · intro u b v hu
          cases u with
          | nil =>
            simp at hu
            rw [← hu.1, List.append_nil, BoundaryX, at_snoc (BX U)]; exact hB
          | cons x u =>
            simp at hu
            have := ih.1 u b v hu.2
            rw [← hu.1]
            simpa using this
        · intro b r hbr
          have := ih.2 b r hbr
          simpa using this

end Verif.Grapheme
