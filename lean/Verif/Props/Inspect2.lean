import Verif.Props.Inspect
import Verif.Props.Script

/-!
# C59: `uc-inspect codepoints`: the break column, unique readability, arbitrary bytes
-/

namespace Verif.Props.Tools
open Verif.Tools Verif.Utf8 Verif.Ucd Verif.Grapheme Verif.Spec Verif.Spec.Escape Verif.Spec.GB

/-! ## The break column and the segmenter -/

theorem cut_context (q piece : List Nat) (P : Nat → List Nat → Prop) (h0 : ∀ m, ¬ P 0 m) (hm : ∀ c m, P c m → 0 ∉ m) :
    (∃ p c m, q ++ 0 :: piece = p ++ c :: m ∧ P c m) ↔ ∃ p c m, piece = p ++ c :: m ∧ P c m := by
  constructor
  · rintro ⟨p, c, m, h, hP⟩
    rcases List.append_eq_append_iff.1 h with ⟨a, h1, h2⟩ | ⟨a, h1, h2⟩
    · cases a with
      | nil =>
        simp only [List.nil_append, List.cons.injEq] at h2
        exact absurd (h2.1 ▸ hP) (h0 m)
      | cons x a =>
        simp only [List.cons_append, List.cons.injEq] at h2
        exact ⟨a, c, m, h2.2, hP⟩
    · cases a with
      | nil =>
        simp only [List.nil_append, List.cons.injEq] at h2
        exact absurd (h2.1 ▸ hP) (h0 m)
      | cons x a =>
        simp only [List.cons_append, List.cons.injEq] at h2
        exact absurd (by rw [h2.2]; simp) (hm c m hP)
  · rintro ⟨p, c, m, rfl, hP⟩
    exact ⟨q ++ 0 :: p, c, m, by simp, hP⟩

theorem gb9c_cut {U : Table} (D : DataOk U) (q piece : List Nat) (b : Nat) : gb9c U (q ++ 0 :: piece) b ↔ gb9c U piece b := by
  have h0 := D.ascii_incb 0 (by omega)
  unfold gb9c
  refine and_congr_right fun _ => ?_
  refine cut_context q piece (fun c m => (U c).incb = .Consonant ∧
    (∀ x ∈ m, (U x).incb = .Extend ∨ (U x).incb = .Linker) ∧ ∃ x ∈ m, (U x).incb = .Linker) ?_ ?_
  · rintro m ⟨h, _⟩; rw [h0] at h; cases h
  · rintro c m ⟨_, h, _⟩ hm
    have := h 0 hm
    rw [h0] at this
    rcases this with h | h <;> cases h

theorem gb11x_cut {U : Table} (D : DataOk U) (hz : (U 0).gcb = .Control) (q piece : List Nat) (b : Nat) :
    gb11x U (q ++ 0 :: piece) b ↔ gb11x U piece b := by
  unfold gb11x
  refine and_congr_right fun _ => ?_
  have key : ∀ l : List Nat, (∃ p e m z, l = p ++ e :: (m ++ [z]) ∧ (U e).isExtPict ∧
      (∀ x ∈ m, (U x).gcb = .Extend ∨ (U x).gcb = .ZWJ) ∧ (U z).gcb = .ZWJ) ↔
      ∃ p e w, l = p ++ e :: w ∧ ∃ m z, w = m ++ [z] ∧ (U e).isExtPict = true ∧
        (∀ x ∈ m, (U x).gcb = .Extend ∨ (U x).gcb = .ZWJ) ∧ (U z).gcb = .ZWJ := by
    intro l
    constructor
    · rintro ⟨p, e, m, z, h, h'⟩; exact ⟨p, e, _, h, m, z, rfl, h'⟩
    · rintro ⟨p, e, w, h, m, z, rfl, h'⟩; exact ⟨p, e, m, z, h, h'⟩
  rw [key, key]
  refine cut_context q piece _ ?_ ?_
  · rintro m ⟨_, _, _, h, _⟩
    rw [D.ascii_extpict 0 (by omega)] at h; cases h
  · rintro c w ⟨m, z, rfl, _, h, h'⟩ hm
    rcases List.mem_append.1 hm with hm | hm
    · have := h 0 hm
      rw [hz] at this
      rcases this with h | h <;> cases h
    · simp only [List.mem_singleton] at hm
      rw [← hm, hz] at h'; cases h'

theorem not_gb12x {U : Table} (p : List Nat) (a b : Nat)
    (h : ¬ ((U a).gcb = .Regional_Indicator ∧ (U b).gcb = .Regional_Indicator)) : ¬ gb12x U (p ++ [a]) b := by
  rintro ⟨h1, p', ris, h2, h3, h4, _⟩
  refine h ⟨h3 a ?_, h1⟩
  cases ris using List.reverseRecOn with
  | nil => exact absurd rfl h4
  | append_singleton r x =>
    rw [← List.append_assoc] at h2
    have := List.append_inj' h2 rfl
    simp at this
    simp [this.2]

theorem not_gb12inc {U : Table} (p : List Nat) (a b : Nat)
    (h : ¬ ((U a).gcb = .Regional_Indicator ∧ (U b).gcb = .Regional_Indicator)) : ¬ gb12inc U (p ++ [a]) b := by
  rintro ⟨h1, a', h2, h3⟩
  cases p with
  | nil => simp at h2; exact h ⟨h2 ▸ h3, h1⟩
  | cons x p => simp at h2

theorem boundary_cut {U : Table} (D : DataOk U) (hz : (U 0).gcb = .Control) (q p : List Nat) (a b : Nat)
    (h : ¬ ((U a).gcb = .Regional_Indicator ∧ (U b).gcb = .Regional_Indicator)) (hq : q = [] ∨ ∃ q', q = q' ++ [0]) :
    BoundaryX U (q ++ (p ++ [a])) b ↔ BoundaryInc U (p ++ [a]) b := by
  have h9 : gb9c U (q ++ (p ++ [a])) b ↔ gb9c U (p ++ [a]) b := by
    rcases hq with rfl | ⟨q', rfl⟩
    · rfl
    · simpa using gb9c_cut D q' (p ++ [a]) b
  have h11 : gb11x U (q ++ (p ++ [a])) b ↔ gb11x U (p ++ [a]) b := by
    rcases hq with rfl | ⟨q', rfl⟩
    · rfl
    · simpa using gb11x_cut D hz q' (p ++ [a]) b
  have h12 : ¬ gb12x U (q ++ (p ++ [a])) b := by rw [← List.append_assoc]; exact not_gb12x _ a b h
  have h12' := not_gb12inc p a b h
  unfold BoundaryX BoundaryInc
  rw [← List.append_assoc] at h9 h11 h12 ⊢
  rw [at_snoc (BoundaryWith U (gb11x U) (gb12x U)), at_snoc (BoundaryWith U (gb11x U) (gb12inc U))]
  simp only [BoundaryWith, h9, h11, h12, h12']

theorem after_nul (l : List Nat) : ∃ q piece, l = q ++ piece ∧ 0 ∉ piece ∧ (q = [] ∨ ∃ q', q = q' ++ [0]) := by
  induction l using List.reverseRecOn with
  | nil => exact ⟨[], [], rfl, by simp, .inl rfl⟩
  | append_singleton l x ih =>
    by_cases hx : x = 0
    · exact ⟨l ++ [x], [], by simp, by simp, .inr ⟨l, by rw [hx]⟩⟩
    · obtain ⟨q, piece, rfl, h1, h2⟩ := ih
      exact ⟨q, piece ++ [x], by simp, by simp [h1, Ne.symm hx], h2⟩

/-- **C59, break column (full claim).** A line says `[breakable  ]` exactly where a grapheme cluster of the text begins. -/
def C59_BreakColumn : Prop :=
  ∀ E : Env, PrintsAscii E.isprint → DataOk E.U → (E.U 0).gcb = .Control → ∀ cs : List Nat, (∀ c ∈ cs, c ≤ 0x1FFFFF) →
    ∃ (lines : List (List Nat)) (flags : List Bool), codepoints E (toUtf8Str cs) = lines.flatten ∧ lines.length = cs.length ∧
      ∀ l b post, cs = l ++ b :: post → ∃ line f, lines[l.length]? = some line ∧ flags[l.length]? = some f ∧
        ListingLine E line (toUtf8Str l).length b f (toUtf8 b) ∧ (f = true ↔ SegBoundary (clusters E.U cs) l)

/-- **C59, break column (partial).** It does on every line that is not a regional indicator after a regional indicator.
Missing: the second halves of flags (the incremental API only knows a flag at the beginning, see C16_fails). -/
theorem C59_break_column_partial {E : Env} (hp : PrintsAscii E.isprint) (D : DataOk E.U) (hz : (E.U 0).gcb = .Control)
    (cs : List Nat) (hc : ∀ c ∈ cs, c ≤ 0x1FFFFF) :
    ∃ (lines : List (List Nat)) (flags : List Bool), codepoints E (toUtf8Str cs) = lines.flatten ∧ lines.length = cs.length ∧
      ∀ l b post, cs = l ++ b :: post → ∃ line f, lines[l.length]? = some line ∧ flags[l.length]? = some f ∧
        ListingLine E line (toUtf8Str l).length b f (toUtf8 b) ∧
        ((∀ p a, l = p ++ [a] → (E.U a).gcb = .Regional_Indicator → (E.U b).gcb ≠ .Regional_Indicator) →
          (f = true ↔ SegBoundary (clusters E.U cs) l)) := by
  obtain ⟨lines, flags, h1, h2, h3, h4, h5⟩ := C59_listing hp D cs hc
  refine ⟨lines, flags, h1, h2, fun l b post h => ?_⟩
  obtain ⟨line, f, e1, e2, e3⟩ := h4 l b post h
  refine ⟨line, f, e1, e2, e3, fun hri => ?_⟩
  obtain ⟨q, piece, hl, hp0, hq⟩ := after_nul l
  have := h5 q piece b post (by rw [h, hl]) hp0 hq
  rw [← hl, e2, Option.some.injEq] at this
  rw [this]
  by_cases hne : l = []
  · have : piece = [] := by rw [hl] at hne; exact (List.append_eq_nil_iff.1 hne).2
    rw [hne]
    exact ⟨fun _ => segBoundary_nil _, fun _ => .inl this⟩
  rw [h, C14_segmenter_exact D l b post hne]
  cases piece using List.reverseRecOn with
  | nil =>
    simp only [true_or, true_iff]
    rw [List.append_nil] at hl
    rcases hq with hq | ⟨q', hq⟩
    · exact absurd (hl.trans hq) hne
    · refine ⟨q', 0, hl.trans hq, ?_, .inl (.inl hz)⟩
      rintro ⟨h, _⟩
      rw [hz] at h; cases h
  | append_singleton p a =>
    rw [hl, boundary_cut D hz q p a b ?_ hq]
    · simp
    · rintro ⟨ha, hb⟩
      exact hri (q ++ p) a (by rw [hl]; simp) ha hb

/-! ## The listing can be read back -/

theorem decNumber_fun {ds : List Nat} {n m : Nat} (h : DecNumber ds n) (h' : DecNumber ds m) : n = m := by
  induction h generalizing m with
  | one hv =>
    rename_i v
    generalize hd : [0x30 + v] = e at h'
    cases h' with
    | one h => simp at hd; omega
    | snoc h2 h =>
      rename_i ds n w
      have hl := congrArg List.length hd
      cases h2 <;> simp at hl
  | snoc h1 hv ih =>
    rename_i ds n v
    generalize hd : ds ++ [0x30 + v] = e at h'
    cases h' with
    | one h =>
      have hl := congrArg List.length hd
      cases h1 <;> simp at hl
    | snoc h2 h =>
      have := List.append_inj' hd rfl
      simp only [List.cons.injEq, and_true] at this
      obtain ⟨rfl, h3⟩ := this
      rw [ih h2]; omega

theorem hexDigit_fun {d x y : Nat} (h : HexDigit d x) (h' : HexDigit d y) : x = y := by
  generalize hd : d = e at h'
  rcases h with h | h <;> rcases h' with h' | h' <;> cases h <;> cases h' <;> omega

theorem hexNumber_fun {ds : List Nat} {n m : Nat} (h : HexNumber ds n) (h' : HexNumber ds m) : n = m := by
  induction h generalizing m with
  | one hv =>
    rename_i d v
    generalize hd : [d] = e at h'
    cases h' with
    | one h => simp at hd; subst hd; exact hexDigit_fun hv h
    | snoc h2 h =>
      have hl := congrArg List.length hd
      cases h2 <;> simp at hl
  | snoc h1 hv ih =>
    rename_i ds n d v
    generalize hd : ds ++ [d] = e at h'
    cases h' with
    | one h =>
      have hl := congrArg List.length hd
      cases h1 <;> simp at hl
    | snoc h2 h =>
      have := List.append_inj' hd rfl
      simp only [List.cons.injEq, and_true] at this
      obtain ⟨rfl, rfl⟩ := this
      rw [ih h2, hexDigit_fun hv h]

theorem split_first {x y r r' : List Nat} {k : Nat} (hx : k ∉ x) (hy : k ∉ y) (h : x ++ k :: r = y ++ k :: r') : x = y ∧ r = r' := by
  induction x generalizing y with
  | nil =>
    cases y with
    | nil => simpa using h
    | cons b y => simp at h hy; exact absurd h.1 hy.1
  | cons a x ih =>
    cases y with
    | nil => simp at h hx; exact absurd h.1.symm hx.1
    | cons b y =>
      simp only [List.cons_append, List.cons.injEq, List.mem_cons, not_or] at h hx hy
      obtain ⟨h1, h2⟩ := ih hx.2 hy.2 h.2
      exact ⟨by rw [h.1, h1], h2⟩

theorem drop_blanks {x y d e : List Nat} (hx : ∀ a ∈ x, a = 0x20) (hy : ∀ a ∈ y, a = 0x20) (hd : ∀ a ∈ d, 0x30 ≤ a)
    (he : ∀ a ∈ e, 0x30 ≤ a) (h : x ++ d = y ++ e) : d = e := by
  induction x generalizing y with
  | nil =>
    cases y with
    | nil => simpa using h
    | cons b y =>
      cases d with
      | nil => simp at h
      | cons c d =>
        simp only [List.nil_append, List.cons_append, List.cons.injEq] at h
        have h1 := hy b (by simp)
        have h2 := hd c (by simp)
        omega
  | cons a x ih =>
    cases y with
    | nil =>
      cases e with
      | nil => simp at h
      | cons c e =>
        simp only [List.nil_append, List.cons_append, List.cons.injEq] at h
        have h1 := hx a (by simp)
        have h2 := he c (by simp)
        omega
    | cons b y =>
      simp only [List.cons_append, List.cons.injEq] at h
      exact ih (fun a h => hx a (by simp [h])) (fun a h => hy a (by simp [h])) h.2

/-- **C59, the listing can be read back.** A line determines the byte offset, the codepoint, the break column and the
UTF-8 form it shows. -/
theorem C59_line_unique {E : Env} {line u u' : List Nat} {o o' c c' : Nat} {f f' : Bool} (h : ListingLine E line o c f u)
    (h' : ListingLine E line o' c' f' u') : o = o' ∧ c = c' ∧ f = f' ∧ u = u' := by
  obtain ⟨x, d, n, sc, w, v, e, a1, _, a2, a3, a4, ⟨k, a5, a6⟩, a7, a8⟩ := h
  obtain ⟨x', d', n', sc', w', v', e', b1, _, b2, b3, b4, ⟨k', b5, b6⟩, b7, b8⟩ := h'
  rw [e] at e'
  have l1 : lit ": U+" = [0x3A, 0x20, 0x55, 0x2B] := by decide
  simp only [List.append_assoc] at e'
  rw [← List.append_assoc x, ← List.append_assoc x', l1] at e'
  simp only [List.cons_append, List.nil_append] at e'
  have nc : ∀ {y z : List Nat} {m : Nat}, (∀ a ∈ y, a = 0x20) → DecNumber z m → 0x3A ∉ y ++ z := by
    intro y z m hy hz hm
    rcases List.mem_append.1 hm with hm | hm
    · have := hy _ hm; omega
    · have := decNumber_digits hz _ hm; omega
  obtain ⟨e1, e2⟩ := split_first (nc a1 a2) (nc b1 b2) e'
  have e3 := drop_blanks a1 b1 (fun z hz => (decNumber_digits a2 z hz).1) (fun z hz => (decNumber_digits b2 z hz).1) e1
  subst e3
  simp only [List.cons.injEq, true_and] at e2
  obtain ⟨e4, e5⟩ := List.append_inj e2 (by rw [a4, b4])
  subst e4
  have hc := hexNumber_fun a3 b3
  subst hc
  have e6 := List.append_cancel_left (List.append_cancel_left (List.append_cancel_left e5))
  obtain ⟨e7, e8⟩ := List.append_inj e6 (by rw [a6, b6])
  have e9 := List.append_cancel_left e8
  have hf : f = f' := by
    have l2 : lit "[breakable  ]" = 0x5B :: 0x62 :: lit "reakable  ]" := by decide
    have l3 : lit "[unbreakable]" = 0x5B :: 0x75 :: lit "nbreakable]" := by decide
    cases f <;> cases f'
    · rfl
    · simp [l2, l3] at e9
    · simp [l2, l3] at e9
    · rfl
  subst hf
  have e10 := List.append_cancel_left (List.append_cancel_left e9)
  have l4 : lit " UTF8:" = 0x20 :: lit "UTF8:" := by decide
  rw [l4] at e10
  simp only [List.cons_append] at e10
  have nb : ∀ {z : List Nat} {m : Nat}, DecNumber z m → 0x20 ∉ z := by
    intro z m hz hm
    have := decNumber_digits hz _ hm; omega
  obtain ⟨_, e11⟩ := split_first (nb a7) (nb b7) e10
  have e12 := List.append_cancel_right (List.append_cancel_left e11)
  subst e12
  exact ⟨decNumber_fun a2 b2, rfl, rfl, C59_literal_unique a8 b8⟩

theorem literal_no_newline {x s : List Nat} (h : Literal x s) : 0x0A ∉ x := by
  induction h with
  | nil => simp
  | cons hp _ ih =>
    intro hm
    rcases List.mem_append.1 hm with hm | hm
    · cases hp with
      | hex ha hb =>
        have h1 := hexUpper_range ha
        have h2 := hexUpper_range hb
        simp only [List.mem_cons, List.not_mem_nil, or_false] at hm
        omega
      | _ => simp at hm; try omega
    · exact ih hm

/-- **C59, lines.** A line of the listing ends with its only newline, if script names contain none. -/
theorem C59_line_newline {E : Env} (hn : ∀ s, 0x0A ∉ E.scriptName s) {line u : List Nat} {o c : Nat} {f : Bool}
    (h : ListingLine E line o c f u) : ∃ x, line = x ++ [0x0A] ∧ 0x0A ∉ x := by
  obtain ⟨x, d, n, sc, w, v, e, a1, _, a2, a3, a4, ⟨k, a5, a6⟩, a7, a8⟩ := h
  refine ⟨_, e, ?_⟩
  have hd : ∀ {z : List Nat} {m : Nat}, DecNumber z m → 0x0A ∉ z := by
    intro z m hz hm
    have := decNumber_digits hz _ hm; omega
  have hx : 0x0A ∉ x := fun hm => by have := a1 _ hm; omega
  have hh : ∀ {z : List Nat} {m : Nat}, HexNumber z m → 0x0A ∉ z := by
    intro z m hz
    have hdig : ∀ {d v}, HexDigit d v → d ≠ 0x0A := by
      rintro d v (h | h) <;> cases h <;> omega
    induction hz with
    | one h => simpa using (hdig h).symm
    | snoc _ h ih => simpa using ⟨ih, (hdig h).symm⟩
  have hs : 0x0A ∉ sc := by
    rw [a5]
    intro hm
    rcases List.mem_append.1 hm with hm | hm
    · exact hn _ hm
    · have := List.eq_of_mem_replicate hm; omega
  have l1 : 0x0A ∉ lit ": U+" := by decide
  have l2 : 0x0A ∉ lit " [" := by decide
  have l3 : 0x0A ∉ (if E.isEmoji c = true ∧ E.isEmojiComponent c = false then lit "EMOJI" else lit "TEXT ") := by
    split <;> decide
  have l4 : 0x0A ∉ lit "] [" := by decide
  have l5 : 0x0A ∉ lit "] " := by decide
  have l6 : 0x0A ∉ (if f = true then lit "[breakable  ]" else lit "[unbreakable]") := by split <;> decide
  have l7 : 0x0A ∉ lit " width:" := by decide
  have l8 : 0x0A ∉ lit " UTF8:" := by decide
  simp only [List.mem_append, not_or]
  exact ⟨⟨⟨⟨⟨⟨⟨⟨⟨⟨⟨⟨⟨hx, hd a2⟩, l1⟩, hh a3⟩, l2⟩, l3⟩, l4⟩, hs⟩, l5⟩, l6⟩, l7⟩, hd a7⟩, l8⟩, literal_no_newline a8⟩

theorem lines_unique {ls ms : List (List Nat)} (hl : ∀ x ∈ ls, ∃ y, x = y ++ [0x0A] ∧ 0x0A ∉ y)
    (hm : ∀ x ∈ ms, ∃ y, x = y ++ [0x0A] ∧ 0x0A ∉ y) (h : ls.flatten = ms.flatten) : ls = ms := by
  induction ls generalizing ms with
  | nil =>
    cases ms with
    | nil => rfl
    | cons m ms =>
      obtain ⟨y, rfl, _⟩ := hm m (by simp)
      simp at h
  | cons l ls ih =>
    obtain ⟨y, rfl, hy⟩ := hl l (by simp)
    cases ms with
    | nil => simp at h
    | cons m ms =>
      obtain ⟨z, rfl, hz⟩ := hm m (by simp)
      simp only [List.flatten_cons, List.append_assoc, List.cons_append, List.nil_append] at h
      obtain ⟨rfl, h2⟩ := split_first hy hz h
      rw [ih (fun x h => hl x (by simp [h])) (fun x h => hm x (by simp [h])) h2]

theorem linesFrom_inj (E : Env) (cs ds : List Nat) (hc : ∀ c ∈ cs, c ≤ 0x1FFFFF) (hd : ∀ c ∈ ds, c ≤ 0x1FFFFF) (off last : Nat)
    (gs : GState) (h : (linesFrom E off cs (flagsFrom E.U last gs cs)).flatten =
      (linesFrom E off ds (flagsFrom E.U last gs ds)).flatten) : cs = ds := by
  have l1 : ∀ r : List Nat, lit ": U+" ++ r = 0x3A :: 0x20 :: 0x55 :: 0x2B :: r := fun r => rfl
  induction cs generalizing ds off last gs with
  | nil =>
    cases ds with
    | nil => rfl
    | cons d ds =>
      simp [flagsFrom, linesFrom, codepointLine] at h
  | cons c cs ih =>
    cases ds with
    | nil => simp [flagsFrom, linesFrom, codepointLine] at h
    | cons d ds =>
      have hcd : c = d := by
        have h' := h
        simp only [flagsFrom, linesFrom, List.flatten_cons, codepointLine, List.append_assoc] at h'
        have e2 := List.append_cancel_left (List.append_cancel_left h')
        have e3 := (List.append_inj e2 rfl).1
        have k1 := (hex8_ok c (by have := hc c (by simp); omega)).1
        have k2 := (hex8_ok d (by have := hd d (by simp); omega)).1
        rw [e3] at k1
        exact hexNumber_fun k1 k2
      subst hcd
      simp only [flagsFrom, linesFrom, List.flatten_cons] at h
      rw [ih ds (fun c h => hc c (by simp [h])) (fun c h => hd c (by simp [h])) _ _ _ (List.append_cancel_left h)]

/-- **C59, the listing can be read back.** Different texts have different listings. -/
theorem C59_listing_injective (E : Env) (cs ds : List Nat) (hc : ∀ c ∈ cs, c ≤ 0x1FFFFF) (hd : ∀ c ∈ ds, c ≤ 0x1FFFFF)
    (h : codepoints E (toUtf8Str cs) = codepoints E (toUtf8Str ds)) : cs = ds := by
  rw [codepoints_text E cs hc, codepoints_text E ds hd] at h
  exact linesFrom_inj E cs ds hc hd 0 0 _ h

/-- A concrete environment. -/
def toyEnv : Env where
  U := Toy.toy
  D := Verif.Props.Script.toyScripts
  cat := fun _ => 0
  isEmoji := fun c => decide (0x1F600 ≤ c ∧ c ≤ 0x1F64F)
  isEmojiComponent := fun _ => false
  scriptName := fun s => if s = .Common then lit "Common" else lit "Latin"
  styleName := fun b => if b then lit "Emoji" else lit "Text"
  isprint := cLocale
  simd := 256

example : codepoints toyEnv (toUtf8Str [0x41, 0x301, 0x0A]) =
    lit "  0: U+00000041 [TEXT ] [Latin     ] [breakable  ] width:1 UTF8:A\n" ++
    lit "  1: U+00000301 [TEXT ] [Latin     ] [unbreakable] width:0 UTF8:\\xCC\\x81\n" ++
    lit "  3: U+0000000A [TEXT ] [Common    ] [breakable  ] width:0 UTF8:\\n\n" := by decide +kernel

example : PrintsAscii toyEnv.isprint ∧ DataOk toyEnv.U ∧ (toyEnv.U 0).gcb = .Control ∧ ∀ s, 0x0A ∉ toyEnv.scriptName s :=
  ⟨cLocale_ok, Toy.toy_ok, by decide, fun s => by simp only [toyEnv]; split <;> decide⟩

/-- The full claim is false: the second half of a flag behind a letter is shown as breakable. -/
theorem C59_fails_break_column : ¬ C59_BreakColumn := by
  intro h
  obtain ⟨lines, flags, h1, h2, h3⟩ := h toyEnv cLocale_ok Toy.toy_ok (by decide) [0x61, 0x1F1E6, 0x1F1E7] (by decide)
  obtain ⟨lines', flags', k1, k2, k3, k4, k5⟩ := C59_listing (E := toyEnv) cLocale_ok Toy.toy_ok [0x61, 0x1F1E6, 0x1F1E7] (by decide)
  have hn : ∀ s, 0x0A ∉ toyEnv.scriptName s := fun s => by simp only [toyEnv]; split <;> decide
  have hget : ∀ (ls : List (List Nat)), ls.length = 3 → (∀ l c post, [0x61, 0x1F1E6, 0x1F1E7] = l ++ c :: post →
      ∃ line f, ls[l.length]? = some line ∧ ListingLine toyEnv line (toUtf8Str l).length c f (toUtf8 c)) →
      ∀ x ∈ ls, ∃ y, x = y ++ [0x0A] ∧ 0x0A ∉ y := by
    intro ls hl hx x hm
    match ls, hl with
    | [a, b, c], _ =>
      obtain ⟨_, _, e0, g0⟩ := hx [] 0x61 [0x1F1E6, 0x1F1E7] rfl
      obtain ⟨_, _, e1, g1⟩ := hx [0x61] 0x1F1E6 [0x1F1E7] rfl
      obtain ⟨_, _, e2, g2⟩ := hx [0x61, 0x1F1E6] 0x1F1E7 [] rfl
      simp only [List.length_nil, List.length_cons, List.getElem?_cons_zero, List.getElem?_cons_succ, Option.some.injEq] at e0 e1 e2
      subst e0; subst e1; subst e2
      simp only [List.mem_cons, List.not_mem_nil, or_false] at hm
      rcases hm with rfl | rfl | rfl
      · exact C59_line_newline hn g0
      · exact C59_line_newline hn g1
      · exact C59_line_newline hn g2
  have hll : lines = lines' := by
    refine lines_unique (hget lines h2 ?_) (hget lines' k2 ?_) (h1.symm.trans k1)
    · intro l c post e
      obtain ⟨line, f, a, _, b, _⟩ := h3 l c post e
      exact ⟨line, f, a, b⟩
    · intro l c post e
      obtain ⟨line, f, a, _, b⟩ := k4 l c post e
      exact ⟨line, f, a, b⟩
  subst hll
  obtain ⟨line, f, a1, _, a3, a4⟩ := h3 [0x61, 0x1F1E6] 0x1F1E7 [] rfl
  obtain ⟨line', f', b1, b2, b3⟩ := k4 [0x61, 0x1F1E6] 0x1F1E7 [] rfl
  rw [a1] at b1
  injection b1 with b1
  subst b1
  have hff := (C59_line_unique a3 b3).2.2.1
  subst hff
  have hb := (k5 [] [0x61, 0x1F1E6] 0x1F1E7 [] rfl (by decide) (.inl rfl)).2 (.inr ?_)
  · rw [show ([] ++ [0x61, 0x1F1E6] : List Nat) = [0x61, 0x1F1E6] from rfl, b2] at hb
    injection hb with hb
    have := a4.1 hb
    have hcl : clusters toyEnv.U [0x61, 0x1F1E6, 0x1F1E7] = [[0x61], [0x1F1E6, 0x1F1E7]] := by decide
    rw [hcl, segBoundary_cons _ _ _ (by simp)] at this
    obtain ⟨l', e1, e2⟩ := this
    simp at e1
    subst e1
    rw [segBoundary_cons _ _ _ (by simp)] at e2
    simp at e2
  · have := (C16_incremental_exact Toy.toy_ok [0x61, 0x1F1E6] 0x1F1E7 [] (by simp)).2
    exact this.1 (by decide)

/-! ## Arbitrary bytes -/

theorem loop_any (E : Env) (bytes : List Nat) (s : CpState) (hl : s.lastOffset ≤ s.totalOffset) :
    ∃ offs : List Nat, codepointsLoop E s bytes = (List.zipWith (fun o (x : Nat × Bool) => codepointLine E o x.1 x.2) offs
        ((successes (feed s.dec bytes).2).zip (flagsFrom E.U s.lastWc s.gs (successes (feed s.dec bytes).2)))).flatten ∧
      offs.length = (successes (feed s.dec bytes).2).length ∧ offs.Pairwise (· < ·) ∧
      ∀ o ∈ offs, s.lastOffset ≤ o ∧ o < s.totalOffset + bytes.length := by
  induction bytes generalizing s with
  | nil => exact ⟨[], by simp [codepointsLoop, feed, successes], by simp [feed, successes], List.Pairwise.nil, by simp⟩
  | cons b bs ih =>
    rw [codepointsLoop]
    simp only [feed]
    split
    · rename_i d wc heq
      obtain ⟨offs, h1, h2, h3, h4⟩ := ih ⟨s.totalOffset + 1, s.totalOffset + 1, d, wc, (breakStep E.U s.lastWc wc s.gs).1⟩
        (Nat.le_refl _)
      refine ⟨s.lastOffset :: offs, ?_, ?_, ?_, ?_⟩
      · rw [h1, heq]
        simp [successes, flagsFrom]
      · rw [heq]; simp [successes] at h2 ⊢; exact h2
      · refine List.Pairwise.cons ?_ h3
        intro o ho
        have := h4 o ho
        simp only at this
        omega
      · intro o ho
        rcases List.mem_cons.1 ho with rfl | ho
        · simp; omega
        · have := h4 o ho
          simp only [List.length_cons] at this ⊢
          omega
    · rename_i d heq
      obtain ⟨offs, h1, h2, h3, h4⟩ := ih { s with lastOffset := s.totalOffset + 1, totalOffset := s.totalOffset + 1, dec := d }
        (Nat.le_refl _)
      refine ⟨offs, ?_, ?_, h3, ?_⟩
      · rw [h1, heq]; simp [successes]
      · rw [heq]; simp [successes] at h2 ⊢; exact h2
      · intro o ho
        have := h4 o ho
        simp only [List.length_cons] at this ⊢
        omega
    · rename_i d heq
      obtain ⟨offs, h1, h2, h3, h4⟩ := ih { s with totalOffset := s.totalOffset + 1, dec := d } (by simp only; omega)
      refine ⟨offs, ?_, ?_, h3, ?_⟩
      · rw [h1, heq]; simp [successes]
      · rw [heq]; simp [successes] at h2 ⊢; exact h2
      · intro o ho
        have := h4 o ho
        simp only [List.length_cons] at this ⊢
        omega

theorem success_small (bytes : List Nat) (hb : ∀ b ∈ bytes, b < 256) : ∀ v ∈ successes (feed {} bytes).2, v ≤ 0x1FFFFF := by
  intro v hv
  simp only [successes, List.mem_filterMap] at hv
  obtain ⟨r, hr, he⟩ := hv
  have hr' : Result.success v ∈ (feed {} bytes).2 := by
    cases r with
    | success w => simp at he; exact he ▸ hr
    | invalid => simp at he
    | incomplete => simp at he
  clear hr he
  induction bytes using List.reverseRecOn with
  | nil => simp [feed] at hr'
  | append_singleton h b ih =>
    rw [feed_append] at hr'
    simp only [feed, List.mem_append, List.mem_cons, List.not_mem_nil, or_false] at hr'
    rcases hr' with hr' | hr'
    · exact ih (fun x hx => hb x (by simp [hx])) hr'
    · obtain ⟨pre, bs, _, hl⟩ := C04_success_justified_partial h b v hb hr'.symm
      cases hl <;> omega

/-- **C59, arbitrary bytes.** For every byte string, well-formed or not, there is one line for every codepoint the decoder
reports, in order; bytes it rejects produce nothing; the offsets are increasing and lie inside the file. -/
theorem C59_any_bytes {E : Env} (hp : PrintsAscii E.isprint) (bytes : List Nat) (hb : ∀ b ∈ bytes, b < 256) :
    ∃ (lines : List (List Nat)) (offs : List Nat), codepoints E bytes = lines.flatten ∧
      lines.length = (successes (feed {} bytes).2).length ∧ offs.length = lines.length ∧ offs.Pairwise (· < ·) ∧
      (∀ o ∈ offs, o < bytes.length) ∧
      ∀ (i c : Nat), (successes (feed {} bytes).2)[i]? = some c → ∃ line o f, lines[i]? = some line ∧ offs[i]? = some o ∧
        ListingLine E line o c f (toUtf8 c) := by
  obtain ⟨offs, h1, h2, h3, h4⟩ := loop_any E bytes { gs := GState.default E.U } (Nat.le_refl _)
  simp only at h1 h2
  have hf := flagsFrom_length E.U 0 (GState.default E.U) (successes (feed {} bytes).2)
  have hz : ((successes (feed {} bytes).2).zip (flagsFrom E.U 0 (GState.default E.U) (successes (feed {} bytes).2))).length =
      (successes (feed {} bytes).2).length := by rw [List.length_zip, hf, Nat.min_self]
  refine ⟨_, offs, h1, by rw [List.length_zipWith, h2, hz, Nat.min_self], by rw [List.length_zipWith, h2, hz, Nat.min_self], h3,
    fun o ho => by have := (h4 o ho).2; simpa using this, ?_⟩
  intro i c hi
  have hlt : i < (successes (feed {} bytes).2).length := (List.getElem?_eq_some_iff.1 hi).1
  have ho : offs[i]? = some (offs[i]'(by omega)) := List.getElem?_eq_getElem _
  obtain ⟨f, hfl⟩ : ∃ f, (flagsFrom E.U 0 (GState.default E.U) (successes (feed {} bytes).2))[i]? = some f :=
    ⟨_, List.getElem?_eq_getElem (by omega)⟩
  refine ⟨_, _, f, ?_, ho, line_ok E hp _ c (success_small bytes hb c (List.mem_of_getElem? hi)) f⟩
  rw [List.getElem?_zipWith, ho, List.getElem?_zip_eq_some (z := (c, f)) |>.2 ⟨hi, hfl⟩]

/-- **C59, offsets (full claim).** Every well-formed multi-byte sequence is listed with the offset at which it begins, whatever
bytes surround it. -/
def C59_Offsets : Prop :=
  ∀ E : Env, PrintsAscii E.isprint → (∀ s, 0x0A ∉ E.scriptName s) → ∀ (pre bs post : List Nat) (c : Nat),
    (∀ b ∈ pre ++ bs ++ post, b < 256) → WellFormed bs c → 2 ≤ bs.length →
    ∃ lines : List (List Nat), codepoints E (pre ++ bs ++ post) = lines.flatten ∧
      (∀ line ∈ lines, ∃ o c f u, ListingLine E line o c f u) ∧ ∃ line ∈ lines, ∃ f, ListingLine E line pre.length c f bs

/-- The full claim is false: after a truncated sequence the offset is one too large, because the lead byte that reveals the
truncation is counted as rejected although it begins the next codepoint. -/
theorem C59_fails_offset : ¬ C59_Offsets := by
  intro h
  have hn : ∀ s, 0x0A ∉ toyEnv.scriptName s := fun s => by simp only [toyEnv]; split <;> decide
  obtain ⟨lines, h1, h2, line, h3, f, h4⟩ := h toyEnv cLocale_ok hn [0xC3] [0xC3, 0xA9] [] 0xE9 (by decide)
    (WellFormed.two (b0 := 0xC3) (b1 := 0xA9) (by decide) (by decide) (by decide)) (by decide)
  have hout : codepoints toyEnv ([0xC3] ++ [0xC3, 0xA9] ++ []) = [codepointLine toyEnv 2 0xE9 true].flatten := by decide +kernel
  have hl := line_ok toyEnv cLocale_ok 2 0xE9 (by omega) true
  have : lines = [codepointLine toyEnv 2 0xE9 true] := by
    refine lines_unique ?_ ?_ (h1.symm.trans hout)
    · intro x hx
      obtain ⟨_, _, _, _, hx⟩ := h2 x hx
      exact C59_line_newline hn hx
    · intro x hx
      simp only [List.mem_singleton] at hx
      subst hx
      exact C59_line_newline hn hl
  rw [this, List.mem_singleton] at h3
  subst h3
  exact absurd (C59_line_unique h4 hl).1 (by decide)

end Verif.Props.Tools
