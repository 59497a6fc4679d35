import Verif.Lemmas.Emoji

/-! The automaton accepts exactly the tokens of the grammar. -/

namespace Verif.Emoji
open Verif.Spec.Emoji

def Any (c : Int) : Prop := c = 1 ∨ c = 2 ∨ c = 7 ∨ c = 3 ∨ c = 13 ∨ c = 0

theorem mem_sym {a : Int} {w : List Int} : w ∈ sym a ↔ w = [a] := Iff.rfl

theorem mem_sym_mul {a : Int} {L : Language Int} {w : List Int} : w ∈ sym a * L ↔ ∃ v, w = a :: v ∧ v ∈ L := by
  rw [Language.mem_mul]
  constructor
  · rintro ⟨x, hx, y, hy, rfl⟩
    rw [mem_sym] at hx; subst hx
    exact ⟨y, rfl, hy⟩
  · rintro ⟨v, rfl, hv⟩
    exact ⟨[a], rfl, v, hv, rfl⟩

theorem mem_any {w : List Int} : w ∈ anyEmoji ↔ ∃ a, Any a ∧ w = [a] := by
  simp only [anyEmoji, Language.mem_add, mem_sym, Any]
  constructor
  · rintro (((((h | h) | h) | h) | h) | h)
    · exact ⟨1, by simp, h⟩
    · exact ⟨2, by simp, h⟩
    · exact ⟨7, by simp, h⟩
    · exact ⟨3, by simp, h⟩
    · exact ⟨13, by simp, h⟩
    · exact ⟨0, by simp, h⟩
  · rintro ⟨a, h | h | h | h | h | h, h'⟩ <;> subst h <;> simp [h']

theorem mem_any_mul {L : Language Int} {w : List Int} :
    w ∈ anyEmoji * L ↔ ∃ a v, Any a ∧ w = a :: v ∧ v ∈ L := by
  rw [Language.mem_mul]
  constructor
  · rintro ⟨x, hx, y, hy, rfl⟩
    obtain ⟨a, ha, rfl⟩ := mem_any.1 hx
    exact ⟨a, y, ha, rfl, hy⟩
  · rintro ⟨a, v, ha, rfl, hv⟩
    exact ⟨[a], mem_any.2 ⟨a, ha, rfl⟩, v, hv, rfl⟩

theorem mem_elem_mul {L : Language Int} {w : List Int} :
    w ∈ zwjElement * L ↔ ∃ a v, w = a :: v ∧ Any a ∧
      (v ∈ L ∨ (∃ u, v = 12 :: u ∧ u ∈ L) ∨ (a = 3 ∧ ∃ u, v = 4 :: u ∧ u ∈ L)) := by
  simp only [zwjElement, presentationSeq, modifierSeq, add_mul, Language.mem_add, mul_assoc, mem_any_mul, mem_sym_mul]
  constructor
  · rintro ((⟨a, v, h1, h2, u, h3, h4⟩ | ⟨v, h1, u, h2, h3⟩) | ⟨a, v, h1, h2, h3⟩)
    · exact ⟨a, v, h2, h1, Or.inr (Or.inl ⟨u, h3, h4⟩)⟩
    · exact ⟨3, v, h1, by simp [Any], Or.inr (Or.inr ⟨rfl, u, h2, h3⟩)⟩
    · exact ⟨a, v, h2, h1, Or.inl h3⟩
  · rintro ⟨a, v, h1, h2, h3 | ⟨u, h3, h4⟩ | ⟨rfl, u, h3, h4⟩⟩
    · exact Or.inr ⟨a, v, h2, h1, h3⟩
    · exact Or.inl (Or.inl ⟨a, v, h2, h1, u, h3, h4⟩)
    · exact Or.inl (Or.inr ⟨v, h1, u, h3, h4⟩)

/-- Any number of further ZWJ elements. -/
def SS : Language Int := KStar.kstar (sym 10 * zwjElement)

theorem mem_SS {w : List Int} : w ∈ SS ↔ w = [] ∨ ∃ v, w = 10 :: v ∧ v ∈ zwjElement * SS := by
  unfold SS
  conv_lhs => rw [← Language.one_add_self_mul_kstar_eq_kstar]
  rw [Language.mem_add, Language.mem_one, mul_assoc, mem_sym_mul]

/-- Label of reading `v` from `q`, when the text so far has label `l`. -/
def accL (q : Nat) (l : Option Bool) (v : List Int) : Option Bool := if v = [] then l else acc q v

theorem acc_cons (q : Nat) (c : Int) (v : List Int) : acc q (c :: v) =
    match delta q c with
    | .dead => none
    | .final e => if v = [] then some e else none
    | .go q' l => accL q' l v := rfl

theorem accL_nil (q : Nat) (l : Option Bool) : accL q l [] = l := rfl

theorem accL_cons (q : Nat) (l : Option Bool) (c : Int) (v : List Int) : accL q l (c :: v) =
    match delta q c with
    | .dead => none
    | .final e => if v = [] then some e else none
    | .go q' l => accL q' l v := rfl

theorem nil_mem_SS : ([] : List Int) ∈ SS := mem_SS.2 (Or.inl rfl)

theorem not_nil_elem : ([] : List Int) ∉ zwjElement * SS := by
  rw [mem_elem_mul]; rintro ⟨a, v, h, _⟩; simp at h

theorem cons_mem_SS {c : Int} {v : List Int} : c :: v ∈ SS ↔ c = 10 ∧ v ∈ zwjElement * SS := by
  rw [mem_SS]; simp [and_comm]

theorem cons_mem_elem {c : Int} {v : List Int} : c :: v ∈ zwjElement * SS ↔ Any c ∧
    (v ∈ SS ∨ (∃ u, v = 12 :: u ∧ u ∈ SS) ∨ (c = 3 ∧ ∃ u, v = 4 :: u ∧ u ∈ SS)) := by
  rw [mem_elem_mul]
  constructor
  · rintro ⟨a, u, h, h1, h2⟩; simp at h; obtain ⟨rfl, rfl⟩ := h; exact ⟨h1, h2⟩
  · rintro ⟨h1, h2⟩; exact ⟨c, v, rfl, h1, h2⟩

theorem acc_chain (v : List Int) :
    (∀ e, accL 5 (some true) v = some e ↔ e = true ∧ v ∈ SS) ∧
    (∀ e, accL 0 none v = some e ↔ e = true ∧ v ∈ zwjElement * SS) ∧
    (∀ e, accL 4 (some true) v = some e ↔ e = true ∧ (v ∈ SS ∨ ∃ u, v = 12 :: u ∧ u ∈ SS)) ∧
    (∀ e, accL 6 (some true) v = some e ↔ e = true ∧
      (v ∈ SS ∨ (∃ u, v = 12 :: u ∧ u ∈ SS) ∨ ∃ u, v = 4 :: u ∧ u ∈ SS)) := by
  induction v with
  | nil =>
    simp only [accL_nil, nil_mem_SS, not_nil_elem]
    refine ⟨?_, ?_, ?_, ?_⟩ <;> intro e <;> cases e <;> simp
  | cons c v ih =>
    obtain ⟨h5, h0, h4, h6⟩ := ih
    simp only [accL_cons, delta, cons_mem_SS]
    refine ⟨fun e => ?_, fun e => ?_, fun e => ?_, fun e => ?_⟩
    · by_cases hc : c = 10
      · simp [hc, h0]
      · simp [hc]
    · rw [cons_mem_elem]
      by_cases hc : c = 3
      · subst hc
        simp only [if_true, h6]
        simp [Any]
      · rw [if_neg hc]
        by_cases hc' : c = 7 ∨ c = 13 ∨ c = 0 ∨ c = 1 ∨ c = 2
        · rw [if_pos hc']
          have : Any c := by unfold Any; omega
          simp only [h4, this, hc, true_and, false_and, or_false]
        · have : ¬ Any c := by unfold Any; omega
          simp [hc', this]
    · by_cases hc : c = 10
      · subst hc; simp [h0]
      · rw [if_neg hc]
        by_cases hc' : c = 12
        · subst hc'; simp [h5]
        · simp [hc, hc']
    · by_cases hc : c = 4 ∨ c = 12
      · rw [if_pos hc]
        rcases hc with rfl | rfl <;> simp [h5]
      · rw [if_neg hc]
        simp only [not_or] at hc
        by_cases hc' : c = 10
        · subst hc'; simp [h0]
        · simp [hc, hc']

/-- The tail of a tag sequence. -/
def tagTail : Language Int := plus (sym 14) * sym 15

theorem tags (v : List Int) :
    (∀ e, accL 1 none v = some e ↔ e = true ∧ v ∈ KStar.kstar (sym 14) * sym 15) := by
  induction v with
  | nil =>
    intro e
    simp only [accL, if_true]
    constructor
    · simp
    · rintro ⟨_, h⟩
      rw [Language.mem_mul] at h
      obtain ⟨x, _, y, hy, h⟩ := h
      rw [mem_sym] at hy; subst hy; simp at h
  | cons c v ih =>
    intro e
    have hu : c :: v ∈ KStar.kstar (sym 14) * sym 15 ↔
        (c = 15 ∧ v = []) ∨ (c = 14 ∧ v ∈ KStar.kstar (sym 14) * sym 15) := by
      conv_lhs => rw [← Language.one_add_self_mul_kstar_eq_kstar]
      rw [add_mul, one_mul, Language.mem_add, mem_sym, mul_assoc, mem_sym_mul]
      simp
    rw [hu]
    simp only [accL_cons, delta]
    by_cases hc : c = 14
    · subst hc
      simp only [if_true, ih]; simp
    · rw [if_neg hc]
      by_cases hc' : c = 15
      · subst hc'
        simp only [if_true]
        by_cases hv : v = []
        · simp [hv, eq_comm]
        · simp [hv]
      · simp [hc, hc']

theorem mem_tagTail {w : List Int} : w ∈ tagTail ↔ ∃ v, w = 14 :: v ∧ v ∈ KStar.kstar (sym 14) * sym 15 := by
  unfold tagTail plus
  rw [mul_assoc, mem_sym_mul]

theorem cons_mem_plus {v : List Int} : v ∈ plus (sym 10 * zwjElement) ↔ ∃ u, v = 10 :: u ∧ u ∈ zwjElement * SS := by
  unfold plus
  rw [mul_assoc, mem_sym_mul]; rfl

theorem cons_mem_zwjSeq {c : Int} {v : List Int} : c :: v ∈ zwjSeq ↔ Any c ∧
    ((∃ u, v = 10 :: u ∧ u ∈ zwjElement * SS) ∨ (∃ u, v = 12 :: 10 :: u ∧ u ∈ zwjElement * SS) ∨
      (c = 3 ∧ ∃ u, v = 4 :: 10 :: u ∧ u ∈ zwjElement * SS)) := by
  unfold zwjSeq
  rw [mem_elem_mul]
  simp only [cons_mem_plus]
  constructor
  · rintro ⟨a, w, h, h1, h2⟩
    simp at h; obtain ⟨rfl, rfl⟩ := h
    refine ⟨h1, ?_⟩
    rcases h2 with h2 | ⟨u, h2, x, h3, h4⟩ | ⟨h2, u, h3, x, h4, h5⟩
    · exact Or.inl h2
    · exact Or.inr (Or.inl ⟨x, by rw [h2, h3], h4⟩)
    · exact Or.inr (Or.inr ⟨h2, x, by rw [h3, h4], h5⟩)
  · rintro ⟨h1, h2⟩
    refine ⟨c, v, rfl, h1, ?_⟩
    rcases h2 with h2 | ⟨u, h2, h3⟩ | ⟨h2, u, h3, h4⟩
    · exact Or.inl h2
    · exact Or.inr (Or.inl ⟨_, h2, u, rfl, h3⟩)
    · exact Or.inr (Or.inr ⟨h2, _, h3, u, rfl, h4⟩)

theorem cons_mem_textPres {c : Int} {v : List Int} : c :: v ∈ textPresentation ↔ Any c ∧ v = [11] := by
  unfold textPresentation
  rw [mem_any_mul]
  constructor
  · rintro ⟨a, w, h1, h2, h3⟩; simp at h2; rw [mem_sym] at h3; obtain ⟨rfl, rfl⟩ := h2; exact ⟨h1, h3⟩
  · rintro ⟨h1, rfl⟩; exact ⟨c, [11], h1, rfl, rfl⟩

theorem cons_mem_anySym {c a : Int} {v : List Int} : c :: v ∈ anyEmoji * sym a ↔ Any c ∧ v = [a] := by
  rw [mem_any_mul]
  constructor
  · rintro ⟨x, w, h1, h2, h3⟩; simp at h2; rw [mem_sym] at h3; obtain ⟨rfl, rfl⟩ := h2; exact ⟨h1, h3⟩
  · rintro ⟨h1, rfl⟩; exact ⟨c, [a], h1, rfl, rfl⟩

theorem cons_mem_symMul {a c : Int} {L : Language Int} {v : List Int} : c :: v ∈ sym a * L ↔ c = a ∧ v ∈ L := by
  rw [mem_sym_mul]
  constructor
  · rintro ⟨w, h, hw⟩; simp at h; obtain ⟨rfl, rfl⟩ := h; exact ⟨rfl, hw⟩
  · rintro ⟨rfl, h⟩; exact ⟨v, rfl, h⟩

theorem cons_mem_emojiRun {c : Int} {v : List Int} : c :: v ∈ emojiRun ↔
    ((c = 2 ∨ c = 13 ∨ c = 3) ∧ v = []) ∨ (Any c ∧ v = [12]) ∨ (c = 3 ∧ v = [4]) ∨ (c = 6 ∧ v = [6]) ∨
    (c = 13 ∧ v ∈ tagTail) ∨ (c = 7 ∧ v = [12, 8]) ∨ c :: v ∈ zwjSeq ∨ (Any c ∧ v = [9]) := by
  simp only [emojiRun, Language.mem_add, presentationSeq, modifierSeq, flagSeq, tagSeq, keycapSeq, backslashSeq,
    cons_mem_anySym, cons_mem_symMul, mem_sym, tagTail, List.cons.injEq]
  constructor
  · rintro (((((((((h | h) | h) | h) | h) | h) | h) | h) | h) | h)
    · exact Or.inl ⟨Or.inl h.1, h.2⟩
    · exact Or.inl ⟨Or.inr (Or.inl h.1), h.2⟩
    · exact Or.inl ⟨Or.inr (Or.inr h.1), h.2⟩
    · exact Or.inr (Or.inl h)
    · exact Or.inr (Or.inr (Or.inl h))
    · exact Or.inr (Or.inr (Or.inr (Or.inl h)))
    · exact Or.inr (Or.inr (Or.inr (Or.inr (Or.inl h))))
    · obtain ⟨h1, h⟩ := h
      obtain ⟨u, h2, h3⟩ := mem_sym_mul.1 h
      rw [mem_sym] at h3
      exact Or.inr (Or.inr (Or.inr (Or.inr (Or.inr (Or.inl ⟨h1, by rw [h2, h3]⟩)))))
    · exact Or.inr (Or.inr (Or.inr (Or.inr (Or.inr (Or.inr (Or.inl h))))))
    · exact Or.inr (Or.inr (Or.inr (Or.inr (Or.inr (Or.inr (Or.inr h))))))
  · rintro (⟨h | h | h, h'⟩ | h | h | h | h | h | h | h)
    · simp [h, h']
    · simp [h, h']
    · simp [h, h']
    · simp [h]
    · simp [h]
    · simp [h]
    · simp [h]
    · simp [h, mem_sym_mul, mem_sym]
    · simp [h]
    · simp [h]

theorem isToken_cons {c : Int} {v : List Int} {e : Bool} : IsToken (c :: v) e ↔
    (Any c ∧ v = [11] ∧ e = false) ∨ (¬ (Any c ∧ v = [11]) ∧ c :: v ∈ emojiRun ∧ e = true) ∨
    (c :: v ∉ emojiRun ∧ v = [] ∧ e = false) := by
  unfold IsToken
  rw [cons_mem_textPres]
  have : c :: v ∈ textRun ↔ v = [] := by
    show (c :: v).length = 1 ↔ _
    simp
  rw [this]
  constructor
  · rintro (⟨⟨h1, h2⟩, h3⟩ | ⟨h1, h2, h3⟩ | ⟨h1, h2, h3, h4⟩)
    · exact Or.inl ⟨h1, h2, h3⟩
    · exact Or.inr (Or.inl ⟨h1, h2, h3⟩)
    · exact Or.inr (Or.inr ⟨h2, h3, h4⟩)
  · rintro (⟨h1, h2, h3⟩ | ⟨h1, h2, h3⟩ | ⟨h1, h2, h3⟩)
    · exact Or.inl ⟨⟨h1, h2⟩, h3⟩
    · exact Or.inr (Or.inl ⟨h1, h2, h3⟩)
    · exact Or.inr (Or.inr ⟨by simp [h2], h1, h2, h3⟩)

theorem SS_split {v : List Int} : v ∈ SS ↔ v = [] ∨ ∃ u, v = 10 :: u ∧ u ∈ zwjElement * SS := mem_SS

/-- **Key fact.** The automaton accepts a word with label `e` iff it is a token with label `e`. -/
theorem acc_iff_token (w : List Int) (e : Bool) : accL 2 none w = some e ↔ IsToken w e := by
  cases w with
  | nil =>
    simp only [accL_nil]
    constructor
    · simp
    · intro h
      exfalso
      have n1 : ([] : List Int) ∉ textPresentation := by
        unfold textPresentation; rw [mem_any_mul]; rintro ⟨a, v, _, h, _⟩; simp at h
      have n2 : ([] : List Int) ∉ textRun := by show ¬ ([] : List Int).length = 1; simp
      have n3 : ([] : List Int) ∉ emojiRun := by
        simp only [emojiRun, Language.mem_add, presentationSeq, modifierSeq, flagSeq, tagSeq, keycapSeq, backslashSeq,
          mem_any_mul, mem_sym_mul, mem_sym, zwjSeq, mem_elem_mul]
        simp
      rcases h with h | h | h
      · exact n1 h.1
      · exact n3 h.2.1
      · exact n2 h.2.2.1
  | cons c v =>
    rw [isToken_cons, cons_mem_emojiRun, cons_mem_zwjSeq, accL_cons]
    obtain ⟨h5, h0, h4, h6⟩ := acc_chain v.tail
    have h10 : ∀ u, v = 12 :: u → ∀ e, accL 10 (some true) u = some e ↔ e = true ∧ (u ∈ SS ∨ u = [8]) := by
      intro u hu e
      cases u with
      | nil => simp only [accL_nil, nil_mem_SS]; cases e <;> simp
      | cons d u =>
        have h0 := (acc_chain u).2.1
        simp only [accL_cons, delta, cons_mem_SS]
        by_cases hd : d = 8
        · subst hd
          by_cases hu : u = []
          · subst hu; cases e <;> simp
          · simp [hu]
        · rw [if_neg hd]
          by_cases hd : d = 10
          · subst hd; simp [h0]
          · simp [hd, *]
    cases v with
    | nil =>
      simp only [delta]
      simp only [reduceCtorEq, false_and, and_false, exists_false, or_false, and_true, not_false_eq_true, true_and,
        false_or, mem_tagTail]
      by_cases a1 : c = 0 ∨ c = 1
      · rw [if_pos a1]; rcases a1 with rfl | rfl <;> cases e <;> simp [accL_nil]
      rw [if_neg a1]
      by_cases a2 : c = 2
      · subst a2; cases e <;> simp [accL_nil]
      rw [if_neg a2]
      by_cases a3 : c = 3
      · subst a3; cases e <;> simp [accL_nil]
      rw [if_neg a3]
      by_cases a4 : c = 6
      · subst a4; cases e <;> simp [accL_nil]
      rw [if_neg a4]
      by_cases a5 : c = 7
      · subst a5; cases e <;> simp [accL_nil]
      rw [if_neg a5]
      by_cases a6 : c = 13
      · subst a6; cases e <;> simp [accL_nil]
      rw [if_neg a6]
      cases e <;> simp [a2, a3, a6]
    | cons d u =>
      simp only [List.tail_cons] at h5 h0 h4 h6
      have ht := tags u
      simp only [reduceCtorEq, and_false, false_and, or_false, false_or, List.cons.injEq, mem_tagTail]
      have hS := @SS_split u
      by_cases a1 : c = 0 ∨ c = 1 ∨ c = 2
      · have hany : Any c := by unfold Any; omega
        have hδ : ∃ l, delta 2 c = .go 3 l := by
          rcases a1 with rfl | rfl | rfl
          · exact ⟨_, rfl⟩
          · exact ⟨_, rfl⟩
          · exact ⟨_, rfl⟩
        obtain ⟨l, hδ⟩ := hδ
        rw [hδ]
        have b3 : c ≠ 3 := by omega
        have b6 : c ≠ 6 := by omega
        have b7 : c ≠ 7 := by omega
        have b13 : c ≠ 13 := by omega
        simp only [accL_cons, delta, hany, b3, b6, b7, b13, false_and, or_false, false_or, true_and, and_true]
        by_cases d9 : d = 9
        · subst d9; by_cases hu : u = []
          · subst hu; cases e <;> simp
          · simp [hu]
        by_cases d10 : d = 10
        · subst d10; simp [h0, and_comm]
        by_cases d11 : d = 11
        · subst d11; by_cases hu : u = []
          · subst hu; cases e <;> simp
          · simp [hu]
        by_cases d12 : d = 12
        · subst d12; simp [h5, hS, and_comm]
        simp [d9, d10, d11, d12]
      by_cases a3 : c = 3
      · subst a3
        have hδ : delta 2 3 = .go 7 (some true) := rfl
        rw [hδ]
        have hany : Any 3 := by unfold Any; omega
        simp only [accL_cons, delta, hany, true_and]
        by_cases d4 : d = 4
        · subst d4; simp [h5, hS, and_comm]
        by_cases d9 : d = 9
        · subst d9; by_cases hu : u = []
          · subst hu; cases e <;> simp
          · simp [hu]
        by_cases d10 : d = 10
        · subst d10; simp [h0, and_comm]
        by_cases d11 : d = 11
        · subst d11; by_cases hu : u = []
          · subst hu; cases e <;> simp
          · simp [hu]
        by_cases d12 : d = 12
        · subst d12; simp [h5, hS, and_comm]
        simp [d4, d9, d10, d11, d12]
      by_cases a6 : c = 6
      · subst a6
        have hδ : delta 2 6 = .go 8 (some false) := rfl
        rw [hδ]
        have hany : ¬ Any 6 := by unfold Any; omega
        simp only [accL_cons, delta, hany, false_and]
        by_cases d6 : d = 6
        · subst d6; by_cases hu : u = []
          · subst hu; cases e <;> simp
          · simp [hu]
        simp [d6]
      by_cases a7 : c = 7
      · subst a7
        have hδ : delta 2 7 = .go 9 (some false) := rfl
        rw [hδ]
        have hany : Any 7 := by unfold Any; omega
        simp only [accL_cons, delta, hany, true_and]
        by_cases d9 : d = 9
        · subst d9; by_cases hu : u = []
          · subst hu; cases e <;> simp
          · simp [hu]
        by_cases d10 : d = 10
        · subst d10; simp [h0, and_comm]
        by_cases d11 : d = 11
        · subst d11; by_cases hu : u = []
          · subst hu; cases e <;> simp
          · simp [hu]
        by_cases d12 : d = 12
        · subst d12
          simp [h10 u rfl, hS, and_comm, or_assoc, or_comm, or_left_comm]
        simp [d9, d10, d11, d12]
      by_cases a13 : c = 13
      · subst a13
        have hδ : delta 2 13 = .go 11 (some true) := rfl
        rw [hδ]
        have hany : Any 13 := by unfold Any; omega
        simp only [accL_cons, delta, hany, true_and]
        by_cases d9 : d = 9
        · subst d9; by_cases hu : u = []
          · subst hu; cases e <;> simp
          · simp [hu]
        by_cases d10 : d = 10
        · subst d10; simp [h0, and_comm]
        by_cases d11 : d = 11
        · subst d11; by_cases hu : u = []
          · subst hu; cases e <;> simp
          · simp [hu]
        by_cases d12 : d = 12
        · subst d12; simp [h5, hS, and_comm]
        by_cases d14 : d = 14
        · subst d14; simp [ht, and_comm]
        simp [d9, d10, d11, d12, d14]
      have hany : ¬ Any c := by unfold Any; omega
      have hδ : delta 2 c = .final false := by
        simp only [not_or] at a1
        simp [delta, a1, a3, a6, a7, a13]
      rw [hδ]
      simp [hany, a3, a6, a7, a13]

end Verif.Emoji
