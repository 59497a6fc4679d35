import Verif.Lemmas.Regex
import Verif.Model.LoaderFiles
/-!
# What the regular expressions of the loader match
-/

namespace Verif.Load
open Verif.Tg Verif.Spec.Regex

def Rejects (k : Rx) (p : Char → Bool) : Prop := ∀ c t, p c = true → k.ways (c :: t) = []

theorem group_plus_seq {p : Char → Bool} {k : Rx} (h : Rejects k p) (n : Nat) (s : Str) : Rx.ways (.seq (.group n (.plus (.cls p))) k) s =
    if s.takeWhile p = [] then [] else (k.ways (s.dropWhile p)).map (⟨s.takeWhile p, s.dropWhile p, [(n, s.takeWhile p)]⟩ : Match).then := by
  rw [Rx.ways, Rx.ways, List.flatMap_map, plus_flatMap]
  intro m c t e hc
  dsimp only
  rw [e, h c t hc]
  rfl

theorem star_seq {p : Char → Bool} {k : Rx} (h : Rejects k p) (s : Str) : Rx.ways (.seq (.star (.cls p)) k) s =
    (k.ways (s.dropWhile p)).map (⟨s.takeWhile p, s.dropWhile p, []⟩ : Match).then := by
  rw [Rx.ways, star_flatMap]
  intro m c t e hc
  rw [e, h c t hc]
  rfl

theorem lit_rejects {x : Char} {k : Rx} {p : Char → Bool} (h : p x = false) : Rejects (.seq (.lit x) k) p := by
  intro c t hc
  rw [Rx.lit, cls_seq]
  dsimp only
  rw [if_neg]
  intro e
  rw [decide_eq_true_eq] at e
  subst e
  rw [h] at hc
  cases hc

theorem blanks_rejects {k : Rx} {p : Char → Bool} (h : Rejects k p) (hk : Rejects k isWhite) (hp : ∀ c, p c = true → isWhite c = false) :
    Rejects (.seq blanks k) p := by
  intro c t hc
  rw [blanks, star_seq hk, List.dropWhile_cons_of_neg (by simp [hp c hc]), h c t hc]
  rfl

theorem hex_not_white (c : Char) (h : isUpperHex c = true) : isWhite c = false := by
  unfold isUpperHex at h
  unfold isWhite
  simp only [Bool.or_eq_true, Bool.and_eq_true, decide_eq_true_eq, Bool.or_eq_false_iff, decide_eq_false_iff_not] at h ⊢
  refine ⟨⟨⟨⟨⟨?_, ?_⟩, ?_⟩, ?_⟩, ?_⟩, ?_⟩ <;> (rintro rfl; revert h; decide)

theorem value_not_white (c : Char) (h : isValueChar c = true) : isWhite c = false := by
  unfold isValueChar at h
  unfold isWhite
  simp only [Bool.or_eq_true, Bool.and_eq_true, decide_eq_true_eq, Bool.or_eq_false_iff, decide_eq_false_iff_not] at h ⊢
  refine ⟨⟨⟨⟨⟨?_, ?_⟩, ?_⟩, ?_⟩, ?_⟩, ?_⟩ <;> (rintro rfl; revert h; decide)

/-! ## Words -/

def White (s : Str) : Prop := ∀ c ∈ s, isWhite c = true

def LWord (s : Str) : Prop := s ≠ [] ∧ ∀ c ∈ s, isValueChar c = true

/-- Words separated by white space. -/
inductive Phrase : Str → Prop
  | one {w : Str} : LWord w → Phrase w
  | cons {w b s : Str} : LWord w → White b → b ≠ [] → Phrase s → Phrase (w ++ b ++ s)

/-- No further word follows. -/
structure Stops (rest : Str) : Prop where
  value : ∀ c t, rest = c :: t → isValueChar c = false
  word : ∀ b c t, rest = b ++ c :: t → White b → isValueChar c = false

theorem takeWhile_app {p : Char → Bool} {a b : Str} (ha : ∀ c ∈ a, p c = true) (hb : ∀ c t, b = c :: t → p c = false) :
    (a ++ b).takeWhile p = a ∧ (a ++ b).dropWhile p = b := by
  induction a with
  | nil =>
    cases b with
    | nil => exact ⟨rfl, rfl⟩
    | cons c t => simp [hb c t rfl]
  | cons x a ih =>
    have := ih (fun c hc => ha c (List.mem_cons_of_mem _ hc))
    simp [ha x (List.mem_cons_self ..), this]

/-- ` word word …` -/
inductive More : Str → Prop
  | nil : More []
  | cons {b w s : Str} : White b → b ≠ [] → LWord w → More s → More (b ++ w ++ s)

theorem phrase_iff (v : Str) : Phrase v ↔ ∃ w s, LWord w ∧ More s ∧ v = w ++ s := by
  constructor
  · intro h
    induction h with
    | one h => exact ⟨_, [], h, .nil, by simp⟩
    | cons h1 h2 h3 _ ih =>
      obtain ⟨w', s', h4, h5, rfl⟩ := ih
      exact ⟨_, _, h1, .cons h2 h3 h4 h5, by simp [List.append_assoc]⟩
  · rintro ⟨w, s, h1, h2, rfl⟩
    induction h2 generalizing w with
    | nil => rw [List.append_nil]; exact .one h1
    | cons h3 h4 h5 _ ih =>
      have := Phrase.cons h1 h3 h4 (ih _ h5)
      simpa [List.append_assoc] using this

theorem lword_cons {w : Str} (h : LWord w) : ∃ c t, w = c :: t ∧ isValueChar c = true := by
  cases w with
  | nil => exact absurd rfl h.1
  | cons c t => exact ⟨c, t, rfl, h.2 c (List.mem_cons_self ..)⟩

/-- Behind a word comes no character of a word. -/
theorem more_stops {s rest : Str} (h : More s) (hr : Stops rest) : ∀ c t, s ++ rest = c :: t → isValueChar c = false := by
  intro c t e
  cases h with
  | nil => exact hr.value c t e
  | @cons b w s hb hn _ _ =>
    cases b with
    | nil => exact absurd rfl hn
    | cons x b =>
      simp only [List.cons_append] at e
      obtain ⟨rfl, -⟩ := List.cons.inj e
      cases hv : isValueChar x with
      | false => rfl
      | true => exact absurd (hb x (List.mem_cons_self ..)) (by rw [value_not_white x hv]; decide)

def moreRx : Rx := .group 3 (.seq (.plus (.cls isWhite)) word)

theorem word_rejects_white : Rejects word isWhite := by
  intro c t hc
  rw [word, Rx.plus, cls_seq]
  dsimp only
  rw [if_neg]
  intro e
  rw [value_not_white c e] at hc
  cases hc

theorem plus_seq {p : Char → Bool} {k : Rx} (h : Rejects k p) (s : Str) : Rx.ways (.seq (.plus (.cls p)) k) s =
    if s.takeWhile p = [] then [] else (k.ways (s.dropWhile p)).map (⟨s.takeWhile p, s.dropWhile p, []⟩ : Match).then := by
  rw [Rx.ways, plus_flatMap]
  intro m c t e hc
  rw [e, h c t hc]
  rfl

/-- One more word. -/
theorem moreRx_head (s : Str) : (moreRx.ways s).head? =
    if s.takeWhile isWhite = [] then none
    else if (s.dropWhile isWhite).takeWhile isValueChar = [] then none
    else some ⟨s.takeWhile isWhite ++ (s.dropWhile isWhite).takeWhile isValueChar, (s.dropWhile isWhite).dropWhile isValueChar,
      [(3, s.takeWhile isWhite ++ (s.dropWhile isWhite).takeWhile isValueChar)]⟩ := by
  rw [moreRx, Rx.ways, List.head?_map, plus_seq word_rejects_white]
  by_cases h : s.takeWhile isWhite = []
  · rw [if_pos h, if_pos h]; rfl
  · rw [if_neg h, if_neg h, List.head?_map, word, plus_head]
    by_cases h' : (s.dropWhile isWhite).takeWhile isValueChar = []
    · rw [if_pos h', if_pos h']; rfl
    · rw [if_neg h', if_neg h']
      simp [Match.then]

theorem more_head {tail : Str} (h : More tail) : ∀ (rest : Str), Stops rest → ∀ n, (tail ++ rest).length ≤ n →
    ∃ g, (rounds moreRx.ways n (tail ++ rest)).head? = some ⟨tail, rest, g⟩ ∧ ∀ x ∈ g, x.1 = 3 := by
  induction h with
  | nil =>
    intro rest hr n _
    refine ⟨[], ?_, by simp⟩
    cases n with
    | zero => rfl
    | succ n =>
      have hnone : (moreRx.ways ([] ++ rest)).head? = none := by
        rw [moreRx_head, List.nil_append]
        by_cases h1 : rest.takeWhile isWhite = []
        · rw [if_pos h1]
        · rw [if_neg h1, if_pos]
          cases hd : rest.dropWhile isWhite with
          | nil => rfl
          | cons c t =>
            have := hr.word (rest.takeWhile isWhite) c t (by rw [← hd, List.takeWhile_append_dropWhile]) (fun x hx => List.mem_takeWhile_imp hx)
            simp [this]
      rw [List.head?_eq_none_iff] at hnone
      rw [rounds, hnone]
      rfl
  | @cons b w s hb hn hw hs ih =>
    intro rest hr n hl
    obtain ⟨c, t, rfl, hc⟩ := lword_cons hw
    cases n with
    | zero => cases b with
      | nil => exact absurd rfl hn
      | cons x b => simp at hl
    | succ n =>
      have hbl : 0 < b.length := List.length_pos_iff.2 hn
      obtain ⟨g, hg, hg3⟩ := ih rest hr n (by simp only [List.length_append, List.length_cons] at hl ⊢; omega)
      have h1 := takeWhile_app (p := isWhite) (a := b) (b := (c :: t) ++ (s ++ rest)) hb (fun x y e => by
        rw [List.cons_append] at e
        obtain ⟨rfl, -⟩ := List.cons.inj e
        exact value_not_white _ hc)
      have h2 := takeWhile_app (p := isValueChar) (a := c :: t) (b := s ++ rest) hw.2 (more_stops hs hr)
      have e : b ++ (c :: t) ++ s ++ rest = b ++ ((c :: t) ++ (s ++ rest)) := by simp [List.append_assoc]
      rw [e]
      have hh := moreRx_head (b ++ ((c :: t) ++ (s ++ rest)))
      rw [h1.1, h1.2, h2.1, h2.2, if_neg hn, if_neg (by simp)] at hh
      obtain ⟨l, el⟩ : ∃ l, moreRx.ways (b ++ ((c :: t) ++ (s ++ rest))) = ⟨b ++ c :: t, s ++ rest, [(3, b ++ c :: t)]⟩ :: l := by
        cases hw' : moreRx.ways (b ++ ((c :: t) ++ (s ++ rest))) with
        | nil => rw [hw'] at hh; cases hh
        | cons x l => rw [hw'] at hh; cases hh; exact ⟨l, rfl⟩
      rw [rounds, el, List.filter_cons_of_pos (by simp), List.flatMap_cons, List.append_assoc, List.head?_append, List.head?_map, hg]
      refine ⟨g ++ [(3, b ++ c :: t)], ?_, ?_⟩
      · simp [Match.then]
      · intro x hx
        rcases List.mem_append.1 hx with hx | hx
        · exact hg3 x hx
        · simp at hx; rw [hx]

/-! ## The first expression -/

/-- A line about one codepoint. -/
def Single (line h v : Str) : Prop :=
  ∃ w₁ w₂ rest, line = h ++ w₁ ++ ';' :: w₂ ++ v ++ rest ∧ h ≠ [] ∧ (∀ c ∈ h, isUpperHex c = true) ∧ White w₁ ∧ White w₂ ∧ Phrase v ∧ Stops rest

def valueRx : Rx := .group 2 (.seq word (.star moreRx))

theorem valueRx_rejects : Rejects valueRx isWhite := by
  intro c t hc
  rw [valueRx, Rx.ways, seq_nil (word_rejects_white c t hc)]
  rfl

theorem semi_rejects_white (k : Rx) : Rejects (.seq (.lit ';') k) isWhite := lit_rejects (by decide)

/-- `([0-9A-F]+)\s*;\s*` and a value. -/
def fieldsRx (n : Nat) (V : Rx) : Rx := .seq (.group n (.plus (.cls isUpperHex))) (.seq blanks (.seq (.lit ';') (.seq blanks V)))

theorem fields_ways {V : Rx} (hV : Rejects V isWhite) (n : Nat) (line : Str) : (fieldsRx n V).ways line =
    if line.takeWhile isUpperHex = [] then [] else
    match (line.dropWhile isUpperHex).dropWhile isWhite with
    | [] => []
    | c :: t => if c = ';' then
        (V.ways (t.dropWhile isWhite)).map (fun m => (⟨line.takeWhile isUpperHex, line.dropWhile isUpperHex, [(n, line.takeWhile isUpperHex)]⟩ : Match).then
          ((⟨(line.dropWhile isUpperHex).takeWhile isWhite, (line.dropWhile isUpperHex).dropWhile isWhite, []⟩ : Match).then
            ((⟨[c], t, []⟩ : Match).then ((⟨t.takeWhile isWhite, t.dropWhile isWhite, []⟩ : Match).then m))))
      else [] := by
  rw [fieldsRx, group_plus_seq]
  · by_cases h : line.takeWhile isUpperHex = []
    · rw [if_pos h, if_pos h]
    · rw [if_neg h, if_neg h, blanks, star_seq (semi_rejects_white _), Rx.lit, cls_seq]
      cases (line.dropWhile isUpperHex).dropWhile isWhite with
      | nil => rfl
      | cons c t =>
        dsimp only
        by_cases hc : c = ';'
        · rw [if_pos (by simpa using hc), if_pos hc, star_seq hV]
          simp only [List.map_map]
          rfl
        · rw [if_neg (by simpa using hc), if_neg hc]; rfl
  · exact blanks_rejects (lit_rejects (by decide)) (semi_rejects_white _) hex_not_white

/-- The first way, for a line in the right form. -/
theorem fields_head {V : Rx} (hV : Rejects V isWhite) (n : Nat) {h w₁ w₂ x y : Str} {g : List (Nat × Str)} (hh : h ≠ [])
    (hx : ∀ c ∈ h, isUpperHex c = true) (hw₁ : White w₁) (hw₂ : White w₂) (hne : ∀ c t, x ++ y = c :: t → isWhite c = false)
    (hv : (V.ways (x ++ y)).head? = some ⟨x, y, g⟩) :
    ∃ T, ((fieldsRx n V).ways (h ++ w₁ ++ ';' :: w₂ ++ x ++ y)).head? = some ⟨T, y, g ++ [(n, h)]⟩ := by
  have e : h ++ w₁ ++ ';' :: w₂ ++ x ++ y = h ++ (w₁ ++ ';' :: (w₂ ++ (x ++ y))) := by simp [List.append_assoc]
  have h1 := takeWhile_app (p := isUpperHex) (a := h) (b := w₁ ++ ';' :: (w₂ ++ (x ++ y))) hx (by
    intro x y e
    cases w₁ with
    | nil => obtain ⟨rfl, -⟩ := List.cons.inj e; decide
    | cons z w₁ =>
      obtain ⟨rfl, -⟩ := List.cons.inj e
      cases hz : isUpperHex z with
      | false => rfl
      | true => exact absurd (hw₁ z (List.mem_cons_self ..)) (by rw [hex_not_white z hz]; decide))
  have h2 := takeWhile_app (p := isWhite) (a := w₁) (b := ';' :: (w₂ ++ (x ++ y))) hw₁ (by
    intro x y e
    obtain ⟨rfl, -⟩ := List.cons.inj e
    decide)
  have h3 := takeWhile_app (p := isWhite) (a := w₂) (b := x ++ y) hw₂ hne
  rw [e, fields_ways hV, h1.1, h1.2, if_neg hh, h2.1, h2.2]
  dsimp only
  rw [if_pos rfl, h3.1, h3.2, List.head?_map, hv]
  simp [Match.then]

/-- What there must be for a way. -/
theorem fields_some {V : Rx} (hV : Rejects V isWhite) (n : Nat) {line : Str} (H : (fieldsRx n V).ways line ≠ []) :
    ∃ h w₁ w₂ t, line = h ++ w₁ ++ ';' :: w₂ ++ t ∧ h ≠ [] ∧ (∀ c ∈ h, isUpperHex c = true) ∧ White w₁ ∧ White w₂ ∧ V.ways t ≠ [] := by
  rw [fields_ways hV] at H
  by_cases h1 : line.takeWhile isUpperHex = []
  · rw [if_pos h1] at H; exact absurd rfl H
  rw [if_neg h1] at H
  have e1 : line = line.takeWhile isUpperHex ++ line.dropWhile isUpperHex := List.takeWhile_append_dropWhile.symm
  have e2 : line.dropWhile isUpperHex = (line.dropWhile isUpperHex).takeWhile isWhite ++ (line.dropWhile isUpperHex).dropWhile isWhite :=
    List.takeWhile_append_dropWhile.symm
  cases h2 : (line.dropWhile isUpperHex).dropWhile isWhite with
  | nil => rw [h2] at H; exact absurd rfl H
  | cons c t =>
    rw [h2] at H e2
    dsimp only at H
    by_cases hc : c = ';'
    · subst hc
      rw [if_pos rfl] at H
      have e3 : t = t.takeWhile isWhite ++ t.dropWhile isWhite := List.takeWhile_append_dropWhile.symm
      refine ⟨_, (line.dropWhile isUpperHex).takeWhile isWhite, t.takeWhile isWhite, t.dropWhile isWhite, ?_, h1,
        fun x hx => List.mem_takeWhile_imp hx, fun x hx => List.mem_takeWhile_imp hx, fun x hx => List.mem_takeWhile_imp hx, ?_⟩
      · conv_lhs => rw [e1, e2, e3]
        simp [List.append_assoc]
      · intro hn
        rw [hn] at H
        exact H rfl
    · rw [if_neg hc] at H; exact absurd rfl H

theorem single_some {line h v : Str} (H : Single line h v) : ∃ m, searchAtBegin singlePattern line = some m ∧ m.group 1 = h ∧ m.group 2 = v := by
  obtain ⟨w₁, w₂, rest, rfl, hh, hx, hw₁, hw₂, hv, hr⟩ := H
  obtain ⟨w, s, hw, hs, rfl⟩ := (phrase_iff v).1 hv
  obtain ⟨c, t, rfl, hc⟩ := lword_cons hw
  have h4 := takeWhile_app (p := isValueChar) (a := c :: t) (b := s ++ rest) hw.2 (more_stops hs hr)
  obtain ⟨g, hg, hg3⟩ := more_head hs rest hr _ (Nat.le_refl _)
  have hword : (word.ways ((c :: t) ++ (s ++ rest))).head? = some ⟨c :: t, s ++ rest, []⟩ := by
    rw [word, plus_head, h4.1, h4.2, if_neg (by simp)]
  have hval : (valueRx.ways (c :: t ++ s ++ rest)).head? = some ⟨c :: t ++ s, rest, (2, c :: t ++ s) :: g⟩ := by
    rw [List.append_assoc, valueRx, Rx.ways, List.head?_map, seq_head hword (k := ⟨s, rest, g⟩) (by rw [Rx.ways]; exact hg)]
    simp [Match.then]
  obtain ⟨T, hT⟩ := fields_head valueRx_rejects 1 hh hx hw₁ hw₂ (fun x y e => by
    simp only [List.cons_append] at e
    obtain ⟨rfl, -⟩ := List.cons.inj e
    exact value_not_white _ hc) hval
  refine ⟨_, hT, ?_, ?_⟩
  · have : ∀ x ∈ g, x.1 ≠ 1 := fun x hx => by rw [hg3 x hx]; decide
    have hf : g.find? (fun x => decide (x.1 = 1)) = none := List.find?_eq_none.2 (fun x hx => by simpa using this x hx)
    simp [Match.group, hf]
  · simp [Match.group]

/-- A text that begins with a word begins with a phrase that cannot be longer. -/
theorem phrase_exists : ∀ (n : Nat) (s : Str), s.length ≤ n → ∃ a rest, s = a ++ rest ∧ More a ∧ (∀ b c t, rest = b ++ c :: t → White b → b ≠ [] → isValueChar c = false) ∧
    ((∀ c u, s = c :: u → isValueChar c = false) → ∀ c u, rest = c :: u → isValueChar c = false) := by
  intro n
  induction n with
  | zero =>
    intro s hs
    have : s = [] := List.length_eq_zero_iff.1 (by omega)
    subst this
    exact ⟨[], [], rfl, .nil, fun b c t e => by simp at e, fun h => h⟩
  | succ n ih =>
    intro s hs
    by_cases hm : ∃ b w t, s = b ++ w ++ t ∧ White b ∧ b ≠ [] ∧ LWord w ∧ ∀ c u, t = c :: u → isValueChar c = false
    · obtain ⟨b, w, t, rfl, h1, h2, h3, h4⟩ := hm
      have : 0 < b.length := List.length_pos_iff.2 h2
      obtain ⟨a, rest, rfl, h5, h6, h7⟩ := ih t (by simp only [List.length_append] at hs; omega)
      exact ⟨b ++ w ++ a, rest, by simp [List.append_assoc], .cons h1 h2 h3 h5, h6, fun _ => h7 h4⟩
    · refine ⟨[], s, rfl, .nil, fun b c t e hb hn => ?_, fun h => h⟩
      cases hc : isValueChar c with
      | false => rfl
      | true =>
        refine absurd ⟨b, (c :: t).takeWhile isValueChar, (c :: t).dropWhile isValueChar, ?_, hb, hn, ⟨?_, fun x hx => List.mem_takeWhile_imp hx⟩, ?_⟩ hm
        · rw [e, List.append_assoc, List.takeWhile_append_dropWhile]
        · simp [hc]
        · intro x u hx
          have := List.head?_dropWhile_not isValueChar (c :: t)
          rw [hx] at this
          simpa using this

theorem word_some {t : Str} (h : word.ways t ≠ []) : t.takeWhile isValueChar ≠ [] := by
  intro h3
  have := plus_head isValueChar t
  rw [if_pos h3, List.head?_eq_none_iff] at this
  exact h this

theorem behind_word (t : Str) : ∀ c u, t.dropWhile isValueChar = c :: u → isValueChar c = false := by
  intro c u e
  have := List.head?_dropWhile_not isValueChar t
  rw [e] at this
  simpa using this

theorem single_of_some {line : Str} {m : Match} (H : searchAtBegin singlePattern line = some m) : ∃ h v, Single line h v := by
  have H' : (fieldsRx 1 valueRx).ways line ≠ [] := by
    intro e
    have : searchAtBegin singlePattern line = none := by
      show ((fieldsRx 1 valueRx).ways line).head? = none
      rw [e]; rfl
    rw [this] at H
    cases H
  obtain ⟨h, w₁, w₂, t, rfl, h1, h2, h3, h4, h5⟩ := fields_some valueRx_rejects 1 H'
  have h6 : t.takeWhile isValueChar ≠ [] := word_some (fun e => h5 (by rw [valueRx, Rx.ways, seq_nil e]; rfl))
  obtain ⟨a, rest, h7, h8, h9, h10⟩ := phrase_exists _ (t.dropWhile isValueChar) (Nat.le_refl _)
  have e4 : t = t.takeWhile isValueChar ++ t.dropWhile isValueChar := List.takeWhile_append_dropWhile.symm
  have hstop := h10 (behind_word t)
  refine ⟨h, t.takeWhile isValueChar ++ a, w₁, w₂, rest, ?_, h1, h2, h3, h4,
    (phrase_iff _).2 ⟨_, a, ⟨h6, fun x hx => List.mem_takeWhile_imp hx⟩, h8, rfl⟩, hstop, fun b c u e hb => ?_⟩
  · conv_lhs => rw [e4, h7]
    simp [List.append_assoc]
  · cases b with
    | nil => exact hstop c u e
    | cons x b => exact h9 (x :: b) c u e hb (by simp)

/-- **The first expression, exactly.** -/
theorem single_exact (line h v : Str) :
    (∃ m, searchAtBegin singlePattern line = some m ∧ m.group 1 = h ∧ m.group 2 = v) ↔ Single line h v := by
  constructor
  · rintro ⟨m, h1, rfl, rfl⟩
    obtain ⟨h, v, hs⟩ := single_of_some h1
    obtain ⟨m', h2, h3, h4⟩ := single_some hs
    rw [h1] at h2
    cases h2
    rw [h3, h4]
    exact hs
  · exact single_some

/-! ## The second expression -/

/-- A line about a range of codepoints. -/
def Ranged (line h₁ h₂ v : Str) : Prop :=
  ∃ w₁ w₂ rest, line = h₁ ++ '.' :: '.' :: h₂ ++ w₁ ++ ';' :: w₂ ++ v ++ rest ∧ h₁ ≠ [] ∧ (∀ c ∈ h₁, isUpperHex c = true) ∧ h₂ ≠ [] ∧
    (∀ c ∈ h₂, isUpperHex c = true) ∧ White w₁ ∧ White w₂ ∧ LWord v ∧ ∀ c t, rest = c :: t → isValueChar c = false

theorem group_rejects {n : Nat} {r k : Rx} {p : Char → Bool} (h : Rejects r p) : Rejects (.seq (.group n r) k) p := by
  intro c t hc
  rw [seq_nil]
  rw [Rx.ways, h c t hc]
  rfl

theorem dot_seq (k : Rx) (s : Str) : Rx.ways (.seq (.lit '.') (.seq (.lit '.') k)) s =
    match s with
    | '.' :: '.' :: t => (k.ways t).map (fun m => (⟨['.'], '.' :: t, []⟩ : Match).then ((⟨['.'], t, []⟩ : Match).then m))
    | _ => [] := by
  rw [Rx.lit, cls_seq]
  cases s with
  | nil => rfl
  | cons a s =>
    dsimp only
    by_cases ha : a = '.'
    · subst ha
      rw [if_pos (by simp), cls_seq]
      cases s with
      | nil => rfl
      | cons b s =>
        dsimp only
        by_cases hb : b = '.'
        · subst hb
          rw [if_pos (by simp), List.map_map]
          rfl
        · rw [if_neg (by simpa using hb)]
          split
          · next e => cases e; exact absurd rfl hb
          · rfl
    · rw [if_neg (by simpa using ha)]
      split
      · next e => cases e; exact absurd rfl ha
      · rfl

def lastRx : Rx := .group 3 word

theorem lastRx_rejects : Rejects lastRx isWhite := by
  intro c t hc
  rw [lastRx, Rx.ways, word_rejects_white c t hc]
  rfl

theorem range_ways (line : Str) : rangePattern.ways line =
    if line.takeWhile isUpperHex = [] then [] else
    match line.dropWhile isUpperHex with
    | '.' :: '.' :: t => ((fieldsRx 2 lastRx).ways t).map (fun m =>
        (⟨line.takeWhile isUpperHex, line.dropWhile isUpperHex, [(1, line.takeWhile isUpperHex)]⟩ : Match).then
          ((⟨['.'], '.' :: t, []⟩ : Match).then ((⟨['.'], t, []⟩ : Match).then m)))
    | _ => [] := by
  rw [show rangePattern = .seq (.group 1 (.plus (.cls isUpperHex))) (.seq (.lit '.') (.seq (.lit '.') (fieldsRx 2 lastRx))) from rfl, group_plus_seq]
  · by_cases h : line.takeWhile isUpperHex = []
    · rw [if_pos h, if_pos h]
    · rw [if_neg h, if_neg h, dot_seq]
      generalize line.dropWhile isUpperHex = r
      split
      · rw [List.map_map]; rfl
      · next hne =>
        split
        · next t => exact absurd rfl (hne t)
        · rfl
  · exact lit_rejects (by decide)

theorem range_some {line h₁ h₂ v : Str} (H : Ranged line h₁ h₂ v) :
    ∃ m, searchAtBegin rangePattern line = some m ∧ m.group 1 = h₁ ∧ m.group 2 = h₂ ∧ m.group 3 = v := by
  obtain ⟨w₁, w₂, rest, rfl, hh, hx, hh', hx', hw₁, hw₂, hv, hr⟩ := H
  obtain ⟨c, t, rfl, hc⟩ := lword_cons hv
  have h4 := takeWhile_app (p := isValueChar) (a := c :: t) (b := rest) hv.2 hr
  have hval : (lastRx.ways (c :: t ++ rest)).head? = some ⟨c :: t, rest, [(3, c :: t)]⟩ := by
    rw [lastRx, Rx.ways, List.head?_map, word, plus_head, h4.1, h4.2, if_neg (by simp)]
    rfl
  obtain ⟨T, hT⟩ := fields_head lastRx_rejects 2 hh' hx' hw₁ hw₂ (fun x y e => by
    simp only [List.cons_append] at e
    obtain ⟨rfl, -⟩ := List.cons.inj e
    exact value_not_white _ hc) hval
  have e : h₁ ++ '.' :: '.' :: h₂ ++ w₁ ++ ';' :: w₂ ++ (c :: t) ++ rest = h₁ ++ ('.' :: '.' :: (h₂ ++ w₁ ++ ';' :: w₂ ++ (c :: t) ++ rest)) := by
    simp [List.append_assoc]
  have h1 := takeWhile_app (p := isUpperHex) (a := h₁) (b := '.' :: '.' :: (h₂ ++ w₁ ++ ';' :: w₂ ++ (c :: t) ++ rest)) hx (by
    intro x y e
    obtain ⟨rfl, -⟩ := List.cons.inj e
    decide)
  rw [e, searchAtBegin, range_ways, h1.1, h1.2, if_neg hh]
  split
  · next t' e' =>
    obtain rfl : _ = t' := (List.cons.inj (List.cons.inj e').2).2
    rw [List.head?_map, hT]
    exact ⟨_, rfl, by simp [Match.then, Match.group], by simp [Match.then, Match.group], by simp [Match.then, Match.group]⟩
  · next hne => exact absurd rfl (hne _)

theorem range_of_some {line : Str} {m : Match} (H : searchAtBegin rangePattern line = some m) : ∃ h₁ h₂ v, Ranged line h₁ h₂ v := by
  rw [searchAtBegin, range_ways] at H
  by_cases h1 : line.takeWhile isUpperHex = []
  · rw [if_pos h1] at H; cases H
  rw [if_neg h1] at H
  have e1 : line = line.takeWhile isUpperHex ++ line.dropWhile isUpperHex := List.takeWhile_append_dropWhile.symm
  split at H
  · next t e2 =>
    have H' : (fieldsRx 2 lastRx).ways t ≠ [] := by
      intro e
      rw [e] at H
      cases H
    obtain ⟨h, w₁, w₂, t, rfl, h2, h3, h4, h5, h6⟩ := fields_some lastRx_rejects 2 H'
    have h7 : t.takeWhile isValueChar ≠ [] := word_some (fun e => h6 (by rw [lastRx, Rx.ways, e]; rfl))
    have e4 : t = t.takeWhile isValueChar ++ t.dropWhile isValueChar := List.takeWhile_append_dropWhile.symm
    refine ⟨_, h, t.takeWhile isValueChar, w₁, w₂, t.dropWhile isValueChar, ?_, h1, fun x hx => List.mem_takeWhile_imp hx, h2, h3, h4, h5,
      ⟨h7, fun x hx => List.mem_takeWhile_imp hx⟩, behind_word t⟩
    conv_lhs => rw [e1, e2, e4]
    simp [List.append_assoc]
  · cases H

/-- **The second expression, exactly.** -/
theorem range_exact (line h₁ h₂ v : Str) :
    (∃ m, searchAtBegin rangePattern line = some m ∧ m.group 1 = h₁ ∧ m.group 2 = h₂ ∧ m.group 3 = v) ↔ Ranged line h₁ h₂ v := by
  constructor
  · rintro ⟨m, h1, rfl, rfl, rfl⟩
    obtain ⟨a, b, v, hs⟩ := range_of_some h1
    obtain ⟨m', h2, h3, h4, h5⟩ := range_some hs
    rw [h1] at h2
    cases h2
    rw [h3, h4, h5]
    exact hs
  · exact range_some

/-- No line is both. -/
theorem not_both {line h v h₁ h₂ v' : Str} (H : Single line h v) (H' : Ranged line h₁ h₂ v') : False := by
  obtain ⟨w₁, w₂, rest, e, hh, hx, hw₁, -⟩ := H
  obtain ⟨u₁, u₂, rest', e', gh, gx, -⟩ := H'
  have a1 := takeWhile_app (p := isUpperHex) (a := h) (b := w₁ ++ ';' :: (w₂ ++ v ++ rest)) hx (by
    intro x y e
    cases w₁ with
    | nil => obtain ⟨rfl, -⟩ := List.cons.inj e; decide
    | cons z w₁ =>
      obtain ⟨rfl, -⟩ := List.cons.inj e
      cases hz : isUpperHex z with
      | false => rfl
      | true => exact absurd (hw₁ z (List.mem_cons_self ..)) (by rw [hex_not_white z hz]; decide))
  have a2 := takeWhile_app (p := isUpperHex) (a := h₁) (b := '.' :: '.' :: (h₂ ++ u₁ ++ ';' :: u₂ ++ v' ++ rest')) gx (by
    intro x y e
    obtain ⟨rfl, -⟩ := List.cons.inj e
    decide)
  have e1 : line = h ++ (w₁ ++ ';' :: (w₂ ++ v ++ rest)) := by rw [e]; simp [List.append_assoc]
  have e2 : line = h₁ ++ ('.' :: '.' :: (h₂ ++ u₁ ++ ';' :: u₂ ++ v' ++ rest')) := by rw [e']; simp [List.append_assoc]
  have e3 := a1.2
  rw [← e1, e2, a2.2] at e3
  cases w₁ with
  | nil => cases e3
  | cons z w₁ =>
    obtain ⟨rfl, -⟩ := List.cons.inj e3
    exact absurd (hw₁ '.' (List.mem_cons_self ..)) (by decide)

end Verif.Load
