import Verif.Props.Emoji
/-!
# C80 Text that arrives later changes only the end: emoji presentation
-/

namespace Verif.Props.EmojiPrefix
open Verif.Emoji Verif.Spec Verif.Spec.Emoji Verif.Props.Emoji

/-! ## The automaton: what a cut token looks like -/

theorem acc_resume (v : List Int) (hv : v ≠ []) (e : Bool) : ∀ (w : List Int) (q : Nat), w ≠ [] → acc q (w ++ v) = some e →
    ∃ q', ∀ v', v' ≠ [] → acc q (w ++ v') = acc q' v' := by
  intro w
  induction w with
  | nil => intro q h; exact absurd rfl h
  | cons c w ih =>
    intro q _ h
    simp only [List.cons_append, acc] at h
    cases hd : delta q c with
    | dead => simp [hd] at h
    | final f => simp [hd, hv] at h
    | go q' l =>
      simp only [hd] at h
      rw [if_neg (by simp [hv])] at h
      by_cases hw : w = []
      · subst hw
        refine ⟨q', fun v' hv' => ?_⟩
        simp [acc, hd, hv']
      · obtain ⟨q'', h2⟩ := ih q' hw h
        refine ⟨q'', fun v' hv' => ?_⟩
        rw [← h2 v' hv']
        simp [acc, hd, hv']

theorem delta_silent (q : Nat) (c : Int) (q' : Nat) (h : delta q c = .go q' none) : (c = 10 ∧ q' = 0) ∨ (c = 14 ∧ q' = 1) := by
  unfold delta at h
  split at h <;> (repeat' split at h) <;> simp at h <;> omega

/-- The states inside a ZWJ or tag sequence. -/
def Inside (q : Nat) : Prop := q = 0 ∨ q = 1 ∨ q = 4 ∨ q = 5 ∨ q = 6

theorem inside_acc (e : Bool) : ∀ (v : List Int) (q : Nat), Inside q → acc q v = some e → e = true := by
  intro v
  induction v with
  | nil => intro q _ h; simp [acc] at h
  | cons c v ih =>
    intro q hq h
    simp only [acc] at h
    cases hd : delta q c with
    | dead => simp [hd] at h
    | final f =>
      simp only [hd] at h
      by_cases hv : v = []
      · simp [hv] at h
        subst h
        rcases hq with rfl | rfl | rfl | rfl | rfl <;> simp only [delta] at hd <;> (repeat' split at hd) <;> simp_all
      · simp [hv] at h
    | go q' l =>
      have key : Inside q' ∧ l ≠ some false := by
        rcases hq with rfl | rfl | rfl | rfl | rfl <;> simp only [delta] at hd <;> (repeat' split at hd) <;>
          simp at hd <;> (obtain ⟨rfl, rfl⟩ := hd) <;> simp [Inside]
      simp only [hd] at h
      by_cases hv : v = []
      · simp only [hv, if_true] at h
        subst h
        cases e
        · exact absurd rfl key.2
        · rfl
      · rw [if_neg hv] at h
        exact ih q' key.1 h

theorem cut_silent (u : List Int) (hu : u ≠ []) (e : Bool) : ∀ (d : List Int) (q : Nat), acc q (d ++ u) = some e →
    (∀ d1 d2, d = d1 ++ d2 → acc q d1 = none) → (∀ c ∈ d, c = 10 ∨ c = 14) ∧ (d ≠ [] → e = true) := by
  intro d
  induction d with
  | nil => intro q _ _; simp
  | cons c d ih =>
    intro q h hn
    have h1 := hn [c] d rfl
    simp only [List.cons_append, acc] at h h1
    cases hd : delta q c with
    | dead => simp [hd] at h
    | final f => simp [hd, hu] at h
    | go q' l =>
      simp only [hd, if_true] at h h1
      subst h1
      rw [if_neg (by simp [hu])] at h
      have hs := delta_silent q c q' hd
      obtain ⟨i1, _⟩ := ih q' h (fun d1 d2 hd12 => by
        by_cases h0 : d1 = []
        · subst h0; rfl
        · have := hn (c :: d1) d2 (by rw [hd12]; rfl)
          simpa [acc, hd, h0] using this)
      refine ⟨fun x hx => ?_, fun _ => inside_acc e _ q' ?_ h⟩
      · rcases List.mem_cons.1 hx with rfl | hx
        · rcases hs with hs | hs
          · exact Or.inl hs.1
          · exact Or.inr hs.1
        · exact i1 x hx
      · rcases hs with hs | hs
        · exact Or.inl hs.2
        · exact Or.inr (Or.inl hs.2)

theorem tok_acc {w : List Int} {e : Bool} (hw : w ≠ []) : IsToken w e ↔ acc 2 w = some e := by
  rw [← acc_iff_token, accL, if_neg hw]

theorem take_ne {a : List Int} {n : Nat} (h : 0 < n) (h2 : n ≤ a.length) : a.take n ≠ [] := by
  intro h0
  have := congrArg List.length h0
  rw [List.length_take, Nat.min_eq_left h2] at this
  simp only [List.length_nil] at this
  omega

/-- After text has been appended, the first token stays, or it was cut. -/
theorem token_more (a b : List Int) (n : Nat) (e : Bool) (h : LongestToken a n e) (n' : Nat) (e' : Bool)
    (h' : LongestToken (a ++ b) n' e') : (n' = n ∧ e' = e) ∨
    (n ≤ n' ∧ (∀ c ∈ a.drop n, c = 10 ∨ c = 14) ∧ (a.drop n ≠ [] → e' = true)) := by
  obtain ⟨h1, h2, h3, h4⟩ := h
  obtain ⟨g1, g2, g3, g4⟩ := h'
  rcases Nat.lt_trichotomy n' n with hlt | rfl | hgt
  · exact absurd (by rwa [List.take_append_of_le_length h2]) (g4 n hlt (by simp; omega) e)
  · left
    rw [List.take_append_of_le_length h2] at g3
    have hne : a.take n' ≠ [] := take_ne g1 h2
    have a1 := (tok_acc hne).1 h3
    have a2 := (tok_acc hne).1 g3
    rw [a1] at a2
    exact ⟨rfl, by simpa using a2.symm⟩
  · right
    have hlen : a.length < n' := by
      by_contra hc
      have hc : n' ≤ a.length := by omega
      exact h4 n' hgt hc e' (by rwa [List.take_append_of_le_length hc] at g3)
    have hnw : a.take n ≠ [] := take_ne h1 h2
    obtain ⟨u, hu, htk⟩ : ∃ u, u ≠ [] ∧ (a ++ b).take n' = a.take n ++ (a.drop n ++ u) := by
      refine ⟨b.take (n' - a.length), ?_, ?_⟩
      · intro h0
        have := congrArg List.length h0
        rw [List.length_take] at this
        simp only [List.length_append, List.length_nil] at this g2; omega
      · rw [← List.append_assoc, List.take_append_drop, List.take_append, List.take_of_length_le (by omega)]
    rw [htk] at g3
    have ha := (tok_acc (by simp [hnw])).1 g3
    obtain ⟨q', hq'⟩ := acc_resume (a.drop n ++ u) (by simp [hu]) e' (a.take n) 2 hnw ha
    rw [hq' _ (by simp [hu])] at ha
    refine ⟨by omega, cut_silent u hu e' (a.drop n) q' ha fun d1 d2 hd => ?_⟩
    by_cases h0 : d1 = []
    · subst h0; rfl
    · rw [← hq' d1 h0]
      by_contra hc
      obtain ⟨f, hf⟩ := Option.ne_none_iff_exists'.1 hc
      have hlen2 : n + d1.length ≤ a.length := by
        have := congrArg List.length hd
        simp at this; omega
      refine h4 (n + d1.length) (by have := List.length_pos_iff.2 h0; omega) hlen2 f ?_
      have : a.take (n + d1.length) = a.take n ++ d1 := by
        rw [List.take_add, hd, List.take_left']
        rfl
      rw [this]
      exact (tok_acc (by simp [hnw])).2 hf

/-! ## The presentation of every position -/

/-- The presentation of every position, from the tokens. -/
def flags (toks : List (Bool × List Int)) : List Bool := toks.flatMap (fun t => List.replicate t.2.length t.1)

theorem flags_length {a : List Int} {ta : List (Bool × List Int)} (h : Tokenized a ta) : (flags ta).length = a.length := by
  induction h with
  | nil => rfl
  | @cons a n e toks h _ ih =>
    have := h.2.1
    simp only [flags, List.flatMap_cons, List.length_append, List.length_replicate, List.length_take] at ih ⊢
    rw [ih, List.length_drop]; omega

theorem flags_silent {a : List Int} {ta : List (Bool × List Int)} (h : Tokenized a ta) (hs : ∀ c ∈ a, c = 10 ∨ c = 14) :
    ∀ f ∈ flags ta, f = false := by
  induction h with
  | nil => simp [flags]
  | @cons a n e toks h _ ih =>
    intro f hf
    simp only [flags, List.flatMap_cons, List.mem_append] at hf
    rcases hf with hf | hf
    · obtain ⟨_, rfl⟩ := List.mem_replicate.1 hf
      obtain ⟨h1, h2, h3, _⟩ := h
      cases a with
      | nil => simp at h2; omega
      | cons c t =>
        obtain ⟨m, rfl⟩ : ∃ m, n = m + 1 := ⟨n - 1, by omega⟩
        rw [List.take_succ_cons] at h3
        have h3 := (tok_acc (by simp)).1 h3
        have hd : delta 2 c = .final false := by
          rcases hs c (by simp) with rfl | rfl <;> rfl
        simp only [acc, hd] at h3
        by_cases h0 : t.take m = []
        · simp only [h0, if_true] at h3; simpa using h3.symm
        · simp [h0] at h3
    · exact ih (fun c hc => hs c (List.mem_of_mem_drop hc)) f hf

/-- Where the presentation changes within `a`, everything before has its final presentation. -/
theorem flags_more {a : List Int} {ta : List (Bool × List Int)} (h : Tokenized a ta) (b : List Int) :
    ∀ {tb : List (Bool × List Int)}, Tokenized (a ++ b) tb → ∀ p, p + 1 < a.length → (flags ta)[p]? ≠ (flags ta)[p + 1]? →
    (flags tb).take (p + 1) = (flags ta).take (p + 1) := by
  induction h with
  | nil => intro tb _ p hp; simp at hp
  | @cons a n e toks h htail ih =>
    intro tb hb p hp hne
    have h2 := h.2.1
    have h1 := h.1
    generalize hx : a ++ b = x at hb
    cases hb with
    | nil =>
      have := congrArg List.length hx
      simp only [List.length_append, List.length_nil] at this; omega
    | @cons _ n' e' toks' h' htail' =>
      subst hx
      have hl' := h'.2.1
      simp only [flags, List.flatMap_cons, List.length_take, Nat.min_eq_left h2, Nat.min_eq_left hl'] at hne ⊢
      have small : ¬ p + 1 < n := by
        intro hc
        apply hne
        rw [List.getElem?_append_left (by simp; omega), List.getElem?_append_left (by simp; omega)]
        simp [hc, show p < n by omega]
      rcases token_more a b n e h n' e' h' with ⟨rfl, rfl⟩ | ⟨hle, hsil, hemo⟩
      · have hdrop : (a ++ b).drop n' = a.drop n' ++ b := List.drop_append_of_le_length h2
        rw [hdrop] at htail'
        by_cases hpn : p + 1 = n'
        · rw [List.take_append_of_le_length (by simp; omega), List.take_append_of_le_length (by simp; omega)]
        · rw [List.take_append, List.take_append]
          congr 1
          rw [List.length_replicate, show p + 1 - n' = (p - n') + 1 by omega]
          refine ih htail' (p - n') (by simp; omega) ?_
          rw [List.getElem?_append_right (by simp; omega), List.getElem?_append_right (by simp; omega)] at hne
          simp only [List.length_replicate] at hne
          rw [show p + 1 - n' = (p - n') + 1 by omega] at hne
          exact hne
      · have hf := flags_silent htail hsil
        have hlen := flags_length htail
        simp only [flags, List.length_drop] at hf hlen
        have hpn : p + 1 = n := by
          by_contra hc
          apply hne
          rw [List.getElem?_append_right (by simp; omega), List.getElem?_append_right (by simp; omega)]
          rw [List.getElem?_eq_getElem (by simp only [List.length_replicate]; omega),
            List.getElem?_eq_getElem (by simp only [List.length_replicate]; omega)]
          rw [hf _ (List.getElem_mem _), hf _ (List.getElem_mem _)]
        have he' := hemo (by
          intro h0
          have := congrArg List.length h0
          simp at this; omega)
        have he : e = true := by
          have g1 : (List.replicate n e ++ toks.flatMap (fun t => List.replicate t.2.length t.1))[p]? = some e := by
            rw [List.getElem?_append_left (by simp; omega)]
            simp [show p < n by omega]
          have g2 : (List.replicate n e ++ toks.flatMap (fun t => List.replicate t.2.length t.1))[p + 1]? = some false := by
            rw [List.getElem?_append_right (by simp; omega), List.getElem?_eq_getElem (by simp only [List.length_replicate]; omega),
              hf _ (List.getElem_mem _)]
          rw [g1, g2] at hne
          cases e
          · exact absurd rfl hne
          · rfl
        subst he he'
        rw [List.take_append_of_le_length (by simp; omega), List.take_append_of_le_length (by simp; omega)]
        simp only [List.take_replicate]
        congr 1
        omega

/-! ## The runs -/

/-- The presentation of every position, from the runs. -/
def spread (segs : List (Bool × List Int)) : List Bool := segs.flatMap (fun s => List.replicate s.2.length s.1)

theorem spread_flags (segs : List (Bool × List (List Int))) :
    flags (segs.flatMap (fun s => s.2.map (fun t => (s.1, t)))) = spread (segs.map (fun s => (s.1, s.2.flatten))) := by
  induction segs with
  | nil => rfl
  | cons s segs ih =>
    have one : ∀ ts : List (List Int), flags (ts.map (fun t => (s.1, t))) = List.replicate ts.flatten.length s.1 := by
      intro ts
      induction ts with
      | nil => rfl
      | cons t ts ih =>
        simp only [flags, List.map_cons, List.flatMap_cons, List.flatten_cons, List.length_append] at ih ⊢
        rw [ih, List.replicate_append_replicate]
    have happ : ∀ x y, flags (x ++ y) = flags x ++ flags y := fun x y => by simp [flags]
    rw [List.flatMap_cons, happ, one, ih]
    rfl

theorem spread_append (x y : List (Bool × List Int)) : spread (x ++ y) = spread x ++ spread y := by simp [spread]

theorem spread_cons (x : Bool × List Int) (y : List (Bool × List Int)) :
    spread (x :: y) = List.replicate x.2.length x.1 ++ spread y := rfl

theorem ends_append (l m : List (Bool × List Int)) : ∀ k, endsOf k (l ++ m) = endsOf k l ++ endsOf (k + (spread l).length) m := by
  induction l with
  | nil => intro k; rfl
  | cons x l ih =>
    intro k
    obtain ⟨f, s⟩ := x
    simp only [List.cons_append, endsOf, ih, spread_cons, List.length_append, List.length_replicate, Nat.add_assoc]

theorem ends_length (l : List (Bool × List Int)) : ∀ k, (endsOf k l).length = l.length := by
  induction l with
  | nil => intro k; rfl
  | cons x l ih => intro k; obtain ⟨f, s⟩ := x; simp [endsOf, ih]

theorem head_at (x : Bool × List Int) (t : List (Bool × List Int)) (i : Nat) (h : i < x.2.length) :
    (spread (x :: t))[i]? = some x.1 := by
  rw [spread_cons, List.getElem?_append_left (by simpa using h)]
  simp [h]

theorem next_at (x : Bool × List Int) (t : List (Bool × List Int)) (hc : (x :: t).IsChain (fun s t => s.1 ≠ t.1))
    (hn : ∀ s ∈ x :: t, s.2 ≠ []) : (spread (x :: t))[x.2.length]? ≠ some x.1 := by
  rw [spread_cons, List.getElem?_append_right (by simp), List.length_replicate, Nat.sub_self]
  cases t with
  | nil => simp [spread]
  | cons y t =>
    rw [head_at y t 0 (List.length_pos_iff.2 (hn y (by simp)))]
    rw [List.isChain_cons_cons] at hc
    intro h
    exact hc.1 (by simpa using h.symm)

/-- The maximal runs of two texts whose presentations agree up to the end of a run. -/
theorem runs_agree : ∀ (l : List (Bool × List Int)) (x : Bool × List Int) (segs : List (Bool × List Int)) (k : Nat),
    (l ++ [x]).IsChain (fun s t => s.1 ≠ t.1) → segs.IsChain (fun s t => s.1 ≠ t.1) →
    (∀ s ∈ l ++ [x], s.2 ≠ []) → (∀ s ∈ segs, s.2 ≠ []) →
    (∀ i < (spread (l ++ [x])).length, (spread segs)[i]? = (spread (l ++ [x]))[i]?) →
    ∃ e rest, endsOf k segs = endsOf k l ++ (x.1, e) :: rest ∧ k + (spread (l ++ [x])).length ≤ e := by
  intro l
  induction l with
  | nil =>
    intro x segs k h1 h2 h3 h4 h
    have hx := List.length_pos_iff.2 (h3 x (by simp))
    have hl : (spread ([] ++ [x])).length = x.2.length := by simp [spread]
    rw [hl] at h ⊢
    cases segs with
    | nil =>
      have := h 0 hx
      rw [List.nil_append, head_at x [] 0 hx] at this
      simp [spread] at this
    | cons y t =>
      have hy := List.length_pos_iff.2 (h4 y (by simp))
      have h0 := h 0 hx
      rw [List.nil_append, head_at x [] 0 hx, head_at y t 0 hy] at h0
      have h0 : y.1 = x.1 := by simpa using h0
      obtain ⟨f, s⟩ := y
      refine ⟨k + s.length, endsOf (k + s.length) t, by simp only at h0; subst h0; rfl, ?_⟩
      by_contra hc
      have hlt : s.length < x.2.length := by omega
      have := h s.length hlt
      rw [List.nil_append, head_at x [] _ hlt] at this
      simp only at h0
      rw [← h0] at this
      exact next_at (f, s) t h2 h4 this
  | cons z l ih =>
    intro x segs k h1 h2 h3 h4 h
    have hz := List.length_pos_iff.2 (h3 z (by simp))
    have hl : (spread (z :: l ++ [x])).length = z.2.length + (spread (l ++ [x])).length := by
      rw [List.cons_append, spread_cons]; simp
    have hl2 : 0 < (spread (l ++ [x])).length := by
      have := List.length_pos_iff.2 (h3 x (by simp))
      simp [spread]; omega
    rw [hl] at h ⊢
    cases segs with
    | nil =>
      have := h 0 (by omega)
      rw [List.cons_append, head_at z _ 0 hz] at this
      simp [spread] at this
    | cons y t =>
      have hy := List.length_pos_iff.2 (h4 y (by simp))
      have h0 := h 0 (by omega)
      rw [List.cons_append, head_at z _ 0 hz, head_at y t 0 hy] at h0
      have h0 : y.1 = z.1 := by simpa using h0
      have hlen : y.2.length = z.2.length := by
        rcases Nat.lt_trichotomy y.2.length z.2.length with hlt | he | hgt
        · have := h y.2.length (by omega)
          rw [List.cons_append, head_at z _ _ hlt, ← h0] at this
          exact absurd this (next_at y t h2 h4)
        · exact he
        · have := h z.2.length (by omega)
          rw [head_at y t _ hgt, h0] at this
          exact absurd this.symm (next_at z (l ++ [x]) h1 h3)
      have hc1 : (l ++ [x]).IsChain (fun s t => s.1 ≠ t.1) := List.IsChain.tail h1
      have hc2 : t.IsChain (fun s t => s.1 ≠ t.1) := List.IsChain.tail h2
      obtain ⟨e, rest, g1, g2⟩ := ih x t (k + z.2.length) hc1 hc2 (fun s hs => h3 s (by simp at hs ⊢; tauto))
        (fun s hs => h4 s (by simp [hs])) (fun i hi => by
          have := h (z.2.length + i) (by omega)
          rw [List.cons_append, spread_cons, spread_cons, List.getElem?_append_right (by simp; omega),
            List.getElem?_append_right (by simp)] at this
          simpa [hlen] using this)
      obtain ⟨f, s⟩ := y
      obtain ⟨f', s'⟩ := z
      simp only at h0 hlen
      subst h0
      exact ⟨e, rest, by simp only [endsOf, hlen, g1, List.cons_append], by simp only at g2 ⊢; omega⟩

/-- **C80, emoji presentation.** When text `b` is appended to a text, all its emoji and text runs but the last two stay as they are, and the last but one
keeps its presentation and stays or is continued. -/
theorem C80_emoji (a b : List Int) (rs : List (Bool × Nat)) (r1 r2 : Bool × Nat) (h : runs a = rs ++ [r1, r2]) :
    ∃ e rest, runs (a ++ b) = rs ++ (r1.1, e) :: rest ∧ r1.2 ≤ e := by
  obtain ⟨sa, ha, ga⟩ := C23_groups a
  obtain ⟨sb, hb, gb⟩ := C23_groups (a ++ b)
  have fa := spread_flags sa
  have fb := spread_flags sb
  have na : ∀ s ∈ sa.map (fun s => (s.1, s.2.flatten)), s.2 ≠ [] := by
    intro s hs
    obtain ⟨s, hu, rfl⟩ := List.mem_map.1 hs
    obtain ⟨t, ts, ht⟩ := List.exists_cons_of_ne_nil (ga.nonempty s hu).1
    have := (ga.nonempty s hu).2 t (by simp [ht])
    simp [ht, this]
  have nb : ∀ s ∈ sb.map (fun s => (s.1, s.2.flatten)), s.2 ≠ [] := by
    intro s hs
    obtain ⟨s, hu, rfl⟩ := List.mem_map.1 hs
    obtain ⟨t, ts, ht⟩ := List.exists_cons_of_ne_nil (gb.nonempty s hu).1
    have := (gb.nonempty s hu).2 t (by simp [ht])
    simp [ht, this]
  have ca : (sa.map (fun s => (s.1, s.2.flatten))).IsChain (fun s t => s.1 ≠ t.1) := by
    rw [List.isChain_map]; exact ga.alternate
  have cb : (sb.map (fun s => (s.1, s.2.flatten))).IsChain (fun s t => s.1 ≠ t.1) := by
    rw [List.isChain_map]; exact gb.alternate
  have more := flags_more ga.tokens b gb.tokens
  have hlen := flags_length ga.tokens
  rw [fa] at more hlen
  rw [fb] at more
  generalize sa.map (fun s => (s.1, s.2.flatten)) = A at *
  generalize sb.map (fun s => (s.1, s.2.flatten)) = B at *
  rw [ha] at h
  have hAl := congrArg List.length h
  rw [ends_length] at hAl
  simp only [List.length_append, List.length_cons, List.length_nil] at hAl
  obtain ⟨l, x, y, rfl⟩ : ∃ l x y, A = l ++ [x, y] := by
    obtain ⟨A1, y, rfl⟩ := List.eq_nil_or_concat A |>.resolve_left (by rintro rfl; simp at hAl)
    obtain ⟨l, x, rfl⟩ := List.eq_nil_or_concat A1 |>.resolve_left (by rintro rfl; simp at hAl)
    exact ⟨l, x, y, by simp⟩
  have hx := List.length_pos_iff.2 (na x (by simp))
  have hy := List.length_pos_iff.2 (na y (by simp))
  rw [ends_append] at h
  obtain ⟨rfl, h2⟩ := List.append_inj' h rfl
  obtain ⟨f, s⟩ := x
  obtain ⟨g, t⟩ := y
  simp only [endsOf, List.cons.injEq] at h2
  obtain ⟨rfl, rfl, _⟩ := h2
  have hsplit : l ++ [(f, s), (g, t)] = (l ++ [(f, s)]) ++ [(g, t)] := by simp
  have hP : (spread (l ++ [(f, s)])).length = (spread l).length + s.length := by simp [spread]
  have hA : spread (l ++ [(f, s), (g, t)]) = spread (l ++ [(f, s)]) ++ List.replicate t.length g := by
    rw [hsplit, spread_append]; simp [spread]
  simp only at hx hy
  have hfg : f ≠ g := by
    have := (List.isChain_append.1 ca).2.1
    rw [List.isChain_cons_cons] at this
    exact this.1
  have e1 : (spread (l ++ [(f, s), (g, t)]))[(spread l).length + s.length - 1]? = some f := by
    rw [spread_append, List.getElem?_append_right (by omega), head_at _ _ _ (by simp only; omega)]
  have e2 : (spread (l ++ [(f, s), (g, t)]))[(spread l).length + s.length - 1 + 1]? = some g := by
    rw [hA, List.getElem?_append_right (by omega), List.getElem?_replicate, if_pos (by omega)]
  have hm := more ((spread l).length + s.length - 1) (by
      rw [← hlen, hA, List.length_append, List.length_replicate]; omega) (by
      rw [e1, e2]; intro h; exact hfg (by simpa using h))
  rw [show (spread l).length + s.length - 1 + 1 = (spread (l ++ [(f, s)])).length by omega, hA, List.take_left'  rfl] at hm
  have ca' : (l ++ [(f, s)]).IsChain (fun s t => s.1 ≠ t.1) := by
    rw [hsplit] at ca; exact (List.isChain_append.1 ca).1
  obtain ⟨e, rest, k1, k2⟩ := runs_agree l (f, s) B 0 ca' cb
    (fun u hu => na u (by rw [hsplit]; exact List.mem_append_left _ hu)) nb (fun i hi => by
      rw [← hm, List.getElem?_take, if_pos hi])
  exact ⟨e, rest, by rw [hb, k1], by simp only [hP, Nat.zero_add] at k2 ⊢; exact k2⟩

/-- Non-vacuity: text, an emoji, and a ZWJ that joins nothing yet; a second emoji makes the ZWJ part of the emoji. -/
example : runs [-1, 2, 10] = [] ++ [(false, 1)] ++ [(true, 2), (false, 3)] ∧ runs ([-1, 2, 10] ++ [2, -1]) =
    [(false, 1)] ++ (true, 4) :: [(false, 5)] := by decide
/-- Holding back one run is not enough: an emoji that text presentation follows joins the text before it. -/
example : runs [2, -1, 2] = [(true, 1), (false, 2), (true, 3)] ∧ runs ([2, -1, 2] ++ [11]) = [(true, 1), (false, 4)] := by
  decide

end Verif.Props.EmojiPrefix
