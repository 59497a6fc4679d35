import Verif.Spec.Cxx
import Mathlib.Data.List.Basic

/-!
# Facts about the C++ text of tables (Spec/Cxx)
-/

namespace Verif.Spec.Cxx

/-! ## Line splices -/

theorem takeWhile_all (f : Char → Bool) (l : Str) : ∀ c ∈ l.takeWhile f, f c = true := by
  intro c hc
  induction l with
  | nil => simp at hc
  | cons a l ih =>
    rw [List.takeWhile_cons] at hc
    split at hc
    · rcases List.mem_cons.1 hc with rfl | hc
      · assumption
      · exact ih hc
    · simp at hc

theorem dropWhile_head (f : Char → Bool) (l r : Str) (x : Char) (h : l.dropWhile f = x :: r) : f x = false := by
  induction l with
  | nil => simp at h
  | cons a l ih =>
    rw [List.dropWhile_cons] at h
    split at h
    · exact ih h
    · simp only [List.cons.injEq] at h
      rw [← h.1]; simpa using ‹¬ f a = true›

theorem splice_cons {c : Char} (h : c ≠ '\\') (t : Str) : splice (c :: t) = c :: splice t := by
  rw [splice]
  intro t' h1
  exact fun _ => h h1

theorem splice_append (w t : Str) (h : ∀ c ∈ w, c ≠ '\\') : splice (w ++ t) = w ++ splice t := by
  induction w with
  | nil => rfl
  | cons c w ih => rw [List.cons_append, splice_cons (h c (by simp)), ih fun d hd => h d (by simp [hd])]; rfl

theorem splice_line (c t : Str) (h : '\n' ∉ c) (h' : c.getLast? ≠ some '\\') : splice (c ++ '\n' :: t) = c ++ '\n' :: splice t := by
  induction c with
  | nil => exact splice_cons (by decide) t
  | cons a c ih =>
    have hn : '\n' ∉ c := fun hc => h (by simp [hc])
    have hl : splice (a :: (c ++ '\n' :: t)) = a :: splice (c ++ '\n' :: t) := by
      rw [splice]
      intro t' h1 h2
      subst h1
      cases c with
      | nil => simp at h'
      | cons b c =>
        simp only [List.cons_append, List.cons.injEq] at h2
        exact hn (by simp [h2.1])
    rw [List.cons_append, hl, ih hn ?_]; rfl
    intro e
    apply h'
    cases c with
    | nil => simp at e
    | cons b c => rw [List.getLast?_cons_cons]; exact e

theorem punct_ne {c : Char} (h : isPunct c = true) : c ≠ '\\' ∧ c ≠ '/' ∧ c ≠ '"' ∧ isWord c = false ∧ isSpace c = false := by
  have key : ∀ c ∈ "{}<>(),;:=.*&[]!-".toList, c ≠ '\\' ∧ c ≠ '/' ∧ c ≠ '"' ∧ isWord c = false ∧ isSpace c = false := by decide
  exact key c (List.contains_iff_mem.1 h)

theorem word_ne {c : Char} (h : isWord c = true) : c ≠ '\\' ∧ c ≠ '/' ∧ c ≠ '"' ∧ isSpace c = false := by
  have key : ∀ d ∈ ['\\', '/', '"', ' ', '\t', '\n', '\r'], isWord d = false := by decide
  have k : ∀ d ∈ ['\\', '/', '"', ' ', '\t', '\n', '\r'], c ≠ d := by
    intro d hd e; rw [e, key d hd] at h; simp at h
  refine ⟨k _ (by simp), k _ (by simp), k _ (by simp), ?_⟩
  have h1 := k ' ' (by simp)
  have h2 := k '\t' (by simp)
  have h3 := k '\n' (by simp)
  have h4 := k '\r' (by simp)
  simp [isSpace, h1, h2, h3, h4]

theorem space_ne {c : Char} (h : isSpace c = true) : c ≠ '\\' ∧ c ≠ '/' ∧ c ≠ '"' := by
  refine ⟨?_, ?_, ?_⟩ <;> (rintro rfl; simp [isSpace] at h)

/-- A text that can be read has no line splices. -/
theorem lexes_splice {t : Str} {ts : List Tok} (h : Lexes t ts) : splice t = t := by
  induction h with
  | nil => rfl
  | space h _ ih => rw [splice_cons (space_ne h).1, ih]
  | @comment c t ts h h' _ ih =>
    rw [List.cons_append, List.cons_append, splice_cons (by decide), splice_cons (by decide), splice_line c t h h', ih]
  | word _ h _ _ ih => rw [splice_append _ _ (fun c hc => (word_ne (h c hc)).1), ih]
  | @str s t ts h _ ih =>
    rw [List.cons_append, splice_cons (by decide), splice_append _ _ (fun c hc => (h c hc).2.1), splice_cons (by decide), ih]
  | punct h _ ih => rw [splice_cons (punct_ne h).1, ih]

theorem Lexes.reads {t : Str} {ts : List Tok} (h : Lexes t ts) : Reads t ts := by
  rw [Reads, lexes_splice h]; exact h

/-! ## Composition -/

/-- Two texts do not run into each other. -/
def Apart (a b : Str) : Prop := ∀ c d, a.getLast? = some c → b.head? = some d → isWord c = true → isWord d = false

theorem lexes_append {a b : Str} {ts us : List Tok} (ha : Lexes a ts) (hb : Lexes b us) (h : Apart a b) : Lexes (a ++ b) (ts ++ us) := by
  induction ha with
  | nil => exact hb
  | @space c t ts hc _ ih =>
    refine .space hc (ih fun x y hx hy => h x y ?_ hy)
    cases t with
    | nil => simp at hx
    | cons z t => rw [List.getLast?_cons_cons]; exact hx
  | @comment c t ts h1 h2 _ ih =>
    have := Lexes.comment h1 h2 (ih fun x y hx hy => h x y ?_ hy)
    · simpa using this
    · rw [List.getLast?_append, List.getLast?_cons]
      cases t with
      | nil => simp at hx
      | cons z t => simp only [hx, Option.getD_some, Option.some_or]
  | @word w t ts h1 h2 h3 _ ih =>
    rw [List.append_assoc]
    refine .word h1 h2 ?_ (ih ?_)
    · intro c hc
      cases t with
      | nil =>
        simp only [List.nil_append] at hc
        obtain ⟨x, hx⟩ : ∃ x, w.getLast? = some x := by
          cases hw : w.getLast? with
          | none => exact (h1 (List.getLast?_eq_none_iff.1 hw)).elim
          | some x => exact ⟨x, rfl⟩
        exact h x c (by simpa using hx) hc (h2 x (List.mem_of_getLast? hx))
      | cons z t => exact h3 c (by simpa using hc)
    · intro x y hx hy
      refine h x y ?_ hy
      rw [List.getLast?_append, hx]; rfl
  | @str s t ts h1 _ ih =>
    have := Lexes.str h1 (ih fun x y hx hy => h x y ?_ hy)
    · simpa using this
    · rw [List.getLast?_append, List.getLast?_cons]
      cases t with
      | nil => simp at hx
      | cons z t => simp only [hx, Option.getD_some, Option.some_or]
  | @punct c t ts hc _ ih =>
    refine .punct hc (ih fun x y hx hy => h x y ?_ hy)
    cases t with
    | nil => simp at hx
    | cons z t => rw [List.getLast?_cons_cons]; exact hx

/-! ## Unambiguity -/

theorem takeWhile_word {w t : Str} (h : ∀ c ∈ w, isWord c = true) (h' : ∀ c, t.head? = some c → isWord c = false) :
    (w ++ t).takeWhile isWord = w ∧ (w ++ t).dropWhile isWord = t := by
  induction w with
  | nil =>
    cases t with
    | nil => exact ⟨rfl, rfl⟩
    | cons c t =>
      have := h' c rfl
      constructor
      · rw [List.nil_append, List.takeWhile_cons, this]; rfl
      · rw [List.nil_append, List.dropWhile_cons, this]; rfl
  | cons c w ih =>
    have := ih fun d hd => h d (by simp [hd])
    constructor
    · rw [List.cons_append, List.takeWhile_cons, h c (by simp), if_pos rfl, this.1]
    · rw [List.cons_append, List.dropWhile_cons, h c (by simp), if_pos rfl, this.2]

theorem first_unique {k : Char} {a b x y : Str} (ha : k ∉ a) (hb : k ∉ b) (h : a ++ k :: x = b ++ k :: y) : a = b ∧ x = y := by
  induction a generalizing b with
  | nil =>
    cases b with
    | nil => simpa using h
    | cons c b => simp only [List.nil_append, List.cons_append, List.cons.injEq] at h; exact (hb (by simp [h.1])).elim
  | cons d a ih =>
    cases b with
    | nil => simp only [List.nil_append, List.cons_append, List.cons.injEq] at h; exact (ha (by simp [h.1])).elim
    | cons c b =>
      simp only [List.cons_append, List.cons.injEq] at h
      obtain ⟨e, h⟩ := h
      obtain ⟨e1, e2⟩ := ih (fun hh => ha (by simp [hh])) (fun hh => hb (by simp [hh])) h
      exact ⟨by rw [e, e1], e2⟩

/-- The kind of a token is determined by its first character. -/
theorem lexes_unique {t : Str} {ts us : List Tok} (h : Lexes t ts) (h' : Lexes t us) : ts = us := by
  induction h generalizing us with
  | nil =>
    generalize hx : ([] : Str) = e at h'
    cases h' with
    | nil => rfl
    | space => simp at hx
    | comment => simp at hx
    | word h1 => exact (h1 (List.append_eq_nil_iff.1 hx.symm).1).elim
    | str => simp at hx
    | punct => simp at hx
  | @space c t ts hc _ ih =>
    generalize hx : c :: t = e at h'
    cases h' with
    | nil => simp at hx
    | space hc' h2 => simp only [List.cons.injEq] at hx; rw [← hx.2] at h2; exact ih h2
    | comment => simp only [List.cons_append, List.cons.injEq] at hx; exact ((space_ne hc).2.1 hx.1).elim
    | @word w t' ts' h1 h2 h3 h4 =>
      cases w with
      | nil => exact (h1 rfl).elim
      | cons d w =>
        simp only [List.cons_append, List.cons.injEq] at hx
        have := (word_ne (h2 d (by simp))).2.2.2
        rw [← hx.1, hc] at this; simp at this
    | str => simp only [List.cons_append, List.cons.injEq] at hx; exact ((space_ne hc).2.2 hx.1).elim
    | punct hc' =>
      simp only [List.cons.injEq] at hx
      have := (punct_ne hc').2.2.2.2
      rw [← hx.1, hc] at this; simp at this
  | @comment c t ts h1 h2 _ ih =>
    generalize hx : '/' :: '/' :: c ++ '\n' :: t = e at h'
    cases h' with
    | nil => simp at hx
    | space hc' => simp only [List.cons_append, List.cons.injEq] at hx; exact ((space_ne hc').2.1 hx.1.symm).elim
    | comment h3 h4 h5 =>
      simp only [List.cons_append, List.cons.injEq, true_and] at hx
      obtain ⟨_, e⟩ := first_unique h1 h3 hx
      rw [← e] at h5; exact ih h5
    | @word w t' ts' h1 h2 h3 h4 =>
      cases w with
      | nil => exact (h1 rfl).elim
      | cons d w =>
        simp only [List.cons_append, List.cons.injEq] at hx
        exact ((word_ne (h2 d (by simp))).2.1 hx.1.symm).elim
    | str => simp only [List.cons_append, List.cons.injEq] at hx; exact absurd hx.1 (by decide)
    | punct hc' => simp only [List.cons_append, List.cons.injEq] at hx; exact ((punct_ne hc').2.1 hx.1.symm).elim
  | @word w t ts h1 h2 h3 _ ih =>
    obtain ⟨a, w', hw⟩ : ∃ a w', w = a :: w' := by cases w with
      | nil => exact (h1 rfl).elim
      | cons a w' => exact ⟨a, w', rfl⟩
    have ha := word_ne (h2 a (by simp [hw]))
    generalize hx : w ++ t = e at h'
    have hx0 := hx
    rw [hw, List.cons_append] at hx0
    cases h' with
    | nil => simp at hx0
    | space hc' => simp only [List.cons.injEq] at hx0; rw [← hx0.1, ha.2.2.2] at hc'; simp at hc'
    | comment => simp only [List.cons_append, List.cons.injEq] at hx0; exact (ha.2.1 hx0.1).elim
    | @word v t' ts' h1' h2' h3' h4 =>
      have e1 := takeWhile_word h2 h3
      have e2 := takeWhile_word h2' h3'
      rw [hx, e2.1, e2.2] at e1
      rw [← e1.1]
      rw [e1.2] at h4
      rw [ih h4]
    | str => simp only [List.cons_append, List.cons.injEq] at hx0; exact (ha.2.2.1 hx0.1).elim
    | punct hc' =>
      simp only [List.cons.injEq] at hx0
      have := (punct_ne hc').2.2.2.1
      rw [← hx0.1, h2 a (by simp [hw])] at this; simp at this
  | @str s t ts h1 _ ih =>
    generalize hx : '"' :: s ++ '"' :: t = e at h'
    cases h' with
    | nil => simp at hx
    | space hc' => simp only [List.cons_append, List.cons.injEq] at hx; exact ((space_ne hc').2.2 hx.1.symm).elim
    | comment => simp only [List.cons_append, List.cons.injEq] at hx; exact absurd hx.1 (by decide)
    | @word w t' ts' h1 h2 h3 h4 =>
      cases w with
      | nil => exact (h1 rfl).elim
      | cons d w =>
        simp only [List.cons_append, List.cons.injEq] at hx
        exact ((word_ne (h2 d (by simp))).2.2.1 hx.1.symm).elim
    | str h3 h5 =>
      simp only [List.cons_append, List.cons.injEq, true_and] at hx
      obtain ⟨e1, e⟩ := first_unique (fun hh => (h1 _ hh).1 rfl) (fun hh => (h3 _ hh).1 rfl) hx
      rw [← e] at h5; rw [ih h5, e1]
    | punct hc' => simp only [List.cons_append, List.cons.injEq] at hx; exact ((punct_ne hc').2.2.1 hx.1.symm).elim
  | @punct c t ts hc _ ih =>
    generalize hx : c :: t = e at h'
    cases h' with
    | nil => simp at hx
    | space hc' =>
      simp only [List.cons.injEq] at hx
      have := (punct_ne hc).2.2.2.2
      rw [hx.1, hc'] at this; simp at this
    | comment => simp only [List.cons_append, List.cons.injEq] at hx; exact ((punct_ne hc).2.1 hx.1).elim
    | @word w t' ts' h1 h2 h3 h4 =>
      cases w with
      | nil => exact (h1 rfl).elim
      | cons d w =>
        simp only [List.cons_append, List.cons.injEq] at hx
        have := (punct_ne hc).2.2.2.1
        rw [hx.1, h2 d (by simp)] at this; simp at this
    | str => simp only [List.cons_append, List.cons.injEq] at hx; exact ((punct_ne hc).2.2.1 hx.1).elim
    | punct hc' h2 =>
      simp only [List.cons.injEq] at hx
      rw [← hx.2] at h2; rw [ih h2, hx.1]

/-! ## Literal pieces -/

/-- A reader. -/
def lexFn : Nat → Str → Option (List Tok)
  | _, [] => some []
  | 0, _ :: _ => none
  | n + 1, c :: t =>
    if isSpace c then lexFn n t
    else if isPunct c then (lexFn n t).map (.punct c :: ·)
    else if isWord c then (lexFn n ((c :: t).dropWhile isWord)).map (.word ((c :: t).takeWhile isWord) :: ·)
    else if c = '/' ∧ t.head? = some '/' then
      match (t.drop 1).dropWhile (· ≠ '\n') with
      | [] => none
      | _ :: r => if ((t.drop 1).takeWhile (· ≠ '\n')).getLast? = some '\\' then none else lexFn n r
    else if c = '"' then
      match t.dropWhile (· ≠ '"') with
      | [] => none
      | _ :: r =>
        if (t.takeWhile (· ≠ '"')).all (fun c => c ≠ '\\' && c ≠ '\n') then (lexFn n r).map (.str (t.takeWhile (· ≠ '"')) :: ·) else none
    else none

theorem lexFn_ok {n : Nat} {t : Str} {ts : List Tok} (h : lexFn n t = some ts) : Lexes t ts := by
  induction n generalizing t ts with
  | zero =>
    cases t with
    | nil => simp only [lexFn, Option.some.injEq] at h; rw [← h]; exact .nil
    | cons c t => simp [lexFn] at h
  | succ n ih =>
    cases t with
    | nil => simp only [lexFn, Option.some.injEq] at h; rw [← h]; exact .nil
    | cons c t =>
      rw [lexFn] at h
      split at h
      · exact .space ‹_› (ih h)
      · split at h
        · obtain ⟨us, h1, rfl⟩ := Option.map_eq_some_iff.1 h
          exact .punct ‹_› (ih h1)
        · split at h
          · rename_i hw
            obtain ⟨us, h1, rfl⟩ := Option.map_eq_some_iff.1 h
            have := Lexes.word (w := (c :: t).takeWhile isWord) (t := (c :: t).dropWhile isWord) (ts := us) ?_ ?_ ?_ (ih h1)
            · rwa [List.takeWhile_append_dropWhile] at this
            · rw [List.takeWhile_cons, hw]; simp
            · exact takeWhile_all _ _
            · intro d hd
              cases hh : (c :: t).dropWhile isWord with
              | nil => rw [hh] at hd; simp at hd
              | cons e r =>
                rw [hh] at hd
                simp only [List.head?_cons, Option.some.injEq] at hd
                subst hd
                exact dropWhile_head _ _ _ _ hh
          · split at h
            · rename_i hc
              obtain ⟨rfl, ht⟩ := hc
              cases t with
              | nil => simp at ht
              | cons d t =>
                simp only [List.head?_cons, Option.some.injEq] at ht
                subst ht
                simp only [List.drop_succ_cons, List.drop_zero] at h
                split at h
                · simp at h
                · rename_i x r hd
                  split at h
                  · simp at h
                  · rename_i hl
                    have hx : x = '\n' := by
                      simpa using dropWhile_head _ _ _ _ hd
                    have e := List.takeWhile_append_dropWhile (p := fun c => decide (c ≠ '\n')) (l := t)
                    rw [hd, hx] at e
                    have := Lexes.comment (c := t.takeWhile (fun c => decide (c ≠ '\n'))) (t := r) ?_ hl (ih h)
                    · rw [← e]; exact this
                    · intro hm
                      have := takeWhile_all _ _ _ hm
                      simp at this
            · split at h
              · rename_i hq
                subst hq
                split at h
                · simp at h
                · rename_i x r hd
                  split at h
                  · rename_i hall
                    obtain ⟨us, h1, rfl⟩ := Option.map_eq_some_iff.1 h
                    have hx : x = '"' := by
                      simpa using dropWhile_head _ _ _ _ hd
                    have e := List.takeWhile_append_dropWhile (p := fun c => decide (c ≠ '"')) (l := t)
                    rw [hd, hx] at e
                    have := Lexes.str (s := t.takeWhile (fun c => decide (c ≠ '"'))) (t := r) ?_ (ih h1)
                    · rw [← e]
                      rw [e]
                      rw [List.cons_append, e] at this
                      exact this
                    · intro y hy
                      have h2 := takeWhile_all _ _ _ hy
                      have h3 := List.all_eq_true.1 hall y hy
                      simp only [ne_eq, decide_not, Bool.not_eq_true', decide_eq_false_iff_not, Bool.and_eq_true] at h2 h3
                      exact ⟨h2, h3.1, h3.2⟩
                  · simp at h
              · simp at h

end Verif.Spec.Cxx
