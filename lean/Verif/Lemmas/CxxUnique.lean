import Verif.Lemmas.CxxInit
/-!
# A text declares at most one list of items

Every production of the specification's grammar tells from its first tokens what it is, so that a text has one reading.
-/

namespace Verif.Spec.Cxx

theorem bracketed_prefix (a b : List Tok) (d : Nat) (ha : bracketed d a = true) (hb : bracketed d b = true) (x y : List Tok)
    (h : a ++ p ',' :: x = b ++ p ',' :: y) : a = b ∧ x = y := by
  induction a generalizing b d with
  | nil =>
    cases b with
    | nil => simp only [List.nil_append, List.cons.injEq, true_and] at h; exact ⟨rfl, h⟩
    | cons t b =>
      simp only [List.nil_append, List.cons_append, List.cons.injEq] at h
      rw [← h.1] at hb
      have hd0 : d = 0 := by simpa [bracketed] using ha
      subst hd0
      simp [bracketed, p] at hb
  | cons t a ih =>
    cases b with
    | nil =>
      simp only [List.nil_append, List.cons_append, List.cons.injEq] at h
      rw [h.1] at ha
      have hd0 : d = 0 := by simpa [bracketed] using hb
      subst hd0
      simp [bracketed, p] at ha
    | cons u b =>
      simp only [List.cons_append, List.cons.injEq] at h
      obtain ⟨rfl, h⟩ := h
      have : ∃ d', bracketed d' a = true ∧ bracketed d' b = true := by
        cases t with
        | word w => exact ⟨d, ha, hb⟩
        | str s => simp [bracketed] at ha
        | punct c =>
          simp only [bracketed] at ha hb
          by_cases h1 : c = '<'
          · rw [if_pos h1] at ha hb; exact ⟨_, ha, hb⟩
          · rw [if_neg h1] at ha hb
            by_cases h2 : c = '>'
            · rw [if_pos h2] at ha hb
              exact ⟨_, (Bool.and_eq_true_iff.1 ha).2, (Bool.and_eq_true_iff.1 hb).2⟩
            · rw [if_neg h2] at ha hb
              by_cases h3 : c = ','
              · rw [if_pos h3] at ha hb
                exact ⟨_, (Bool.and_eq_true_iff.1 ha).2, (Bool.and_eq_true_iff.1 hb).2⟩
              · rw [if_neg h3] at ha hb
                exact ⟨_, (Bool.and_eq_true_iff.1 ha).2, (Bool.and_eq_true_iff.1 hb).2⟩
      obtain ⟨d', h1, h2⟩ := this
      obtain ⟨e1, e2⟩ := ih b d' h1 h2 h
      exact ⟨by rw [e1], e2⟩

theorem arrayInit_prefix {elem t t' : List Tok} {vs vs' : List Val} {x y : List Tok} (he : ElemOk elem) (h : ArrayInit elem t vs)
    (h' : ArrayInit elem t' vs') (e : t ++ x = t' ++ y) : vs = vs' ∧ x = y := by
  have lu := fun (a b : List Tok) (ws ws' : List Val) (r r' : List Tok) (h1 : Inits elem a ws) (h2 : Inits elem b ws') (hr : Closes r) (hr' : Closes r')
      (e : a ++ r = b ++ r') => lists_unique he (a.length + 1) a b ws ws' r r' (by omega) h1 h2 hr hr' e
  cases h with
  | @flat ts _ h hd =>
    cases h' with
    | @flat ts' _ h' _ =>
      simp only [List.cons_append, List.cons.injEq, true_and, List.append_assoc, List.nil_append] at e
      obtain ⟨e1, e2⟩ := lu _ _ _ _ (p '}' :: _) (p '}' :: _) h h' (by rfl) (by rfl) e
      simp only [List.cons.injEq, true_and] at e2
      exact ⟨e1, e2⟩
    | @nested ts' _ h' =>
      simp only [List.cons_append, List.cons.injEq, true_and, List.append_assoc, List.nil_append] at e
      cases ts with
      | nil => simp [p] at e
      | cons a u =>
        simp only [List.cons_append, List.cons.injEq] at e
        rw [e.1] at hd
        simp at hd
  | @nested ts _ h =>
    cases h' with
    | @flat ts' _ h' hd =>
      simp only [List.cons_append, List.cons.injEq, true_and, List.append_assoc, List.nil_append] at e
      cases ts' with
      | nil => simp [p] at e
      | cons a u =>
        simp only [List.cons_append, List.cons.injEq] at e
        rw [← e.1] at hd
        simp at hd
    | @nested ts' _ h' =>
      simp only [List.cons_append, List.cons.injEq, true_and, List.append_assoc, List.nil_append] at e
      obtain ⟨e1, e2⟩ := lu _ _ _ _ (p '}' :: _) (p '}' :: _) h h' (by rfl) (by rfl) e
      simp only [List.cons.injEq, true_and] at e2
      exact ⟨e1, e2⟩

theorem arrayInit_head {elem t : List Tok} {vs : List Val} (h : ArrayInit elem t vs) : ∃ u, t = p '{' :: u := by
  cases h with
  | flat _ _ => exact ⟨_, rfl⟩
  | nested _ => exact ⟨_, rfl⟩

/-- `std::array<elem, n>` and what follows -/
theorem arrayType_prefix {elem elem' : List Tok} {n n' : Str} {x y : List Tok} (h : TypeName elem) (h' : TypeName elem')
    (e : arrayType elem n ++ x = arrayType elem' n' ++ y) : elem = elem' ∧ n = n' ∧ x = y := by
  simp only [arrayType, List.cons_append, List.nil_append, List.append_assoc, List.cons.injEq, true_and] at e
  obtain ⟨e1, e2⟩ := bracketed_prefix elem elem' 0 h.1 h'.1 _ _ e
  simp only [List.cons.injEq, Tok.word.injEq, true_and] at e2
  exact ⟨e1, e2.1, e2.2⟩

/-- the part of a declaration after its specifiers -/
inductive Tail : Bool → List Tok → List Tok → Str → List Val → Prop
  | «variable» {elem n name init vs} (cv : List Tok) : cv ∈ [[], [.word "const".toList]] → Ident name → ArrayInit elem init vs →
      Tail true (arrayType elem n ++ cv ++ .word name :: init ++ [p ';']) elem name vs
  | auto {elem n name init vs} : Ident name → ArrayInit elem init vs →
      Tail false ([.word name, p '='] ++ arrayType elem n ++ init ++ [p ';']) elem name vs

theorem tail_prefix {b : Bool} {t t' elem elem' : List Tok} {name name' : Str} {vs vs' : List Val} {x y : List Tok}
    (ht : TypeName elem) (ht' : TypeName elem') (h : Tail b t elem name vs) (h' : Tail b t' elem' name' vs') (e : t ++ x = t' ++ y) :
    elem = elem' ∧ name = name' ∧ vs = vs' ∧ x = y := by
  cases h with
  | @«variable» _ n _ init _ cv hcv hn hi =>
    cases h' with
    | @«variable» _ n' _ init' _ cv' hcv' hn' hi' =>
      simp only [List.append_assoc] at e
      obtain ⟨rfl, _, e2⟩ := arrayType_prefix ht ht' e
      obtain ⟨u, hu⟩ := arrayInit_head hi
      obtain ⟨u', hu'⟩ := arrayInit_head hi'
      have key : name = name' ∧ init ++ ([p ';'] ++ x) = init' ++ ([p ';'] ++ y) := by
        simp only [List.mem_cons, List.not_mem_nil, or_false] at hcv hcv'
        rcases hcv with rfl | rfl <;> rcases hcv' with rfl | rfl
        · simp only [List.nil_append, List.cons_append, List.cons.injEq, Tok.word.injEq] at e2 ⊢; exact e2
        · rw [hu] at e2; simp [p] at e2
        · rw [hu'] at e2; simp [p] at e2
        · simp only [List.nil_append, List.cons_append, List.cons.injEq, Tok.word.injEq, true_and] at e2 ⊢; exact e2
      obtain ⟨e3, e4⟩ := arrayInit_prefix ht.2 hi hi' key.2
      simp only [List.cons_append, List.nil_append, List.cons.injEq, true_and] at e4
      exact ⟨rfl, key.1, e3, e4⟩
  | @auto _ n _ init _ hn hi =>
    cases h' with
    | @auto _ n' _ init' _ hn' hi' =>
      simp only [List.append_assoc, List.cons_append, List.nil_append, List.cons.injEq, Tok.word.injEq, true_and] at e
      obtain ⟨e0, e⟩ := e
      obtain ⟨rfl, _, e2⟩ := arrayType_prefix ht ht' e
      obtain ⟨e3, e4⟩ := arrayInit_prefix ht.2 hi hi' e2
      simp only [List.cons.injEq, true_and] at e4
      exact ⟨rfl, e0, e3, e4⟩

/-- the specifiers, and which kind of declaration follows them -/
def specifierList : List (List Tok × Bool) :=
  [([], true), ([.word "inline".toList, .word "constexpr".toList], true), ([.word "static".toList, .word "const".toList], true),
   ([.word "auto".toList, .word "static".toList, .word "const".toList], false), ([.word "auto".toList, .word "const".toList], false),
   ([.word "static".toList, .word "constexpr".toList, .word "auto".toList], false)]

theorem tail_std {t elem : List Tok} {name : Str} {vs : List Val} (h : Tail true t elem name vs) : ∃ u, t = .word "std".toList :: u := by
  cases h with
  | «variable» _ _ _ _ => exact ⟨_, rfl⟩

theorem declares_tail {t elem : List Tok} {name : Str} {vs : List Val} (h : Declares t elem name vs) :
    ∃ s b u, (s, b) ∈ specifierList ∧ Tail b u elem name vs ∧ t = s ++ u := by
  cases h with
  | @«variable» _ n _ init _ sp cv hs hcv _ hn hi =>
    refine ⟨sp, true, _, ?_, .variable (n := n) cv hcv hn hi, by simp⟩
    simp only [List.mem_cons, List.not_mem_nil, or_false] at hs
    rcases hs with rfl | rfl | rfl
    · exact .head _
    · exact .tail _ (.head _)
    · exact .tail _ (.tail _ (.head _))
  | @auto _ n _ init _ sp hs _ hn hi =>
    refine ⟨sp, false, _, ?_, .auto (n := n) hn hi, by simp⟩
    simp only [List.mem_cons, List.not_mem_nil, or_false] at hs
    rcases hs with rfl | rfl | rfl
    · exact .tail _ (.tail _ (.tail _ (.head _)))
    · exact .tail _ (.tail _ (.tail _ (.tail _ (.head _))))
    · exact .tail _ (.tail _ (.tail _ (.tail _ (.tail _ (.head _)))))

theorem w_ne {a b : Str} (h : a ≠ b) {x y : List Tok} (e : Tok.word a :: x = .word b :: y) : False := by
  simp only [List.cons.injEq, Tok.word.injEq] at e
  exact h e.1

theorem specifiers_unique {s s' : List Tok} {b b' : Bool} {u u' elem elem' : List Tok} {name name' : Str} {vs vs' : List Val} {x y : List Tok}
    (h : (s, b) ∈ specifierList) (h' : (s', b') ∈ specifierList) (t : Tail b u elem name vs) (t' : Tail b' u' elem' name' vs')
    (e : s ++ u ++ x = s' ++ u' ++ y) : b = b' ∧ u ++ x = u' ++ y := by
  simp only [specifierList, List.mem_cons, List.not_mem_nil, or_false, Prod.mk.injEq] at h h'
  rcases h with ⟨rfl, rfl⟩ | ⟨rfl, rfl⟩ | ⟨rfl, rfl⟩ | ⟨rfl, rfl⟩ | ⟨rfl, rfl⟩ | ⟨rfl, rfl⟩ <;>
  rcases h' with ⟨rfl, rfl⟩ | ⟨rfl, rfl⟩ | ⟨rfl, rfl⟩ | ⟨rfl, rfl⟩ | ⟨rfl, rfl⟩ | ⟨rfl, rfl⟩ <;>
  first
    | exact ⟨rfl, by simpa only [List.cons_append, List.nil_append, List.cons.injEq, true_and] using e⟩
    | (obtain ⟨v, rfl⟩ := tail_std t; exact (w_ne (by decide) e).elim)
    | (obtain ⟨v, rfl⟩ := tail_std t'; exact (w_ne (by decide) e).elim)
    | exact (w_ne (by decide) e).elim
    | exact (w_ne (by decide) (List.cons.inj e).2).elim

theorem declares_prefix {t t' elem elem' : List Tok} {name name' : Str} {vs vs' : List Val} {x y : List Tok}
    (ht : TypeName elem) (ht' : TypeName elem') (h : Declares t elem name vs) (h' : Declares t' elem' name' vs') (e : t ++ x = t' ++ y) :
    elem = elem' ∧ name = name' ∧ vs = vs' ∧ x = y := by
  obtain ⟨s, b, u, h1, h2, rfl⟩ := declares_tail h
  obtain ⟨s', b', u', h1', h2', rfl⟩ := declares_tail h'
  obtain ⟨rfl, e'⟩ := specifiers_unique h1 h1' h2 h2' e
  exact tail_prefix ht ht' h2 h2' e'

/-- the first token of a table's declaration -/
theorem declares_head {t elem : List Tok} {name : Str} {vs : List Val} (h : Declares t elem name vs) :
    ∃ w u, t = .word w :: u ∧ w ≠ "struct".toList ∧ w ≠ "enum".toList := by
  obtain ⟨s, b, u, h1, h2, rfl⟩ := declares_tail h
  simp only [specifierList, List.mem_cons, List.not_mem_nil, or_false, Prod.mk.injEq] at h1
  rcases h1 with ⟨rfl, rfl⟩ | ⟨rfl, rfl⟩ | ⟨rfl, rfl⟩ | ⟨rfl, rfl⟩ | ⟨rfl, rfl⟩ | ⟨rfl, rfl⟩
  · obtain ⟨v, rfl⟩ := tail_std h2
    exact ⟨_, _, rfl, by decide, by decide⟩
  all_goals exact ⟨_, _, rfl, by decide, by decide⟩

theorem members_prefix {t t' x y : List Tok} {ms ms' : List (Str × Str × Option Nat)} (h : Members t ms) (h' : Members t' ms')
    (e : t ++ p '}' :: x = t' ++ p '}' :: y) : ms = ms' ∧ x = y := by
  induction h generalizing t' ms' with
  | nil =>
    cases h' with
    | nil => simp only [List.nil_append, List.cons.injEq, true_and] at e; exact ⟨rfl, e⟩
    | scalar _ _ _ => simp [p] at e
    | array _ _ _ _ => simp [p] at e
  | scalar _ _ _ ih =>
    cases h' with
    | nil => simp [p] at e
    | scalar _ _ h3 =>
      simp only [List.cons_append, List.cons.injEq, Tok.word.injEq, true_and] at e
      obtain ⟨rfl, rfl, e⟩ := e
      obtain ⟨e1, e2⟩ := ih h3 e
      exact ⟨by rw [e1], e2⟩
    | array _ _ _ _ => simp [p] at e
  | array _ _ hl _ ih =>
    cases h' with
    | nil => simp [p] at e
    | scalar _ _ h3 => simp [p] at e
    | array _ _ hl' h3 =>
      simp only [List.cons_append, List.cons.injEq, Tok.word.injEq, true_and] at e
      obtain ⟨rfl, rfl, rfl, e⟩ := e
      obtain ⟨e1, e2⟩ := ih h3 e
      exact ⟨by rw [e1, intLit_unique hl hl'], e2⟩

theorem enumerators_prefix {t t' x y : List Tok} {es es' : List (Str × Nat)} (h : Enumerators t es) (h' : Enumerators t' es')
    (e : t ++ p '}' :: x = t' ++ p '}' :: y) : es = es' ∧ x = y := by
  induction h generalizing t' es' with
  | nil =>
    cases h' with
    | nil => simp only [List.nil_append, List.cons.injEq, true_and] at e; exact ⟨rfl, e⟩
    | cons _ _ _ => simp [p] at e
  | cons _ hl _ ih =>
    cases h' with
    | nil => simp [p] at e
    | cons _ hl' h3 =>
      simp only [List.cons_append, List.cons.injEq, Tok.word.injEq, true_and] at e
      obtain ⟨rfl, rfl, e⟩ := e
      obtain ⟨e1, e2⟩ := ih h3 e
      exact ⟨by rw [e1, intLit_unique hl hl'], e2⟩

theorem unit_unique {t : List Tok} {items items' : List Item} (h : Unit t items) (h' : Unit t items') : List.Forall₂ SameItem items items' := by
  induction h generalizing items' with
  | nil =>
    generalize ht : ([] : List Tok) = t at h'
    cases h' with
    | nil => exact .nil
    | struct _ _ _ => simp at ht
    | table _ _ hd _ => obtain ⟨w, u, rfl, _⟩ := declares_head hd; simp at ht
    | enum hd _ => cases hd with | mk _ _ _ => simp at ht
  | @struct name ts ms us items hn hm _ ih =>
    generalize ht : [Tok.word "struct".toList, .word name, p '{'] ++ ts ++ [p '}', p ';'] ++ us = t at h'
    cases h' with
    | nil => simp at ht
    | @struct name' ts' ms' us' items' hn' hm' hu' =>
      simp only [List.cons_append, List.nil_append, List.append_assoc, List.cons.injEq, Tok.word.injEq, true_and] at ht
      obtain ⟨rfl, ht⟩ := ht
      obtain ⟨rfl, e⟩ := members_prefix hm hm' ht
      simp only [List.cons.injEq, true_and] at e
      subst e
      exact .cons .struct (ih hu')
    | table _ _ hd _ =>
      obtain ⟨w, u, rfl, h1, _⟩ := declares_head hd
      simp only [List.cons_append, List.cons.injEq, Tok.word.injEq] at ht
      exact (h1 ht.1.symm).elim
    | enum hd _ =>
      cases hd with
      | mk _ _ _ =>
        simp only [List.cons_append, List.append_assoc] at ht
        exact (w_ne (by decide) ht).elim
  | @table ts type elem name vs us items hr htn hd _ ih =>
    obtain ⟨w, u, hw, n1, n2⟩ := declares_head hd
    generalize ht : ts ++ us = t at h'
    cases h' with
    | nil => rw [hw] at ht; simp at ht
    | struct _ _ _ =>
      rw [hw] at ht
      simp only [List.cons_append, List.cons.injEq, Tok.word.injEq] at ht
      exact (n1 ht.1).elim
    | table hr' htn' hd' hu' =>
      obtain ⟨rfl, rfl, rfl, rfl⟩ := declares_prefix htn htn' hd hd' ht
      exact .cons (.table hr hr') (ih hu')
    | enum hd' _ =>
      cases hd' with
      | mk _ _ _ =>
        rw [hw] at ht
        simp only [List.cons_append, List.cons.injEq, Tok.word.injEq, List.append_assoc] at ht
        exact (n2 ht.1).elim
  | @enum ts name type es us items hd _ ih =>
    cases hd with
    | @mk _ _ ts es hn hty he =>
      generalize ht : [Tok.word "enum".toList, .word "class".toList, .word name, p ':', .word type, p '{'] ++ ts ++ [p '}', p ';'] ++ us = t at h'
      cases h' with
      | nil => simp at ht
      | struct _ _ _ =>
        simp only [List.cons_append, List.append_assoc] at ht
        exact (w_ne (by decide) ht).elim
      | table _ _ hd' _ =>
        obtain ⟨w, u, rfl, _, h1⟩ := declares_head hd'
        simp only [List.cons_append, List.cons.injEq, Tok.word.injEq] at ht
        exact (h1 ht.1.symm).elim
      | enum hd' hu' =>
        cases hd' with
        | mk hn' hty' he' =>
          simp only [List.cons_append, List.nil_append, List.append_assoc, List.cons.injEq, Tok.word.injEq, true_and] at ht
          obtain ⟨rfl, rfl, ht⟩ := ht
          obtain ⟨rfl, e⟩ := enumerators_prefix he he' ht
          simp only [List.cons.injEq, true_and] at e
          subst e
          exact .cons .enum (ih hu')

/-- A text declares at most one list of items. -/
theorem says_unique {text : Str} {items items' : List Item} (h : Says text items) (h' : Says text items') : List.Forall₂ SameItem items items' := by
  obtain ⟨ts, h1, h2⟩ := h
  obtain ⟨ts', h1', h2'⟩ := h'
  rw [lexes_unique h1' h1] at h2'
  exact unit_unique h2 h2'

end Verif.Spec.Cxx
