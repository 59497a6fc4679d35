import Verif.Lemmas.Cxx

/-!
# Unambiguity of integer literals and initialisers (Spec/Cxx)
-/

namespace Verif.Spec.Cxx

theorem intLit_word {w : Str} {n : Nat} (h : IntLit w n) : ∃ c t, w = c :: t ∧ isDigit c = true := by
  have key : ∀ c, digit c < 10 → isDigit c = true := by
    intro c hc
    unfold digit at hc
    split at hc
    · rename_i h; simp [isDigit, h.1, h.2]
    · have hz : ∀ a b : Char, a ≤ b → a.toNat ≤ b.toNat := fun a b h => h
      split at hc
      · rename_i h; have := hz _ _ h.1; simp at this; omega
      · split at hc
        · rename_i h; have := hz _ _ h.1; simp at this; omega
        · omega
  cases h with
  | dec h1 h2 _ =>
    cases w with
    | nil => exact (h1 rfl).elim
    | cons c t => exact ⟨c, t, rfl, key c (h2 c (by simp))⟩
  | oct _ => exact ⟨_, _, rfl, by decide⟩
  | hex _ _ => exact ⟨_, _, rfl, by decide⟩
  | bin _ _ => exact ⟨_, _, rfl, by decide⟩

theorem digit_x : ¬ digit 'x' < 16 := by decide
theorem digit_b : digit 'b' = 11 := by decide

/-- A literal has one value. -/
theorem intLit_unique {w : Str} {n m : Nat} (h : IntLit w n) (h' : IntLit w m) : n = m := by
  generalize hx : w = e at h'
  cases h with
  | dec h1 h2 h3 =>
    cases h' with
    | dec => rw [hx]
    | oct => rw [hx] at h3; simp at h3
    | hex => rw [hx] at h3; simp at h3
    | bin => rw [hx] at h3; simp at h3
  | oct h1 =>
    cases h' with
    | dec _ _ h3 => rw [← hx] at h3; simp at h3
    | oct => simp only [List.cons.injEq, true_and] at hx; rw [hx]
    | hex => simp only [List.cons.injEq, true_and] at hx; rw [hx] at h1; have := h1 'x' (by simp); exact absurd this (by decide)
    | bin => simp only [List.cons.injEq, true_and] at hx; rw [hx] at h1; have := h1 'b' (by simp); exact absurd this (by decide)
  | hex h1 h2 =>
    cases h' with
    | dec _ _ h3 => rw [← hx] at h3; simp at h3
    | oct h1 => simp only [List.cons.injEq, true_and] at hx; rw [← hx] at h1; have := h1 'x' (by simp); exact absurd this (by decide)
    | hex => simp only [List.cons.injEq, true_and] at hx; rw [hx]
    | bin => simp only [List.cons.injEq, true_and] at hx; exact absurd hx.1 (by decide)
  | bin h1 h2 =>
    cases h' with
    | dec _ _ h3 => rw [← hx] at h3; simp at h3
    | oct h1 => simp only [List.cons.injEq, true_and] at hx; rw [← hx] at h1; have := h1 'b' (by simp); exact absurd this (by decide)
    | hex => simp only [List.cons.injEq, true_and] at hx; exact absurd hx.1 (by decide)
    | bin => simp only [List.cons.injEq, true_and] at hx; rw [hx]

theorem path_head {ts : List Tok} {ws : List Str} (h : Path ts ws) : ∃ w t, ts = .word w :: t ∧ Ident w := by
  cases h with
  | one h => exact ⟨_, _, rfl, h⟩
  | cons h _ => exact ⟨_, _, rfl, h⟩

theorem ident_not_lit {w : Str} {n : Nat} (h : Ident w) (h' : IntLit w n) : False := by
  obtain ⟨c, t, rfl, hc⟩ := intLit_word h'
  have := h.2.2 c rfl
  rw [hc] at this; simp at this

theorem path_unique {a b r r' : List Tok} {ws ws' : List Str} (h : Path a ws) (h' : Path b ws') (he : a ++ r = b ++ r')
    (hr : r.head? ≠ some (p ':')) (hr' : r'.head? ≠ some (p ':')) : ws = ws' ∧ r = r' := by
  induction h generalizing b ws' with
  | one h =>
    cases h' with
    | one h' => simp only [List.cons_append, List.nil_append, List.cons.injEq, Tok.word.injEq] at he; exact ⟨by rw [he.1], he.2⟩
    | cons h' _ => simp only [List.cons_append, List.nil_append, List.cons.injEq, Tok.word.injEq] at he; rw [he.2] at hr; simp at hr
  | cons h _ ih =>
    cases h' with
    | one h' => simp only [List.cons_append, List.nil_append, List.cons.injEq, Tok.word.injEq] at he; rw [← he.2] at hr'; simp at hr'
    | cons h' h2 =>
      simp only [List.cons_append, List.cons.injEq, Tok.word.injEq, true_and] at he
      obtain ⟨e1, e2⟩ := ih h2 he.2
      exact ⟨by rw [he.1, e1], e2⟩

/-- what `TypeName` says about the beginning -/
def ElemOk (elem : List Tok) : Prop := ∃ pt path rest, Path pt path ∧ elem = pt ++ rest ∧ (rest = [] ∨ rest.head? = some (p '<'))

/-- the text after an initialiser -/
def Stop (r : List Tok) : Prop := r.head? = some (p ',') ∨ r.head? = some (p '}')

/-- How an initialiser begins: with a number, a string, a brace, `::`, or a name that ends before a character that tells
what it is. -/
inductive Begin (elem : List Tok) : List Tok → List Tok → Val → Prop
  | num {w n r} : IntLit w n → Stop r → Begin elem (.word w :: r) r (.num n)
  | name {ts ws r} : Path ts ws → Stop r → Begin elem (ts ++ r) r (.name ws)
  | global {ts ws r} : Path ts ws → Stop r → Begin elem (p ':' :: p ':' :: ts ++ r) r (.name ws)
  | call {a f r} : Ident a → Ident f → Stop r → Begin elem (.word a :: p '.' :: .word f :: p '(' :: p ')' :: r) r (.name [a, f])
  | str {s r} : Stop r → Begin elem (.str s :: r) r (.str s)
  | strView {s r} : Stop r → Begin elem (.str s :: .word "sv".toList :: r) r (.str s)
  | braces {ts vs r} : Inits elem ts vs → Stop r → Begin elem (p '{' :: ts ++ p '}' :: r) r (.list vs)
  | typed {ts vs r} : Inits elem ts vs → Stop r → Begin elem (elem ++ p '{' :: ts ++ p '}' :: r) r (.list vs)
  | deduced {pt path rest ts vs r} : Path pt path → elem = pt ++ p '<' :: rest → Inits elem ts vs → Stop r →
      Begin elem (pt ++ p '{' :: ts ++ p '}' :: r) r (.list vs)

theorem init_begin {elem t r : List Tok} {v : Val} (h : Init elem t v) (hr : Stop r) : Begin elem (t ++ r) r v := by
  cases h with
  | num h => exact .num h hr
  | name h => exact .name h hr
  | global h => exact .global h hr
  | call h h' => exact .call h h' hr
  | str => exact .str hr
  | strView => exact .strView hr
  | braces h => have := Begin.braces h hr; simpa using this
  | typed h => have := Begin.typed h hr; simpa using this
  | deduced hp he h => have := Begin.deduced hp he h hr; simpa using this

theorem stop_ne {r : List Tok} (h : Stop r) (c : Char) (h1 : c ≠ ',') (h2 : c ≠ '}') : r.head? ≠ some (p c) := by
  rcases h with h | h <;> rw [h] <;> simp only [p, ne_eq, Option.some.injEq, Tok.punct.injEq] <;> exact fun e => absurd e.symm (by assumption)

/-- what may follow the elements of a list -/
def Closes (r : List Tok) : Prop := r.head? = some (p '}')

theorem closes_stop {r : List Tok} (h : Closes r) : Stop r := .inr h

/-- Lists of fewer than `n` tokens are unambiguous. -/
def ListsBelow (elem : List Tok) (n : Nat) : Prop :=
  ∀ t t' vs vs' r r', t.length < n → Inits elem t vs → Inits elem t' vs' → Closes r → Closes r' → t ++ r = t' ++ r' → vs = vs' ∧ r = r'

/-- the name an initialiser may begin with, and what follows it -/
theorem begin_path {elem x r : List Tok} {v : Val} (he : ElemOk elem) (h : Begin elem x r v) :
    (∃ ts ws y c, Path ts ws ∧ x = ts ++ y ∧ y.head? = some (p c) ∧ c ≠ ':' ∧
      ((c ≠ '.' ∧ c ≠ '{' ∧ c ≠ '<' ∧ v = .name ws ∧ y = r) ∨
       (c = '.' ∧ ∃ a f, ts = [.word a] ∧ v = .name [a, f] ∧ y = p '.' :: .word f :: p '(' :: p ')' :: r) ∨
       (c = '{' ∧ ∃ us vs, Inits elem us vs ∧ v = .list vs ∧ y = p '{' :: us ++ p '}' :: r) ∨
       (c = '<' ∧ ∃ us vs, Inits elem us vs ∧ v = .list vs ∧ x = elem ++ p '{' :: us ++ p '}' :: r))) ∨
    ((∃ w n, IntLit w n ∧ v = .num n ∧ x = .word w :: r) ∨
     (∃ ts ws, Path ts ws ∧ v = .name ws ∧ x = p ':' :: p ':' :: ts ++ r) ∨
     (∃ s, v = .str s ∧ x = .str s :: r) ∨
     (∃ s, v = .str s ∧ x = .str s :: .word "sv".toList :: r) ∨
     (∃ us vs, Inits elem us vs ∧ v = .list vs ∧ x = p '{' :: us ++ p '}' :: r)) := by
  cases h with
  | num h hr => exact .inr (.inl ⟨_, _, h, rfl, rfl⟩)
  | name h hr =>
    refine .inl ?_
    rcases hr with hr | hr
    · exact ⟨_, _, _, _, h, rfl, hr, by decide, .inl ⟨by decide, by decide, by decide, rfl, rfl⟩⟩
    · exact ⟨_, _, _, _, h, rfl, hr, by decide, .inl ⟨by decide, by decide, by decide, rfl, rfl⟩⟩
  | global h hr => exact .inr (.inr (.inl ⟨_, _, h, rfl, rfl⟩))
  | call h h' hr => exact .inl ⟨_, _, _, '.', .one h, rfl, rfl, by decide, .inr (.inl ⟨rfl, _, _, rfl, rfl, rfl⟩)⟩
  | str hr => exact .inr (.inr (.inr (.inl ⟨_, rfl, rfl⟩)))
  | strView hr => exact .inr (.inr (.inr (.inr (.inl ⟨_, rfl, rfl⟩))))
  | braces h hr => exact .inr (.inr (.inr (.inr (.inr ⟨_, _, h, rfl, rfl⟩))))
  | @typed ts vs r h hr =>
    obtain ⟨pt, path, rest, hp, hel, hrest⟩ := he
    refine .inl ⟨pt, path, rest ++ p '{' :: ts ++ p '}' :: r, ?_⟩
    rcases hrest with hrest | hrest
    · subst hrest
      exact ⟨'{', hp, by rw [hel]; simp, by simp, by decide, .inr (.inr (.inl ⟨rfl, _, _, h, rfl, by simp⟩))⟩
    · refine ⟨'<', hp, by rw [hel]; simp, ?_, by decide, .inr (.inr (.inr ⟨rfl, _, _, h, rfl, rfl⟩))⟩
      cases rest with
      | nil => simp at hrest
      | cons a rest => simpa using hrest
  | @deduced pt path rest ts vs r hp hel h hr =>
    exact .inl ⟨pt, path, p '{' :: ts ++ p '}' :: r, '{', hp, by simp, rfl, by decide, .inr (.inr (.inl ⟨rfl, _, _, h, rfl, rfl⟩))⟩

theorem begin_unique {elem : List Tok} (he : ElemOk elem) (n : Nat) (ih : ListsBelow elem n) {x r r' : List Tok} {v v' : Val}
    (h : Begin elem x r v) (h' : Begin elem x r' v') (hn : x.length < n + r.length + 2) (hr : Stop r) (hr' : Stop r') : v = v' ∧ r = r' := by
  have hlist : ∀ us vs us' vs', Inits elem us vs → Inits elem us' vs' → us ++ p '}' :: r = us' ++ p '}' :: r' → us.length < n →
      Val.list vs = Val.list vs' ∧ r = r' := by
    intro us vs us' vs' h1 h2 e hl
    obtain ⟨e1, e2⟩ := ih us us' vs vs' (p '}' :: r) (p '}' :: r') hl h1 h2 rfl rfl e
    simp only [List.cons.injEq, true_and] at e2
    exact ⟨by rw [e1], e2⟩
  rcases begin_path he h with ⟨ts, ws, y, c, hp, hx, hy, hc, hk⟩ | hk
  · rcases begin_path he h' with ⟨ts', ws', y', c', hp', hx', hy', hc', hk'⟩ | hk'
    · obtain ⟨e1, e2⟩ := path_unique hp hp' (hx.symm.trans hx') (by rw [hy]; simpa [p] using hc) (by rw [hy']; simpa [p] using hc')
      rw [e2, hy'] at hy
      have hcc : c' = c := by simpa [p] using hy
      subst hcc
      rcases hk with ⟨k1, k2, k3, k4, k5⟩ | ⟨k1, a, f, k2, k3, k4⟩ | ⟨k1, us, vs, k2, k3, k4⟩ | ⟨k1, us, vs, k2, k3, k4⟩
      · rcases hk' with ⟨m1, m2, m3, m4, m5⟩ | ⟨m1, _⟩ | ⟨m1, _⟩ | ⟨m1, _⟩
        · exact ⟨by rw [k4, m4, e1], by rw [← k5, ← m5, e2]⟩
        · exact (k1 m1).elim
        · exact (k2 m1).elim
        · exact (k3 m1).elim
      · rcases hk' with ⟨m1, _⟩ | ⟨m1, a', f', m2, m3, m4⟩ | ⟨m1, _⟩ | ⟨m1, _⟩
        · exact (m1 k1).elim
        · rw [e2, m4] at k4
          simp only [List.cons.injEq, Tok.word.injEq, true_and] at k4
          have ea : a = a' := by
            have e3 := hx.symm.trans hx'
            rw [k2, m2] at e3
            simp only [List.cons_append, List.nil_append, List.cons.injEq, Tok.word.injEq] at e3
            exact e3.1
          exact ⟨by rw [k3, m3, ea, k4.1], k4.2.symm⟩
        · rw [k1] at m1; simp at m1
        · rw [k1] at m1; simp at m1
      · rcases hk' with ⟨_, m2, _, _⟩ | ⟨m1, _⟩ | ⟨m1, us', vs', m2, m3, m4⟩ | ⟨m1, _⟩
        · exact (m2 k1).elim
        · rw [m1] at k1; simp at k1
        · rw [k3, m3]
          have e3 := k4.symm.trans (e2.trans m4)
          simp only [List.cons_append, List.cons.injEq, true_and] at e3
          refine hlist us vs us' vs' k2 m2 e3 ?_
          have h1 := congrArg List.length k4
          have h2 := congrArg List.length hx
          obtain ⟨w, t, hw, _⟩ := path_head hp
          simp only [List.length_append, List.length_cons] at h1 h2
          omega
        · rw [m1] at k1; simp at k1
      · rcases hk' with ⟨_, _, m3, _⟩ | ⟨m1, _⟩ | ⟨m1, _⟩ | ⟨m1, us', vs', m2, m3, m4⟩
        · exact (m3 k1).elim
        · rw [m1] at k1; simp at k1
        · rw [m1] at k1; simp at k1
        · rw [k3, m3]
          have e3 := k4.symm.trans m4
          simp only [List.append_assoc, List.cons_append] at e3
          have e4 := List.append_cancel_left e3
          simp only [List.cons.injEq, true_and] at e4
          refine hlist us vs us' vs' k2 m2 e4 ?_
          have := congrArg List.length k4
          simp only [List.length_append, List.length_cons] at this
          omega
    · obtain ⟨w, t, hw, hid⟩ := path_head hp
      rw [hw] at hx
      rcases hk' with ⟨w', m, h1, _, h3⟩ | ⟨_, _, _, _, h3⟩ | ⟨_, _, h3⟩ | ⟨_, _, h3⟩ | ⟨_, _, _, _, h3⟩
      · rw [hx] at h3
        simp only [List.cons_append, List.cons.injEq, Tok.word.injEq] at h3
        rw [h3.1] at hid
        exact (ident_not_lit hid h1).elim
      all_goals (rw [hx] at h3; simp only [List.cons_append, List.cons.injEq, p, reduceCtorEq, false_and] at h3)
  · rcases begin_path he h' with ⟨ts', ws', y', c', hp', hx', hy', hc', hk'⟩ | hk'
    · obtain ⟨w, t, hw, hid⟩ := path_head hp'
      rw [hw] at hx'
      rcases hk with ⟨w', m, h1, _, h3⟩ | ⟨_, _, _, _, h3⟩ | ⟨_, _, h3⟩ | ⟨_, _, h3⟩ | ⟨_, _, _, _, h3⟩
      · rw [hx'] at h3
        simp only [List.cons_append, List.cons.injEq, Tok.word.injEq] at h3
        rw [h3.1] at hid
        exact (ident_not_lit hid h1).elim
      all_goals (rw [hx'] at h3; simp only [List.cons_append, List.cons.injEq, p, reduceCtorEq, false_and] at h3)
    · have hsv : ∀ r : List Tok, Stop r → ∀ w t, r ≠ Tok.word w :: t := by
        intro r hr w t e
        rw [e] at hr
        rcases hr with hr | hr <;> simp [p] at hr
      rcases hk with ⟨w, m, h1, h2, h3⟩ | ⟨ts, ws, h1, h2, h3⟩ | ⟨s, h2, h3⟩ | ⟨s, h2, h3⟩ | ⟨us, vs, h1, h2, h3⟩ <;>
      rcases hk' with ⟨w', m', h1', h2', h3'⟩ | ⟨ts', ws', h1', h2', h3'⟩ | ⟨s', h2', h3'⟩ | ⟨s', h2', h3'⟩ | ⟨us', vs', h1', h2', h3'⟩ <;>
      rw [h3] at h3' <;>
      simp only [List.cons_append, List.cons.injEq, Tok.word.injEq, Tok.str.injEq, Tok.punct.injEq, p, reduceCtorEq, false_and, true_and] at h3'
      · rw [h3'.1] at h1
        exact ⟨by rw [h2, h2', intLit_unique h1 h1'], h3'.2⟩
      · obtain ⟨e1, e2⟩ := path_unique h1 h1' h3' (stop_ne hr ':' (by decide) (by decide)) (stop_ne hr' ':' (by decide) (by decide))
        exact ⟨by rw [h2, h2', e1], e2⟩
      · exact absurd h3'.1 (by decide)
      · exact ⟨by rw [h2, h2', h3'.1], h3'.2⟩
      · exact (hsv _ hr _ _ h3'.2).elim
      · exact (hsv _ hr' _ _ h3'.2.symm).elim
      · exact ⟨by rw [h2, h2', h3'.1], h3'.2⟩
      · exact absurd h3'.1 (by decide)
      · rw [h2, h2']
        refine hlist us vs us' vs' h1 h1' h3' ?_
        have := congrArg List.length h3
        simp only [List.length_append, List.length_cons] at this
        omega

theorem init_head {elem t : List Tok} {v : Val} (he : ElemOk elem) (h : Init elem t v) : ∃ a u, t = a :: u ∧ a ≠ p '}' ∧ a ≠ p ',' := by
  cases h with
  | num h => exact ⟨_, _, rfl, by simp [p], by simp [p]⟩
  | name h => obtain ⟨w, t, e, _⟩ := path_head h; exact ⟨_, _, e, by simp [p], by simp [p]⟩
  | global h => exact ⟨_, _, rfl, by decide, by decide⟩
  | call h h' => exact ⟨_, _, rfl, by simp [p], by simp [p]⟩
  | str => exact ⟨_, _, rfl, by simp [p], by simp [p]⟩
  | strView => exact ⟨_, _, rfl, by simp [p], by simp [p]⟩
  | braces h => exact ⟨_, _, rfl, by decide, by decide⟩
  | typed h =>
    obtain ⟨pt, path, rest, hp, hel, _⟩ := he
    obtain ⟨w, t, e, _⟩ := path_head hp
    rw [hel, e]
    exact ⟨.word w, _, rfl, by simp [p], by simp [p]⟩
  | deduced hp _ h =>
    obtain ⟨w, t, e, _⟩ := path_head hp
    rw [e]
    exact ⟨.word w, _, rfl, by simp [p], by simp [p]⟩

theorem lists_unique {elem : List Tok} (he : ElemOk elem) (n : Nat) : ListsBelow elem n := by
  induction n with
  | zero => intro t t' vs vs' r r' h; omega
  | succ n ih =>
    intro t t' vs vs' r r' hl h h' hr hr' e
    have one : ∀ a v x, Init elem a v → Stop x → a.length ≤ n → Begin elem (a ++ x) x v ∧ (a ++ x).length < n + x.length + 2 := by
      intro a v x ha hx hlen
      exact ⟨init_begin ha hx, by simp only [List.length_append]; omega⟩
    cases h with
    | nil =>
      cases h' with
      | nil => exact ⟨rfl, e⟩
      | one h1 =>
        obtain ⟨a, u, e1, e2, _⟩ := init_head he h1
        rw [List.nil_append] at e
        rw [Closes, e, e1] at hr
        simp only [List.cons_append, List.head?_cons, Option.some.injEq] at hr
        exact (e2 hr).elim
      | cons h1 _ =>
        obtain ⟨a, u, e1, e2, _⟩ := init_head he h1
        rw [List.nil_append] at e
        rw [Closes, e, e1] at hr
        simp only [List.cons_append, List.head?_cons, Option.some.injEq] at hr
        exact (e2 hr).elim
    | @one _ v h1 =>
      obtain ⟨b1, b2⟩ := one _ _ _ h1 (closes_stop hr) (by omega)
      cases h' with
      | nil =>
        obtain ⟨a, u, e1, e2, _⟩ := init_head he h1
        rw [List.nil_append] at e
        rw [Closes, ← e, e1] at hr'
        simp only [List.cons_append, List.head?_cons, Option.some.injEq] at hr'
        exact (e2 hr').elim
      | one h2 =>
        rw [e] at b1 b2
        obtain ⟨e1, e2⟩ := begin_unique he n ih b1 (init_begin h2 (closes_stop hr')) b2 (closes_stop hr) (closes_stop hr')
        exact ⟨by rw [e1], e2⟩
      | @cons ts' v' us' vs' h2 h3 =>
        have e' : t ++ r = ts' ++ (p ',' :: us' ++ r') := by simpa using e
        rw [e'] at b1 b2
        obtain ⟨_, e2⟩ := begin_unique he n ih b1 (init_begin h2 (.inl rfl)) b2 (closes_stop hr) (.inl rfl)
        rw [Closes, e2] at hr
        simp [p] at hr
    | @cons ts v us vs h1 h2 =>
      have hlen : ts.length ≤ n ∧ us.length < n := by
        simp only [List.length_append, List.length_cons] at hl; omega
      obtain ⟨b1, b2⟩ := one _ _ (p ',' :: us ++ r) h1 (.inl rfl) hlen.1
      have e0 : ts ++ (p ',' :: us ++ r) = t' ++ r' := by rw [← e]; simp
      cases h' with
      | nil =>
        obtain ⟨a, u, e1, e2, _⟩ := init_head he h1
        rw [List.nil_append] at e0
        rw [Closes, ← e0, e1] at hr'
        simp only [List.cons_append, List.head?_cons, Option.some.injEq] at hr'
        exact (e2 hr').elim
      | one h2' =>
        rw [e0] at b1 b2
        obtain ⟨_, e2⟩ := begin_unique he n ih b1 (init_begin h2' (closes_stop hr')) b2 (.inl rfl) (closes_stop hr')
        rw [Closes, ← e2] at hr'
        simp [p] at hr'
      | @cons ts' v' us' vs' h2' h3 =>
        have e' : ts ++ (p ',' :: us ++ r) = ts' ++ (p ',' :: us' ++ r') := by rw [e0]; simp
        rw [e'] at b1 b2
        obtain ⟨e1, e2⟩ := begin_unique he n ih b1 (init_begin h2' (.inl rfl)) b2 (.inl rfl) (.inl rfl)
        simp only [List.cons_append, List.cons.injEq, true_and] at e2
        obtain ⟨e3, e4⟩ := ih us us' vs vs' r r' hlen.2 h2 h3 hr hr' e2
        exact ⟨by rw [e1, e3], e4⟩

/-- A list of initialisers in braces has one meaning. -/
theorem inits_unique {elem t : List Tok} {vs vs' : List Val} (he : ElemOk elem) (h : Inits elem t vs) (h' : Inits elem t vs') : vs = vs' :=
  (lists_unique he (t.length + 1) t t vs vs' [p '}'] [p '}'] (by omega) h h' rfl rfl rfl).1

theorem arrayInit_unique {elem t : List Tok} {vs vs' : List Val} (he : ElemOk elem) (h : ArrayInit elem t vs) (h' : ArrayInit elem t vs') :
    vs = vs' := by
  generalize hx : t = e at h'
  cases h with
  | @flat ts _ h hd =>
    cases h' with
    | flat h' _ =>
      simp only [List.cons_append, List.cons.injEq, true_and] at hx
      rw [List.append_cancel_right hx] at h
      exact inits_unique he h h'
    | @nested ts' _ h' =>
      simp only [List.cons_append, List.cons.injEq, true_and] at hx
      have hx : ts ++ [p '}'] = (p '{' :: ts' ++ [p '}']) ++ [p '}'] := by rw [hx]; simp
      rw [List.append_cancel_right hx] at hd
      simp at hd
  | @nested ts _ h =>
    cases h' with
    | @flat ts' _ h' hd =>
      simp only [List.cons_append, List.cons.injEq, true_and] at hx
      have hx : (p '{' :: ts ++ [p '}']) ++ [p '}'] = ts' ++ [p '}'] := by rw [← hx]; simp
      rw [← List.append_cancel_right hx] at hd
      simp at hd
    | nested h' =>
      simp only [List.cons_append, List.cons.injEq, true_and] at hx
      rw [List.append_cancel_right hx] at h
      exact inits_unique he h h'

end Verif.Spec.Cxx
