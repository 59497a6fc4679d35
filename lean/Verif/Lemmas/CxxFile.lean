import Verif.Spec.CxxFile
import Verif.Lemmas.Cxx
/-!
# Lemmas: the pieces of a file
-/

namespace Verif.Spec.Cxx

/-! ## Directives -/

theorem isDirective_head {c : Char} {t : Str} (h : isDirective (c :: t) = true) : c = '#' := by
  unfold isDirective at h
  have e1 : "#include <".toList = '#' :: "include <".toList := rfl
  have e2 : "#include \"".toList = '#' :: "include \"".toList := rfl
  have e3 : "#pragma once\n".toList = '#' :: "pragma once\n".toList := rfl
  rw [e1, e2, e3] at h
  simp only [List.isPrefixOf, Bool.or_eq_true, Bool.and_eq_true, beq_iff_eq] at h
  rcases h with (h | h) | h <;> exact h.1.symm

theorem drop_newline (f s : Bool) (t : Str) : dropDirectives f s ('\n' :: t) = '\n' :: dropDirectives true false t := by
  rw [dropDirectives]

theorem drop_cons {c : Char} (h : c ≠ '\n') (h' : c ≠ '#') (f : Bool) (t : Str) :
    dropDirectives f false (c :: t) = c :: dropDirectives false false t := by
  rw [dropDirectives]
  · have : isDirective (c :: t) = false := by
      cases hd : isDirective (c :: t) with
      | false => rfl
      | true => exact absurd (isDirective_head hd) h'
    rw [this]
    simp
  · exact h

theorem drop_inside {c : Char} (h : c ≠ '\n') (t : Str) : dropDirectives false false (c :: t) = c :: dropDirectives false false t := by
  rw [dropDirectives]
  · simp
  · exact h

theorem drop_line (w t : Str) (h : '\n' ∉ w) : dropDirectives false false (w ++ t) = w ++ dropDirectives false false t := by
  induction w with
  | nil => rfl
  | cons c w ih =>
    rw [List.cons_append, drop_inside (fun e => h (by simp [e])), ih (fun e => h (by simp [e])), List.cons_append]

/-- Text that can be read as tokens has no directives. -/
theorem lexes_drop {t : Str} {ts : List Tok} (h : Lexes t ts) : ∀ f, dropDirectives f false t = t := by
  induction h with
  | nil => intro f; cases f <;> rfl
  | @space c t ts hc _ ih =>
    intro f
    by_cases hn : c = '\n'
    · subst hn; rw [drop_newline, ih]
    · rw [drop_cons hn (by rintro rfl; exact absurd hc (by decide)), ih]
  | @comment c t ts h1 h2 _ ih =>
    intro f
    rw [List.cons_append, List.cons_append, drop_cons (by decide) (by decide), drop_cons (by decide) (by decide), drop_line c _ h1,
      drop_newline, ih]
  | @word w t ts h1 h2 h3 _ ih =>
    intro f
    cases w with
    | nil => exact absurd rfl h1
    | cons c w =>
      have hw : ∀ d, isWord d = true → d ≠ '\n' ∧ d ≠ '#' := by
        intro d hd
        constructor
        · rintro rfl; exact absurd hd (by decide)
        · rintro rfl; exact absurd hd (by decide)
      have hc := hw c (h2 c (by simp))
      rw [List.cons_append, drop_cons hc.1 hc.2, drop_line w t (fun e => (hw _ (h2 _ (by simp [e]))).1 rfl), ih]
  | @str s t ts h1 _ ih =>
    intro f
    rw [List.cons_append, drop_cons (by decide) (by decide), drop_line s _ (fun e => (h1 _ e).2.2 rfl), drop_inside (by decide), ih]
  | @punct c t ts hc _ ih =>
    intro f
    rw [drop_cons (by rintro rfl; exact absurd hc (by decide)) (by rintro rfl; exact absurd hc (by decide)), ih]

/-! ## Where a declaration ends -/

theorem cut_cons (d : Nat) (k : Tok) (t : List Tok) (h1 : k ≠ .punct '{') (h2 : k ≠ .punct '}') (h3 : k ≠ .punct ';' ∨ d ≠ 0) :
    cut d (k :: t) = (cut d t).map fun x => (k :: x.1, x.2) := by
  show (if k = .punct '{' then _ else if k = .punct '}' then _ else if k = .punct ';' ∧ d = 0 then _ else _) = _
  rw [if_neg h1, if_neg h2, if_neg (by rintro ⟨a, b⟩; rcases h3 with h | h <;> contradiction)]
theorem cut_open (d : Nat) (t : List Tok) : cut d (.punct '{' :: t) = (cut (d + 1) t).map fun x => (.punct '{' :: x.1, x.2) := by
  exact if_pos rfl
theorem cut_close (d : Nat) (t : List Tok) : cut (d + 2) (.punct '}' :: t) = (cut (d + 1) t).map fun x => (.punct '}' :: x.1, x.2) := rfl
theorem cut_last (t : List Tok) : cut 1 (.punct '}' :: t) =
    if t.head? = some (.punct ';') then some ([.punct '}', .punct ';'], t.tail) else some ([.punct '}'], t) := by
  rw [cut, if_neg (by decide), if_pos rfl]
theorem cut_none (t : List Tok) : cut 0 (.punct '}' :: t) = none := by rw [cut, if_neg (by decide), if_pos rfl]
theorem cut_semi (t : List Tok) : cut 0 (.punct ';' :: t) = some ([.punct ';'], t) := by
  rw [cut, if_neg (by decide), if_neg (by decide), if_pos ⟨rfl, rfl⟩]

/-- What follows does not change where a declaration ends, unless it is a semicolon. -/
theorem cut_append (ts : List Tok) : ∀ (d : Nat) (a r u : List Tok), cut d ts = some (a, r) → (r ≠ [] ∨ u.head? ≠ some (.punct ';')) →
    cut d (ts ++ u) = some (a, r ++ u) := by
  induction ts with
  | nil => intro d a r u h; rw [cut] at h; exact absurd h (by simp)
  | cons k ts ih =>
    intro d a r u h hu
    have step : ∀ d', (cut d' ts).map (fun x => (k :: x.1, x.2)) = some (a, r) →
        (cut d' (ts ++ u)).map (fun x => (k :: x.1, x.2)) = some (a, r ++ u) := by
      intro d' h
      cases hc : cut d' ts with
      | none => rw [hc] at h; exact absurd h (by simp)
      | some x =>
        rw [hc] at h
        simp only [Option.map_some, Option.some.injEq, Prod.mk.injEq] at h
        obtain ⟨h1, h2⟩ := h
        subst h2
        rw [ih d' x.1 x.2 u hc hu]
        simp [h1]
    rw [List.cons_append]
    by_cases h1 : k = .punct '{'
    · subst h1; rw [cut_open] at h ⊢; exact step _ h
    by_cases h2 : k = .punct '}'
    · subst h2
      cases d with
      | zero => rw [cut_none] at h; exact absurd h (by simp)
      | succ d =>
        cases d with
        | succ d => rw [cut_close] at h ⊢; exact step _ h
        | zero =>
          rw [cut_last] at h ⊢
          cases ts with
          | nil =>
            rw [if_neg (by simp)] at h
            simp only [Option.some.injEq, Prod.mk.injEq] at h
            obtain ⟨rfl, rfl⟩ := h
            have hu' : u.head? ≠ some (.punct ';') := by
              rcases hu with h | h
              · exact absurd rfl h
              · exact h
            rw [List.nil_append, if_neg hu']
          | cons k' ts =>
            have e : (k' :: ts ++ u).head? = (k' :: ts).head? := rfl
            rw [e]
            split at h
            · simp only [Option.some.injEq, Prod.mk.injEq] at h
              obtain ⟨rfl, rfl⟩ := h
              rename_i h0
              rw [if_pos h0]; rfl
            · simp only [Option.some.injEq, Prod.mk.injEq] at h
              obtain ⟨rfl, rfl⟩ := h
              rename_i h0
              rw [if_neg h0]
    by_cases h3 : k = .punct ';' ∧ d = 0
    · obtain ⟨rfl, rfl⟩ := h3
      rw [cut_semi] at h ⊢
      simp only [Option.some.injEq, Prod.mk.injEq] at h
      obtain ⟨rfl, rfl⟩ := h
      rfl
    · have h3' : k ≠ .punct ';' ∨ d ≠ 0 := by
        by_cases hc : k = .punct ';'
        · right; intro hd; exact h3 ⟨hc, hd⟩
        · exact .inl hc
      rw [cut_cons d k _ h1 h2 h3'] at h ⊢
      exact step d h

/-- A single declaration or definition. -/
structure Single (ts : List Tok) : Prop where
  cut : cut 0 ts = some (ts, [])
  head : ∃ k a b t, ts = k :: a :: b :: t ∧ k ≠ .punct ';' ∧ ((b ≠ .punct '{' ∧ b ≠ .punct ':') ∨ a = .punct ':' ∨ k ≠ .word "namespace".toList)

theorem nsPath_none {a b : Tok} {t : List Tok} (h : (b ≠ .punct '{' ∧ b ≠ .punct ':') ∨ a = .punct ':') : nsPath (a :: b :: t) = none := by
  unfold nsPath
  split
  · rename_i x r heq
    simp only [List.cons.injEq] at heq
    obtain ⟨rfl, rfl, rfl⟩ := heq
    rcases h with h | h
    · exact absurd rfl h.1
    · exact absurd h (by simp)
  · rename_i x r heq
    simp only [List.cons.injEq] at heq
    obtain ⟨rfl, rfl, rfl⟩ := heq
    rcases h with h | h
    · exact absurd rfl h.2
    · exact absurd h (by simp)
  · rfl

theorem opens_none {k a b : Tok} {t : List Tok} (h : (b ≠ .punct '{' ∧ b ≠ .punct ':') ∨ a = .punct ':' ∨ k ≠ .word "namespace".toList) :
    opens (k :: a :: b :: t) = none := by
  unfold opens
  split
  · rename_i w r heq
    simp only [List.cons.injEq] at heq
    obtain ⟨rfl, rfl⟩ := heq
    split
    · rename_i hw
      refine nsPath_none ?_
      rcases h with h | h | h
      · exact .inl h
      · exact .inr h
      · exact absurd (by rw [hw]) h
    · rfl
  · rfl

theorem pieces_eq (n : Nat) (ns : List (List Str)) (k : Tok) (t : List Tok) : pieces (n + 1) ns (k :: t) =
    match opens (k :: t) with
    | some (x, r) => pieces n (x :: ns) r
    | none =>
      if k = .punct '}' then
        match ns with
        | _ :: ns => pieces n ns t
        | [] => none
      else (cut 0 (k :: t)).bind fun y => (pieces n ns y.2).map (⟨ns.reverse.flatten, y.1⟩ :: ·) := rfl

theorem pieces_single {ts u : List Tok} (h : Single ts) (hu : u.head? ≠ some (.punct ';')) (n : Nat) (ns : List (List Str)) :
    pieces (n + 1) ns (ts ++ u) = (pieces n ns u).map (⟨ns.reverse.flatten, ts⟩ :: ·) := by
  have hc := cut_append ts 0 ts [] u h.cut (.inr hu)
  obtain ⟨k, a, b, t, rfl, h2, h3⟩ := h.head
  have h1 : k ≠ .punct '}' := by
    rintro rfl
    have := h.cut
    rw [cut_none] at this
    exact absurd this (by simp)
  simp only [List.nil_append, List.cons_append] at hc ⊢
  rw [pieces_eq, opens_none h3]
  simp only [if_neg h1, hc, Option.bind_some]

/-- `namespace x::y {` -/
def nsToks : List Str → List Tok
  | [] => []
  | [x] => [.word x, .punct '{']
  | x :: y :: r => .word x :: .punct ':' :: .punct ':' :: nsToks (y :: r)

theorem nsPath_ok {path : List Str} (h : path ≠ []) (r : List Tok) : nsPath (nsToks path ++ r) = some (path, r) := by
  induction path with
  | nil => exact absurd rfl h
  | cons x t ih =>
    cases t with
    | nil => rfl
    | cons y t =>
      show (nsPath (nsToks (y :: t) ++ r)).map _ = _
      rw [ih (by simp)]
      rfl

theorem pieces_open (n : Nat) (ns : List (List Str)) {path : List Str} (h : path ≠ []) (r : List Tok) :
    pieces (n + 1) ns (.word "namespace".toList :: (nsToks path ++ r)) = pieces n (path :: ns) r := by
  rw [pieces_eq]
  have : opens (.word "namespace".toList :: (nsToks path ++ r)) = some (path, r) := by rw [opens, if_pos rfl, nsPath_ok h]
  rw [this]

theorem pieces_close (n : Nat) (ns : List (List Str)) (x : List Str) (r : List Tok) : pieces (n + 1) (x :: ns) (.punct '}' :: r) = pieces n ns r := rfl

/-! ## Layout -/

/-- These tokens, read with the namespaces `ns` open, are these pieces, and then `ns'` are open. -/
def Walk (ns : List (List Str)) (ts : List Tok) (ns' : List (List Str)) (ps : List Piece) : Prop :=
  ts.head? ≠ some (.punct ';') ∧ ∃ m, m ≤ ts.length ∧ ∀ n u, u.head? ≠ some (.punct ';') →
    pieces (n + m) ns (ts ++ u) = (pieces n ns' u).map (ps ++ ·)

theorem Walk.nil (ns : List (List Str)) : Walk ns [] ns [] :=
  ⟨by simp, 0, Nat.le_refl _, fun n u _ => by cases h : pieces n ns u <;> simp [h]⟩

theorem Walk.append {ns ns' ns'' : List (List Str)} {a b : List Tok} {ps qs : List Piece} (ha : Walk ns a ns' ps) (hb : Walk ns' b ns'' qs) :
    Walk ns (a ++ b) ns'' (ps ++ qs) := by
  obtain ⟨h1, m, hm, h⟩ := ha
  obtain ⟨h1', m', hm', h'⟩ := hb
  refine ⟨?_, m' + m, by rw [List.length_append]; omega, fun n u hu => ?_⟩
  · cases a with
    | nil => exact h1'
    | cons k a => exact h1
  · have hbu : (b ++ u).head? ≠ some (.punct ';') := by
      cases b with
      | nil => exact hu
      | cons k b => exact h1'
    rw [List.append_assoc, ← Nat.add_assoc, h _ _ hbu, h' _ _ hu, Option.map_map]
    congr 1
    funext x
    simp

theorem Walk.one {ts : List Tok} (h : Single ts) (ns : List (List Str)) : Walk ns ts ns [⟨ns.reverse.flatten, ts⟩] := by
  have hh := h.head
  obtain ⟨k, a, b, t, rfl, h2, h3⟩ := hh
  exact ⟨by simpa using h2, 1, by simp, fun n u hu => pieces_single h hu n ns⟩

theorem Walk.enter (ns : List (List Str)) {path : List Str} (h : path ≠ []) : Walk ns (.word "namespace".toList :: nsToks path) (path :: ns) [] :=
  ⟨by simp, 1, by simp, fun n u _ => by
    rw [List.cons_append, pieces_open n ns h]; cases pieces n (path :: ns) u <;> rfl⟩

theorem Walk.leave (ns : List (List Str)) (x : List Str) : Walk (x :: ns) [.punct '}'] ns [] :=
  ⟨by simp, 1, by simp, fun n u _ => by
    show pieces (n + 1) (x :: ns) (.punct '}' :: u) = _
    rw [pieces_close]; cases pieces n ns u <;> rfl⟩

theorem Walk.pieces {ts : List Tok} {ps : List Piece} (h : Walk [] ts [] ps) : Cxx.pieces (ts.length + 1) [] ts = some ps := by
  obtain ⟨_, m, hm, h⟩ := h
  have := h (ts.length - m + 1) [] (by simp)
  rw [List.append_nil, show ts.length - m + 1 + m = ts.length + 1 by omega] at this
  rw [this]
  simp [Cxx.pieces]

/-! ## Tables are single declarations -/

/-- No braces and no semicolons. -/
def Flat (ts : List Tok) : Prop := ∀ k ∈ ts, k ≠ .punct '{' ∧ k ≠ .punct '}' ∧ k ≠ .punct ';'

def Inside (ts : List Tok) : Prop := ∀ d u, cut (d + 1) (ts ++ u) = (cut (d + 1) u).map fun x => (ts ++ x.1, x.2)

theorem Flat.cut {ts : List Tok} (h : Flat ts) (d : Nat) (u : List Tok) : cut d (ts ++ u) = (cut d u).map fun x => (ts ++ x.1, x.2) := by
  induction ts with
  | nil => cases hc : Cxx.cut d u <;> simp [hc]
  | cons k ts ih =>
    have hk := h k (by simp)
    have ih := ih fun x hx => h x (by simp [hx])
    rw [List.cons_append]
    have e : Cxx.cut d (k :: (ts ++ u)) = (Cxx.cut d (ts ++ u)).map fun x => (k :: x.1, x.2) := cut_cons d k _ hk.1 hk.2.1 (.inl hk.2.2)
    rw [e, ih, Option.map_map]
    rfl

theorem Flat.inside {ts : List Tok} (h : Flat ts) : Inside ts := fun d u => h.cut (d + 1) u

theorem Inside.append {a b : List Tok} (ha : Inside a) (hb : Inside b) : Inside (a ++ b) := by
  intro d u
  rw [List.append_assoc, ha, hb, Option.map_map]
  congr 1
  funext x
  simp

theorem Inside.braces {a : List Tok} (ha : Inside a) : Inside (p '{' :: a ++ [p '}']) := by
  intro d u
  show Cxx.cut (d + 1) (.punct '{' :: (a ++ [p '}'] ++ u)) = _
  rw [cut_open, List.append_assoc, ha (d + 1)]
  show Option.map _ (Option.map _ (Cxx.cut (d + 2) (.punct '}' :: u))) = _
  rw [cut_close, Option.map_map, Option.map_map]
  congr 1
  funext x
  simp [p]

theorem flat_append {a b : List Tok} (ha : Flat a) (hb : Flat b) : Flat (a ++ b) := by
  intro k hk
  rcases List.mem_append.1 hk with h | h
  · exact ha k h
  · exact hb k h

theorem flat_word (w : Str) : Flat [.word w] := by
  intro k hk
  simp only [List.mem_singleton] at hk
  subst hk
  exact ⟨by simp, by simp, by simp⟩

theorem flat_of {ts : List Tok} (h : (ts.all fun k => k ≠ .punct '{' && k ≠ .punct '}' && k ≠ .punct ';') = true) : Flat ts := by
  intro k hk
  have := List.all_eq_true.1 h k hk
  simpa [and_assoc] using this

theorem path_flat {ts : List Tok} {ws : List Str} (h : Path ts ws) : Flat ts := by
  induction h with
  | one _ => exact flat_word _
  | @cons w ts ws _ _ ih => exact flat_append (a := [.word w, p ':', p ':']) (flat_append (flat_word w) (flat_of (by decide))) ih

theorem bracketed_flat (ts : List Tok) : ∀ d, bracketed d ts = true → Flat ts := by
  induction ts with
  | nil => intro d _ k hk; simp at hk
  | cons k ts ih =>
    intro d h
    have key : ∀ d', bracketed d' ts = true → (k ≠ .punct '{' ∧ k ≠ .punct '}' ∧ k ≠ .punct ';') → Flat (k :: ts) :=
      fun d' h1 h2 => flat_append (a := [k]) (fun x hx => by simp only [List.mem_singleton] at hx; rw [hx]; exact h2) (ih d' h1)
    cases k with
    | word w => exact key d h ⟨by simp, by simp, by simp⟩
    | str s => simp [bracketed] at h
    | punct c =>
      simp only [bracketed] at h
      have hne : ∀ x : Char, c = x → (x ≠ '{' ∧ x ≠ '}' ∧ x ≠ ';') → (Tok.punct c ≠ .punct '{' ∧ Tok.punct c ≠ .punct '}' ∧ Tok.punct c ≠ .punct ';') := by
        rintro x rfl ⟨a, b, e⟩
        exact ⟨by simpa using a, by simpa using b, by simpa using e⟩
      by_cases h1 : c = '<'
      · rw [if_pos h1] at h; exact key _ h (hne _ h1 (by decide))
      · rw [if_neg h1] at h
        by_cases h2 : c = '>'
        · rw [if_pos h2] at h; exact key _ (Bool.and_eq_true_iff.1 h).2 (hne _ h2 (by decide))
        · rw [if_neg h2] at h
          by_cases h3 : c = ','
          · rw [if_pos h3] at h; exact key _ (Bool.and_eq_true_iff.1 h).2 (hne _ h3 (by decide))
          · rw [if_neg h3] at h
            obtain ⟨h4, h5⟩ := Bool.and_eq_true_iff.1 h
            simp only [Bool.or_eq_true, decide_eq_true_eq] at h4
            rcases h4 with h4 | h4
            · exact key _ h5 (hne _ h4 (by decide))
            · exact key _ h5 (hne _ h4 (by decide))

mutual
theorem init_inside {elem : List Tok} (he : Flat elem) : ∀ {ts : List Tok} {v : Val}, Init elem ts v → Inside ts
  | _, _, .num _ => (flat_word _).inside
  | _, _, .name h => (path_flat h).inside
  | _, _, .global h => (flat_append (a := [p ':', p ':']) (flat_of (by decide)) (path_flat h)).inside
  | _, _, .call (a := a) (f := f) _ _ => by
    refine Flat.inside (flat_append (a := [.word a]) (flat_word a) (flat_append (a := [p '.']) (flat_of (by decide))
      (flat_append (a := [.word f]) (flat_word f) (flat_of (ts := [p '(', p ')']) (by decide)))))
  | _, _, .str (s := s) => Flat.inside (by
      intro k hk
      simp only [List.mem_singleton] at hk
      subst hk
      exact ⟨by simp, by simp, by simp⟩)
  | _, _, .strView (s := s) => Flat.inside (by
      intro k hk
      simp only [List.mem_cons, List.not_mem_nil, or_false] at hk
      rcases hk with rfl | rfl <;> exact ⟨by simp, by simp, by simp⟩)
  | _, _, .braces h => (inits_inside he h).braces
  | _, _, .typed h => by
    have := he.inside.append (inits_inside he h).braces
    simpa using this
  | _, _, .deduced h1 _ h => by
    have := (path_flat h1).inside.append (inits_inside he h).braces
    simpa using this
theorem inits_inside {elem : List Tok} (he : Flat elem) : ∀ {ts : List Tok} {vs : List Val}, Inits elem ts vs → Inside ts
  | _, _, .nil => Flat.inside (by intro k hk; simp at hk)
  | _, _, .one h => init_inside he h
  | _, _, .cons h1 h2 => (init_inside he h1).append (Inside.append (a := [p ',']) (flat_of (by decide)).inside (inits_inside he h2))
end

theorem cut_init {a : List Tok} (ha : Inside a) : cut 0 (p '{' :: a ++ [p '}'] ++ [p ';']) = some (p '{' :: a ++ [p '}'] ++ [p ';'], []) := by
  show Cxx.cut 0 (.punct '{' :: (a ++ [p '}'] ++ [p ';'])) = _
  rw [cut_open, List.append_assoc, ha 0]
  show Option.map _ (Option.map _ (Cxx.cut 1 [.punct '}', .punct ';'])) = _
  rw [cut_last]
  simp [p]

theorem declares_single {ts elem : List Tok} {name : Str} {vs : List Val} (ht : TypeName elem) (h : Declares ts elem name vs) : Single ts := by
  have he := bracketed_flat elem 0 ht.1
  have hai : ∀ {init : List Tok}, ArrayInit elem init vs → ∃ a, init = p '{' :: a ++ [p '}'] ∧ Inside a := by
    intro init hi
    cases hi with
    | @flat ts _ h1 _ => exact ⟨ts, rfl, inits_inside he h1⟩
    | @nested ts _ h1 => exact ⟨p '{' :: ts ++ [p '}'], by simp, (inits_inside he h1).braces⟩
  have harr : ∀ n : Str, Flat (arrayType elem n) := fun n => flat_append (flat_append (flat_of (by decide)) he)
    (flat_append (a := [p ',', .word n]) (flat_append (a := [p ',']) (flat_of (by decide)) (flat_word n)) (flat_of (by decide)))
  have key : ∀ (pre init : List Tok), Flat pre → ArrayInit elem init vs → cut 0 (pre ++ init ++ [p ';']) = some (pre ++ init ++ [p ';'], []) := by
    intro pre init hp hi
    obtain ⟨a, rfl, ha⟩ := hai hi
    rw [List.append_assoc, hp.cut, cut_init ha]
    simp
  cases h with
  | @«variable» _ n name init vs specifiers cv hs hcv hn hname hi =>
    have hs' : Flat specifiers := by
      simp only [List.mem_cons, List.not_mem_nil, or_false] at hs
      rcases hs with rfl | rfl | rfl <;> exact flat_of (by decide)
    have hcv' : Flat cv := by
      simp only [List.mem_cons, List.not_mem_nil, or_false] at hcv
      rcases hcv with rfl | rfl <;> exact flat_of (by decide)
    have hp : Flat (specifiers ++ arrayType elem n ++ cv ++ [.word name]) := flat_append (flat_append (flat_append hs' (harr n)) hcv') (flat_word name)
    have := key _ init hp hi
    have e : specifiers ++ arrayType elem n ++ cv ++ .word name :: init ++ [p ';'] = specifiers ++ arrayType elem n ++ cv ++ [.word name] ++ init ++ [p ';'] := by simp
    refine ⟨by rw [e]; exact this, ?_⟩
    simp only [List.mem_cons, List.not_mem_nil, or_false] at hs
    rcases hs with rfl | rfl | rfl <;> exact ⟨_, _, _, _, rfl, by decide, .inr (.inr (by decide))⟩
  | @auto _ n name init vs specifiers hs hn hname hi =>
    have hs' : Flat specifiers := by
      simp only [List.mem_cons, List.not_mem_nil, or_false] at hs
      rcases hs with rfl | rfl | rfl <;> exact flat_of (by decide)
    have hp : Flat (specifiers ++ [.word name, p '='] ++ arrayType elem n) :=
      flat_append (flat_append hs' (flat_append (a := [.word name]) (flat_word name) (flat_of (by decide)))) (harr n)
    refine ⟨key _ init hp hi, ?_⟩
    simp only [List.mem_cons, List.not_mem_nil, or_false] at hs
    rcases hs with rfl | rfl | rfl <;> exact ⟨_, _, _, _, rfl, by decide, .inr (.inr (by decide))⟩

theorem unit_table_single {ts : List Tok} {type name : Str} {vs : List Val} (h : Unit ts [.table type name vs]) : Single ts := by
  generalize hi : [Item.table type name vs] = items at h
  cases h with
  | nil => exact absurd hi (by simp)
  | struct _ _ _ => exact absurd hi (by simp)
  | enum _ _ => exact absurd hi (by simp)
  | @table ts type' elem name' vs' us items h1 h2 h3 h4 =>
    simp only [List.cons.injEq] at hi
    obtain ⟨-, hi⟩ := hi
    generalize hu : us = us' at h4
    rw [← hi] at h4
    cases h4
    subst hu
    rw [List.append_nil]
    exact declares_single h2 h3

end Verif.Spec.Cxx
