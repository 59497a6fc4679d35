import Verif.Props.TgApi
/-!
# C53, continued: aliases, general categories, ages
-/

namespace Verif.Props.Tg
open Verif.Utf8 (Mem)
open Verif.Tg
open Verif.Spec.Ucd
open Verif.Spec.UcdFile

/-! ## Trimming -/

/-- `s` without trailing white space. -/
def rtrim (s : Str) : Str := (s.reverse.dropWhile isWs).reverse

theorem rtrim_prefix (s : Str) : rtrim s <+: s := by
  unfold rtrim
  conv => rhs; rw [← List.reverse_reverse s]
  rw [List.reverse_prefix]
  exact List.dropWhile_suffix _

theorem dropWhile_past {p : Char → Bool} (w s : Str) (hw : ∀ c ∈ w, p c = true) : (w ++ s).dropWhile p = s.dropWhile p := by
  induction w with
  | nil => rfl
  | cons x w ih => rw [List.cons_append, List.dropWhile_cons, if_pos (hw x (by simp)), ih (fun c hc => hw c (by simp [hc]))]

theorem trim_core (w X Y : Str) (hw : ∀ c ∈ w, isWs c = true) (hne : X ≠ []) (hh : ∀ c, X.head? = some c → isWs c = false)
    (hl : ∀ c, X.getLast? = some c → isWs c = false) : trim (w ++ X ++ Y) = X ++ rtrim Y := by
  unfold trim trimBy rtrim
  rw [List.append_assoc, dropWhile_past w _ hw] 
  have e1 : (X ++ Y).dropWhile isWs = X ++ Y := by
    cases X with
    | nil => exact absurd rfl hne
    | cons x X => rw [List.cons_append, List.dropWhile_cons, if_neg (by rw [hh x rfl]; exact Bool.false_ne_true)]
  have e2 : X.reverse.dropWhile isWs = X.reverse := by
    cases X using List.reverseRecOn with
    | nil => exact absurd rfl hne
    | append_singleton X x =>
      rw [List.reverse_append, List.reverse_singleton, List.singleton_append, List.dropWhile_cons,
        if_neg (by rw [hl x (List.getLast?_concat ..)]; exact Bool.false_ne_true)]
  rw [e1, List.reverse_append, List.dropWhile_append]
  split
  · rename_i h
    rw [List.isEmpty_iff] at h
    rw [h, e2]; simp
  · rw [List.reverse_append, List.reverse_reverse]

theorem trim_trim (s : Str) : trim (trim s) = trim s := by
  have hd : ∀ (u : Str) (c : Char), (u.dropWhile isWs).head? = some c → isWs c = false := by
    intro u c hc
    have := List.head?_dropWhile_not isWs u
    rw [hc] at this
    simpa using this
  apply trim_id
  · intro c hc
    have hp : trim s <+: s.dropWhile isWs := rtrim_prefix _
    obtain ⟨t, ht⟩ := hp
    apply hd s c
    rw [← ht]
    cases h : trim s with
    | nil => rw [h] at hc; simp at hc
    | cons x xs => rw [h] at hc; simpa using hc
  · intro c hc
    unfold trim trimBy at hc
    rw [List.getLast?_reverse] at hc
    exact hd _ c hc

/-- What can follow a word. -/
def Ends (q : Str) : Prop := q = [] ∨ ∃ c r, q = c :: r ∧ (c = ' ' ∨ c = '\t' ∨ c = ';')

theorem ends_prefix {q r : Str} (h : q <+: r) (hr : Ends r) : Ends q := by
  cases q with
  | nil => exact Or.inl rfl
  | cons x q =>
    right
    obtain ⟨t, ht⟩ := h
    rcases hr with rfl | ⟨c, r', rfl, hc⟩
    · simp at ht
    · rw [List.cons_append] at ht
      injection ht with h1 h2
      exact ⟨x, q, rfl, by rw [h1]; exact hc⟩

theorem word_head {s : Str} (h : Word s) : ∀ c, s.head? = some c → isWs c = false :=
  fun c hc => (word_ws h c (List.mem_of_mem_head? hc)).1

theorem word_last {s : Str} (h : Word s) : ∀ c, s.getLast? = some c → isWs c = false :=
  fun c hc => (word_ws h c (List.mem_of_getLast? hc)).1

theorem firstWord_ends {w e q : Str} (hw : ∀ c ∈ w, isWs c = true) (he : Word e) (hq : Ends q) : firstWord (w ++ e ++ q) = e := by
  unfold firstWord
  rw [trim_core w e q hw he.1 (word_head he) (word_last he)]
  have hin : ∀ c ∈ e, (!(c = ' ' || c = '\t' || c = ';')) = true := by
    intro c hc
    obtain ⟨h1, h2, -, -, h5, -⟩ := he.2 c hc
    simp [h1, h2, h5]
  rw [List.takeWhile_append_of_pos hin]
  rcases ends_prefix (rtrim_prefix q) hq with h | ⟨c, r, h, hc⟩
  · rw [h]; simp
  · rw [h, List.takeWhile_cons, if_neg, List.append_nil]
    rcases hc with rfl | rfl | rfl <;> decide

theorem firstWord_trim (s : Str) : firstWord (trim s) = firstWord s := by
  unfold firstWord; rw [trim_trim]

theorem split_step (a b : Str) (h : ';' ∉ a) : splitSemicolons (a ++ ';' :: b) = trim a :: splitSemicolons b := by
  have hf : ∀ (n : Nat) (s : Str), s.length < n → splitSemicolonsLoop n s = splitSemicolonsLoop (s.length + 1) s := by
    intro n
    induction n using Nat.strongRecOn with
    | ind n ih =>
      intro s hs
      cases n with
      | zero => exact absurd hs (Nat.not_lt_zero _)
      | succ n =>
        unfold splitSemicolonsLoop
        split
        · rfl
        · cases hc : cutAt ';' s with
          | none => rfl
          | some p =>
            have hl : p.2.length < s.length := by
              clear ih hs
              induction s generalizing p with
              | nil => simp [cutAt] at hc
              | cons x xs ih' =>
                rw [cutAt] at hc
                split at hc
                · injection hc with hc; subst hc; simp
                · cases hx : cutAt ';' xs with
                  | none => rw [hx] at hc; simp at hc
                  | some q =>
                    rw [hx] at hc
                    simp at hc
                    have hxs : xs ≠ [] := by intro e; rw [e] at hx; simp [cutAt] at hx
                    have := ih' hxs q hx
                    subst hc; simp; omega
            obtain ⟨p1, p2⟩ := p
            simp only at hl ⊢
            rw [ih n (by omega) p2 (by omega)]
            by_cases hm : s.length = n
            · rw [hm, ih n (by omega) p2 (by omega)]
            · rw [ih s.length (by omega) p2 hl]
  unfold splitSemicolons
  rw [splitSemicolonsLoop, if_neg (by simp), cutAt_append _ _ _ h]
  simp only
  rw [hf _ b (by rw [List.length_append, List.length_cons]; omega)]

theorem split_third (c : Str) (hne : c ≠ []) : ∃ f fs, splitSemicolons c = f :: fs ∧
    ∃ q, q <+: c ∧ (∀ t, c = q ++ t → t = [] ∨ t.head? = some ';') ∧ f = trim q := by
  by_cases h : ';' ∈ c
  · obtain ⟨a, b, rfl, ha⟩ : ∃ a b, c = a ++ ';' :: b ∧ ';' ∉ a := by
      clear hne
      induction c with
      | nil => simp at h
      | cons x c ih =>
        by_cases hx : x = ';'
        · exact ⟨[], c, by rw [hx]; rfl, by simp⟩
        · have : ';' ∈ c := by
            rcases List.mem_cons.1 h with h | h
            · exact absurd h.symm hx
            · exact h
          obtain ⟨a, b, rfl, ha⟩ := ih this
          exact ⟨x :: a, b, rfl, by simp [ha, Ne.symm hx]⟩
    refine ⟨_, _, split_step a b ha, a, ⟨_, rfl⟩, ?_, rfl⟩
    intro t ht
    right
    rw [← List.append_cancel_left ht]; rfl
  · refine ⟨trim c, [], ?_, c, List.prefix_refl _, ?_, rfl⟩
    · unfold splitSemicolons
      rw [splitSemicolonsLoop, if_neg hne, cutAt_none _ _ h]
    · intro t ht
      left
      have := congrArg List.length ht
      simp at this
      exact this

/-! ## PropertyValueAliases.txt -/

theorem alias_skip (st : Str × Aliases) {line stored : Str} (h : AliasPlain line) (hs : Stored line stored) :
    aliasLine st stored = st := by
  unfold aliasLine
  rcases h with h | ⟨s, w, hw, hl, rfl⟩
  · rw [if_pos]
    have hall : ∀ c ∈ stored, isWs c = true := by
      rcases hs with rfl | rfl
      · exact blank_ws h
      · intro c hc
        rcases List.mem_append.1 hc with hc | hc
        · exact blank_ws h c hc
        · simp at hc; subst hc; rfl
    have := trimBy_append isWs stored [] [] hall (by simp) (by simp) (by simp)
    simpa [trim] using this
  · have ht : trim stored = '#' :: s := by
      have hlast : ∀ c, ('#' :: s).getLast? = some c → isWs c = false := by
        intro c hc
        cases hs' : s.getLast? with
        | none =>
          rw [List.getLast?_eq_none_iff] at hs'
          rw [hs'] at hc; simp at hc; subst hc; rfl
        | some d =>
          have : ('#' :: s).getLast? = some d := by
            rw [List.getLast?_cons, hs']; rfl
          rw [this] at hc
          injection hc with hc
          subst hc
          obtain ⟨⟨h1, h2, h3, h4⟩, -⟩ := hl d hs'
          simp [isWs, h1, h2, h3, h4]
      have key : ∀ w', (∀ c ∈ w', isWs c = true) → trim ('#' :: s ++ w') = '#' :: s := by
        intro w' hw'
        have := trimBy_append isWs [] ('#' :: s) w' (by simp) hw' (by intro c hc; simp at hc; subst hc; rfl) hlast
        simpa [trim] using this
      rcases hs with rfl | rfl
      · exact key _ (blank_ws hw)
      · rw [List.append_assoc]
        apply key
        intro c hc
        rcases List.mem_append.1 hc with hc | hc
        · exact blank_ws hw c hc
        · simp at hc; subst hc; rfl
    rw [ht, if_neg (by simp)]
    have hdrop : ("# ".toList.isPrefixOf ('#' :: s)) = true → aliasHeader ('#' :: s) = none := by
      intro hp
      unfold aliasHeader
      cases s with
      | nil => exact absurd hp Bool.false_ne_true
      | cons x s =>
        simp only [List.drop_succ_cons, List.drop_zero]
        split
        · rw [if_neg]
          intro hg
          have : (x :: s).getLast? = some ')' := by rw [List.getLast?_cons, hg]; rfl
          exact (hl _ this).2 rfl
        · rfl
    split
    · rename_i hp
      rw [hdrop hp]
    · rw [if_pos (show ('#' :: s).head? = some '#' from rfl)]

theorem cut_paren (name r : Str) (h : ∀ c ∈ name, c ≠ ' ') : aliasHeader.cutAtSpaceParen (name ++ ' ' :: '(' :: r) = some name := by
  induction name with
  | nil => rw [List.nil_append, aliasHeader.cutAtSpaceParen, if_pos ⟨rfl, rfl⟩]
  | cons x name ih =>
    have ih := ih (fun c hc => h c (by simp [hc]))
    cases hn : name ++ ' ' :: '(' :: r with
    | nil => simp at hn
    | cons y ys =>
      rw [hn] at ih
      rw [List.cons_append, hn, aliasHeader.cutAtSpaceParen, if_neg (fun hx => h x (by simp) hx.1), ih]
      rfl

/-- What a header does. -/
def aliasOpen (st : Str × Aliases) (name : Str) : Str × Aliases :=
  if name = "Block".toList then (name, st.2) else (name, amUpd name (fun _ => []) st.2)

/-- What a data line does. -/
def aliasAdd (st : Str × Aliases) (e : Str × Str) : Str × Aliases :=
  if st.1 = "Block".toList then st else (st.1, amUpd st.1 (fun o => amUpd e.1 (fun _ => e.2) (o.getD [])) st.2)

theorem alias_header (st : Str × Aliases) {line stored name : Str} (h : AliasHeader line name) (hs : Stored line stored) :
    aliasLine st stored = aliasOpen st name := by
  obtain ⟨ab, w, hw, hn, rfl⟩ := h
  have ht : trim stored = '#' :: ' ' :: (name ++ ' ' :: '(' :: (ab ++ [')'])) := by
    have key : ∀ w', (∀ c ∈ w', isWs c = true) →
        trim ('#' :: ' ' :: (name ++ ' ' :: '(' :: (ab ++ [')'])) ++ w') = '#' :: ' ' :: (name ++ ' ' :: '(' :: (ab ++ [')'])) := by
      intro w' hw'
      have := trimBy_append isWs [] ('#' :: ' ' :: (name ++ ' ' :: '(' :: (ab ++ [')']))) w' (by simp) hw'
        (by intro c hc; simp at hc; subst hc; rfl) (by
          intro c hc
          rw [show '#' :: ' ' :: (name ++ ' ' :: '(' :: (ab ++ [')'])) = ('#' :: ' ' :: (name ++ ' ' :: '(' :: ab)) ++ [')'] by simp,
            List.getLast?_concat] at hc
          injection hc with hc
          subst hc; rfl)
      simpa [trim] using this
    rcases hs with rfl | rfl
    · have := key w (blank_ws hw)
      rw [← this]
      congr 1
      simp
    · have := key (w ++ ['\r']) (by
        intro c hc
        rcases List.mem_append.1 hc with hc | hc
        · exact blank_ws hw c hc
        · simp at hc; subst hc; rfl)
      rw [← this]
      congr 1
      simp
  unfold aliasLine
  rw [ht, if_neg (by simp), if_pos (show ("# ".toList.isPrefixOf ('#' :: ' ' :: (name ++ ' ' :: '(' :: (ab ++ [')'])))) = true from rfl)]
  have : aliasHeader ('#' :: ' ' :: (name ++ ' ' :: '(' :: (ab ++ [')']))) = some name := by
    unfold aliasHeader
    rw [show ('#' :: ' ' :: (name ++ ' ' :: '(' :: (ab ++ [')']))).drop 2 = name ++ ' ' :: '(' :: (ab ++ [')']) from rfl,
      cut_paren _ _ (fun c hc => (hn.2 c hc).1)]
    simp only
    rw [if_pos]
    rw [show name ++ ' ' :: '(' :: (ab ++ [')']) = (name ++ ' ' :: '(' :: ab) ++ [')'] by simp, List.getLast?_concat]
  rw [this]
  rfl

theorem blank_semi {w : Str} (h : Blank w) : ';' ∉ w := by
  intro hm
  rcases h _ hm with h | h <;> exact absurd h (by decide)

theorem alias_data (st : Str × Aliases) {line stored : Str} {e : Str × Str} (h : AliasLine line e) (hs : Stored line stored) :
    aliasLine st stored = aliasAdd st e := by
  obtain ⟨p, w₁, w₂, w₃, w₄, rest, hp, h1, h2, b1, b2, b3, b4, hr, rfl⟩ := h
  obtain ⟨rt, hrt, hrte⟩ : ∃ rt, trim stored = p ++ w₁ ++ ';' :: (w₂ ++ e.1 ++ w₃ ++ ';' :: (w₄ ++ e.2 ++ rt)) ∧ Ends rt := by
    have key : ∀ r, Ends r ∨ r = ['\r'] → ∃ rt, trim (p ++ w₁ ++ ';' :: (w₂ ++ e.1 ++ w₃ ++ ';' :: (w₄ ++ e.2)) ++ r)
        = p ++ w₁ ++ ';' :: (w₂ ++ e.1 ++ w₃ ++ ';' :: (w₄ ++ e.2 ++ rt)) ∧ Ends rt := by
      intro r hr
      refine ⟨rtrim r, ?_, ?_⟩
      · have := trim_core [] (p ++ w₁ ++ ';' :: (w₂ ++ e.1 ++ w₃ ++ ';' :: (w₄ ++ e.2))) r (by simp) (by simp) (by
          intro c hc
          cases p with
          | nil => exact absurd rfl hp.1
          | cons x p => exact word_head hp c (by simpa using hc)) (by
          intro c hc
          rw [show p ++ w₁ ++ ';' :: (w₂ ++ e.1 ++ w₃ ++ ';' :: (w₄ ++ e.2)) = (p ++ w₁ ++ ';' :: (w₂ ++ e.1 ++ w₃ ++ ';' :: w₄)) ++ e.2 by simp,
            List.getLast?_append] at hc
          cases hl : e.2.getLast? with
          | none => rw [List.getLast?_eq_none_iff] at hl; exact absurd hl h2.1
          | some d =>
            rw [hl] at hc
            simp at hc
            subst hc
            exact word_last h2 _ hl)
        rw [List.nil_append] at this
        rw [this]
        simp
      · rcases hr with hr | rfl
        · exact ends_prefix (rtrim_prefix r) hr
        · exact Or.inl (by decide)
    rcases hs with rfl | rfl
    · obtain ⟨rt, k1, k2⟩ := key rest (Or.inl hr)
      exact ⟨rt, by rw [← k1]; congr 1; simp, k2⟩
    · have : Ends (rest ++ ['\r']) ∨ rest ++ ['\r'] = ['\r'] := by
        rcases hr with rfl | ⟨c, r, rfl, hc⟩
        · exact Or.inr rfl
        · exact Or.inl (Or.inr ⟨c, r ++ ['\r'], rfl, hc⟩)
      obtain ⟨rt, k1, k2⟩ := key _ this
      exact ⟨rt, by rw [← k1]; congr 1; simp, k2⟩
  have hph : ∀ x, p.head? = some x → x ≠ '#' := fun x hx => (hp.2 x (List.mem_of_mem_head? hx)).2.2.2.2.2
  unfold aliasLine
  rw [hrt, if_neg (by simp)]
  cases p with
  | nil => exact absurd rfl hp.1
  | cons x p =>
    have hx := hph x rfl
    rw [if_neg (by
        intro hpre
        rw [List.isPrefixOf_iff_prefix] at hpre
        obtain ⟨t, ht⟩ := hpre
        have := congrArg List.head? ht
        simp at this
        exact hx this.symm), if_neg (by simpa using hx)]
    have ns1 : ';' ∉ x :: p ++ w₁ := by
      intro hm
      rcases List.mem_append.1 hm with hm | hm
      · exact word_no_semi hp hm
      · exact blank_semi b1 hm
    have ns2 : ';' ∉ w₂ ++ e.1 ++ w₃ := by
      intro hm
      rcases List.mem_append.1 hm with hm | hm
      · rcases List.mem_append.1 hm with hm | hm
        · exact blank_semi b2 hm
        · exact word_no_semi h1 hm
      · exact blank_semi b3 hm
    obtain ⟨f, fs, k1, q, ⟨t, kt⟩, k3, k4⟩ := split_third (w₄ ++ e.2 ++ rt) (by
      intro hn
      rw [List.append_eq_nil_iff, List.append_eq_nil_iff] at hn
      exact h2.1 hn.1.2)
    rw [split_step _ _ ns1, split_step _ _ ns2, k1]
    simp only
    have g1 : firstWord (trim (w₂ ++ e.1 ++ w₃)) = e.1 := by
      rw [firstWord_trim]
      apply firstWord_ends (blank_ws b2) h1
      cases w₃ with
      | nil => exact Or.inl rfl
      | cons y w₃ =>
        refine Or.inr ⟨y, w₃, rfl, ?_⟩
        rcases b3 y (by simp) with h | h
        · exact Or.inl h
        · exact Or.inr (Or.inl h)
    have g2 : firstWord f = e.2 := by
      rw [k4, firstWord_trim]
      have hq : ∃ q', q = w₄ ++ e.2 ++ q' := by
        have ht := k3 t kt.symm
        rcases ht with ht | ht
        · rw [ht, List.append_nil] at kt; exact ⟨rt, kt⟩
        · have hpre : w₄ ++ e.2 <+: q := by
            have hnosemi : ';' ∉ w₄ ++ e.2 := by
              intro hm
              rcases List.mem_append.1 hm with hm | hm
              · exact blank_semi b4 hm
              · exact word_no_semi h2 hm
            have p1 : w₄ ++ e.2 <+: q ++ t := by rw [kt]; exact ⟨rt, rfl⟩
            rcases List.prefix_or_prefix_of_prefix p1 (List.prefix_append q t) with h | h
            · exact h
            · obtain ⟨u, hu⟩ := h
              cases u with
              | nil => rw [List.append_nil] at hu; rw [hu]; exact List.prefix_refl _
              | cons y u =>
                exfalso
                rw [← hu] at p1
                rw [List.prefix_append_right_inj] at p1
                obtain ⟨v, hv⟩ := p1
                rw [← hv] at ht
                simp at ht
                exact hnosemi (by rw [← hu, ht]; simp)
          obtain ⟨q', hq'⟩ := hpre
          exact ⟨q', hq'.symm⟩
      obtain ⟨q', rfl⟩ := hq
      apply firstWord_ends (blank_ws b4) h2
      apply ends_prefix _ hrte
      rw [List.append_assoc (w₄ ++ e.2)] at kt
      exact ⟨t, List.append_cancel_left kt⟩
    rw [g1, g2]
    rfl

theorem loadAliases_eq {lines : List Str} {secs : List (Str × List (Str × Str))}
    (h : Sections AliasPlain AliasHeader AliasLine lines [] secs) :
    loadAliases lines = (secs.foldl (fun st s => s.2.foldl aliasAdd (aliasOpen st s.1)) ([], [])).2 := by
  unfold loadAliases
  rw [sections_fold aliasLine aliasOpen aliasAdd (fun st l s h1 h2 => alias_skip st h1 h2)
    (fun st l s n h1 h2 => alias_header st h1 h2) (fun st l s e h1 h2 => alias_data st h1 h2) h]
  rfl

/-- The map of a section. -/
def aliasMap (es : List (Str × Str)) (m : List (Str × Str)) : List (Str × Str) := es.foldl (fun m e => amUpd e.1 (fun _ => e.2) m) m

theorem aliasMap_ok (es m : List (Str × Str)) (hm : AmOk m) : AmOk (aliasMap es m) := by
  induction es generalizing m with
  | nil => exact hm
  | cons e es ih => exact ih _ (amUpd_ok _ _ _ hm)

theorem aliasMap_find (es m : List (Str × Str)) (hm : AmOk m) (a f : Str)
    (hf : ∀ f', (a, f') ∈ es → f' = f) :
    amFind (aliasMap es m) a = if (a, f) ∈ es then some f else amFind m a := by
  induction es generalizing m with
  | nil => simp [aliasMap]
  | cons e es ih =>
    show amFind (aliasMap es (amUpd e.1 (fun _ => e.2) m)) a = _
    rw [ih _ (amUpd_ok _ _ _ hm) (fun f' h => hf f' (by simp [h])), amFind_upd _ _ _ _ hm]
    obtain ⟨x, y⟩ := e
    by_cases hx : x = a
    · subst hx
      have hy := hf y (by simp)
      subst hy
      simp
    · have : ¬ ((a, f) : Str × Str) = (x, y) := fun h => hx (by injection h with h1 h2; exact h1.symm)
      simp [hx, this]

theorem aliasAdd_fold (es : List (Str × Str)) (n : Str) (m : Aliases) (hm : AmOk m) :
    (es.foldl aliasAdd (n, m)).1 = n ∧ AmOk (es.foldl aliasAdd (n, m)).2 ∧
      ∀ j, amFind (es.foldl aliasAdd (n, m)).2 j =
        if n = j ∧ n ≠ "Block".toList ∧ es ≠ [] then some (aliasMap es ((amFind m j).getD [])) else amFind m j := by
  induction es generalizing m with
  | nil => exact ⟨rfl, hm, fun j => by rw [if_neg (by simp)]; rfl⟩
  | cons e es ih =>
    by_cases hb : n = "Block".toList
    · have : aliasAdd (n, m) e = (n, m) := by unfold aliasAdd; rw [if_pos hb]
      rw [List.foldl_cons, this]
      obtain ⟨i1, i2, i3⟩ := ih m hm
      refine ⟨i1, i2, fun j => ?_⟩
      rw [i3 j, if_neg (fun h => h.2.1 hb), if_neg (fun h => h.2.1 hb)]
    · have : aliasAdd (n, m) e = (n, amUpd n (fun o => amUpd e.1 (fun _ => e.2) (o.getD [])) m) := by
        unfold aliasAdd; rw [if_neg hb]
      rw [List.foldl_cons, this]
      obtain ⟨i1, i2, i3⟩ := ih _ (amUpd_ok n (fun o => amUpd e.1 (fun _ => e.2) (o.getD [])) m hm)
      refine ⟨i1, i2, fun j => ?_⟩
      rw [i3 j, amFind_upd _ _ _ _ hm]
      by_cases hj : n = j
      · subst hj
        rw [if_pos (show n = n ∧ n ≠ "Block".toList ∧ e :: es ≠ [] from ⟨rfl, hb, by simp⟩), if_pos rfl]
        by_cases he : es = []
        · subst he; rw [if_neg (by simp)]; rfl
        · rw [if_pos ⟨rfl, hb, he⟩]; rfl
      · have hj1 : ∀ P, ¬ (n = j ∧ P) := fun P h => hj h.1
        rw [if_neg (hj1 _), if_neg (hj1 _), if_neg hj]

theorem aliases_find (secs : List (Str × List (Str × Str))) (hn : (secs.map (·.1)).Nodup) (st : Str × Aliases) (hm : AmOk st.2) (j : Str) :
    amFind (secs.foldl (fun st s => s.2.foldl aliasAdd (aliasOpen st s.1)) st).2 j =
      if j = "Block".toList then amFind st.2 j
      else match amFind secs j with
        | some es => some (aliasMap es [])
        | none => amFind st.2 j := by
  induction secs generalizing st with
  | nil => simp [amFind]
  | cons s secs ih =>
    obtain ⟨n, es⟩ := s
    rw [List.map_cons, List.nodup_cons] at hn
    obtain ⟨hn1, hn2⟩ := hn
    rw [List.foldl_cons]
    by_cases hb : n = "Block".toList
    · have e1 : aliasOpen st n = (n, st.2) := by unfold aliasOpen; rw [if_pos hb]
      simp only [e1]
      obtain ⟨i1, i2, i3⟩ := aliasAdd_fold es n st.2 hm
      have hb1 : ¬ (n = j ∧ n ≠ "Block".toList ∧ es ≠ []) := fun h => h.2.1 hb
      rw [ih hn2 _ i2, i3 j, if_neg hb1, amFind_cons]
      by_cases hj : j = "Block".toList
      · rw [if_pos hj, if_pos hj]
      · rw [if_neg hj, if_neg hj, if_neg (show ¬ n = j from fun h => hj (h.symm.trans hb))]
    · have e1 : aliasOpen st n = (n, amUpd n (fun _ => []) st.2) := by unfold aliasOpen; rw [if_neg hb]
      simp only [e1]
      obtain ⟨i1, i2, i3⟩ := aliasAdd_fold es n (amUpd n (fun _ => []) st.2) (amUpd_ok _ _ _ hm)
      rw [ih hn2 _ i2, i3 j, amFind_upd _ _ _ _ hm, amFind_cons]
      by_cases hj : j = "Block".toList
      · rw [if_pos hj, if_pos hj, if_neg (show ¬ (n = j ∧ n ≠ "Block".toList ∧ es ≠ []) from fun h => hb (h.1.trans hj)), if_neg (fun h => hb (h.trans hj))]
      · rw [if_neg hj, if_neg hj]
        by_cases hnj : n = j
        · subst hnj
          have : amFind secs n = none := by
            unfold amFind
            rw [Option.map_eq_none_iff, List.find?_eq_none]
            intro x hx hxn
            exact hn1 (List.mem_map.2 ⟨x, hx, by simpa using hxn⟩)
          rw [this, if_pos rfl]
          simp only [↓reduceIte]
          by_cases he : es = []
          · subst he; rw [if_neg (by simp)]; rfl
          · rw [if_pos ⟨trivial, hb, he⟩]; rfl
        · rw [if_neg hnj, if_neg (show ¬ (n = j ∧ n ≠ "Block".toList ∧ es ≠ []) from fun h => hnj h.1), if_neg hnj]

/-- No abbreviation has two long names. -/
def Functional (es : List (Str × Str)) : Prop := ∀ a f f', (a, f) ∈ es → (a, f') ∈ es → f = f'

theorem aliases_loaded {F : Files} {A : Aliases} {U : Contents} (hl : A = loadAliases F.aliases) (hd : Describes F U) (hn : (U.aliases.map (·.1)).Nodup) (prop : Str)
    (hb : prop ≠ "Block".toList) (es : List (Str × Str)) (hs : (prop, es) ∈ U.aliases) (hf : Functional es) :
    ∃ m, amFind A prop = some m ∧ ∀ a f, amFind m a = some f ↔ (a, f) ∈ es := by
  have hfind : amFind U.aliases prop = some es := by
    clear hl hd
    generalize U.aliases = secs at hn hs
    induction secs with
    | nil => simp at hs
    | cons s secs ih =>
      rw [List.map_cons, List.nodup_cons] at hn
      rw [amFind_cons]
      rcases List.mem_cons.1 hs with h | h
      · rw [← h, if_pos rfl]
      · rw [if_neg, ih hn.2 h]
        intro e
        exact hn.1 (by rw [e]; exact List.mem_map.2 ⟨_, h, rfl⟩)
  refine ⟨aliasMap es [], ?_, ?_⟩
  · rw [hl, loadAliases_eq hd.aliases, aliases_find _ hn ([], []) List.Pairwise.nil, if_neg hb, hfind]
  · intro a f
    by_cases hex : ∃ f', (a, f') ∈ es
    · obtain ⟨f', hf'⟩ := hex
      rw [aliasMap_find es [] List.Pairwise.nil a f' (fun f'' h => hf a f'' f' h hf'), if_pos hf']
      constructor
      · intro h; injection h with h; rw [← h]; exact hf'
      · intro h; rw [hf a f f' h hf']
    · rw [aliasMap_find es [] List.Pairwise.nil a f (fun f' h => absurd ⟨f', h⟩ hex), if_neg (fun h => hex ⟨f, h⟩)]
      constructor
      · intro h; simp [amFind] at h
      · intro h; exact absurd ⟨f, h⟩ hex

/-- **C53, aliases.** What the generator knows about the values of a property is what PropertyValueAliases.txt says in the
section of that property. -/
theorem C53_aliases {F D U} (hl : Loads F D) (hd : Describes F U) (hn : (U.aliases.map (·.1)).Nodup) (prop : Str)
    (hb : prop ≠ "Block".toList) (es : List (Str × Str)) (hs : (prop, es) ∈ U.aliases) (hf : Functional es) :
    ∃ m, amFind D.aliases prop = some m ∧ ∀ a f, amFind m a = some f ↔ (a, f) ∈ es :=
  aliases_loaded hl.aliases hd hn prop hb es hs hf

/-- **C53, `make_age`.** A version number gives its age, and nothing else does. -/
theorem C53_make_age {F D U} (hl : Loads F D) (hd : Describes F U) (hn : (U.aliases.map (·.1)).Nodup) (es : List (Str × Str))
    (hs : ("Age".toList, es) ∈ U.aliases) (hf : Functional es) (s a : Str) :
    ∃ m, amFind D.aliases "Age".toList = some m ∧
      (apiMakeAge m s = some a ↔ (s, a) ∈ es ∧ a ≠ "Unassigned".toList) := by
  obtain ⟨m, h1, h2⟩ := C53_aliases hl hd hn "Age".toList (by decide) es hs hf
  refine ⟨m, h1, ?_⟩
  have hmok : AmOk m := by
    rw [hl.aliases, loadAliases_eq hd.aliases, aliases_find _ hn ([], []) List.Pairwise.nil, if_neg (by decide)] at h1
    split at h1
    · injection h1 with h1; rw [← h1]; exact aliasMap_ok _ _ List.Pairwise.nil
    · simp [amFind] at h1
  unfold apiMakeAge
  rw [← mem_amFind _ (List.Pairwise.sublist List.filter_sublist hmok), List.mem_filter, mem_amFind _ hmok, h2]
  simp only [decide_eq_true_eq]

/-! ## DerivedGeneralCategory.txt -/

theorem stored_prefix {p line stored : Str} (hs : Stored line stored) (hp : p <+: stored) (hl : p.getLast? ≠ some '\r') : p <+: line := by
  rcases hs with rfl | rfl
  · exact hp
  · obtain ⟨t, ht⟩ := hp
    cases t using List.reverseRecOn with
    | nil =>
      rw [List.append_nil] at ht
      exact absurd (by rw [ht, List.getLast?_concat]) hl
    | append_singleton t x =>
      rw [← List.append_assoc] at ht
      exact ⟨t, List.append_inj_left' ht rfl⟩

/-- What a data line does. -/
def gcAdd (al : List (Str × Str)) (o : Option GcState) (e : Entry) : Option GcState :=
  o.bind fun st => (amFind al (firstWord e.2.2)).map fun full =>
    { st with map := groupPush st.cat ⟨e.1, e.2.1, full⟩ st.map, all := st.all ++ [⟨e.1, e.2.1, full⟩] }

/-- What a header does. -/
def gcOpen (o : Option GcState) (name : Str) : Option GcState :=
  o.map fun st => { st with cat := name, map := groupOpen name st.map }

theorem gcLoop_fold (al : List (Str × Str)) (lines : List Str) (st : GcState) :
    gcLoop al st lines = lines.foldl (fun o l => o.bind fun st => gcLine al st l) (some st) := by
  induction lines generalizing st with
  | nil => rfl
  | cons l ls ih =>
    rw [gcLoop, List.foldl_cons, Option.bind_some]
    cases h : gcLine al st l with
    | none =>
      have : ∀ ls : List Str, ls.foldl (fun o l => o.bind fun st => gcLine al st l) none = none := by
        intro ls; induction ls with
        | nil => rfl
        | cons _ _ ih => rw [List.foldl_cons]; exact ih
      exact (this ls).symm
    | some st' => exact ih st'

theorem gcLoop_eq (al : List (Str × Str)) {lines : List Str} {secs : List (Str × List Entry)}
    (h : Sections CategoryPlain CategoryHeader RangeLine lines [] secs) (st : GcState) :
    gcLoop al st lines = secs.foldl (fun o s => s.2.foldl (gcAdd al) (gcOpen o s.1)) (some st) := by
  rw [gcLoop_fold, sections_fold (fun o l => o.bind fun st => gcLine al st l) gcOpen (gcAdd al) ?_ ?_ ?_ h]
  · rfl
  · rintro o line stored ⟨h1, h2⟩ hs
    cases o with
    | none => rfl
    | some st =>
      rw [Option.bind_some, gcLine, if_neg, C48_skips _ _ h1 hs]
      intro hp
      rw [List.isPrefixOf_iff_prefix] at hp
      exact h2 (stored_prefix hs hp (by decide))
  · rintro o line stored name ⟨w, hw, hn, rfl⟩ hs
    cases o with
    | none => rfl
    | some st =>
      obtain ⟨w', rfl, hw'⟩ : ∃ w', stored = "# General_Category=".toList ++ (name ++ w') ∧ ∀ c ∈ w', isWs c = true := by
        rcases hs with rfl | rfl
        · exact ⟨w, by rw [List.append_assoc], blank_ws hw⟩
        · refine ⟨w ++ ['\r'], by simp only [List.append_assoc], ?_⟩
          intro c hc
          rcases List.mem_append.1 hc with hc | hc
          · exact blank_ws hw c hc
          · simp at hc; subst hc; rfl
      rw [Option.bind_some, gcLine, if_pos (isPrefixOf_append _ _),
        show ("# General_Category=".toList ++ (name ++ w')).drop 19 = name ++ w' from rfl]
      have : trim (name ++ w') = name := by
        have := trimBy_append isWs [] name w' (by simp) hw' (word_head hn) (word_last hn)
        simpa [trim] using this
      rw [this]
      rfl
  · intro o line stored e h1 hs
    cases o with
    | none => rfl
    | some st =>
      obtain ⟨q, q1, q2, q3, q4⟩ := parse_rangeLine h1 hs
      rw [Option.bind_some, gcLine, if_neg, q1]
      · unfold gcAdd
        rw [Option.bind_some, ← q4, ← q2, ← q3]
        simp only
        cases amFind al (firstWord q.property) with
        | none => rfl
        | some f => rfl
      · intro hp
        rw [List.isPrefixOf_iff_prefix] at hp
        obtain ⟨t, ht⟩ := hp
        have hst : Stored ('#' :: (" General_Category=".toList ++ t)) stored := Or.inl ht.symm
        exact trim_not_hash h1.1 hs (comment_head hst).2

/-- The range that a line with a known value contributes. -/
def gcRange (al : List (Str × Str)) (e : Entry) : PRange := ⟨e.1, e.2.1, (amFind al (firstWord e.2.2)).getD []⟩

theorem gcAdd_fold (al : List (Str × Str)) (es : List Entry) (st st' : GcState) (h : es.foldl (gcAdd al) (some st) = some st') :
    (∀ e ∈ es, ∃ f, amFind al (firstWord e.2.2) = some f) ∧ st'.cat = st.cat ∧
      st'.map = pushAll (es.map fun e => (st.cat, gcRange al e)) st.map ∧ st'.all = st.all ++ es.map (gcRange al) := by
  induction es generalizing st with
  | nil => simp at h; subst h; exact ⟨by simp, rfl, rfl, by simp⟩
  | cons e es ih =>
    rw [List.foldl_cons] at h
    cases hf : amFind al (firstWord e.2.2) with
    | none =>
      have h0 : gcAdd al (some st) e = none := by unfold gcAdd; rw [Option.bind_some, hf]; rfl
      have : ∀ es : List Entry, es.foldl (gcAdd al) none = none := by
        intro es; induction es with
        | nil => rfl
        | cons _ _ ih => rw [List.foldl_cons]; exact ih
      rw [h0, this] at h
      simp at h
    | some f =>
      have h0 : gcAdd al (some st) e = some { st with map := groupPush st.cat (gcRange al e) st.map, all := st.all ++ [gcRange al e] } := by
        unfold gcAdd gcRange; rw [Option.bind_some, hf]; rfl
      rw [h0] at h
      obtain ⟨i1, i2, i3, i4⟩ := ih _ h
      refine ⟨?_, i2, ?_, ?_⟩
      · intro x hx
        rcases List.mem_cons.1 hx with rfl | hx
        · exact ⟨f, hf⟩
        · exact i1 x hx
      · rw [i3]; rfl
      · rw [i4]; simp

theorem gc_fold (al : List (Str × Str)) (secs : List (Str × List Entry)) (st st' : GcState)
    (h : secs.foldl (fun o s => s.2.foldl (gcAdd al) (gcOpen o s.1)) (some st) = some st') :
    (∀ e ∈ allOf secs, ∃ f, amFind al (firstWord e.2.2) = some f) ∧
      st'.map = sectionsMap (gcRange al) secs st.map ∧ st'.all = st.all ++ (allOf secs).map (gcRange al) := by
  induction secs generalizing st with
  | nil => simp at h; subst h; exact ⟨by simp [allOf], rfl, by simp [allOf]⟩
  | cons s secs ih =>
    rw [List.foldl_cons] at h
    cases hm : s.2.foldl (gcAdd al) (gcOpen (some st) s.1) with
    | none =>
      have hn : ∀ es : List Entry, es.foldl (gcAdd al) none = none := by
        intro es; induction es with
        | nil => rfl
        | cons _ _ ih => rw [List.foldl_cons]; exact ih
      have : ∀ secs : List (Str × List Entry), secs.foldl (fun o s => s.2.foldl (gcAdd al) (gcOpen o s.1)) none = none := by
        intro secs; induction secs with
        | nil => rfl
        | cons s secs ih => rw [List.foldl_cons, show gcOpen none s.1 = none from rfl, hn]; exact ih
      rw [hm, this] at h
      simp at h
    | some st1 =>
      rw [hm] at h
      obtain ⟨a1, a2, a3, a4⟩ := gcAdd_fold al s.2 _ _ hm
      obtain ⟨i1, i2, i3⟩ := ih _ h
      refine ⟨?_, ?_, ?_⟩
      · intro e he
        rw [allOf, List.flatMap_cons] at he
        rcases List.mem_append.1 he with he | he
        · exact a1 e he
        · exact i1 e he
      · rw [i2, a3]; rfl
      · rw [i3, a4]; simp [allOf]

/-- The general category of a codepoint, by its long name. -/
def CategoryOf (es : List Entry) (names : List (Str × Str)) (c : Nat) (v : Str) : Prop :=
  (∃ ab, Assigns es c ab ∧ (ab, v) ∈ names) ∨ (∀ w, ¬ Assigns es c w) ∧ v = "Unspecified".toList

theorem gc_loaded {F D U} (hl : Loads F D) (hd : Describes F U) (hn : (U.aliases.map (·.1)).Nodup) (al : List (Str × Str))
    (hs : ("General_Category".toList, al) ∈ U.aliases) (hf : Functional al) (hw : Words (allOf U.gc)) :
    ∃ m, (∀ a f, amFind m a = some f ↔ (a, f) ∈ al) ∧ (∀ e ∈ allOf U.gc, (e.2.2, (gcRange m e).property) ∈ al) ∧
      D.gcMap = sectionsMap (gcRange m) U.gc [] ∧ SortedBy PRange.first ((allOf U.gc).map (gcRange m)) D.gcats := by
  obtain ⟨m, h1, h2⟩ := C53_aliases hl hd hn _ (by decide) al hs hf
  obtain ⟨m', st, g1, g2, g3, g4⟩ := hl.gc
  rw [h1] at g1
  injection g1 with g1
  subst g1
  rw [gcLoop_eq _ hd.gc] at g2
  obtain ⟨k1, k2, k3⟩ := gc_fold m U.gc _ _ g2
  refine ⟨m, h2, ?_, by rw [g4, k2], ?_⟩
  · intro e he
    obtain ⟨f, hf'⟩ := k1 e he
    unfold gcRange
    rw [hf', Option.getD_some]
    rw [firstWord_word (hw e he)] at hf'
    exact (h2 _ _).1 hf'
  · rw [k3] at g3
    exact g3

theorem gc_valid {F U} (hd : Describes F U) : ∀ e ∈ allOf U.gc, e.1 ≤ e.2.1 := by
  intro e he
  obtain ⟨s, hs, he⟩ := List.mem_flatMap.1 he
  exact ((sections_valid hd.gc).2 s hs e he).1

/-- **C53, `general_category::get`.** -/
theorem C53_general_category {F D U} (hl : Loads F D) (hd : Describes F U) (hn : (U.aliases.map (·.1)).Nodup) (al : List (Str × Str))
    (hs : ("General_Category".toList, al) ∈ U.aliases) (hf : Functional al) (hp : Plain (allOf U.gc)) (c : Nat) (v : Str) :
    apiGc D c = .ok v ↔ CategoryOf (allOf U.gc) al c v := by
  obtain ⟨m, m1, m2, -, m4⟩ := gc_loaded hl hd hn al hs hf hp.words
  have ee : ents ((allOf U.gc).map (gcRange m)) = (allOf U.gc).map fun e => (e.1, e.2.1, (gcRange m e).property) := by
    unfold ents gcRange; rw [List.map_map]; rfl
  obtain ⟨h1, h2, h3, h4⟩ := ents_sorted m4 (by rw [ee]; exact List.pairwise_map.2 hp.separate)
    (by
      rw [ee]
      intro x hx
      obtain ⟨e, he, rfl⟩ := List.mem_map.1 hx
      exact gc_valid hd e he)
  rw [ee] at h3 h4
  rw [List.length_map] at h3
  have := valueOr_exact (ents D.gcats) h1 h2 (by intro hn; rw [hn] at h3; exact hp.nonempty (List.length_eq_zero_iff.1 h3.symm))
    (by rw [h3]; exact hp.size) "Unspecified".toList c v _ (propTable_ents D.gcats)
  unfold apiGc
  rw [this, valueOf_congr h4]
  have hA : ∀ w, Assigns ((allOf U.gc).map fun e => (e.1, e.2.1, (gcRange m e).property)) c w ↔ ∃ ab, Assigns (allOf U.gc) c ab ∧ (ab, w) ∈ al := by
    intro w
    constructor
    · rintro ⟨x, hx, x1, x2, x3⟩
      obtain ⟨e, he, rfl⟩ := List.mem_map.1 hx
      exact ⟨e.2.2, ⟨e, he, x1, x2, rfl⟩, by have := m2 e he; simp only at x3; rwa [x3] at this⟩
    · rintro ⟨ab, ⟨e, he, x1, x2, x3⟩, hab⟩
      refine ⟨_, List.mem_map.2 ⟨e, he, rfl⟩, x1, x2, ?_⟩
      have := m2 e he
      rw [x3] at this
      exact hf _ _ _ this hab
  unfold ValueOf CategoryOf
  simp only [hA]
  have hN : (∀ w ab, Assigns (allOf U.gc) c ab → (ab, w) ∉ al) ↔ ∀ w, ¬ Assigns (allOf U.gc) c w := by
    constructor
    · rintro h w ⟨e, he, x1, x2, x3⟩
      exact h _ _ ⟨e, he, x1, x2, rfl⟩ (m2 e he)
    · intro h w ab ha _
      exact h ab ha
  constructor
  · rintro (h | ⟨h, h'⟩)
    · exact Or.inl h
    · exact Or.inr ⟨hN.1 (fun w ab h1 h2 => h w ⟨ab, h1, h2⟩), h'⟩
  · rintro (h | ⟨h, h'⟩)
    · exact Or.inl h
    · exact Or.inr ⟨fun w ⟨ab, h1, h2⟩ => h ab h1, h'⟩

/-- **C53, `contains(General_Category, …)` and `is_…`.** For a category with a section in DerivedGeneralCategory.txt (and
every section bears the long name of the value it lists, in ascending order) the answer is yes exactly for the codepoints
of that category. -/
theorem C53_contains_category {F D U} (hl : Loads F D) (hd : Describes F U) (hn : (U.aliases.map (·.1)).Nodup) (al : List (Str × Str))
    (hs : ("General_Category".toList, al) ∈ U.aliases) (hf : Functional al) (hw : Words (allOf U.gc)) (hgn : (U.gc.map (·.1)).Nodup)
    (htitle : ∀ s ∈ U.gc, ∀ e ∈ s.2, (e.2.2, s.1) ∈ al)
    (name : Str) (es : List Entry) (hes : (name, es) ∈ U.gc) (hne : es ≠ []) (hasc : Ascending es) (hsize : es.length < 2 ^ 64) (c : Nat) :
    ∃ b, apiGcContains D name c = .ok b ∧ (b = true ↔ ∃ ab, Assigns (allOf U.gc) c ab ∧ (ab, name) ∈ al) := by
  obtain ⟨m, m1, m2, m3, -⟩ := gc_loaded hl hd hn al hs hf hw
  have hfind : amFind D.gcMap name = some (es.map (gcRange m)) := by rw [m3]; exact sectionsMap_find _ _ hgn _ _ hes
  obtain ⟨b, b1, b2⟩ := contains_exact es hasc (fun e he => ((sections_valid hd.gc).2 _ hes e he).1) hne hsize c
    (intervalTable (es.map (gcRange m))) (by rw [intervalTable_ents]; unfold ents gcRange; rw [List.map_map, List.map_map]; rfl)
  refine ⟨b, ?_, ?_⟩
  · unfold apiGcContains; rw [hfind]; exact b1
  · rw [b2]
    constructor
    · rintro ⟨e, he, x1, x2⟩
      have hall : Assigns (allOf U.gc) c e.2.2 := ⟨e, List.mem_flatMap.2 ⟨_, hes, he⟩, x1, x2, rfl⟩
      exact ⟨e.2.2, hall, htitle _ hes e he⟩
    · rintro ⟨ab, ⟨e, he, x1, x2, x3⟩, hab⟩
      obtain ⟨s, hs', he'⟩ := List.mem_flatMap.1 he
      have := htitle s hs' e he'
      rw [x3] at this
      have hname := hf _ _ _ this hab
      have : s = (name, es) := by
        have hinj := List.inj_on_of_nodup_map hgn
        exact hinj hs' hes hname
      rw [this] at he'
      exact ⟨e, he', x1, x2⟩

/-- **C53, `contains(General_Category, …)` without a section.** For a category that has no section in the file
(`Unspecified` among them) the answer is no for every codepoint. -/
theorem C53_contains_no_category {F D U} (hl : Loads F D) (hd : Describes F U) (hn : (U.aliases.map (·.1)).Nodup) (al : List (Str × Str))
    (hs : ("General_Category".toList, al) ∈ U.aliases) (hf : Functional al) (hw : Words (allOf U.gc))
    (name : Str) (hno : ∀ s ∈ U.gc, s.1 ≠ name) (c : Nat) : apiGcContains D name c = .ok false := by
  obtain ⟨m, m1, m2, m3, -⟩ := gc_loaded hl hd hn al hs hf hw
  have hfind : amFind D.gcMap name = none := by
    rw [m3]
    obtain ⟨-, h2⟩ := sectionsMap_spec (gcRange m) U.gc [] List.Pairwise.nil
    have h4 := (h2 name).2
    cases hx : amFind (sectionsMap (gcRange m) U.gc []) name with
    | none => rfl
    | some rs =>
      rcases h4.1 (by rw [hx]; rfl) with h | ⟨s, hs', h⟩
      · simp [amFind] at h
      · exact absurd h (hno s hs')
  unfold apiGcContains
  rw [hfind]

end Verif.Props.Tg
