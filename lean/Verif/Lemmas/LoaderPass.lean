import Verif.Lemmas.LoaderLine
/-!
# Whole files, as the run-time loader reads them
-/

namespace Verif.Load
open Verif.Tg Verif.Props.Tg Verif.Spec.Regex Verif.Spec.UcdFile Verif.Spec.Ucd

/-! ## Cutting into lines -/

theorem cutLines_eq (text : Str) : ∀ cur, cutLines cur text = getlinesFrom cur text ∨ cutLines cur text = getlinesFrom cur text ++ [[]] := by
  induction text with
  | nil =>
    intro cur
    unfold cutLines getlinesFrom
    by_cases h : cur = []
    · right; rw [if_pos h, h]; rfl
    · left; rw [if_neg h]
  | cons c cs ih =>
    intro cur
    unfold cutLines getlinesFrom
    by_cases h : c = '\n'
    · rw [if_pos h, if_pos h]
      rcases ih [] with e | e
      · left; rw [e]
      · right; rw [e]; rfl
    · rw [if_neg h, if_neg h]
      exact ih _

theorem processLines_append (cb : Callback) (xs ys : List Str) (s : State) :
    processLines cb (xs ++ ys) s = (processLines cb xs s).bind (processLines cb ys) := by
  induction xs generalizing s with
  | nil => rfl
  | cons x xs ih =>
    show (processLine cb x s).bind (processLines cb (xs ++ ys)) = ((processLine cb x s).bind (processLines cb xs)).bind _
    cases h : processLine cb x s with
    | ok s' => exact ih s'
    | _ => rfl

theorem processLines_cut (cb : Callback) (text : Str) (s : State) : processLines cb (cutLines [] text) s = processLines cb (getlines text) s := by
  rcases cutLines_eq text [] with e | e
  · rw [e]; rfl
  · rw [e, processLines_append]
    show (processLines cb (getlines text) s).bind _ = _
    cases processLines cb (getlines text) s with
    | ok s' =>
      show (processLine cb [] s').bind _ = _
      rw [skip_line cb s' (by intro c t e; cases e)]
      rfl
    | _ => rfl

/-! ## Entries -/

/-- The callback for each codepoint of each entry. -/
def assignAll (cb : Callback) : List Entry → State → Res State
  | [], s => .ok s
  | e :: es, s => (rangeLoop cb e.2.2 (e.2.1 + 1 - e.1) e.1 s).bind (assignAll cb es)

/-- The same range, and the first part of the value. -/
def Cut (e e' : Entry) : Prop := e.1 = e'.1 ∧ e.2.1 = e'.2.1 ∧ FirstPart e.2.2 e'.2.2

theorem lines_pass (cb : Callback) {lines : List Str} {es es' : List Entry} (h : FileOf lines es) (ht : ∀ l ∈ lines, Tidy l) (hc : List.Forall₂ Cut es es') :
    ∀ s, processLines cb lines s = assignAll cb es' s := by
  induction h generalizing es' with
  | nil => cases hc; intro s; rfl
  | skip hn hs _ ih =>
    intro s
    rw [processLines, nodata_line cb s hn hs]
    exact ih (fun l hl => ht l (List.mem_cons_of_mem _ hl)) hc s
  | data hd hs hab hb _ ih =>
    cases hc with
    | @cons _ e' _ es' h1 h2 =>
      obtain ⟨a', b', v'⟩ := e'
      obtain ⟨rfl, rfl, h3⟩ := h1
      intro s
      rw [processLines, data_line cb s hd hs (ht _ (List.mem_cons_self ..)) h3 hab hb]
      show _ = (rangeLoop cb v' (_ + 1 - _) _ s).bind (assignAll cb es')
      congr 1
      funext s'
      exact ih (fun l hl => ht l (List.mem_cons_of_mem _ hl)) h2 s'

/-- The file `name` is there, tidy, and its entries are `es`. -/
def TidyFile (dir : Dir) (path : Str) (es : List Entry) : Prop :=
  ∃ text, dir path = some text ∧ FileOf (getlines text) es ∧ ∀ l ∈ getlines text, Tidy l

theorem file_pass {dir : Dir} {ucd : Str} {name : String} {es es' : List Entry} (cb : Callback) (h : TidyFile dir (ucd ++ '/' :: name.toList) es)
    (hc : List.Forall₂ Cut es es') (s : State) : processProperties dir ucd name cb s = assignAll cb es' s := by
  obtain ⟨text, h1, h2, h3⟩ := h
  unfold processProperties
  rw [h1]
  show processLines cb (cutLines [] text) s = _
  rw [processLines_cut]
  exact lines_pass cb h2 h3 hc s

theorem cut_self {es : List Entry} (h : ∀ e ∈ es, Plainword e.2.2) : List.Forall₂ Cut es es := by
  rw [List.forall₂_same]
  exact fun e he => ⟨rfl, rfl, h e he, Or.inl rfl⟩

theorem file_in {lines : List Str} {es : List Entry} (h : FileOf lines es) : ∀ e ∈ es, e.1 ≤ e.2.1 ∧ e.2.1 ≤ 0x10FFFF := by
  induction h with
  | nil => intro e he; cases he
  | skip _ _ _ ih => exact ih
  | data _ _ h1 h2 _ ih =>
    intro e he
    rcases List.mem_cons.1 he with rfl | he
    · exact ⟨h1, h2⟩
    · exact ih e he

theorem cut_in {es es' : List Entry} (hc : List.Forall₂ Cut es es') (h : ∀ e ∈ es, e.1 ≤ e.2.1 ∧ e.2.1 ≤ 0x10FFFF) :
    ∀ e ∈ es', e.1 ≤ e.2.1 ∧ e.2.1 ≤ 0x10FFFF := by
  induction hc with
  | nil => intro e he; cases he
  | @cons a b _ _ hab _ ih =>
    intro e he
    rcases List.mem_cons.1 he with rfl | he
    · have := h a (List.mem_cons_self ..)
      rw [hab.1, hab.2.1] at this; exact this
    · exact ih (fun e he => h e (List.mem_cons_of_mem _ he)) e he

/-! ## Callbacks that change a row -/

/-- With value `v` the callback changes the row of the codepoint by `f`. -/
def Puts (cb : Callback) (v : Str) (f : Emitted → Emitted) : Prop :=
  ∀ c ≤ 0x10FFFF, ∀ s, cb c v s = .ok { s with props := fun x => if x = c then f (s.props x) else s.props x }

theorem loop_puts {cb : Callback} {v : Str} {f : Emitted → Emitted} (h : Puts cb v f) (n : Nat) : ∀ a s, a + n ≤ 0x110000 →
    rangeLoop cb v n a s = .ok { s with props := fun x => if a ≤ x ∧ x < a + n then f (s.props x) else s.props x } := by
  induction n with
  | zero =>
    intro a s _
    rw [rangeLoop]
    congr 1
    obtain ⟨p, q⟩ := s
    congr 1
    funext x
    rw [if_neg (by omega)]
  | succ n ih =>
    intro a s hn
    rw [rangeLoop, h a (by omega)]
    show rangeLoop cb v n (a + 1) _ = _
    rw [ih (a + 1) _ (by omega)]
    congr 2
    funext x
    dsimp only
    by_cases h1 : x = a
    · rw [if_neg (by omega), if_pos h1, if_pos (by omega)]
    · rw [if_neg h1]
      by_cases h2 : a + 1 ≤ x ∧ x < a + 1 + n
      · rw [if_pos h2, if_pos (by omega)]
      · rw [if_neg h2, if_neg (by omega)]

/-- What the entries do to the row of `x`. -/
def applyAll (F : Str → Emitted → Emitted) (es : List Entry) (x : Nat) (p : Emitted) : Emitted :=
  es.foldl (fun p e => if e.1 ≤ x ∧ x ≤ e.2.1 then F e.2.2 p else p) p

theorem pass_puts {cb : Callback} {F : Str → Emitted → Emitted} {es : List Entry} (hi : ∀ e ∈ es, e.1 ≤ e.2.1 ∧ e.2.1 ≤ 0x10FFFF)
    (h : ∀ e ∈ es, Puts cb e.2.2 (F e.2.2)) : ∀ s, assignAll cb es s = .ok { s with props := fun x => applyAll F es x (s.props x) } := by
  induction es with
  | nil => intro s; rfl
  | cons e es ih =>
    intro s
    have hi' := hi e (List.mem_cons_self ..)
    rw [assignAll, loop_puts (h e (List.mem_cons_self ..)) _ _ _ (by omega)]
    show assignAll cb es _ = _
    rw [ih (fun e he => hi e (List.mem_cons_of_mem _ he)) (fun e he => h e (List.mem_cons_of_mem _ he))]
    congr 2
    funext x
    show applyAll F es x (if _ then _ else _) = applyAll F es x (if _ then _ else _)
    by_cases h2 : e.1 ≤ x ∧ x ≤ e.2.1
    · rw [if_pos h2, if_pos (by omega)]
    · rw [if_neg h2, if_neg (by omega)]

/-- The last of the values the entries give to `x`. -/
def lastOf (g : Str → Str) (es : List Entry) (x : Nat) (d : Str) : Str := es.foldl (fun d e => if e.1 ≤ x ∧ x ≤ e.2.1 then g e.2.2 else d) d

theorem lastOf_spec (g : Str → Str) (es : List Entry) (x : Nat) : ∀ d,
    (∃ v, Assigns es x v ∧ lastOf g es x d = g v) ∨ (∀ w, ¬ Assigns es x w) ∧ lastOf g es x d = d := by
  induction es with
  | nil => intro d; right; exact ⟨fun w h => (by obtain ⟨e, he, -⟩ := h; cases he), rfl⟩
  | cons e es ih =>
    intro d
    have hstep : lastOf g (e :: es) x d = lastOf g es x (if e.1 ≤ x ∧ x ≤ e.2.1 then g e.2.2 else d) := rfl
    rw [hstep]
    rcases ih (if e.1 ≤ x ∧ x ≤ e.2.1 then g e.2.2 else d) with ⟨v, ⟨e', h1, h2⟩, h3⟩ | ⟨h1, h2⟩
    · exact Or.inl ⟨v, ⟨e', List.mem_cons_of_mem _ h1, h2⟩, h3⟩
    · by_cases h : e.1 ≤ x ∧ x ≤ e.2.1
      · left
        rw [if_pos h] at h2 ⊢
        exact ⟨e.2.2, ⟨e, List.mem_cons_self .., h.1, h.2, rfl⟩, h2⟩
      · right
        rw [if_neg h] at h2 ⊢
        refine ⟨?_, h2⟩
        rintro w ⟨e', h3, h4, h5, h6⟩
        rcases List.mem_cons.1 h3 with rfl | h3
        · exact h ⟨h4, h5⟩
        · exact h1 w ⟨e', h3, h4, h5, h6⟩

/-- The bits of all values the entries give to `x`. -/
def bitsOf (g : Str → Nat) (es : List Entry) (x : Nat) (d : Nat) : Nat := es.foldl (fun d e => if e.1 ≤ x ∧ x ≤ e.2.1 then d ||| g e.2.2 else d) d

theorem bitsOf_spec (g : Str → Nat) (es : List Entry) (x i : Nat) : ∀ d,
    (bitsOf g es x d).testBit i = true ↔ d.testBit i = true ∨ ∃ v, Assigns es x v ∧ (g v).testBit i = true := by
  induction es with
  | nil => intro d; exact ⟨Or.inl, fun h => h.elim id fun ⟨v, ⟨e, he, _⟩, _⟩ => by cases he⟩
  | cons e es ih =>
    intro d
    have hstep : bitsOf g (e :: es) x d = bitsOf g es x (if e.1 ≤ x ∧ x ≤ e.2.1 then d ||| g e.2.2 else d) := rfl
    rw [hstep, ih]
    constructor
    · rintro (h | ⟨v, ⟨e', h1, h2⟩, h3⟩)
      · by_cases hx : e.1 ≤ x ∧ x ≤ e.2.1
        · rw [if_pos hx, Nat.testBit_or, Bool.or_eq_true] at h
          rcases h with h | h
          · exact Or.inl h
          · exact Or.inr ⟨e.2.2, ⟨e, List.mem_cons_self .., hx.1, hx.2, rfl⟩, h⟩
        · rw [if_neg hx] at h; exact Or.inl h
      · exact Or.inr ⟨v, ⟨e', List.mem_cons_of_mem _ h1, h2⟩, h3⟩
    · rintro (h | ⟨v, ⟨e', h1, h2, h3, h4⟩, h5⟩)
      · left
        by_cases hx : e.1 ≤ x ∧ x ≤ e.2.1
        · rw [if_pos hx, Nat.testBit_or, h]; rfl
        · rw [if_neg hx]; exact h
      · rcases List.mem_cons.1 h1 with rfl | h1
        · left
          rw [if_pos ⟨h2, h3⟩, Nat.testBit_or, h4, h5, Bool.or_true]
        · exact Or.inr ⟨v, ⟨e', h1, h2, h3, h4⟩, h5⟩

theorem bitsOf_lt (g : Str → Nat) (es : List Entry) (x : Nat) (hg : ∀ v, g v < 128) : ∀ d, d < 128 → bitsOf g es x d < 128 := by
  induction es with
  | nil => intro d h; exact h
  | cons e es ih =>
    intro d h
    show bitsOf g es x (if _ then _ else _) < 128
    apply ih
    split
    · exact Nat.or_lt_two_pow (n := 7) h (hg _)
    · exact h

theorem applyAll_cons (F : Str → Emitted → Emitted) (e : Entry) (es : List Entry) (x : Nat) (p : Emitted) :
    applyAll F (e :: es) x p = applyAll F es x (if e.1 ≤ x ∧ x ≤ e.2.1 then F e.2.2 p else p) := rfl

theorem lastOf_cons (g : Str → Str) (e : Entry) (es : List Entry) (x : Nat) (d : Str) :
    lastOf g (e :: es) x d = lastOf g es x (if e.1 ≤ x ∧ x ≤ e.2.1 then g e.2.2 else d) := rfl

theorem bitsOf_cons (g : Str → Nat) (e : Entry) (es : List Entry) (x : Nat) (d : Nat) :
    bitsOf g (e :: es) x d = bitsOf g es x (if e.1 ≤ x ∧ x ≤ e.2.1 then d ||| g e.2.2 else d) := rfl

theorem apply_script (g : Str → Str) (es : List Entry) (x : Nat) : ∀ p,
    applyAll (fun v p => { p with script := g v }) es x p = { p with script := lastOf g es x p.script } := by
  induction es with
  | nil => intro p; rfl
  | cons e es ih =>
    intro p
    rw [applyAll_cons, ih, lastOf_cons]; split <;> rfl

theorem apply_age (g : Str → Str) (es : List Entry) (x : Nat) : ∀ p,
    applyAll (fun v p => { p with age := g v }) es x p = { p with age := lastOf g es x p.age } := by
  induction es with
  | nil => intro p; rfl
  | cons e es ih =>
    intro p
    rw [applyAll_cons, ih, lastOf_cons]; split <;> rfl

theorem apply_gc (g : Str → Str) (es : List Entry) (x : Nat) : ∀ p,
    applyAll (fun v p => { p with gc := g v }) es x p = { p with gc := lastOf g es x p.gc } := by
  induction es with
  | nil => intro p; rfl
  | cons e es ih =>
    intro p
    rw [applyAll_cons, ih, lastOf_cons]; split <;> rfl

theorem apply_gcb (g : Str → Str) (es : List Entry) (x : Nat) : ∀ p,
    applyAll (fun v p => { p with gcb := g v }) es x p = { p with gcb := lastOf g es x p.gcb } := by
  induction es with
  | nil => intro p; rfl
  | cons e es ih =>
    intro p
    rw [applyAll_cons, ih, lastOf_cons]; split <;> rfl

theorem apply_eaw (g : Str → Str) (es : List Entry) (x : Nat) : ∀ p,
    applyAll (fun v p => { p with eaw := g v }) es x p = { p with eaw := lastOf g es x p.eaw } := by
  induction es with
  | nil => intro p; rfl
  | cons e es ih =>
    intro p
    rw [applyAll_cons, ih, lastOf_cons]; split <;> rfl

theorem apply_flags (g : Str → Nat) (es : List Entry) (x : Nat) : ∀ p,
    applyAll (fun v p => { p with flags := p.flags ||| g v }) es x p = { p with flags := bitsOf g es x p.flags } := by
  induction es with
  | nil => intro p; rfl
  | cons e es ih =>
    intro p
    rw [applyAll_cons, ih, bitsOf_cons]; split <;> rfl

/-! ## The callbacks of `load` -/

theorem put_puts {v : Str} {cb : Callback} {f : Emitted → Emitted} (h : ∀ c s, cb c v s = put c f s) : Puts cb v f := by
  intro c hc s
  rw [h, put, if_pos (by omega)]

theorem keep_puts {v : Str} {cb : Callback} {f : Emitted → Emitted} (h : ∀ c s, cb c v s = .ok s) (hf : ∀ p, f p = p) : Puts cb v f := by
  intro c hc s
  rw [h]
  congr 1
  obtain ⟨p, q⟩ := s
  congr 1
  funext x
  rw [hf, ite_self]

theorem script_puts (v : Str) : Puts onScript v (fun p => { p with script := (named scriptTable v).getD "Invalid".toList }) := put_puts fun _ _ => rfl

theorem age_puts (v : Str) : Puts onAge v (fun p => { p with age := (named ageTable v).getD "Unassigned".toList }) := put_puts fun _ _ => rfl

theorem core_puts (v : Str) : Puts onCore v (fun p => { p with flags := p.flags ||| if v = "Grapheme_Extend".toList then 0x40 else 0 }) := by
  by_cases h : v = "Grapheme_Extend".toList
  · rw [if_pos h]
    apply put_puts
    intro c s
    unfold onCore
    rw [if_pos h]
  · rw [if_neg h]
    apply keep_puts
    · intro c s
      unfold onCore
      rw [if_neg h]
    · intro p; rw [Nat.or_zero]

theorem emoji_puts (v : Str) : Puts onEmoji v (fun p => { p with flags := p.flags ||| (flagOf v).getD 0 }) := by
  cases h : flagOf v with
  | none =>
    apply keep_puts
    · intro c s
      unfold onEmoji
      rw [h]
    · intro p; exact (congrArg (fun z => { p with flags := z }) (Nat.or_zero p.flags))
  | some b =>
    apply put_puts
    intro c s
    unfold onEmoji
    rw [h]
    rfl

theorem gc_puts {v : Str} (h : named gcTable v ≠ none) : Puts onCategory v (fun p => { p with gc := (named gcTable v).getD [] }) := by
  cases e : named gcTable v with
  | none => exact absurd e h
  | some g =>
    apply put_puts
    intro c s
    unfold onCategory
    rw [e]
    rfl

theorem gcb_puts {v : Str} (h : named gcbTable v ≠ none) : Puts onBreak v (fun p => { p with gcb := (named gcbTable v).getD [] }) := by
  cases e : named gcbTable v with
  | none => exact absurd e h
  | some g =>
    apply put_puts
    intro c s
    unfold onBreak
    rw [e]
    rfl

theorem eaw_puts {v : Str} (h : named eawTable v ≠ none) : Puts onWidth v (fun p => { p with eaw := (named eawTable v).getD [] }) := by
  cases e : named eawTable v with
  | none => exact absurd e h
  | some g =>
    apply put_puts
    intro c s
    unfold onWidth
    rw [e]
    rfl

end Verif.Load
