import Verif.Model.TgEmit
import Verif.Lemmas.CxxInit

/-!
# Lemmas: reading the emitted text
-/

namespace Verif.Tg
open Verif.Spec.Cxx (Tok Lexes Apart isWord isDigit digit value IntLit lexFn lexFn_ok lexes_append Val Init Inits Ident Path p Reads ArrayInit Declares arrayType TypeName bracketed)

/-- begins / ends (if at all) with a character that is not part of a word -/
def startsOpen (a : Str) : Bool := !(a.head?.elim false isWord)
def endsOpen (a : Str) : Bool := !(a.getLast?.elim false isWord)

/-- A piece of text with these tokens that can be put beside others. -/
def Clean (a : Str) (ts : List Tok) : Prop := Lexes a ts ∧ startsOpen a = true ∧ endsOpen a = true

theorem startsOpen_append {a b : Str} (h : startsOpen a = true) (h' : a = [] → startsOpen b = true) : startsOpen (a ++ b) = true := by
  cases a with
  | nil => exact h' rfl
  | cons x a => exact h

theorem endsOpen_append {a b : Str} (h : endsOpen b = true) (h' : b = [] → endsOpen a = true) : endsOpen (a ++ b) = true := by
  cases b with
  | nil => rw [List.append_nil]; exact h' rfl
  | cons x b =>
    unfold endsOpen at h ⊢
    rw [List.getLast?_append_of_ne_nil _ (by simp)]
    exact h

theorem apart_start {a b : Str} (h : startsOpen b = true) : Apart a b := by
  intro c d _ hd _
  unfold startsOpen at h
  rw [hd] at h
  simpa using h

theorem apart_end {a b : Str} (h : endsOpen a = true) : Apart a b := by
  intro c d hc _ hw
  unfold endsOpen at h
  rw [hc] at h
  simp only [Option.elim, hw, Bool.not_true, Bool.false_eq_true] at h

theorem Clean.nil : Clean [] [] := ⟨.nil, rfl, rfl⟩

theorem Clean.append {a b : Str} {ts us : List Tok} (ha : Clean a ts) (hb : Clean b us) : Clean (a ++ b) (ts ++ us) :=
  ⟨lexes_append ha.1 hb.1 (apart_end ha.2.2), startsOpen_append ha.2.1 fun _ => hb.2.1, endsOpen_append hb.2.2 fun _ => ha.2.2⟩

/-- a word -/
def Word (w : Str) : Prop := w ≠ [] ∧ ∀ c ∈ w, isWord c = true

theorem Word.lexes {w : Str} (h : Word w) : Lexes w [.word w] := by
  have := Lexes.word (w := w) (t := []) h.1 h.2 (by simp) .nil
  simpa using this

theorem Word.append {a b : Str} (ha : Word a) (hb : Word b) : Word (a ++ b) :=
  ⟨by simp [ha.1], fun c hc => (List.mem_append.1 hc).elim (ha.2 c) (hb.2 c)⟩

/-- a text between two pieces -/
theorem Clean.mid {a b w : Str} {ts ws us : List Tok} (ha : Clean a ts) (hw : Lexes w ws) (hb : Clean b us) (hne : a ≠ []) (hne' : b ≠ []) :
    Clean (a ++ (w ++ b)) (ts ++ (ws ++ us)) := by
  refine ⟨lexes_append ha.1 (lexes_append hw hb.1 (apart_start hb.2.1)) (apart_end ha.2.2), ?_, ?_⟩
  · exact startsOpen_append ha.2.1 fun e => absurd e hne
  · exact endsOpen_append (endsOpen_append hb.2.2 fun e => absurd e hne') fun e => absurd e (by simp [hne'])

/-- a word between two pieces -/
theorem Clean.word {a b w : Str} {ts us : List Tok} (ha : Clean a ts) (hw : Word w) (hb : Clean b us) (hne : a ≠ []) (hne' : b ≠ []) :
    Clean (a ++ (w ++ b)) (ts ++ .word w :: us) := ha.mid hw.lexes hb hne hne'

/-- Lines: a text that ends with a character that is not part of a word, and may begin with a word. -/
def Line (a : Str) (ts : List Tok) : Prop := Lexes a ts ∧ endsOpen a = true

theorem Clean.line {a : Str} {ts : List Tok} (h : Clean a ts) : Line a ts := ⟨h.1, h.2.2⟩

theorem Line.append {a b : Str} {ts us : List Tok} (ha : Line a ts) (hb : Line b us) : Line (a ++ b) (ts ++ us) :=
  ⟨lexes_append ha.1 hb.1 (apart_end ha.2), endsOpen_append hb.2 fun _ => ha.2⟩

theorem Line.mid {a b w : Str} {ts ws us : List Tok} (ha : Line a ts) (hw : Lexes w ws) (hb : Clean b us) (hne' : b ≠ []) :
    Line (a ++ (w ++ b)) (ts ++ (ws ++ us)) :=
  ha.append ⟨lexes_append hw hb.1 (apart_start hb.2.1), endsOpen_append hb.2.2 fun e => absurd e hne'⟩

theorem Line.reads {a : Str} {ts : List Tok} (h : Line a ts) : Reads a ts := h.1.reads

theorem line_lit {t : Str} {ts : List Tok} (n : Nat) (h : lexFn n t = some ts ∧ endsOpen t = true) : Line t ts :=
  ⟨lexFn_ok h.1, h.2⟩

/-- a piece without variable parts -/
theorem clean_lit {t : Str} {ts : List Tok} (n : Nat) (h : lexFn n t = some ts ∧ startsOpen t = true ∧ endsOpen t = true) : Clean t ts :=
  ⟨lexFn_ok h.1, h.2.1, h.2.2⟩

/-- what a comment may say -/
def CommentOk (c : Str) : Prop := '\n' ∉ c ∧ c.getLast? ≠ some '\\'

theorem clean_remarkLine {c : Str} (h : CommentOk c) : Clean (remarkLine c) [] := by
  have hl : ' ' :: c ≠ [] := by simp
  have h1 : (' ' :: c).getLast? ≠ some '\\' := by
    cases c with
    | nil => decide
    | cons x c => rw [List.getLast?_cons_cons]; exact h.2
  have := Lexes.comment (c := ' ' :: c) (t := []) (by simpa using h.1) h1 .nil
  refine ⟨?_, rfl, ?_⟩
  · have e : remarkLine c = '/' :: '/' :: (' ' :: c) ++ '\n' :: [] := by simp [remarkLine]
    rw [e]; exact this
  · exact endsOpen_append (by decide) fun e => absurd e (by decide)

theorem remark_eq (c : Str) : remark c = " ".toList ++ remarkLine c := by
  simp [remark, remarkLine]

theorem clean_remark {c : Str} (h : CommentOk c) : Clean (remark c) [] := by
  rw [remark_eq]
  exact (clean_lit (ts := []) 2 (by decide)).append (clean_remarkLine h)

theorem Clean.reads {a : Str} {ts : List Tok} (h : Clean a ts) : Reads a ts := h.1.reads

/-! ## Numbers -/

theorem upDigit_lt {v : Nat} (h : v < 16) : digit (upDigit v) = v ∧ isWord (upDigit v) = true ∧ (upDigit v = '0' → v = 0) := by
  have : ∀ v < 16, digit (upDigit v) = v ∧ isWord (upDigit v) = true ∧ (upDigit v = '0' → v = 0) := by decide
  exact this v h

theorem value_append (b : Nat) (s t : Str) : value b (s ++ t) = t.foldl (fun n c => n * b + digit c) (value b s) := by
  unfold value; rw [List.foldl_append]

theorem numText_ok (b : Nat) (hb : 2 ≤ b) (hb' : b ≤ 16) (fuel n : Nat) (h : n < fuel) :
    numText b fuel n ≠ [] ∧ (∀ c ∈ numText b fuel n, digit c < b ∧ isWord c = true) ∧ value b (numText b fuel n) = n ∧
    ((numText b fuel n).head? = some '0' → n = 0) := by
  induction fuel generalizing n with
  | zero => omega
  | succ fuel ih =>
    unfold numText
    by_cases hn : n < b
    · rw [if_pos hn]
      obtain ⟨h1, h2, h3⟩ := upDigit_lt (v := n) (by omega)
      refine ⟨by simp, ?_, ?_, ?_⟩
      · intro c hc
        simp only [List.mem_singleton] at hc
        rw [hc, h1]; exact ⟨hn, h2⟩
      · simp [value, h1]
      · intro e; simp only [List.head?_cons, Option.some.injEq] at e; exact h3 e
    · rw [if_neg hn]
      have hdiv : n / b < n := Nat.div_lt_self (by omega) (by omega)
      have hpos : 0 < n / b := Nat.div_pos (by omega) (by omega)
      obtain ⟨i1, i2, i3, i4⟩ := ih (n / b) (by omega)
      have hm : n % b < b := Nat.mod_lt _ (by omega)
      obtain ⟨h1, h2, h3⟩ := upDigit_lt (v := n % b) (by omega)
      refine ⟨by simp, ?_, ?_, ?_⟩
      · intro c hc
        rcases List.mem_append.1 hc with hc | hc
        · exact i2 c hc
        · simp only [List.mem_singleton] at hc
          rw [hc, h1]; exact ⟨hm, h2⟩
      · rw [value_append, i3]
        simp only [List.foldl_cons, List.foldl_nil, h1]
        rw [Nat.mul_comm]; exact Nat.div_add_mod n b
      · intro e
        rw [List.head?_append_of_ne_nil _ i1] at e
        have := i4 e
        omega

theorem dec_word (n : Nat) : Word (dec n) := by
  obtain ⟨h1, h2, _, _⟩ := numText_ok 10 (by omega) (by omega) (n + 1) n (by omega)
  exact ⟨h1, fun c hc => (h2 c hc).2⟩

theorem dec_lit (n : Nat) : IntLit (dec n) n := by
  obtain ⟨h1, h2, h3, h4⟩ := numText_ok 10 (by omega) (by omega) (n + 1) n (by omega)
  by_cases hn : n = 0
  · subst hn
    have : dec 0 = '0' :: [] := by decide
    rw [this]
    exact IntLit.oct (ds := []) (by simp)
  · have := IntLit.dec (ds := dec n) h1 (fun c hc => (h2 c hc).1) (fun e => hn (h4 e))
    have e : value 10 (dec n) = n := h3
    rw [e] at this
    exact this

theorem value_zeros (b k : Nat) (s : Str) : value b (List.replicate k '0' ++ s) = value b s := by
  rw [value_append]
  have : value b (List.replicate k '0') = 0 := by
    induction k with
    | zero => rfl
    | succ k ih =>
      have hz : digit '0' = 0 := by decide
      unfold value at ih ⊢
      rw [List.replicate_succ, List.foldl_cons, hz]
      simpa using ih
  rw [this]; rfl

theorem cp_word (n : Nat) : Word (cp n) := by
  obtain ⟨h1, h2, _, _⟩ := numText_ok 16 (by omega) (by omega) (n + 1) n (by omega)
  refine ⟨by simp [cp], ?_⟩
  intro c hc
  unfold cp fill at hc
  rcases List.mem_append.1 hc with hc | hc
  · exact (by decide : ∀ c ∈ "0x".toList, isWord c = true) c hc
  · rcases List.mem_append.1 hc with hc | hc
    · rw [(List.mem_replicate.1 hc).2]; decide
    · exact (h2 c hc).2

theorem cp_lit (n : Nat) : IntLit (cp n) n := by
  obtain ⟨h1, h2, h3, _⟩ := numText_ok 16 (by omega) (by omega) (n + 1) n (by omega)
  have := IntLit.hex (ds := fill '0' 4 (numText 16 (n + 1) n)) (by simp [fill, h1]) (by
    intro c hc
    unfold fill at hc
    rcases List.mem_append.1 hc with hc | hc
    · rw [(List.mem_replicate.1 hc).2]; decide
    · exact (h2 c hc).1)
  rw [fill, value_zeros, h3] at this
  exact this

theorem binstr_word (n : Nat) : Word (binstr n) := by
  refine ⟨by simp [binstr], ?_⟩
  intro c hc
  unfold binstr at hc
  rcases List.mem_append.1 hc with hc | hc
  · exact (by decide : ∀ c ∈ "0b".toList, isWord c = true) c hc
  · rw [List.mem_map] at hc
    obtain ⟨i, _, rfl⟩ := hc
    by_cases h : n / 2 ^ i % 2 ≠ 0
    · rw [if_pos h]; decide
    · rw [if_neg h]; decide

theorem binstr_lit {n : Nat} (h : n < 256) : IntLit (binstr n) n := by
  have hall : ∀ n < 256, value 2 ([7, 6, 5, 4, 3, 2, 1, 0].map fun i => if n / 2 ^ i % 2 ≠ 0 then '1' else '0') = n := by decide +kernel
  have := IntLit.bin (ds := [7, 6, 5, 4, 3, 2, 1, 0].map fun i => if n / 2 ^ i % 2 ≠ 0 then '1' else '0') (by simp) (by
    intro c hc
    rw [List.mem_map] at hc
    obtain ⟨i, _, rfl⟩ := hc
    by_cases h : n / 2 ^ i % 2 ≠ 0
    · rw [if_pos h]; decide
    · rw [if_neg h]; decide)
  rw [hall n h] at this
  exact this

/-! ## Rows -/

/-- Elements that are each followed by a comma. -/
theorem rows_clean {α : Type} (elem : List Tok) (f : α → Str) (toks : α → List Tok) (val : α → Val) (l : List α)
    (hf : ∀ x ∈ l, Clean (f x) (toks x ++ [p ',']) ∧ Init elem (toks x) (val x)) :
    ∃ ts, Clean (l.flatMap f) ts ∧ Inits elem ts (l.map val) ∧ ∀ x r, l = x :: r → ∃ us, ts = toks x ++ p ',' :: us := by
  induction l with
  | nil => exact ⟨[], .nil, .nil, fun _ _ h => by simp at h⟩
  | cons x l ih =>
    obtain ⟨h1, h2⟩ := hf x (by simp)
    obtain ⟨ts, i1, i2, _⟩ := ih fun y hy => hf y (by simp [hy])
    refine ⟨toks x ++ [p ','] ++ ts, ?_, ?_, ?_⟩
    · rw [List.flatMap_cons]; exact h1.append i1
    · have := Inits.cons h2 i2
      simpa using this
    · intro y r e
      injection e with e _
      subst e
      exact ⟨ts, by simp⟩

/-- Elements with a comma between them. -/
theorem commaRows_ex {α : Type} (elem : List Tok) (f g : α → Str) (val : α → Val) (l : List α)
    (hf : ∀ x ∈ l, ∃ toks, Clean (f x) toks ∧ Clean (g x) [] ∧ Init elem toks (val x)) :
    ∃ ts, Clean (commaRows f g l) ts ∧ Inits elem ts (l.map val) := by
  induction l with
  | nil => exact ⟨[], .nil, .nil⟩
  | cons x l ih =>
    obtain ⟨toks, h1, h2, h3⟩ := hf x (by simp)
    cases l with
    | nil =>
      refine ⟨toks, ?_, Inits.one h3⟩
      have := h1.append h2
      rw [List.append_nil] at this
      exact this
    | cons y l =>
      obtain ⟨ts, i1, i2⟩ := ih fun y hy => hf y (by simp [hy])
      have hc : Clean ",".toList [p ','] := clean_lit 2 (by decide)
      refine ⟨toks ++ p ',' :: ts, ?_, Inits.cons h3 i2⟩
      have := h1.append (hc.append (h2.append i1))
      simpa [commaRows] using this

theorem commaRows_clean {α : Type} (elem : List Tok) (f g : α → Str) (toks : α → List Tok) (val : α → Val) (l : List α)
    (hf : ∀ x ∈ l, Clean (f x) (toks x) ∧ Clean (g x) [] ∧ Init elem (toks x) (val x)) :
    ∃ ts, Clean (commaRows f g l) ts ∧ Inits elem ts (l.map val) :=
  commaRows_ex elem f g val l fun x hx => ⟨toks x, hf x hx⟩

/-- `0x…, 0x…, …` between two pieces -/
theorem cpList_clean (elem : List Tok) (l : List Nat) (a b : Str) (ta tb : List Tok) (ha : Clean a ta) (hb : Clean b tb)
    (hne : a ≠ []) (hne' : b ≠ []) :
    ∃ ts, Clean (a ++ (cpList l ++ b)) (ta ++ (ts ++ tb)) ∧ Inits elem ts (l.map .num) ∧
      ∀ us vs, l ≠ [] → Inits elem us vs → Inits elem (ts ++ p ',' :: us) (l.map .num ++ vs) := by
  induction l generalizing a ta with
  | nil => exact ⟨[], by simpa [cpList] using ha.append hb, .nil, by simp⟩
  | cons x l ih =>
    cases l with
    | nil =>
      refine ⟨[.word (cp x)], ?_, Inits.one (.num (cp_lit x)), ?_⟩
      · have := ha.word (cp_word x) hb hne hne'
        simpa [cpList] using this
      · intro us vs _ hi
        exact Inits.cons (.num (cp_lit x)) hi
    | cons y l =>
      have hc : Clean ", ".toList [p ','] := clean_lit 3 (by decide)
      obtain ⟨ts, i1, i2, i3⟩ := ih (a ++ (cp x ++ ", ".toList)) (ta ++ .word (cp x) :: [p ',']) (ha.word (cp_word x) hc hne (by decide)) (by simp [hne])
      refine ⟨[.word (cp x)] ++ p ',' :: ts, ?_, Inits.cons (.num (cp_lit x)) i2, ?_⟩
      · have e : a ++ (cpList (x :: y :: l) ++ b) = a ++ (cp x ++ ", ".toList) ++ (cpList (y :: l) ++ b) := by
          simp only [cpList, List.append_assoc]
        rw [e]
        simpa using i1
      · intro us vs _ hi
        have := Inits.cons (.num (cp_lit x)) (i3 us vs (by simp) hi)
        simpa using this

/-! ## Declarations -/

theorem constexprArray_ok {elemText name elements : Str} {elem ts : List Tok} {vs : List Val} (hel : Lexes elemText elem) (hname : Ident name)
    (hc : Clean elements ts) (hi : Inits elem ts vs) :
    ∃ us, Line (constexprArray elemText name vs.length elements) us ∧ Declares us elem name vs := by
  have h1 : Clean (elements ++ "}};\n".toList) (ts ++ [p '}', p '}', p ';']) := hc.append (clean_lit 5 (by decide))
  have h2 : Clean (" {{\n".toList ++ (elements ++ "}};\n".toList)) ([p '{', p '{'] ++ (ts ++ [p '}', p '}', p ';'])) :=
    (clean_lit 5 (by decide)).append h1
  have h3 := Clean.word (a := "> ".toList) (ts := [p '>']) (clean_lit 3 (by decide)) ⟨hname.1, hname.2.1⟩ h2 (by decide) (by simp)
  have h4 := Clean.word (a := ", ".toList) (ts := [p ',']) (clean_lit 3 (by decide)) (dec_word vs.length) h3 (by decide) (by simp)
  have h5 := Line.mid (a := "inline constexpr std::array<".toList)
    (ts := [.word "inline".toList, .word "constexpr".toList, .word "std".toList, p ':', p ':', .word "array".toList, p '<'])
    (line_lit 40 (by decide)) hel h4 (by simp)
  refine ⟨_, h5, ?_⟩
  have := Declares.variable (elem := elem) (n := dec vs.length) (name := name) [.word "inline".toList, .word "constexpr".toList] [] (by simp) (by simp)
    (dec_lit _) hname (ArrayInit.nested hi)
  simpa [arrayType] using this

theorem constArray_ok {indent spec name elemText open' elements close : Str} {specToks elem ts : List Tok} {vs : List Val}
    (hin : Clean indent []) (hspec : Lexes spec specToks) (hmem : specToks ∈ [[.word "auto".toList, .word "static".toList, .word "const".toList],
      [.word "auto".toList, .word "const".toList], [.word "static".toList, .word "constexpr".toList, .word "auto".toList]])
    (hel : Lexes elemText elem) (hname : Ident name) (ho : Clean open' []) (hcl : Clean close [])
    (hc : Clean elements ts) (hi : Inits elem ts vs) (hd : ts.head? ≠ some (p '{')) :
    ∃ us, Line (constArray indent spec name elemText vs.length open' elements close) us ∧ Declares us elem name vs := by
  have h1 := hc.append (hin.append (Clean.append (clean_lit (t := "};".toList) (ts := [p '}', p ';']) 3 (by decide)) hcl))
  have h2 := Clean.append (clean_lit (t := ">{".toList) (ts := [p '>', p '{']) 3 (by decide)) (ho.append h1)
  have h3 := Clean.word (a := ", ".toList) (ts := [p ',']) (clean_lit 3 (by decide)) (dec_word vs.length) h2 (by decide) (by simp)
  have h4 := Clean.mid (a := " = std::array<".toList) (ts := [p '=', .word "std".toList, p ':', p ':', .word "array".toList, p '<'])
    (clean_lit 20 (by decide)) hel h3 (by decide) (by simp)
  have h5 := Clean.word (a := " ".toList) (ts := []) (clean_lit 3 (by decide)) ⟨hname.1, hname.2.1⟩ h4 (by decide) (by simp)
  have h6 := hin.line.mid hspec h5 (by simp)
  refine ⟨_, h6, ?_⟩
  have := Declares.auto (elem := elem) (n := dec vs.length) (name := name) specToks hmem (dec_lit _) hname (ArrayInit.flat hi hd)
  simpa [arrayType] using this

end Verif.Tg
