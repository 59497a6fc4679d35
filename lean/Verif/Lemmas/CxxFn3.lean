import Verif.Lemmas.CxxFn2
/-!
# Reading and running a `switch` with one label for every element of a list
-/

namespace Verif.Tg
open Verif.Utf8 (Mem)
open Verif.Spec.Cxx

/-! ## Reading -/

/-- The statements under a label end here. -/
def Ends (rest : List Tok) : Prop := ∀ n, readSimple (n + 1) rest = some ([], rest)

theorem ends_brace (r : List Tok) : Ends (p '}' :: r) := fun _ => rfl
theorem ends_case (r : List Tok) : Ends (.word "case".toList :: r) := fun _ => rfl

/-- A label and the statements under it. -/
structure CaseToks (ct : List Tok) (lab : List Str) (body : List Simple) : Prop where
  read : ∀ n rest, Ends rest → readCases (n + 5) (ct ++ rest) = (readCases (n + 4) rest).map fun x => ((lab, body) :: x.1, x.2)
  head : ∀ rest, Ends (ct ++ rest)
  ne : ct ≠ []

theorem readCases_flat {α : Type} (ct : α → List Tok) (lab : α → List Str) (body : α → List Simple) (l : List α) (tail after : List Tok)
    (tc : List (List Str × List Simple)) (h : ∀ a ∈ l, CaseToks (ct a) (lab a) (body a)) (he : Ends tail)
    (ht : ∀ n, readCases (n + 4) tail = some (tc, after)) :
    ∀ n, readCases (n + 4 + l.length) (l.flatMap ct ++ tail) = some (l.map (fun a => (lab a, body a)) ++ tc, after) ∧ Ends (l.flatMap ct ++ tail) := by
  induction l with
  | nil => exact fun n => ⟨ht n, he⟩
  | cons a l ih =>
    intro n
    have h1 := ih (fun x hx => h x (List.mem_cons_of_mem _ hx)) n
    have ha := h a List.mem_cons_self
    rw [List.flatMap_cons, List.append_assoc]
    refine ⟨?_, ha.head _⟩
    have := ha.read (n + l.length) _ h1.2
    rw [show n + 4 + (a :: l).length = n + l.length + 5 by rw [List.length_cons]; omega, this,
      show n + l.length + 4 = n + 4 + l.length by omega, h1.1]
    rfl

theorem flatMap_length_le {α : Type} (ct : α → List Tok) (l : List α) (h : ∀ a ∈ l, ct a ≠ []) : l.length ≤ (l.flatMap ct).length := by
  induction l with
  | nil => exact Nat.le_refl _
  | cons a l ih =>
    rw [List.flatMap_cons, List.length_append, List.length_cons]
    have h1 := ih fun x hx => h x (List.mem_cons_of_mem _ hx)
    have h2 := List.length_pos_iff.2 (h a List.mem_cons_self)
    omega

theorem readStmt_switch (x : Str) (r : List Tok) :
    readStmt (.word "switch".toList :: p '(' :: .word x :: p ')' :: p '{' :: r) = (readCases (r.length + 1) r).map fun y => (.switch x y.1, y.2) := by
  kernel_rfl

theorem switch_read {α : Type} (x : Str) (ct : α → List Tok) (lab : α → List Str) (body : α → List Simple) (l : List α) (tail after : List Tok)
    (tc : List (List Str × List Simple)) (h : ∀ a ∈ l, CaseToks (ct a) (lab a) (body a)) (he : Ends tail)
    (ht : ∀ n, readCases (n + 4) tail = some (tc, after)) (hlen : 3 ≤ tail.length) :
    readStmt (.word "switch".toList :: p '(' :: .word x :: p ')' :: p '{' :: (l.flatMap ct ++ tail)) =
      some (.switch x (l.map (fun a => (lab a, body a)) ++ tc), after) := by
  have h1 := flatMap_length_le ct l fun a ha => (h a ha).ne
  have h2 := (readCases_flat ct lab body l tail after tc h he ht ((l.flatMap ct).length + tail.length + 1 - 4 - l.length)).1
  rw [readStmt_switch, List.length_append]
  rw [show (l.flatMap ct).length + tail.length + 1 - 4 - l.length + 4 + l.length = (l.flatMap ct).length + tail.length + 1 by omega] at h2
  rw [h2]; rfl

theorem body_step (n : Nat) (w : Str) (r : List Tok) : readBody (n + 1) (.word w :: r) =
    match readStmt (.word w :: r) with | some (s, r') => (readBody n r').map (s :: ·) | none => none := rfl

/-! ## Running -/

theorem run_switch (n : Nat) (W : World) (σ : Vars) (x : Str) (cases : List (List Str × List Simple)) (r : List Stmt) {k : Nat}
    (hx : Vars.get σ x = some (.num k)) (hl : labelsOk W cases = true) :
    run n W σ (.switch x cases :: r) =
      (runSimple n W σ (selected W k cases)).bind fun d => match d with | .ret v => .val v | .next σ' => run n W σ' r := by
  show (match Vars.get σ x with
    | some (.num k) => if labelsOk W cases then
        (runSimple n W σ (selected W k cases)).bind fun d => match d with | .ret v => .val v | .next σ' => run n W σ' r
        else Res.stuck
    | _ => Res.stuck) = _
  rw [hx]
  show (if labelsOk W cases then _ else _) = _
  rw [if_pos hl]

theorem labelsOk_map {α : Type} (W : World) (lab : α → List Str) (body : α → List Simple) (num : α → Nat) (l : List α)
    (h : ∀ a ∈ l, label W (lab a) = some (num a)) (hn : (l.map num).Nodup) : labelsOk W (l.map fun a => (lab a, body a)) = true := by
  unfold labelsOk
  rw [allOf_map (fun c : List Str × List Simple => label W c.1) (fun a => (lab a, body a)) num l h]
  exact decide_eq_true hn

theorem selected_map {α : Type} (W : World) (lab : α → List Str) (body : α → List Simple) (num : α → Nat) (l : List α)
    (h : ∀ a ∈ l, label W (lab a) = some (num a)) (k : Nat) :
    (∃ a ∈ l, num a = k ∧ ∃ rest, selected W k (l.map fun a => (lab a, body a)) = body a ++ rest) ∨
    ((∀ a ∈ l, num a ≠ k) ∧ selected W k (l.map fun a => (lab a, body a)) = []) := by
  induction l with
  | nil => exact .inr ⟨fun a h => (by cases h), rfl⟩
  | cons a l ih =>
    have ha := h a List.mem_cons_self
    unfold selected
    rw [List.map_cons, List.dropWhile_cons]
    by_cases hk : num a = k
    · refine .inl ⟨a, List.mem_cons_self, hk, ?_⟩
      have : decide (label W (lab a) ≠ some k) = false := by rw [ha, hk]; simp
      simp only [this]
      exact ⟨_, rfl⟩
    · have : decide (label W (lab a) ≠ some k) = true := by rw [ha]; simp [hk]
      simp only [this, if_true]
      rcases ih fun x hx => h x (List.mem_cons_of_mem _ hx) with ⟨b, hb, h1, h2⟩ | ⟨h1, h2⟩
      · exact .inl ⟨b, List.mem_cons_of_mem _ hb, h1, h2⟩
      · refine .inr ⟨fun x hx => ?_, h2⟩
        cases hx with
        | head => exact hk
        | tail _ hx => exact h1 x hx

/-! ## The two `contains` -/

def containsToks (name : Str) (rest : List Tok) : List Tok :=
  .word "return".toList :: .word "contains".toList :: p '(' :: .word "tables".toList :: p ':' :: p ':' :: .word name :: p ',' :: .word "codepoint".toList ::
    p ')' :: p ';' :: rest

def containsExpr (name : Str) : Expr := .call ["contains".toList] [.name ["tables".toList, name], .name ["codepoint".toList]]

theorem simple_contains (n : Nat) (name : Str) (rest : List Tok) :
    readSimple (n + 1) (containsToks name rest) = (readSimple n rest).map fun x => (.ret (containsExpr name) :: x.1, x.2) := by
  kernel_rfl

theorem case_head (n : Nat) (e m w : Str) (rest : List Tok) :
    readCases (n + 1) (.word "case".toList :: .word e :: p ':' :: p ':' :: .word m :: p ':' :: .word w :: rest) =
      match readSimple n (.word w :: rest) with
      | some (b, r) => (readCases n r).map fun x => (([e, m], b) :: x.1, x.2)
      | none => none := by
  kernel_rfl

def caseToks (e m : Str) : List Tok := .word "case".toList :: .word e :: p ':' :: p ':' :: .word m :: p ':' :: containsToks m []

theorem caseToks_ok (e m : Str) : CaseToks (caseToks e m) [e, m] [.ret (containsExpr m)] where
  read := fun n rest h => by
    show readCases (n + 4 + 1) (.word "case".toList :: .word e :: p ':' :: p ':' :: .word m :: p ':' :: containsToks m rest) = _
    unfold containsToks
    rw [case_head (n + 4) e m]
    have := simple_contains (n + 3) m rest
    unfold containsToks at this
    rw [this, h (n + 2)]
    rfl
  head := fun rest => ends_case _
  ne := by simp [caseToks]

/-- the body of the two functions -/
def containsBody (x enum : Str) (names : List Str) (more : List (List Str × List Simple)) : List Stmt :=
  [.switch x (names.map (fun m => ([enum, m], [.ret (containsExpr m)])) ++ more), .ret (.name ["false".toList])]

def coreFn (names : List Str) : Fn :=
  ⟨[.word "bool".toList], "contains".toList, [([.word "Core_Property".toList], "prop".toList), ([.word "char32_t".toList], "codepoint".toList)],
   containsBody "prop".toList "Core_Property".toList names []⟩

def gcContainsFn (names : List Str) : Fn :=
  ⟨[.word "bool".toList], "contains".toList, [([.word "General_Category".toList], "generalCategory".toList), ([.word "char32_t".toList], "codepoint".toList)],
   containsBody "generalCategory".toList "General_Category".toList names
     [(["General_Category".toList, "Unspecified".toList], [.ret (.name ["false".toList])])]⟩

theorem caseContains_clean {enum name : Str} (he : Word enum) (hn : Word name) : Clean (caseContains enum name) (caseToks enum name) := by
  have k1 := Clean.word (a := ": return contains(tables::".toList)
    (ts := [p ':', .word "return".toList, .word "contains".toList, p '(', .word "tables".toList, p ':', p ':']) (clean_lit 60 (by decide +kernel)) hn
    (clean_lit (t := ", codepoint);\n".toList) (ts := [p ',', .word "codepoint".toList, p ')', p ';']) 30 (by decide +kernel)) (by decide) (by decide)
  have k2 := Clean.word (a := "::".toList) (ts := [p ':', p ':']) (clean_lit 10 (by decide)) hn k1 (by decide) (by simp)
  exact Clean.word (a := "        case ".toList) (ts := [.word "case".toList]) (clean_lit 30 (by decide +kernel)) he k2 (by decide) (by simp)

theorem flat_clean {α : Type} (f : α → Str) (ct : α → List Tok) (l : List α) (h : ∀ a ∈ l, Clean (f a) (ct a)) : Clean (l.flatMap f) (l.flatMap ct) := by
  induction l with
  | nil => exact .nil
  | cons a l ih => exact (h a List.mem_cons_self).append (ih fun x hx => h x (List.mem_cons_of_mem _ hx))

theorem readFn_contains (e x : Str) (b : List Tok) :
    readFn ([.word "bool".toList, .word "contains".toList, p '(', .word e, .word x, p ',', .word "char32_t".toList, .word "codepoint".toList, p ')',
      .word "noexcept".toList, p '{'] ++ b) = (readBody (b.length + 1) b).map fun body =>
        ⟨[.word "bool".toList], "contains".toList, [([.word e], x), ([.word "char32_t".toList], "codepoint".toList)], body⟩ := by
  kernel_rfl

def lastFalse : List Tok := [.word "return".toList, .word "false".toList, p ';', p '}']

theorem contains_read (x enum : Str) (names : List Str) (tail : List Tok) (tc : List (List Str × List Simple)) (he : Ends tail)
    (ht : ∀ n, readCases (n + 4) tail = some (tc, lastFalse)) (hlen : 3 ≤ tail.length) :
    readFn ([.word "bool".toList, .word "contains".toList, p '(', .word enum, .word x, p ',', .word "char32_t".toList, .word "codepoint".toList, p ')',
      .word "noexcept".toList, p '{'] ++ (.word "switch".toList :: p '(' :: .word x :: p ')' :: p '{' :: (names.flatMap (caseToks enum) ++ tail))) =
      some ⟨[.word "bool".toList], "contains".toList, [([.word enum], x), ([.word "char32_t".toList], "codepoint".toList)],
        containsBody x enum names tc⟩ := by
  rw [readFn_contains]
  rw [body_step, switch_read x (caseToks enum) (fun m => [enum, m]) (fun m => [.ret (containsExpr m)]) names tail lastFalse tc
    (fun m _ => caseToks_ok enum m) he ht hlen]
  show Option.map _ (Option.map _ (readBody (_ + 1 + 1) lastFalse)) = _
  rfl

def containsHead (enum x : Str) : List Tok :=
  [.word "bool".toList, .word "contains".toList, p '(', .word enum, .word x, p ',', .word "char32_t".toList, .word "codepoint".toList, p ')',
   .word "noexcept".toList, p '{']

def switchToks (enum x : Str) (names : List Str) (tail : List Tok) : List Tok :=
  .word "switch".toList :: p '(' :: .word x :: p ')' :: p '{' :: (names.flatMap (caseToks enum) ++ tail)

theorem core_line {names : List Str} (h : ∀ m ∈ names, Word m) : Line (codeCore names)
    (containsHead "Core_Property".toList "prop".toList ++ switchToks "Core_Property".toList "prop".toList names (p '}' :: lastFalse)) := by
  have k1 := flat_clean (caseContains "Core_Property".toList) (caseToks "Core_Property".toList) names
    fun m hm => caseContains_clean ⟨by decide, by decide⟩ (h m hm)
  have k2 := k1.append (clean_lit (t := "    }\n    return false;\n}\n\n".toList) (ts := p '}' :: lastFalse) 60 (by decide +kernel))
  have k3 := Line.append (line_lit (t := "bool contains(Core_Property prop, char32_t codepoint) noexcept {\n    switch (prop)\n    {\n".toList)
    (ts := [.word "bool".toList, .word "contains".toList, p '(', .word "Core_Property".toList, .word "prop".toList, p ',', .word "char32_t".toList,
      .word "codepoint".toList, p ')', .word "noexcept".toList, p '{', .word "switch".toList, p '(', .word "prop".toList, p ')', p '{'])
    200 (by decide +kernel)) k2.line
  exact k3

theorem core_defines {names : List Str} (h : ∀ m ∈ names, Word m) : DefinesFn (codeCore names) (coreFn names) :=
  ⟨_, (core_line h).reads, contains_read "prop".toList "Core_Property".toList names (p '}' :: lastFalse) [] (ends_brace _) (fun n => rfl) (by decide)⟩

def gcContainsTail : List Tok :=
  .word "case".toList :: .word "General_Category".toList :: p ':' :: p ':' :: .word "Unspecified".toList :: p ':' :: .word "return".toList ::
    .word "false".toList :: p ';' :: p '}' :: lastFalse

theorem gcContains_line {names : List Str} (h : ∀ m ∈ names, Word m) : Line (codeGcContains names)
    (containsHead "General_Category".toList "generalCategory".toList ++
      switchToks "General_Category".toList "generalCategory".toList names gcContainsTail) := by
  have k1 := flat_clean (caseContains "General_Category".toList) (caseToks "General_Category".toList) names
    fun m hm => caseContains_clean ⟨by decide, by decide⟩ (h m hm)
  have k2 := k1.append (clean_lit (t := "        case General_Category::Unspecified: return false;\n    }\n    return false;\n}\n\n".toList)
    (ts := gcContainsTail) 200 (by decide +kernel))
  have k3 := Line.append (line_lit (t := "bool contains(General_Category generalCategory, char32_t codepoint) noexcept {\n    switch (generalCategory)\n    {\n".toList)
    (ts := [.word "bool".toList, .word "contains".toList, p '(', .word "General_Category".toList, .word "generalCategory".toList, p ',', .word "char32_t".toList,
      .word "codepoint".toList, p ')', .word "noexcept".toList, p '{', .word "switch".toList, p '(', .word "generalCategory".toList, p ')', p '{'])
    200 (by decide +kernel)) k2.line
  exact k3

theorem gcContains_defines {names : List Str} (h : ∀ m ∈ names, Word m) : DefinesFn (codeGcContains names) (gcContainsFn names) :=
  ⟨_, (gcContains_line h).reads, contains_read "generalCategory".toList "General_Category".toList names gcContainsTail
    [(["General_Category".toList, "Unspecified".toList], [.ret (.name ["false".toList])])] (ends_case _) (fun n => by kernel_rfl) (by decide)⟩

end Verif.Tg
