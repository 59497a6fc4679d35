import Verif.Lemmas.CxxFn4
/-!
# Reading `make_age`
-/

namespace Verif.Tg
open Verif.Utf8 (Mem)
open Verif.Spec.Cxx

def ageToks (e : Str × Str) : List Tok :=
  [.word "std".toList, p ':', p ':', .word "pair".toList, p '{', .str e.1, .word "sv".toList, p ',', .word "Age".toList, p ':', p ':', .word e.2, p '}', p ',']

def ageExpr (e : Str × Str) : Expr := .braced ["std".toList, "pair".toList] [] [.str e.1, .name ["Age".toList, e.2]]

theorem args_age (k : Nat) (e : Str × Str) (rest : List Tok) :
    readArgs (k + 21) '}' (ageToks e ++ rest) = (readArgs (k + 20) '}' rest).map fun x => (ageExpr e :: x.1, x.2) := by
  kernel_rfl

theorem args_ages (l : List (Str × Str)) (k : Nat) (rest : List Tok) :
    readArgs (k + 20 + l.length) '}' (l.flatMap ageToks ++ p '}' :: rest) = some (l.map ageExpr, rest) := by
  induction l with
  | nil => rfl
  | cons e l ih =>
    rw [List.flatMap_cons, List.append_assoc, show k + 20 + (e :: l).length = k + l.length + 21 by rw [List.length_cons]; omega, args_age,
      show k + l.length + 20 = k + 20 + l.length by omega, ih]
    rfl

def ageArgs (n : Str) : List Tok :=
  [.word "std".toList, p ':', p ':', .word "pair".toList, p '<', .word "std".toList, p ':', p ':', .word "string_view".toList, p ',',
   .word "Age".toList, p '>', p ',', .word n]

theorem primary_array (k : Nat) (n : Str) (b : List Tok) :
    readPrimary (k + 1) (.word "std".toList :: p ':' :: p ':' :: .word "array".toList :: p '<' :: (ageArgs n ++ (p '>' :: p '{' :: b))) =
      (readArgs k '}' b).map fun x => (.braced ["std".toList, "array".toList] (ageArgs n) x.1, x.2) := by
  kernel_rfl

theorem and_step (k : Nat) (ts : List Tok) : readAnd (k + 1) ts =
    match readEq k ts with
    | some (a, .punct '&' :: .punct '&' :: r) =>
      match readAnd k r with
      | some (b, r') => some (.bin "&&".toList a b, r')
      | none => none
    | x => x := rfl

theorem atom_unary (k : Nat) (w : Str) (r r' : List Tok) (a : Expr) (h : readPrimary (k + 1) (.word w :: r) = some (a, p ';' :: r')) :
    readUnary (k + 2) (.word w :: r) = some (a, p ';' :: r') := by
  have : readUnary (k + 2) (.word w :: r) = match readPrimary (k + 1) (.word w :: r) with | some (a, r) => postTail (k + 1) a r | none => none := rfl
  rw [this, h]; rfl

theorem atom_expr (k : Nat) (w : Str) (r r' : List Tok) (a : Expr) (h : readPrimary (k + 1) (.word w :: r) = some (a, p ';' :: r')) :
    readAnd (k + 6) (.word w :: r) = some (a, p ';' :: r') := by
  have h1 := atom_unary k w r r' a h
  have h2 : readShift (k + 3) (.word w :: r) = some (a, p ';' :: r') := by
    have : readShift (k + 3) (.word w :: r) = match readUnary (k + 2) (.word w :: r) with | some (a, r) => shiftTail (k + 2) a r | none => none := rfl
    rw [this, h1]; rfl
  have h3 : readLess (k + 4) (.word w :: r) = some (a, p ';' :: r') := by
    have : readLess (k + 4) (.word w :: r) = match readShift (k + 3) (.word w :: r) with
      | some (a, .punct '<' :: r) =>
        match readShift (k + 3) r with
        | some (b, r') => some (.bin "<".toList a b, r')
        | none => none
      | x => x := rfl
    rw [this, h2]; rfl
  have h4 : readEq (k + 5) (.word w :: r) = some (a, p ';' :: r') := by
    have : readEq (k + 5) (.word w :: r) = match readLess (k + 4) (.word w :: r) with
      | some (a, .punct '=' :: .punct '=' :: r) =>
        match readLess (k + 4) r with
        | some (b, r') => some (.bin "==".toList a b, r')
        | none => none
      | some (a, .punct '!' :: .punct '=' :: r) =>
        match readLess (k + 4) r with
        | some (b, r') => some (.bin "!=".toList a b, r')
        | none => none
      | x => x := rfl
    rw [this, h3]; rfl
  rw [and_step, h4]; rfl

theorem readStmt_static (r : List Tok) : readStmt (.word "static".toList :: .word "constexpr".toList :: .word "auto".toList :: .word "mappings".toList :: p '=' :: r) =
    match readExpr r with
    | some (e, .punct ';' :: r') => some (.const "mappings".toList e, r')
    | _ => none := by
  kernel_rfl

theorem readStmt_using (r : List Tok) : readStmt (.word "using".toList :: .word "namespace".toList :: .word "std".toList :: p ':' :: p ':' ::
    .word "string_view_literals".toList :: p ';' :: r) = some (.using, r) := by
  kernel_rfl

def ageTail : List Tok :=
  [.word "for".toList, p '(', .word "auto".toList, .word "const".toList, p '&', p '[', .word "key".toList, p ',', .word "val".toList, p ']', p ':',
   .word "mappings".toList, p ')', .word "if".toList, p '(', .word "key".toList, p '=', p '=', .word "value".toList, p ')', .word "return".toList,
   .word "val".toList, p ';', .word "return".toList, .word "std".toList, p ':', p ':', .word "nullopt".toList, p ';', p '}']

def ageLoop : Stmt := .forIf "key".toList "val".toList (.name ["mappings".toList])
  (.bin "==".toList (.name ["key".toList]) (.name ["value".toList])) (.name ["val".toList])

theorem ageTail_read (n : Nat) : readBody (n + 3) ageTail = some [ageLoop, .ret (.name ["std".toList, "nullopt".toList])] := by kernel_rfl

def ageMapping (l : List (Str × Str)) : Expr := .braced ["std".toList, "array".toList] (ageArgs (dec l.length)) (l.map ageExpr)

def ageFn (l : List (Str × Str)) : Fn :=
  ⟨[.word "std".toList, p ':', p ':', .word "optional".toList, p '<', .word "Age".toList, p '>'], "make_age".toList,
   [([.word "std".toList, p ':', p ':', .word "string_view".toList], "value".toList)],
   [.using, .const "mappings".toList (ageMapping l), ageLoop, .ret (.name ["std".toList, "nullopt".toList])]⟩

def ageHead : List Tok :=
  [.word "std".toList, p ':', p ':', .word "optional".toList, p '<', .word "Age".toList, p '>', .word "make_age".toList, p '(',
   .word "std".toList, p ':', p ':', .word "string_view".toList, .word "value".toList, p ')', .word "noexcept".toList, p '{']

theorem readFn_age (b : List Tok) : readFn (ageHead ++ b) = (readBody (b.length + 1) b).map fun body =>
    ⟨[.word "std".toList, p ':', p ':', .word "optional".toList, p '<', .word "Age".toList, p '>'], "make_age".toList,
     [([.word "std".toList, p ':', p ':', .word "string_view".toList], "value".toList)], body⟩ := by
  kernel_rfl

def ageTableToks (l : List (Str × Str)) : List Tok :=
  .word "std".toList :: p ':' :: p ':' :: .word "array".toList :: p '<' :: (ageArgs (dec l.length) ++ (p '>' :: p '{' ::
    (l.flatMap ageToks ++ p '}' :: p ';' :: ageTail)))

theorem ageTable_read (l : List (Str × Str)) : readExpr (ageTableToks l) = some (ageMapping l, p ';' :: ageTail) := by
  unfold readExpr
  have hle := flatMap_length_le ageToks l fun e _ => (by simp [ageToks])
  have hlen : l.length + 20 ≤ (ageTableToks l).length := by
    simp only [ageTableToks, ageArgs, List.length_cons, List.length_append, List.length_nil]
    omega
  obtain ⟨k, hk⟩ : ∃ k, 12 * (ageTableToks l).length + 12 = k + 20 + l.length + 6 := ⟨12 * (ageTableToks l).length + 12 - 26 - l.length, by omega⟩
  rw [hk]
  unfold ageTableToks
  apply atom_expr
  rw [primary_array, args_ages]
  rfl

theorem age_read (l : List (Str × Str)) :
    readFn (ageHead ++ (.word "using".toList :: .word "namespace".toList :: .word "std".toList :: p ':' :: p ':' :: .word "string_view_literals".toList :: p ';' ::
      .word "static".toList :: .word "constexpr".toList :: .word "auto".toList :: .word "mappings".toList :: p '=' :: ageTableToks l)) = some (ageFn l) := by
  rw [readFn_age, body_step, readStmt_using]
  simp only [List.length_cons]
  rw [body_step, readStmt_static, ageTable_read]
  have : 3 ≤ (ageTableToks l).length := by simp [ageTableToks]
  obtain ⟨k, hk⟩ : ∃ k, (ageTableToks l).length = k + 3 := ⟨_, (Nat.sub_add_cancel this).symm⟩
  rw [hk]
  have := ageTail_read (k + 11)
  show Option.map _ (Option.map _ (Option.map _ (readBody _ ageTail))) = _
  rw [show k + 3 + 11 = k + 11 + 3 by omega, this]
  rfl

def ageBodyToks (l : List (Str × Str)) : List Tok :=
  .word "using".toList :: .word "namespace".toList :: .word "std".toList :: p ':' :: p ':' :: .word "string_view_literals".toList :: p ';' ::
      .word "static".toList :: .word "constexpr".toList :: .word "auto".toList :: .word "mappings".toList :: p '=' :: ageTableToks l

theorem age_line (al : List (Str × Str)) (hk : ∀ e ∈ al, Plainly' e.1) (hv : ∀ e ∈ al, Word e.2) :
    Line (codeAge al) (ageHead ++ ageBodyToks (al.filter fun e => decide (e.2 ≠ "Unassigned".toList))) := by
  have hk' : ∀ e ∈ al.filter (fun e => decide (e.2 ≠ "Unassigned".toList)), Plainly' e.1 := fun e he => hk e (List.mem_filter.1 he).1
  have hv' : ∀ e ∈ al.filter (fun e => decide (e.2 ≠ "Unassigned".toList)), Word e.2 := fun e he => hv e (List.mem_filter.1 he).1
  unfold codeAge writeAges
  generalize al.filter (fun e => decide (e.2 ≠ "Unassigned".toList)) = l at hk' hv' ⊢
  have k0 := flat_clean (fun e : Str × Str => "        std::pair{ ".toList ++ ("\"".toList ++ (e.1 ++ ("\"".toList ++ ("sv".toList ++
    (", Age::".toList ++ (e.2 ++ " },\n".toList))))))) ageToks l (by
      intro e hm
      have k1 := Clean.word (a := ", Age::".toList) (ts := [p ',', .word "Age".toList, p ':', p ':']) (clean_lit 20 (by decide)) (hv' e hm)
        (clean_lit (t := " },\n".toList) (ts := [p '}', p ',']) 6 (by decide)) (by decide) (by decide)
      have k2 := Clean.word (clean_str (hk' e hm)) (w := "sv".toList) ⟨by decide, by decide⟩ k1 (by simp) (by simp)
      have k3 := Clean.append (clean_lit (t := "        std::pair{ ".toList) (ts := [.word "std".toList, p ':', p ':', .word "pair".toList, p '{']) 40 (by decide)) k2
      unfold ageToks
      simpa only [List.append_assoc, List.nil_append, List.append_nil, List.cons_append] using k3)
  have k1 := (clean_lit (t := "    // clang-format on\n    for (auto const& [key, val] : mappings)\n        if (key == value)\n            return val;\n".toList)
    (ts := ageTail.take 23) 200 (by decide +kernel)).append
    (clean_lit (t := "    return std::nullopt;\n}\n\n".toList) (ts := ageTail.drop 23) 100 (by decide +kernel))
  have k2 := k0.append (clean_indent.append ((clean_lit (t := "};".toList) (ts := [p '}', p ';']) 3 (by decide)).append (clean_newline.append k1)))
  have k3 := Clean.append (clean_lit (t := ">{".toList) (ts := [p '>', p '{']) 3 (by decide)) (clean_newline.append k2)
  have k4 := Clean.word (a := ", ".toList) (ts := [p ',']) (clean_lit 3 (by decide)) (dec_word l.length) k3 (by decide) (by simp)
  have k5 := Clean.mid (a := " = std::array<".toList) (ts := [p '=', .word "std".toList, p ':', p ':', .word "array".toList, p '<'])
    (clean_lit 20 (by decide)) (lexFn_ok (n := 60) (t := "std::pair<std::string_view, Age>".toList) (ts := ageElem) (by decide)) k4 (by decide) (by simp)
  have k6 := Clean.word (a := " ".toList) (ts := []) (clean_lit 3 (by decide)) (w := "mappings".toList) ⟨by decide, by decide⟩ k5 (by decide) (by simp)
  have k7 := clean_indent.line.mid (lexFn_ok (n := 40) (t := "static constexpr auto".toList)
    (ts := [.word "static".toList, .word "constexpr".toList, .word "auto".toList]) (by decide)) k6 (by simp)
  have k8 := Line.append (line_lit
    (t := "std::optional<Age> make_age(std::string_view value) noexcept {\n    using namespace std::string_view_literals;\n    // clang-format off\n".toList)
    (ts := ageHead ++ [.word "using".toList, .word "namespace".toList, .word "std".toList, p ':', p ':', .word "string_view_literals".toList, p ';'])
    300 (by decide +kernel)) k7
  unfold constArray
  have e : ∀ a b : Str, ∀ ts us, a = b → ts = us → Line a ts → Line b us := by rintro a b ts us rfl rfl h; exact h
  refine e _ _ _ _ ?_ ?_ k8
  · simp only [List.append_assoc]
  · kernel_rfl

theorem age_defines (al : List (Str × Str)) (hk : ∀ e ∈ al, Plainly' e.1) (hv : ∀ e ∈ al, Word e.2) :
    DefinesFn (codeAge al) (ageFn (al.filter fun e => decide (e.2 ≠ "Unassigned".toList))) :=
  ⟨_, (age_line al hk hv).reads, age_read _⟩

end Verif.Tg
