import Lean.Elab.Tactic
import Verif.Spec.CxxFn
import Verif.Lemmas.Cxx
import Verif.Lemmas.TgEmit4
import Verif.Model.TgCode
/-!
# Reading and running the generated functions
-/

namespace Verif.Tg
open Verif.Utf8 (Mem)
open Verif.Spec.Cxx

theorem at?_map {α β : Type} (g : α → β) (l : List α) (i : Nat) :
    Tables.at? (l.map g) i = match Tables.at? l i with | .ok a => .ok (g a) | .oob => .oob := by
  unfold Tables.at?
  rw [List.getElem?_map]
  cases l[i]? <;> rfl

/-- the value of an entry replaced -/
def mapEntry {α β : Type} (f : α → β) (e : Tables.Entry α) : Tables.Entry β := ⟨e.lo, e.hi, f e.val⟩

def mapMem {α β : Type} (f : α → β) : Mem α → Mem β
  | .ok a => .ok (f a)
  | .oob => .oob

theorem searchLoop_map {α β : Type} (f : α → β) (tab : List (Tables.Entry α)) (c a b : Nat) :
    Tables.searchLoop (tab.map (mapEntry f)) c a b = mapMem (Option.map f) (Tables.searchLoop tab c a b) := by
  induction h : b - a using Nat.strongRecOn generalizing a b with
  | _ n ih =>
    unfold Tables.searchLoop
    simp only [at?_map]
    split
    · rename_i hab
      cases Tables.at? tab (a + (b - a) / 2) with
      | oob => rfl
      | ok I =>
        show (if (mapEntry f I).hi < c then _ else if (mapEntry f I).lo > c then _ else _) = mapMem (Option.map f) (if I.hi < c then _ else if I.lo > c then _ else _)
        by_cases h1 : I.hi < c
        · rw [if_pos (show (mapEntry f I).hi < c from h1), if_pos h1]
          by_cases h2 : a + (b - a) / 2 = b
          · rw [if_pos h2, if_pos h2]; rfl
          · rw [if_neg h2, if_neg h2]; exact ih _ (by omega) _ _ rfl
        · rw [if_neg (show ¬ (mapEntry f I).hi < c from h1), if_neg h1]
          by_cases h2 : I.lo > c
          · rw [if_pos (show (mapEntry f I).lo > c from h2), if_pos h2]
            by_cases h3 : a + (b - a) / 2 = 0
            · rw [if_pos h3, if_pos h3]; rfl
            · rw [if_neg h3, if_neg h3]; exact ih _ (by omega) _ _ rfl
          · rw [if_neg (show ¬ (mapEntry f I).lo > c from h2), if_neg h2]; rfl
    · split
      · cases Tables.at? tab a with
        | oob => rfl
        | ok I =>
          show (if (mapEntry f I).lo ≤ c ∧ c ≤ (mapEntry f I).hi then _ else _) = mapMem (Option.map f) (if I.lo ≤ c ∧ c ≤ I.hi then _ else _)
          by_cases h1 : I.lo ≤ c ∧ c ≤ I.hi
          · rw [if_pos (show (mapEntry f I).lo ≤ c ∧ c ≤ (mapEntry f I).hi from h1), if_pos h1]; rfl
          · rw [if_neg (show ¬ ((mapEntry f I).lo ≤ c ∧ c ≤ (mapEntry f I).hi) from h1), if_neg h1]; rfl
      · rfl

theorem search_map {α β : Type} (f : α → β) (tab : List (Tables.Entry α)) (c : Nat) :
    Tables.search (tab.map (mapEntry f)) c = mapMem (Option.map f) (Tables.search tab c) := by
  unfold Tables.search
  rw [List.length_map]
  exact searchLoop_map f tab c _ _

theorem lowerBoundLoop_map {α β : Type} (g : α → β) (tab : List α) (before : β → Bool) (a len : Nat) :
    Tables.lowerBoundLoop (tab.map g) before a len = Tables.lowerBoundLoop tab (fun x => before (g x)) a len := by
  induction len using Nat.strongRecOn generalizing a with
  | _ n ih =>
    unfold Tables.lowerBoundLoop
    simp only [at?_map]
    split
    · rfl
    · cases Tables.at? tab (a + n / 2) with
      | oob => rfl
      | ok e =>
        simp only
        split
        · exact ih _ (by omega) _
        · exact ih _ (by omega) _

theorem lowerBound_map {α β : Type} (g : α → β) (tab : List α) (before : β → Bool) :
    Tables.lowerBound (tab.map g) before = Tables.lowerBound tab (fun x => before (g x)) := by
  unfold Tables.lowerBound
  rw [List.length_map]
  exact lowerBoundLoop_map g tab before _ _

theorem allOf_map {α β γ : Type} (f : β → Option γ) (g : α → β) (k : α → γ) (l : List α) (h : ∀ a ∈ l, f (g a) = some (k a)) :
    allOf f (l.map g) = some (l.map k) := by
  induction l with
  | nil => rfl
  | cons a l ih =>
    have h1 := h a List.mem_cons_self
    have h2 := ih fun x hx => h x (List.mem_cons_of_mem _ hx)
    show (match f (g a), allOf f (l.map g) with | some b, some m => some (b :: m) | _, _ => none) = _
    rw [h1, h2]; rfl



open Lean Elab Tactic Meta in
/-- `a = b` by evaluation, in the kernel. -/
elab "kernel_rfl" : tactic => do
  let g ← getMainGoal
  let t ← instantiateMVars (← g.getType)
  let some (_, a, _) := t.eq? | throwError "not an equation"
  g.assign (← mkEqRefl a)

/-! ## Running -/

theorem bind_val {α β : Type} (a : α) (f : α → Res β) : (Res.val a).bind f = f a := rfl

section
variable (n : Nat) (W : World) (σ : Vars)

theorem eval_name (q : List Str) : eval (n + 1) W σ (.name q) = evalName W σ q := rfl
theorem eval_str (s : Str) : eval (n + 1) W σ (.str s) = .val (.text s) := rfl
theorem eval_call2 (f : List Str) (a b : Expr) : eval (n + 1) W σ (.call f [a, b]) = (evalsWith (eval n W σ) [a, b]).bind (evalCall W f) := rfl
theorem eval_method (e : Expr) (m : Str) (args : List Expr) : eval (n + 1) W σ (.method e m args) =
    (eval n W σ e).bind fun a => (evalsWith (eval n W σ) args).bind (evalMethod a m) := rfl
theorem eval_arrow (e : Expr) (m : Str) : eval (n + 1) W σ (.arrow e m) = (eval n W σ e).bind fun a => evalArrow a m := rfl
theorem eval_cast (t : List Str) (ta : List Tok) (args : List Expr) : eval (n + 1) W σ (.cast t ta args) =
    (evalsWith (eval n W σ) args).bind (evalCast t ta) := rfl
theorem eval_braced (t : List Str) (ta : List Tok) (args : List Expr) : eval (n + 1) W σ (.braced t ta args) =
    (evalsWith (eval n W σ) args).bind (evalBraced W t ta) := rfl
theorem evals_nil (ev : Expr → Res Value) : evalsWith ev [] = .val [] := rfl
theorem evals_cons (ev : Expr → Res Value) (e : Expr) (es : List Expr) : evalsWith ev (e :: es) =
    (ev e).bind fun v => (evalsWith ev es).bind fun vs => .val (v :: vs) := rfl

theorem get_same (x : Str) (v : Value) : Vars.get ((x, v) :: σ) x = some v := if_pos rfl
theorem get_other {x y : Str} (h : y ≠ x) (v : Value) : Vars.get ((y, v) :: σ) x = Vars.get σ x := if_neg h

theorem name_var {x : Str} {v : Value} (h : Vars.get σ x = some v) : evalName W σ [x] = .val v := by
  show (match Vars.get σ x with
    | some v => Res.val v
    | none => if x = "false".toList then Res.val (Value.bool false) else if x = "true".toList then Res.val (Value.bool true) else .stuck) = _
  rw [h]

theorem name_table {t : Str} {rows : List Val} (h : W.table t = some rows) : evalName W σ ["tables".toList, t] = .val (.arr rows) := by
  show (match W.table t with | some rows => Res.val (Value.arr rows) | none => .stuck) = _
  rw [h]

/-- names that do not mean something else in generated code -/
def Plain (enum : Str) : Prop := enum ≠ "tables".toList ∧ enum ≠ "std".toList ∧ enum ≠ "unicode".toList

theorem name_enum {e v : Str} (h : Plain e) : evalName W σ [e, v] = .val (.enumerator [e, v]) := by
  show (if e = "tables".toList then _ else if e = "std".toList then _ else Res.val (Value.enumerator (if e = "unicode".toList then _ else _))) = _
  rw [if_neg h.1, if_neg h.2.1, if_neg h.2.2]

theorem call_search (rows : List Val) (c : Nat) : evalCall W ["search".toList] [.arr rows, .num c] = callSearch rows c := rfl
theorem call_contains (rows : List Val) (c : Nat) : evalCall W ["contains".toList] [.arr rows, .num c] = callContains rows c := rfl

end

/-- `result name(char32_t x) noexcept { return search(tables::table, x).value_or(d); }` -/
def lookupFn (result name x table : Str) (d : List Str) : Fn :=
  ⟨[.word result], name, [([.word "char32_t".toList], x)],
   [.ret (.method (.call ["search".toList] [.name ["tables".toList, table], .name [x]]) "value_or".toList [.name d])]⟩

/-- what a table of ranges with enumerators gives -/
theorem callSearch_ranges (path : List Str) (es : List (Tables.Entry Str)) (c : Nat) :
    callSearch (es.map fun e => rangeVal path e.lo e.hi e.val) c =
      Res.ofMem (fun o => .opt (o.map fun v => .enumerator (canon (path ++ [v])))) (Tables.search es c) := by
  unfold callSearch
  rw [allOf_map entryOf (fun e : Tables.Entry Str => rangeVal path e.lo e.hi e.val) (mapEntry fun v => .name (path ++ [v])) es (fun e _ => rfl)]
  show Res.ofMem _ (Tables.search (es.map (mapEntry _)) c) = _
  rw [search_map]
  cases Tables.search es c with
  | oob => rfl
  | ok o => cases o <;> rfl

/-- the outcome of a function that returns an enumerator -/
def enumOf (enum : Str) (r : Mem Str) : Res Value := Res.ofMem (fun v => .enumerator [enum, v]) r

theorem convert_other {result : List Tok} (h : .word "optional".toList ∉ result) (v : Value) : convert result v = v := if_neg h

theorem lookup_eval {x table enum dflt : Str} {d path : List Str} (W : World) (c n : Nat) (es : List (Tables.Entry Str))
    (hW : W.table table = some (es.map fun e => rangeVal path e.lo e.hi e.val)) (hp : ∀ v, canon (path ++ [v]) = [enum, v])
    (hd : evalName W [(x, .num c)] d = .val (.enumerator [enum, dflt])) :
    eval (n + 1 + 1 + 1) W [(x, Value.num c)] (.method (.call ["search".toList] [.name ["tables".toList, table], .name [x]]) "value_or".toList [.name d]) =
      enumOf enum (valueOr es dflt c) := by
  simp only [eval_method, eval_call2, evals_cons, evals_nil, eval_name, name_table W _ hW, name_var W _ (get_same [] x (Value.num c)), hd, bind_val,
    call_search, callSearch_ranges, hp]
  unfold enumOf valueOr
  cases Tables.search es c with
  | oob => rfl
  | ok o => cases o <;> rfl

theorem lookup_call {result name x table enum dflt : Str} {d path : List Str} (W : World) (c : Nat) (es : List (Tables.Entry Str))
    (hW : W.table table = some (es.map fun e => rangeVal path e.lo e.hi e.val)) (hp : ∀ v, canon (path ++ [v]) = [enum, v])
    (hd : evalName W [(x, .num c)] d = .val (.enumerator [enum, dflt])) (hr : result ≠ "optional".toList) :
    (lookupFn result name x table d).call W [.num c] = enumOf enum (valueOr es dflt c) := by
  show (eval (17 + 1 + 1 + 1) W [(x, Value.num c)] _).bind (fun v => Res.val (convert [.word result] v)) = _
  rw [lookup_eval W c 17 es hW hp hd]
  have hc : ∀ v, convert [.word result] v = v := convert_other fun h => by
    cases h with
    | head => exact hr rfl
    | tail _ h => cases h
  simp only [hc]
  cases enumOf enum (valueOr es dflt c) <;> rfl

end Verif.Tg
