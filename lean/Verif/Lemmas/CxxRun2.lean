import Verif.Lemmas.CxxRun
/-!
# Running `script_extensions`, `bidi_mirroring_glyph` and `make_age`
-/

namespace Verif.Tg
open Verif.Utf8 (Mem)
open Verif.Spec.Cxx

/-! ## `script_extensions` -/

/-- `{ key.data(), key.size() }` -/
def spanVal (key : Str) : Val := .list [.name [key, "data".toList], .name [key, "size".toList]]

def sceEntryVal (e : Tables.Entry Str) : Val := .list [.list [.num e.lo, .num e.hi], spanVal e.val]

theorem callSearch_sce (es : List (Tables.Entry Str)) (c : Nat) :
    callSearch (es.map sceEntryVal) c = Res.ofMem (fun o => .opt (o.map fun k => .row (spanVal k))) (Tables.search es c) := by
  unfold callSearch
  rw [allOf_map entryOf sceEntryVal (mapEntry spanVal) es (fun e _ => rfl)]
  show Res.ofMem _ (Tables.search (es.map (mapEntry _)) c) = _
  rw [search_map]
  cases Tables.search es c with
  | oob => rfl
  | ok o => cases o <;> rfl

/-- the outcome of `script_extensions` -/
def spanOf (r : Mem (Option (List Val))) : Res Value := Res.ofMem (fun o => .opt (o.map .span)) r

theorem span_data {W : World} {key : Str} {vs : List Val} (hu : key ≠ "unicode".toList) (h : W.table key = some vs) :
    evalSpan W (Spec.Cxx.valueOf (.name [key, "data".toList])) (Spec.Cxx.valueOf (.name [key, "size".toList])) = .val (.span vs) := by
  show evalSpan W (.enumerator (canon [key, "data".toList])) (.enumerator (canon [key, "size".toList])) = _
  rw [canon_plain hu, canon_plain hu]
  show (if "data".toList = "data".toList ∧ "size".toList = "size".toList ∧ key = key then
    match W.table key with | some vs => Res.val (Value.span vs) | none => .stuck else .stuck) = _
  rw [if_pos ⟨rfl, rfl, rfl⟩, h]

theorem sce_ret (n : Nat) (W : World) (σ : Vars) {key : Str} {vs : List Val} (hp : Vars.get σ "p".toList = some (.opt (some (.row (spanVal key)))))
    (hu : key ≠ "unicode".toList) (h : W.table key = some vs) :
    eval (n + 1 + 1 + 1) W σ (.braced ["std".toList, "span".toList] [.word "Script".toList, .word "const".toList]
      [.arrow (.name ["p".toList]) "first".toList, .arrow (.name ["p".toList]) "second".toList]) = .val (.span vs) := by
  simp only [eval_braced, evals_cons, evals_nil, eval_arrow, eval_name, name_var W _ hp, bind_val]
  exact span_data hu h

def sceP : Expr := .call ["search".toList] [.name ["tables".toList, "sce".toList], .name ["codepoint".toList]]

theorem sceP_eval (n : Nat) (W : World) (es : List (Tables.Entry Str)) (c : Nat) (hW : W.table "sce".toList = some (es.map sceEntryVal)) :
    eval (n + 1 + 1) W [("codepoint".toList, Value.num c)] sceP = Res.ofMem (fun o => .opt (o.map fun k => .row (spanVal k))) (Tables.search es c) := by
  unfold sceP
  simp only [eval_call2, evals_cons, evals_nil, eval_name, name_table W _ hW, name_var W _ (get_same [] "codepoint".toList (Value.num c)), bind_val,
    call_search, callSearch_sce]

theorem sce_call {W : World} (es : List (Tables.Entry Str)) (arr : Str → List Val) (hW : W.table "sce".toList = some (es.map sceEntryVal))
    (ha : ∀ e ∈ es, e.val ≠ "unicode".toList ∧ W.table e.val = some (arr e.val)) (c : Nat) (hs : ∀ k, Tables.search es c = .ok (some k) → ∃ e ∈ es, e.val = k) :
    sceFn.call W [.num c] = spanOf (mapMem (Option.map arr) (Tables.search es c)) := by
  show (run 20 W [("codepoint".toList, Value.num c)] (.const "p".toList sceP :: sceFn.body.tail)).bind (fun v => Res.val (convert sceFn.result v)) = _
  have h1 : run 20 W [("codepoint".toList, Value.num c)] (.const "p".toList sceP :: sceFn.body.tail) =
    (eval (18 + 1 + 1) W [("codepoint".toList, Value.num c)] sceP).bind fun v => run 20 W [("p".toList, v), ("codepoint".toList, Value.num c)] sceFn.body.tail := rfl
  rw [h1, sceP_eval 18 W es c hW]
  cases hsr : Tables.search es c with
  | oob => rfl
  | ok o =>
    cases o with
    | none => rfl
    | some k =>
      obtain ⟨e, he, rfl⟩ := hs k hsr
      show (run 20 W [("p".toList, Value.opt (some (.row (spanVal e.val)))), ("codepoint".toList, Value.num c)] sceFn.body.tail).bind _ = _
      have h2 : run 20 W [("p".toList, Value.opt (some (.row (spanVal e.val)))), ("codepoint".toList, Value.num c)] sceFn.body.tail =
        eval (17 + 1 + 1 + 1) W [("p".toList, Value.opt (some (.row (spanVal e.val)))), ("codepoint".toList, Value.num c)]
          (.braced ["std".toList, "span".toList] [.word "Script".toList, .word "const".toList]
      [.arrow (.name ["p".toList]) "first".toList, .arrow (.name ["p".toList]) "second".toList]) := rfl
      rw [h2, sce_ret 17 W _ rfl (ha e he).1 (ha e he).2]
      rfl

/-! ## `bidi_mirroring_glyph` -/

def glyphVal (e : Nat × Nat) : Val := .list [.num e.1, .num e.2]

theorem glyph_before (n : Nat) (W : World) (e : Nat × Nat) (c : Nat) :
    (match eval (n + 1 + 1 + 1) W [("pair".toList, .row (glyphVal e)), ("cp".toList, .num c)]
      (.bin "<".toList (.member (.name ["pair".toList]) "first".toList) (.name ["cp".toList])) with | .val (.bool r) => some r | _ => none) =
    some (decide (e.1 < c)) := rfl

theorem lowerBoundOf_glyphs (g : List (Nat × Nat)) (c : Nat) (before : Val → Option Bool) (h : ∀ e, before (glyphVal e) = some (decide (e.1 < c))) :
    lowerBoundOf (g.map glyphVal) before = Res.ofMem (fun i => .iter (g.map glyphVal) i) (Tables.lowerBound g fun e => decide (e.1 < c)) := by
  unfold lowerBoundOf
  rw [allOf_map before glyphVal (fun e => decide (e.1 < c)) g (fun e _ => h e)]
  show Res.ofMem _ (Tables.lowerBound (g.map fun e => decide (e.1 < c)) id) = _
  rw [lowerBound_map]
  rfl

def glyphIt : Expr := .call ["std".toList, "lower_bound".toList]
      [.method glyphName "begin".toList [], .method glyphName "end".toList [], .name ["codepoint".toList],
       .lambda ["pair".toList, "cp".toList] (.bin "<".toList (.member (.name ["pair".toList]) "first".toList) (.name ["cp".toList]))]

theorem glyph_begin (n : Nat) (W : World) (σ : Vars) {rows : List Val} (hW : W.table "Bidi_Mirroring_Glyph".toList = some rows) :
    eval (n + 1 + 1) W σ (.method glyphName "begin".toList []) = .val (.iter rows 0) := by
  unfold glyphName
  simp only [eval_method, evals_nil, eval_name, name_table W _ hW, bind_val]
  rfl

theorem glyph_end (n : Nat) (W : World) (σ : Vars) {rows : List Val} (hW : W.table "Bidi_Mirroring_Glyph".toList = some rows) :
    eval (n + 1 + 1) W σ (.method glyphName "end".toList []) = .val (.iter rows rows.length) := by
  unfold glyphName
  simp only [eval_method, evals_nil, eval_name, name_table W _ hW, bind_val]
  rfl

theorem eval_lower (n : Nat) (W : World) (σ : Vars) (b l c body : Expr) (x y : Str) :
    eval (n + 1) W σ (.call ["std".toList, "lower_bound".toList] [b, l, c, .lambda [x, y] body]) =
      ((eval n W σ b).bind fun vb => (eval n W σ l).bind fun vl => (eval n W σ c).bind fun vc =>
            match vb, vl with
            | .iter rows 0, .iter _ k =>
              if k = rows.length then
                lowerBoundOf rows fun v => match eval n W [(x, .row v), (y, vc)] body with | .val (.bool r) => some r | _ => none
              else .stuck
            | _, _ => .stuck) := rfl

theorem glyphIt_eval (n : Nat) (W : World) (g : List (Nat × Nat)) (c : Nat) (hW : W.table "Bidi_Mirroring_Glyph".toList = some (g.map glyphVal)) :
    eval (n + 1 + 1 + 1 + 1) W [("codepoint".toList, .num c)] glyphIt =
      Res.ofMem (fun i => .iter (g.map glyphVal) i) (Tables.lowerBound g fun e => decide (e.1 < c)) := by
  unfold glyphIt
  rw [eval_lower, glyph_begin (n + 1) W _ hW, glyph_end (n + 1) W _ hW, eval_name, name_var W _ (get_same [] "codepoint".toList (Value.num c))]
  simp only [bind_val]
  rw [if_pos trivial, lowerBoundOf_glyphs g c _ (fun e => glyph_before n W e c)]

/-- the outcome of a function that returns a code point -/
def numRes (r : Mem Nat) : Res Value := Res.ofMem .num r

theorem lookup_pairs (g : List (Nat × Nat)) (c : Nat) : (match Tables.lookupSorted g Prod.fst c with
    | .oob => Mem.oob | .ok (some e) => .ok e.2 | .ok none => .ok c) =
    match Tables.lowerBound g (fun e => decide (e.1 < c)) with
    | .oob => .oob
    | .ok i => if i = g.length then .ok c else match g[i]? with | none => .oob | some e => if e.1 = c then .ok e.2 else .ok c := by
  unfold Tables.lookupSorted
  cases Tables.lowerBound g (fun e => decide (e.1 < c)) with
  | oob => rfl
  | ok i =>
    by_cases hi : i = g.length
    · simp only [if_pos hi]
    · simp only [if_neg hi]
      unfold Tables.at?
      cases g[i]? with
      | none => rfl
      | some e =>
        by_cases he : e.1 = c
        · simp only [if_pos he]
        · simp only [if_neg he]

def glyphCond : Expr := .bin "&&".toList (.bin "!=".toList (.name ["it".toList]) (.method glyphName "end".toList []))
  (.bin "==".toList (.arrow (.name ["it".toList]) "first".toList) (.name ["codepoint".toList]))

theorem eval_and (n : Nat) (W : World) (σ : Vars) (a b : Expr) : eval (n + 1) W σ (.bin "&&".toList a b) =
    (eval n W σ a).bind fun x => match x with | .bool false => .val (.bool false) | .bool true => eval n W σ b | _ => .stuck := rfl
theorem eval_ne (n : Nat) (W : World) (σ : Vars) (a b : Expr) : eval (n + 1) W σ (.bin "!=".toList a b) =
    (eval n W σ a).bind fun x => (eval n W σ b).bind (evalBin "!=".toList x) := rfl
theorem eval_eqeq (n : Nat) (W : World) (σ : Vars) (a b : Expr) : eval (n + 1) W σ (.bin "==".toList a b) =
    (eval n W σ a).bind fun x => (eval n W σ b).bind (evalBin "==".toList x) := rfl

theorem glyph_call {W : World} (g : List (Nat × Nat)) (c : Nat) (hW : W.table "Bidi_Mirroring_Glyph".toList = some (g.map glyphVal)) :
    glyphFn.call W [.num c] = numRes (match Tables.lookupSorted g Prod.fst c with
      | .oob => .oob | .ok (some e) => .ok e.2 | .ok none => .ok c) := by
  show (run 20 W [("codepoint".toList, Value.num c)] (.const "it".toList glyphIt :: glyphFn.body.tail)).bind (fun v => Res.val (convert [.word "char32_t".toList] v)) = _
  rw [convert_res (by decide), lookup_pairs]
  have h1 : run 20 W [("codepoint".toList, Value.num c)] (.const "it".toList glyphIt :: glyphFn.body.tail) =
    (eval (16 + 1 + 1 + 1 + 1) W [("codepoint".toList, Value.num c)] glyphIt).bind fun v => run 20 W [("it".toList, v), ("codepoint".toList, Value.num c)] glyphFn.body.tail := rfl
  rw [h1, glyphIt_eval 16 W g c hW]
  cases Tables.lowerBound g (fun e => decide (e.1 < c)) with
  | oob => rfl
  | ok i =>
    show run 20 W [("it".toList, .iter (g.map glyphVal) i), ("codepoint".toList, Value.num c)] glyphFn.body.tail = _
    generalize hσ : [("it".toList, Value.iter (g.map glyphVal) i), ("codepoint".toList, Value.num c)] = σ
    have hit : Vars.get σ "it".toList = some (.iter (g.map glyphVal) i) := by rw [← hσ]; rfl
    have hcp : Vars.get σ "codepoint".toList = some (.num c) := by rw [← hσ]; rfl
    have h2 : run 20 W σ glyphFn.body.tail = (eval (16 + 1 + 1 + 1 + 1) W σ glyphCond).bind fun x =>
      (match x with
        | .bool true => eval (18 + 1 + 1) W σ (.arrow (.name ["it".toList]) "second".toList)
        | .bool false => eval (19 + 1) W σ (.name ["codepoint".toList]) | _ => .stuck) := rfl
    have h3 : eval (16 + 1 + 1 + 1) W σ (.bin "!=".toList (.name ["it".toList]) (.method glyphName "end".toList [])) = .val (.bool !(i == g.length)) := by
      rw [eval_ne, glyph_end 16 W σ hW, eval_name, name_var W _ hit]
      show Res.val (Value.bool (!(i == (g.map glyphVal).length))) = _
      rw [List.length_map]
    have h4 : eval (16 + 1 + 1 + 1) W σ (.bin "==".toList (.arrow (.name ["it".toList]) "first".toList) (.name ["codepoint".toList])) =
        (match g[i]? with | some e => .val (.bool (e.1 == c)) | none => .oob) := by
      rw [eval_eqeq, eval_arrow, eval_name, eval_name, name_var W _ hit, name_var W _ hcp]
      show ((match (g.map glyphVal)[i]? with | some v => field v "first".toList | none => .oob).bind fun x => (Res.val (Value.num c)).bind (evalBin "==".toList x)) = _
      rw [List.getElem?_map]
      cases g[i]? <;> rfl
    have h5 : eval (18 + 1 + 1) W σ (.arrow (.name ["it".toList]) "second".toList) = (match g[i]? with | some e => .val (.num e.2) | none => .oob) := by
      rw [eval_arrow, eval_name, name_var W _ hit]
      show (match (g.map glyphVal)[i]? with | some v => field v "second".toList | none => .oob) = _
      rw [List.getElem?_map]
      cases g[i]? <;> rfl
    rw [h2]
    unfold glyphCond
    rw [eval_and, h3, h4, h5, eval_name, name_var W _ hcp]
    by_cases hi : i = g.length
    · simp only [hi, beq_self_eq_true, Bool.not_true, bind_val, if_true]; rfl
    · have : (i == g.length) = false := by simp [hi]
      simp only [if_neg hi, this, Bool.not_false, bind_val]
      cases g[i]? with
      | none => rfl
      | some e =>
        by_cases he : e.1 = c
        · simp only [he, beq_self_eq_true, bind_val, if_true]; rfl
        · have : (e.1 == c) = false := by simp [he]
          simp only [this, bind_val, if_neg he]; rfl

/-! ## `make_age` -/

theorem dec_size (n : Nat) : sizeOf' (ageArgs (dec n)) = some n := by
  obtain ⟨h1, h2, h3, h4⟩ := numText_ok 10 (by omega) (by omega) (n + 1) n (by omega)
  show (if ((dec n).head? = some '0' → dec n = ['0']) ∧ dec n ≠ [] ∧ (dec n).all (fun c => decide (digit c < 10)) = true then some (value 10 (dec n)) else none) = some n
  rw [if_pos ⟨fun h => by rw [h4 h]; decide, h1, List.all_eq_true.2 fun c hc => decide_eq_true (h2 c hc).1⟩]
  exact congrArg some h3

def ageVal (e : Str × Str) : Val := .list [.str e.1, .name ["Age".toList, e.2]]

theorem evals_map (ev : Expr → Res Value) {α : Type} (f : α → Expr) (g : α → Value) (l : List α) (h : ∀ a ∈ l, ev (f a) = .val (g a)) :
    evalsWith ev (l.map f) = .val (l.map g) := by
  induction l with
  | nil => rfl
  | cons a l ih =>
    rw [List.map_cons, evals_cons, h a List.mem_cons_self, ih fun x hx => h x (List.mem_cons_of_mem _ hx)]
    rfl

theorem ageExpr_eval (n : Nat) (W : World) (σ : Vars) (e : Str × Str) : eval (n + 1 + 1) W σ (ageExpr e) = .val (.row (ageVal e)) := by
  unfold ageExpr
  simp only [eval_braced, evals_cons, evals_nil, eval_str, eval_name, name_enum W σ (e := "Age".toList) ⟨by decide, by decide, by decide⟩, bind_val]
  rfl

theorem ageMapping_eval (n : Nat) (W : World) (σ : Vars) (l : List (Str × Str)) :
    eval (n + 1 + 1 + 1) W σ (ageMapping l) = .val (.arr (l.map ageVal)) := by
  unfold ageMapping
  rw [eval_braced, evals_map _ ageExpr (fun e => .row (ageVal e)) l (fun e _ => ageExpr_eval n W σ e), bind_val]
  have h1 : evalBraced W ["std".toList, "array".toList] (ageArgs (dec l.length)) (l.map fun e => .row (ageVal e)) =
    (match allOf initOf (l.map fun e => Value.row (ageVal e)) with
    | none => .stuck
    | some is => if sizeOf' (ageArgs (dec l.length)) = some is.length then .val (.arr is) else .stuck) := rfl
  rw [h1, allOf_map initOf (fun e => Value.row (ageVal e)) ageVal l (fun _ _ => rfl)]
  show (if sizeOf' (ageArgs (dec l.length)) = some (l.map ageVal).length then Res.val (Value.arr (l.map ageVal)) else .stuck) = _
  rw [dec_size, List.length_map, if_pos rfl]

theorem age_for (n : Nat) (W : World) (σ : Vars) (s : Str) (hs : Vars.get σ "value".toList = some (.text s)) (l : List (Str × Str)) :
    runFor (n + 1 + 1) W σ "key".toList "val".toList (.bin "==".toList (.name ["key".toList]) (.name ["value".toList])) (.name ["val".toList]) (l.map ageVal) =
      .val (match amFind l s with | some a => .ret (.enumerator ["Age".toList, a]) | none => .next σ) := by
  induction l with
  | nil => rfl
  | cons e l ih =>
    have h0 : Vars.get (("key".toList, Value.text e.1) :: ("val".toList, Value.enumerator ["Age".toList, e.2]) :: σ) "value".toList = some (.text s) := by
      rw [get_other _ (by decide), get_other _ (by decide), hs]
    have h1 : eval (n + 1 + 1) W (("key".toList, Value.text e.1) :: ("val".toList, Value.enumerator ["Age".toList, e.2]) :: σ)
        (.bin "==".toList (.name ["key".toList]) (.name ["value".toList])) = .val (.bool (e.1 == s)) := by
      rw [eval_eqeq, eval_name, eval_name, name_var W _ (get_same _ _ _), name_var W _ h0]
      rfl
    have h2 : runFor (n + 1 + 1) W σ "key".toList "val".toList (.bin "==".toList (.name ["key".toList]) (.name ["value".toList])) (.name ["val".toList]) ((e :: l).map ageVal) =
      (eval (n + 1 + 1) W (("key".toList, Value.text e.1) :: ("val".toList, Value.enumerator ["Age".toList, e.2]) :: σ)
        (.bin "==".toList (.name ["key".toList]) (.name ["value".toList]))).bind fun x =>
        (match x with
        | .bool true => (eval (n + 1 + 1) W (("key".toList, Value.text e.1) :: ("val".toList, Value.enumerator ["Age".toList, e.2]) :: σ) (.name ["val".toList])).bind fun y => .val (.ret y)
        | .bool false => runFor (n + 1 + 1) W σ "key".toList "val".toList (.bin "==".toList (.name ["key".toList]) (.name ["value".toList])) (.name ["val".toList]) (l.map ageVal)
        | _ => .stuck) := rfl
    rw [h2, h1, ih]
    unfold amFind
    rw [List.find?_cons]
    by_cases he : e.1 = s
    · simp only [he, beq_self_eq_true, bind_val, decide_true]
      rfl
    · have h3 : (e.1 == s) = false := by simp [he]
      simp only [h3, bind_val, decide_eq_false he]

theorem age_call (W : World) (l : List (Str × Str)) (s : Str) :
    (ageFn l).call W [.text s] = .val (.opt ((amFind l s).map fun a => .enumerator ["Age".toList, a])) := by
  have h1 : (ageFn l).call W [.text s] = (run 20 W [("value".toList, .text s)] (ageFn l).body).bind fun v => .val (convert (ageFn l).result v) := rfl
  have h2 : run 20 W [("value".toList, .text s)] (ageFn l).body = (eval (17 + 1 + 1 + 1) W [("value".toList, .text s)] (ageMapping l)).bind fun v =>
    run 20 W [("mappings".toList, v), ("value".toList, .text s)] [ageLoop, .ret (.name ["std".toList, "nullopt".toList])] := rfl
  rw [h1, h2, ageMapping_eval, bind_val]
  generalize hσ : [("mappings".toList, Value.arr (l.map ageVal)), ("value".toList, Value.text s)] = σ
  have hm : eval 20 W σ (.name ["mappings".toList]) = .val (.arr (l.map ageVal)) := by
    rw [eval_name]
    exact name_var W σ (by rw [← hσ]; rfl)
  have h3 : run 20 W σ [ageLoop, .ret (.name ["std".toList, "nullopt".toList])] =
    (eval 20 W σ (.name ["mappings".toList])).bind fun a => (match a with
      | .arr rows => (runFor (18 + 1 + 1) W σ "key".toList "val".toList (.bin "==".toList (.name ["key".toList]) (.name ["value".toList])) (.name ["val".toList]) rows).bind
        fun d => match d with | .ret z => .val z | .next σ' => run 20 W σ' [.ret (.name ["std".toList, "nullopt".toList])]
      | _ => .stuck) := rfl
  rw [h3, hm, bind_val]
  show ((runFor (18 + 1 + 1) W σ "key".toList "val".toList (.bin "==".toList (.name ["key".toList]) (.name ["value".toList])) (.name ["val".toList]) (l.map ageVal)).bind _).bind _ = _
  rw [age_for 18 W σ s (by rw [← hσ]; rfl) l]
  cases amFind l s <;> rfl

end Verif.Tg
