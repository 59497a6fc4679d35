import Mathlib.Data.List.Nodup
import Verif.Lemmas.CxxFn5
/-!
# Running the generated functions
-/

namespace Verif.Tg
open Verif.Utf8 (Mem)
open Verif.Spec.Cxx

/-- the outcome of a function that returns a truth value -/
def boolOf (r : Mem Bool) : Res Value := Res.ofMem .bool r

/-- `{ first, last }` -/
def boundsVal (e : Tables.Entry _root_.Unit) : Val := .list [.num e.lo, .num e.hi]

theorem callContains_rows (es : List (Tables.Entry _root_.Unit)) (c : Nat) : callContains (es.map boundsVal) c = boolOf (Tables.contains es c) := by
  unfold callContains
  rw [allOf_map intervalOf boundsVal id es (fun e _ => rfl), List.map_id]
  rfl

theorem contains_eval (n : Nat) (W : World) (σ : Vars) {name : Str} {c : Nat} {es : List (Tables.Entry _root_.Unit)}
    (hW : W.table name = some (es.map boundsVal)) (hx : Vars.get σ "codepoint".toList = some (.num c)) :
    eval (n + 1 + 1) W σ (containsExpr name) = boolOf (Tables.contains es c) := by
  unfold containsExpr
  simp only [eval_call2, evals_cons, evals_nil, eval_name, name_table W _ hW, name_var W _ hx, bind_val, call_contains, callContains_rows]

theorem convert_res {result : List Tok} (h : .word "optional".toList ∉ result) (r : Res Value) : (r.bind fun v => Res.val (convert result v)) = r := by
  simp only [convert_other h]
  cases r <;> rfl

theorem contains_call {name table : Str} (W : World) (c : Nat) (es : List (Tables.Entry _root_.Unit)) (hW : W.table table = some (es.map boundsVal)) :
    (containsFn name table).call W [.num c] = boolOf (Tables.contains es c) := by
  show (eval (18 + 1 + 1) W [("codepoint".toList, Value.num c)] (containsExpr table)).bind (fun v => Res.val (convert [.word "bool".toList] v)) = _
  rw [contains_eval 18 W _ hW (get_same _ _ _), convert_res (by decide)]

/-! ## Enumerations -/

/-- The enumerators have the numbers the declaration gives them. -/
def EnumHas (W : World) (d : EnumDef) : Prop := ∀ e ∈ d.identifiers.zipIdx, W.number [d.name, e.1] = some e.2

theorem EnumHas.at {W : World} {d : EnumDef} (h : EnumHas W d) {i : Nat} {m : Str} (hi : d.members[i]? = some m) :
    W.number [d.name, sanitize m] = some i := by
  have : d.identifiers[i]? = some (sanitize m) := by unfold EnumDef.identifiers; rw [List.getElem?_map, hi]; rfl
  have h1 : (sanitize m, i) ∈ d.identifiers.zipIdx := by
    rw [List.mem_zipIdx_iff_getElem?]; exact this
  exact h _ h1

theorem EnumHas.nodup {W : World} {d : EnumDef} (h : EnumHas W d) : d.identifiers.Nodup := by
  refine List.pairwise_iff_getElem.2 fun i j hi hj hij e => ?_
  have h1 := h (d.identifiers[i], i) (by rw [List.mem_zipIdx_iff_getElem?]; exact List.getElem?_eq_getElem hi)
  have h2 := h (d.identifiers[j], j) (by rw [List.mem_zipIdx_iff_getElem?]; exact List.getElem?_eq_getElem hj)
  simp only [e] at h1
  rw [h1] at h2
  injection h2 with h2
  omega

/-- the number of a member -/
def numOf (W : World) (d : EnumDef) (m : Str) : Nat := (W.number [d.name, sanitize m]).getD 0

theorem numOf_at {W : World} {d : EnumDef} (h : EnumHas W d) {i : Nat} {m : Str} (hi : d.members[i]? = some m) : numOf W d m = i := by
  unfold numOf; rw [h.at hi]; rfl

theorem numOf_mem {W : World} {d : EnumDef} (h : EnumHas W d) {m : Str} (hm : m ∈ d.members) :
    W.number [d.name, sanitize m] = some (numOf W d m) ∧ d.members[numOf W d m]? = some m := by
  obtain ⟨i, hi⟩ := List.mem_iff_getElem?.1 hm
  rw [numOf_at h hi]
  exact ⟨h.at hi, hi⟩

theorem numOf_nodup {W : World} {d : EnumDef} (h : EnumHas W d) : (d.members.map (numOf W d)).Nodup := by
  have : d.members.map (numOf W d) = List.range d.members.length := by
    refine List.ext_getElem (by simp) fun i h1 h2 => ?_
    rw [List.getElem_map, List.getElem_range]
    exact numOf_at h (List.getElem?_eq_getElem _)
  rw [this]; exact List.nodup_range

/-- What a `switch` over all members does: the statements of the member with this number, or nothing. -/
theorem members_select {W : World} {d : EnumDef} (h : EnumHas W d) (lab : Str → List Str) (body : Str → List Simple)
    (hl : ∀ m, canon (lab m) = [d.name, sanitize m]) (k : Nat) :
    labelsOk W (d.members.map fun m => (lab m, body m)) = true ∧
    ((∃ m, d.members[k]? = some m ∧ ∃ rest, selected W k (d.members.map fun m => (lab m, body m)) = body m ++ rest) ∨
     (d.members.length ≤ k ∧ selected W k (d.members.map fun m => (lab m, body m)) = [])) := by
  have hn : ∀ m ∈ d.members, label W (lab m) = some (numOf W d m) := fun m hm => by
    unfold label; rw [hl]; exact (numOf_mem h hm).1
  refine ⟨labelsOk_map W lab body (numOf W d) d.members hn (numOf_nodup h), ?_⟩
  rcases selected_map W lab body (numOf W d) d.members hn k with ⟨m, hm, hk, h1⟩ | ⟨h1, h2⟩
  · exact .inl ⟨m, by rw [← hk]; exact (numOf_mem h hm).2, h1⟩
  · refine .inr ⟨?_, h2⟩
    rcases Nat.lt_or_ge k d.members.length with hk | hk
    · exact absurd (numOf_at h (List.getElem?_eq_getElem hk)) (h1 _ (List.getElem_mem hk))
    · exact hk

/-! ## `operator<<`, the formatter, `to_string` -/

theorem canon_plain {e m : Str} (h : e ≠ "unicode".toList) : canon [e, m] = [e, m] := if_neg h

theorem stream_call {W : World} {d : EnumDef} (h : EnumHas W d) (hu : d.name ≠ "unicode".toList) (s : Str) (k : Nat) :
    (streamFn d).call W [.stream s, .num k] = .val (.stream (s ++ (match d.members[k]? with
      | some m => m
      | none => "(".toList ++ Nat.toDigits 10 k ++ ")".toList))) := by
  obtain ⟨hl, hs⟩ := members_select h (fun m => [d.name, sanitize m]) (fun m => [.ret (streamExpr m)]) (fun m => canon_plain hu) k
  show (run 20 W [("os".toList, .stream s), ("value".toList, .num k)] (.switch "value".toList _ :: _)).bind (fun v => Res.val (convert
    [.word "inline".toList, .word "std".toList, p ':', p ':', .word "ostream".toList, p '&'] v)) = _
  rw [convert_res (by decide), run_switch 20 W _ _ _ _ (k := k) rfl hl]
  rcases hs with ⟨m, hm, rest, hr⟩ | ⟨hk, hr⟩
  · rw [hr, hm]; rfl
  · rw [hr, List.getElem?_eq_none hk]
    show Res.val (Value.stream (s ++ "(".toList ++ decimal k ++ ")".toList)) = _
    simp only [List.append_assoc]
    rfl

theorem format_call {W : World} {d : EnumDef} (h : EnumHas W d) (k : Nat) (ctx : Value) :
    (formatFn d).call W [.num k, ctx] = .val (.text (d.members[k]?.getD [])) := by
  obtain ⟨hl, hs⟩ := members_select h (fun m => ["unicode".toList, d.name, sanitize m]) (fun m => [.assign "name".toList (.str m), .brk]) (fun m => rfl) k
  show (run 20 W [("name".toList, .text []), ("value".toList, .num k), ("ctx".toList, ctx)] (.switch "value".toList _ :: _)).bind (fun v => Res.val (convert
    [.word "auto".toList] v)) = _
  rw [convert_res (by decide), run_switch 20 W _ _ _ _ (k := k) rfl hl]
  rcases hs with ⟨m, hm, rest, hr⟩ | ⟨hk, hr⟩
  · rw [hr, hm]; rfl
  · rw [hr, List.getElem?_eq_none hk]; rfl

theorem widthString_call {W : World} (h : EnumHas W widthEnum) (k : Nat) :
    widthStringFn.call W [.num k] = .val (.text (widthEnum.members[k]?.getD "Unknown".toList)) := by
  have hu : widthEnum.name ≠ "unicode".toList := by decide
  have hi : ∀ m ∈ widthEnum.members, sanitize m = m := by decide
  obtain ⟨hl, hs⟩ := members_select h (fun m => ["EastAsianWidth".toList, sanitize m]) (fun m => [.ret (.str m)]) (fun m => canon_plain hu) k
  have e : (widthEnum.members.map fun m => (["EastAsianWidth".toList, sanitize m], [Simple.ret (.str m)])) =
      widthEnum.members.map fun m => (["EastAsianWidth".toList, m], [Simple.ret (.str m)]) :=
    List.map_congr_left fun m hm => by rw [hi m hm]
  rw [e] at hl hs
  show (run 20 W [("value".toList, .num k)] (.switch "value".toList _ :: _)).bind (fun v => Res.val (convert _ v)) = _
  rw [convert_res (by decide), run_switch 20 W _ _ _ _ (k := k) rfl hl]
  rcases hs with ⟨m, hm, rest, hr⟩ | ⟨hk, hr⟩
  · rw [hr, hm]; rfl
  · rw [hr, List.getElem?_eq_none hk]; rfl

/-! ## The two `contains` -/

/-- a name that is an identifier already -/
def Fixed (m : Str) : Prop := sanitize m = m

theorem some_select {W : World} {d : EnumDef} (h : EnumHas W d) (hu : d.name ≠ "unicode".toList) (l : List Str) (hl : ∀ m ∈ l, m ∈ d.members ∧ Fixed m)
    (hn : l.Nodup) (body : Str → List Simple) (k : Nat) :
    labelsOk W (l.map fun m => ([d.name, m], body m)) = true ∧
    ((∃ m ∈ l, d.members[k]? = some m ∧ ∃ rest, selected W k (l.map fun m => ([d.name, m], body m)) = body m ++ rest) ∨
     ((∀ m ∈ l, d.members[k]? ≠ some m) ∧ selected W k (l.map fun m => ([d.name, m], body m)) = [])) := by
  have hn' : ∀ m ∈ l, label W [d.name, m] = some (numOf W d m) := fun m hm => by
    have h1 := (numOf_mem h (hl m hm).1).1
    rw [(hl m hm).2] at h1
    unfold label; rw [canon_plain hu]; exact h1
  have hnd : (l.map (numOf W d)).Nodup := by
    refine List.Nodup.map_on (fun a ha b hb e => ?_) hn
    have h1 := (numOf_mem h (hl a ha).1).2
    have h2 := (numOf_mem h (hl b hb).1).2
    rw [e, h2] at h1
    injection h1 with h1
    exact h1.symm
  refine ⟨labelsOk_map W (fun m => [d.name, m]) body (numOf W d) l hn' hnd, ?_⟩
  rcases selected_map W (fun m => [d.name, m]) body (numOf W d) l hn' k with ⟨m, hm, hk, h1⟩ | ⟨h1, h2⟩
  · exact .inl ⟨m, hm, by rw [← hk]; exact (numOf_mem h (hl m hm).1).2, h1⟩
  · exact .inr ⟨fun m hm hk => h1 m hm (numOf_at h hk), h2⟩

theorem false_eval (n : Nat) (W : World) (σ : Vars) (h : Vars.get σ "false".toList = none) : eval (n + 1) W σ (.name ["false".toList]) = .val (.bool false) := by
  show (match Vars.get σ "false".toList with
    | some v => Res.val v
    | none => if "false".toList = "false".toList then Res.val (Value.bool false) else if "false".toList = "true".toList then Res.val (Value.bool true) else .stuck) = _
  rw [h]; rfl

/-- `contains(Core_Property, char32_t)` -/
theorem core_call {W : World} {d : EnumDef} (h : EnumHas W d) (hd : d.name = "Core_Property".toList) (names : List Str) (hm : ∀ m ∈ names, m ∈ d.members ∧ Fixed m)
    (hn : names.Nodup) (tab : Str → List (Tables.Entry _root_.Unit)) (ht : ∀ m ∈ names, W.table m = some ((tab m).map boundsVal)) (k c : Nat) :
    (∀ m ∈ names, d.members[k]? = some m → (coreFn names).call W [.num k, .num c] = boolOf (Tables.contains (tab m) c)) ∧
    ((∀ m ∈ names, d.members[k]? ≠ some m) → (coreFn names).call W [.num k, .num c] = .val (.bool false)) := by
  obtain ⟨hl, hs⟩ := some_select h (by rw [hd]; decide) names hm hn (fun m => [.ret (containsExpr m)]) k
  rw [hd] at hl hs
  have hr : (coreFn names).call W [.num k, .num c] =
      (runSimple 20 W [("prop".toList, .num k), ("codepoint".toList, .num c)] (selected W k (names.map fun m => (["Core_Property".toList, m], [.ret (containsExpr m)])))).bind
        fun d => match d with | .ret v => .val v | .next σ' => run 20 W σ' [.ret (.name ["false".toList])] := by
    show (run 20 W [("prop".toList, .num k), ("codepoint".toList, .num c)] (.switch "prop".toList (_ ++ []) :: _)).bind
      (fun v => Res.val (convert [.word "bool".toList] v)) = _
    rw [convert_res (by decide), List.append_nil, run_switch 20 W _ _ _ _ (k := k) rfl hl]
    rfl
  rw [hr]
  rcases hs with ⟨m, hm', hk, rest, hsel⟩ | ⟨h1, hsel⟩
  · have : (runSimple 20 W [("prop".toList, .num k), ("codepoint".toList, .num c)] ([Simple.ret (containsExpr m)] ++ rest)).bind
        (fun d => match d with | .ret v => Res.val v | .next σ' => run 20 W σ' [.ret (.name ["false".toList])]) = boolOf (Tables.contains (tab m) c) := by
      show ((eval (18 + 1 + 1) W [("prop".toList, .num k), ("codepoint".toList, .num c)] (containsExpr m)).bind fun v => Res.val (Done.ret v)).bind _ = _
      rw [contains_eval 18 W _ (ht m hm') rfl]
      cases boolOf (Tables.contains (tab m) c) <;> rfl
    rw [hsel, this]
    refine ⟨fun m' _ hk' => ?_, fun h => absurd hk (h m hm')⟩
    rw [hk] at hk'
    injection hk' with hk'
    rw [hk']
  · refine ⟨fun m hm' hk => absurd hk (h1 m hm'), fun _ => ?_⟩
    rw [hsel]; exact false_eval 19 W [("prop".toList, .num k), ("codepoint".toList, .num c)] rfl

/-- `contains(General_Category, char32_t)` -/
theorem gcContains_call {W : World} {d : EnumDef} (h : EnumHas W d) (hd : d.name = "General_Category".toList) (names : List Str)
    (hm : ∀ m ∈ names, m ∈ d.members ∧ Fixed m) (hu : "Unspecified".toList ∈ d.members) (hun : "Unspecified".toList ∉ names)
    (hn : names.Nodup) (tab : Str → List (Tables.Entry _root_.Unit)) (ht : ∀ m ∈ names, W.table m = some ((tab m).map boundsVal)) (k c : Nat) :
    (∀ m ∈ names, d.members[k]? = some m → (gcContainsFn names).call W [.num k, .num c] = boolOf (Tables.contains (tab m) c)) ∧
    ((∀ m ∈ names, d.members[k]? ≠ some m) → (gcContainsFn names).call W [.num k, .num c] = .val (.bool false)) := by
  have hnd : (names ++ ["Unspecified".toList]).Nodup := by
    rw [List.nodup_append]
    refine ⟨hn, List.nodup_singleton _, fun a ha b hb e => ?_⟩
    rw [List.mem_singleton] at hb
    exact hun (by rw [← hb, ← e]; exact ha)
  have hm' : ∀ m ∈ names ++ ["Unspecified".toList], m ∈ d.members ∧ Fixed m := fun m hm' => by
    rcases List.mem_append.1 hm' with h1 | h1
    · exact hm m h1
    · rw [List.mem_singleton.1 h1]; exact ⟨hu, by unfold Fixed; decide⟩
  obtain ⟨hl, hs⟩ := some_select h (by rw [hd]; decide) (names ++ ["Unspecified".toList]) hm' hnd
    (fun m => if m = "Unspecified".toList then [.ret (.name ["false".toList])] else [.ret (containsExpr m)]) k
  have e : ((names ++ ["Unspecified".toList]).map fun m => ([d.name, m], if m = "Unspecified".toList then [Simple.ret (.name ["false".toList])] else [.ret (containsExpr m)])) =
      names.map (fun m => (["General_Category".toList, m], [Simple.ret (containsExpr m)])) ++
        [(["General_Category".toList, "Unspecified".toList], [.ret (.name ["false".toList])])] := by
    rw [List.map_append, hd]
    congr 1
    refine List.map_congr_left fun m h' => ?_
    rw [if_neg]
    intro e; rw [e] at h'; exact hun h'
  rw [e] at hl hs
  have hr : (gcContainsFn names).call W [.num k, .num c] =
      (runSimple 20 W [("generalCategory".toList, .num k), ("codepoint".toList, .num c)] (selected W k (names.map (fun m => (["General_Category".toList, m], [Simple.ret (containsExpr m)])) ++
        [(["General_Category".toList, "Unspecified".toList], [.ret (.name ["false".toList])])]))).bind
        fun d => match d with | .ret v => .val v | .next σ' => run 20 W σ' [.ret (.name ["false".toList])] := by
    show (run 20 W [("generalCategory".toList, .num k), ("codepoint".toList, .num c)] (.switch "generalCategory".toList _ :: _)).bind
      (fun v => Res.val (convert [.word "bool".toList] v)) = _
    rw [convert_res (by decide), run_switch 20 W _ _ _ _ (k := k) rfl hl]
    rfl
  rw [hr]
  rcases hs with ⟨m, hm', hk, rest, hsel⟩ | ⟨h1, hsel⟩
  · rw [hsel]
    by_cases hmu : m = "Unspecified".toList
    · rw [if_pos hmu]
      refine ⟨fun m' hmn hk' => ?_, fun _ => ?_⟩
      · rw [hk] at hk'
        injection hk' with hk'
        rw [← hk', hmu] at hmn
        exact absurd hmn hun
      · show ((eval 20 W [("generalCategory".toList, .num k), ("codepoint".toList, .num c)] (.name ["false".toList])).bind fun v => Res.val (Done.ret v)).bind _ = _
        rw [false_eval 19 W [("generalCategory".toList, .num k), ("codepoint".toList, .num c)] rfl]
        rfl
    · rw [if_neg hmu]
      have hmn : m ∈ names := by
        rcases List.mem_append.1 hm' with h1 | h1
        · exact h1
        · exact absurd (List.mem_singleton.1 h1) hmu
      have : (runSimple 20 W [("generalCategory".toList, .num k), ("codepoint".toList, .num c)] ([Simple.ret (containsExpr m)] ++ rest)).bind
          (fun d => match d with | .ret v => Res.val v | .next σ' => run 20 W σ' [.ret (.name ["false".toList])]) = boolOf (Tables.contains (tab m) c) := by
        show ((eval (18 + 1 + 1) W [("generalCategory".toList, .num k), ("codepoint".toList, .num c)] (containsExpr m)).bind fun v => Res.val (Done.ret v)).bind _ = _
        rw [contains_eval 18 W _ (ht m hmn) rfl]
        cases boolOf (Tables.contains (tab m) c) <;> rfl
      rw [this]
      refine ⟨fun m' _ hk' => ?_, fun h => absurd hk (h m hmn)⟩
      rw [hk] at hk'
      injection hk' with hk'
      rw [hk']
  · refine ⟨fun m hm' hk => absurd hk (h1 m (List.mem_append_left _ hm')), fun _ => ?_⟩
    rw [hsel]; exact false_eval 19 W [("generalCategory".toList, .num k), ("codepoint".toList, .num c)] rfl

/-- `is_…` of a general category -/
theorem gcIs_call {name g : Str} (W : World) {k : Nat} (hk : W.number ["General_Category".toList, g] = some k) (c : Nat) (b : Res Value)
    (hb : W.category k c = b) : (gcIsFn name g).call W [.num c] = b := by
  show (eval (18 + 1 + 1) W [("codepoint".toList, Value.num c)] (.call ["contains".toList] [.name ["General_Category".toList, g], .name ["codepoint".toList]])).bind
    (fun v => Res.val (convert [.word "inline".toList, .word "bool".toList] v)) = _
  rw [convert_res (by decide)]
  have hp : Plain "General_Category".toList := ⟨by decide, by decide, by decide⟩
  simp only [eval_call2, evals_cons, evals_nil, eval_name, name_enum W _ hp, name_var W _ (get_same [] "codepoint".toList (Value.num c)), bind_val]
  show (match W.number ["General_Category".toList, g] with
    | some n => if ["General_Category".toList, g].head? = some "General_Category".toList then W.category n c else .stuck
    | none => .stuck) = b
  rw [hk]
  exact hb

end Verif.Tg
