import Verif.Lemmas.CxxFile
import Verif.Lemmas.CxxFn5
import Verif.Model.TgUcd
/-!
# Lemmas: the parts of `ucd.h` and `ucd.cpp`
-/

namespace Verif.Tg
open Verif.Spec.Cxx

/-! ## Stretches of text -/

def At (ns : List (List Str)) (g : Sig) : Sig := { g with scope := ns.reverse.flatten }

def defOf : Part → Option Sig
  | .defined g _ => some g
  | _ => none

def declOf : Part → Option Sig
  | .declared g => some g
  | _ => none

/-- The table a part declares. -/
def partTable : Part → Option (List Str × Str)
  | .item s (.table _ n _) => some (s, n)
  | _ => none

structure LMeans (q : Piece) (x : Part × List Str) : Prop where
  means : Means q x.1
  defines : q.defines = defOf x.1
  declares : partTable x.1 = none → q.declares = declOf x.1
  uses : q.defines ≠ none → uses q.toks = x.2

/-- The text, read with the namespaces `ns` open, has these parts, and then `ns'` are open. -/
def Run (ns : List (List Str)) (text : Str) (ns' : List (List Str)) (parts : List (Part × List Str)) : Prop :=
  ∃ ts ps, Line text ts ∧ Walk ns ts ns' ps ∧ List.Forall₂ LMeans ps parts

theorem Run.append {ns ns' ns'' : List (List Str)} {a b : Str} {xs ys : List (Part × List Str)} (ha : Run ns a ns' xs) (hb : Run ns' b ns'' ys) :
    Run ns (a ++ b) ns'' (xs ++ ys) := by
  obtain ⟨t1, p1, l1, w1, f1⟩ := ha
  obtain ⟨t2, p2, l2, w2, f2⟩ := hb
  exact ⟨t1 ++ t2, p1 ++ p2, l1.append l2, w1.append w2, List.rel_append f1 f2⟩

theorem Run.nil (ns : List (List Str)) : Run ns [] ns [] := ⟨[], [], Clean.nil.line, .nil ns, .nil⟩

theorem Run.blank {text : Str} (ns : List (List Str)) (h : Line text []) : Run ns text ns [] := ⟨[], [], h, .nil ns, .nil⟩

theorem Run.enter {text : Str} (ns : List (List Str)) {path : List Str} (hp : path ≠ []) (h : Line text (.word "namespace".toList :: nsToks path)) : Run ns text (path :: ns) [] :=
  ⟨_, [], h, .enter ns hp, .nil⟩

theorem Run.leave {text : Str} (ns : List (List Str)) (x : List Str) (h : Line text [.punct '}']) : Run (x :: ns) text ns [] :=
  ⟨_, [], h, .leave ns x, .nil⟩

/-- A definition. -/
def FnText (text : Str) (g : Sig) (f : Fn) (us : List Str) : Prop :=
  ∃ ts, Line text ts ∧ Single ts ∧ ts.getLast? = some (.punct '}') ∧ (∀ s, readSig s ts = some { g with scope := s }) ∧ readFn ts = some f ∧ uses ts = us

/-- A declaration. -/
def ProtoText (text : Str) (g : Sig) : Prop :=
  ∃ ts, Line text ts ∧ Single ts ∧ ts.getLast? = some (.punct ';') ∧ ∀ s, readSig s ts = some { g with scope := s }

theorem Run.fn {text : Str} {g : Sig} {f : Fn} {us : List Str} (ns : List (List Str)) (h : FnText text g f us) : Run ns text ns [(.defined (At ns g) text, us)] := by
  obtain ⟨ts, h1, h2, h3, h4, h5, h6⟩ := h
  have hd : Piece.defines ⟨ns.reverse.flatten, ts⟩ = some (At ns g) := by
    unfold Piece.defines
    rw [if_pos h3]
    exact h4 _
  refine ⟨ts, _, h1, .one h2 ns, .cons ⟨⟨hd, h1.reads⟩, hd, fun _ => ?_, fun _ => h6⟩ .nil⟩
  unfold Piece.declares
  rw [if_neg (by rw [h3]; decide)]
  rfl

theorem Run.proto {text : Str} {g : Sig} (ns : List (List Str)) (h : ProtoText text g) : Run ns text ns [(.declared (At ns g), [])] := by
  obtain ⟨ts, h1, h2, h3, h4⟩ := h
  have hd : Piece.declares ⟨ns.reverse.flatten, ts⟩ = some (At ns g) := by
    unfold Piece.declares
    rw [if_pos h3]
    exact h4 _
  have hn : Piece.defines ⟨ns.reverse.flatten, ts⟩ = none := by
    unfold Piece.defines
    rw [if_neg (by rw [h3]; decide)]
  exact ⟨ts, _, h1, .one h2 ns, .cons ⟨hd, hn, fun _ => hd, fun h => absurd hn h⟩ .nil⟩

theorem declares_last {ts elem : List Tok} {name : Str} {vs : List Val} (h : Declares ts elem name vs) : ts.getLast? = some (p ';') := by
  cases h <;> rw [List.getLast?_append] <;> rfl

theorem unit_table_last {ts : List Tok} {type name : Str} {vs : List Val} (h : Spec.Cxx.Unit ts [.table type name vs]) : ts.getLast? = some (p ';') := by
  generalize hi : [Item.table type name vs] = items at h
  cases h with
  | nil => exact absurd hi (by simp)
  | struct _ _ _ => exact absurd hi (by simp)
  | enum _ _ => exact absurd hi (by simp)
  | @table ts type' elem name' vs' us items h1 h2 h3 h4 =>
    simp only [List.cons.injEq] at hi
    obtain ⟨-, hi⟩ := hi
    generalize hu : us = us' at h4
    rw [← hi] at h4
    cases h4
    subst hu
    rw [List.append_nil]
    exact declares_last h3

theorem Run.table {text type name : Str} {vs : List Val} (ns : List (List Str)) (h : SaysL text [.table type name vs]) :
    Run ns text ns [(.item ns.reverse.flatten (.table type name vs), [])] := by
  obtain ⟨ts, h1, h2⟩ := h
  have hn : Piece.defines ⟨ns.reverse.flatten, ts⟩ = none := by
    unfold Piece.defines
    rw [if_neg (by rw [unit_table_last h2]; decide)]
  exact ⟨ts, _, h1, .one (unit_table_single h2) ns, .cons ⟨⟨rfl, h2⟩, hn, fun h => absurd h (by simp [partTable]), fun h => absurd hn h⟩ .nil⟩

/-- the same for a list of texts -/
def Runs (ns : List (List Str)) (texts : List Str) (ns' : List (List Str)) (parts : List (Part × List Str)) : Prop := Run ns texts.flatten ns' parts

theorem Runs.nil (ns : List (List Str)) : Runs ns [] ns [] := Run.nil ns

theorem Runs.append {ns ns' ns'' : List (List Str)} {a b : List Str} {xs ys : List (Part × List Str)} (ha : Runs ns a ns' xs) (hb : Runs ns' b ns'' ys) :
    Runs ns (a ++ b) ns'' (xs ++ ys) := by
  unfold Runs
  rw [List.flatten_append]
  exact Run.append ha hb

theorem Runs.cons {ns ns' ns'' : List (List Str)} {a : Str} {b : List Str} {xs ys : List (Part × List Str)} (ha : Run ns a ns' xs) (hb : Runs ns' b ns'' ys) :
    Runs ns (a :: b) ns'' (xs ++ ys) := by
  unfold Runs
  rw [List.flatten_cons]
  exact Run.append ha hb

theorem Runs.map {α : Type} (ns : List (List Str)) (f : α → Str) (g : α → Part × List Str) (l : List α) (h : ∀ a ∈ l, Run ns (f a) ns [g a]) :
    Runs ns (l.map f) ns (l.map g) := by
  induction l with
  | nil => exact Runs.nil ns
  | cons a l ih => exact Runs.cons (xs := [g a]) (h a (by simp)) (ih fun x hx => h x (by simp [hx]))

/-! ## What follows for all pieces -/

theorem defines_all {ps : List Piece} {xs : List (Part × List Str)} (h : List.Forall₂ LMeans ps xs) : ps.filterMap Piece.defines = xs.filterMap fun x => defOf x.1 := by
  induction h with
  | nil => rfl
  | cons h _ ih => rw [List.filterMap_cons, List.filterMap_cons, h.defines, ih]

theorem declares_all {ps : List Piece} {xs : List (Part × List Str)} (h : List.Forall₂ LMeans ps xs) (hx : ∀ x ∈ xs, partTable x.1 = none) :
    ps.filterMap Piece.declares = xs.filterMap fun x => declOf x.1 := by
  induction h with
  | nil => rfl
  | @cons q x _ _ h _ ih => rw [List.filterMap_cons, List.filterMap_cons, h.declares (hx x (by simp)), ih fun y hy => hx y (by simp [hy])]

theorem means_all {ps : List Piece} {xs : List (Part × List Str)} (h : List.Forall₂ LMeans ps xs) : List.Forall₂ Means ps (xs.map (·.1)) := by
  induction h with
  | nil => exact .nil
  | cons h _ ih => exact .cons h.means ih

/-- Every function uses only tables declared before it, or in `seen`. -/
def Ordered : List (List Str × Str) → List (Part × List Str) → Prop
  | _, [] => True
  | seen, x :: l => (∀ n ∈ x.2, (["unicode".toList, "tables".toList], n) ∈ seen) ∧ Ordered (seen ++ (partTable x.1).toList) l

theorem ordered_mono {l : List (Part × List Str)} {s s' : List (List Str × Str)} (h : ∀ x ∈ s, x ∈ s') (ho : Ordered s l) : Ordered s' l := by
  induction l generalizing s s' with
  | nil => trivial
  | cons x l ih =>
    refine ⟨fun n hn => h _ (ho.1 n hn), ih ?_ ho.2⟩
    intro y hy
    rcases List.mem_append.1 hy with hy | hy
    · exact List.mem_append.2 (.inl (h y hy))
    · exact List.mem_append.2 (.inr hy)

theorem ordered_append {a b : List (Part × List Str)} {s s' : List (List Str × Str)} (ha : Ordered s a) (hb : Ordered s' b)
    (h : ∀ x ∈ s', x ∈ s ∨ x ∈ a.filterMap fun y => partTable y.1) : Ordered s (a ++ b) := by
  induction a generalizing s with
  | nil => exact ordered_mono (fun x hx => by simpa using h x hx) hb
  | cons y a ih =>
    refine ⟨ha.1, ih ha.2 fun x hx => ?_⟩
    rcases h x hx with h | h
    · exact .inl (List.mem_append.2 (.inl h))
    · rw [List.filterMap_cons] at h
      cases ht : partTable y.1 with
      | none => rw [ht] at h; exact .inr h
      | some t =>
        rw [ht] at h
        rcases List.mem_cons.1 h with h | h
        · left; simp [h]
        · exact .inr h

theorem ordered_use {ps : List Piece} {xs : List (Part × List Str)} (h : List.Forall₂ LMeans ps xs) {s : List (List Str × Str)} (ho : Ordered s xs) (i : Nat)
    (q : Piece) (hq : ps[i]? = some q) (hd : q.defines ≠ none) (n : Str) (hn : n ∈ Spec.Cxx.uses q.toks) :
    (["unicode".toList, "tables".toList], n) ∈ s ∨ ∃ j, j < i ∧ ∃ r, ps[j]? = some r ∧ r.scope = ["unicode".toList, "tables".toList] ∧
      ∃ type vs, Spec.Cxx.Unit r.toks [.table type n vs] := by
  induction h generalizing s i with
  | nil => simp at hq
  | @cons r x ps xs hr _ ih =>
    cases i with
    | zero =>
      simp only [List.getElem?_cons_zero, Option.some.injEq] at hq
      subst hq
      rw [hr.uses hd] at hn
      exact .inl (ho.1 n hn)
    | succ i =>
      rw [List.getElem?_cons_succ] at hq
      rcases ih ho.2 i hq with h | ⟨j, hj, r', h1, h2⟩
      · rcases List.mem_append.1 h with h | h
        · exact .inl h
        · right
          refine ⟨0, by omega, r, rfl, ?_⟩
          have hm := hr.means
          obtain ⟨pt, us⟩ := x
          cases pt with
          | declared g => simp [partTable] at h
          | defined g t => simp [partTable] at h
          | extern _ _ => simp [partTable] at h
          | formatter _ _ _ => simp [partTable] at h
          | usingNs _ _ => simp [partTable] at h
          | item sc it =>
            cases it with
            | struct a b => simp [partTable] at h
            | enum a b c => simp [partTable] at h
            | table ty nm vs =>
              simp only [partTable, Option.toList_some, List.mem_singleton, Prod.mk.injEq] at h
              obtain ⟨rfl, rfl⟩ := h
              exact ⟨hm.1, ty, vs, hm.2⟩
      · exact .inr ⟨j + 1, by omega, r', by rw [List.getElem?_cons_succ]; exact h1, h2⟩

/-! ## The functions -/

theorem fnText_lit {text : Str} {g : Sig} {f : Fn} {us : List Str} (n : Nat) (h : lexFn n text = some (toksOf n text) ∧ endsOpen text = true)
    (hc : cut 0 (toksOf n text) = some (toksOf n text, []))
    (hh : ∃ k a b t, toksOf n text = k :: a :: b :: t ∧ k ≠ .punct ';' ∧ ((b ≠ .punct '{' ∧ b ≠ .punct ':') ∨ a = .punct ':' ∨ k ≠ .word "namespace".toList))
    (hl : (toksOf n text).getLast? = some (.punct '}')) (hs : ∀ s, readSig s (toksOf n text) = some { g with scope := s })
    (hf : readFn (toksOf n text) = some f) (hu : uses (toksOf n text) = us) : FnText text g f us :=
  ⟨_, line_lit n h, ⟨hc, hh⟩, hl, hs, hf, hu⟩

/-- `result name(char32_t) noexcept` -/
def cpSig (result : List Tok) (name : Str) : Sig := ⟨[], name, [[.word "char32_t".toList]], result, true⟩

theorem headB {ts : List Tok} (h : (match ts with
    | k :: a :: b :: _ => decide (k ≠ .punct ';') && decide ((b ≠ .punct '{' ∧ b ≠ .punct ':') ∨ a = .punct ':' ∨ k ≠ .word "namespace".toList)
    | _ => false) = true) : ∃ k a b t, ts = k :: a :: b :: t ∧ k ≠ .punct ';' ∧ ((b ≠ .punct '{' ∧ b ≠ .punct ':') ∨ a = .punct ':' ∨ k ≠ .word "namespace".toList) := by
  match ts, h with
  | k :: a :: b :: t, h =>
    obtain ⟨h1, h2⟩ := Bool.and_eq_true_iff.1 h
    exact ⟨k, a, b, t, rfl, of_decide_eq_true h1, of_decide_eq_true h2⟩

theorem plane_text : FnText codePlane (cpSig [.word "Plane".toList] "plane".toList) (lookupFn "Plane".toList "plane".toList "codepoint".toList "Plane".toList ["Plane".toList, "Unassigned".toList])
    ["Plane".toList] :=
  fnText_lit 200 (by decide +kernel) (by decide +kernel) (headB (by decide +kernel)) (by decide +kernel) (fun s => by kernel_rfl) (by kernel_rfl) (by decide +kernel)

theorem gc_text : FnText codeGc (cpSig [.word "General_Category".toList] "get".toList)
    (lookupFn "General_Category".toList "get".toList "value".toList "General_Category".toList ["General_Category".toList, "Unspecified".toList])
    ["General_Category".toList] :=
  fnText_lit 200 (by decide +kernel) (by decide +kernel) (headB (by decide +kernel)) (by decide +kernel) (fun s => by kernel_rfl) (by kernel_rfl) (by decide +kernel)

theorem script_text : FnText codeScript (cpSig [.word "Script".toList] "script".toList)
    (lookupFn "Script".toList "script".toList "codepoint".toList "Script".toList ["Script".toList, "Unknown".toList]) ["Script".toList] :=
  fnText_lit 200 (by decide +kernel) (by decide +kernel) (headB (by decide +kernel)) (by decide +kernel) (fun s => by kernel_rfl) (by kernel_rfl) (by decide +kernel)

theorem block_text : FnText codeBlock (cpSig [.word "Block".toList] "block".toList)
    (lookupFn "Block".toList "block".toList "codepoint".toList "Block".toList ["unicode".toList, "Block".toList, "Unspecified".toList]) ["Block".toList] :=
  fnText_lit 200 (by decide +kernel) (by decide +kernel) (headB (by decide +kernel)) (by decide +kernel) (fun s => by kernel_rfl) (by kernel_rfl) (by decide +kernel)

theorem eaw_text : FnText codeEaw (cpSig [.word "EastAsianWidth".toList] "east_asian_width".toList)
    (lookupFn "EastAsianWidth".toList "east_asian_width".toList "codepoint".toList "EastAsianWidth".toList ["EastAsianWidth".toList, "Unspecified".toList])
    ["EastAsianWidth".toList] :=
  fnText_lit 200 (by decide +kernel) (by decide +kernel) (headB (by decide +kernel)) (by decide +kernel) (fun s => by kernel_rfl) (by kernel_rfl) (by decide +kernel)

theorem mirrored_text : FnText codeMirrored (cpSig [.word "bool".toList] "is_mirrored".toList) (containsFn "is_mirrored".toList "Bidi_Mirrored".toList)
    ["Bidi_Mirrored".toList] :=
  fnText_lit 200 (by decide +kernel) (by decide +kernel) (headB (by decide +kernel)) (by decide +kernel) (fun s => by kernel_rfl) (by kernel_rfl) (by decide +kernel)

theorem sce_text : FnText codeSce (cpSig sceFn.result "script_extensions".toList) sceFn ["sce".toList] :=
  fnText_lit 400 (by decide +kernel) (by decide +kernel) (headB (by decide +kernel)) (by decide +kernel) (fun s => by kernel_rfl) (by kernel_rfl) (by decide +kernel)

theorem glyph_text : FnText codeGlyph (cpSig [.word "char32_t".toList] "bidi_mirroring_glyph".toList) glyphFn
    ["Bidi_Mirroring_Glyph".toList, "Bidi_Mirroring_Glyph".toList, "Bidi_Mirroring_Glyph".toList] :=
  fnText_lit 600 (by decide +kernel) (by decide +kernel) (headB (by decide +kernel)) (by decide +kernel) (fun s => by kernel_rfl) (by kernel_rfl) (by decide +kernel)

theorem widthString_text : FnText codeWidthString
    ⟨[], "to_string".toList, [[.word "EastAsianWidth".toList]], [.word "std".toList, p ':', p ':', .word "string".toList], false⟩ widthStringFn [] :=
  fnText_lit 800 (by decide +kernel) (by decide +kernel) (headB (by decide +kernel)) (by decide +kernel) (fun s => by kernel_rfl) (by kernel_rfl) (by decide +kernel)

theorem emoji_text {name : Str} (h : Word name) : FnText (codeEmoji name) (cpSig [.word "bool".toList] ("is_".toList ++ tolower name))
    (containsFn ("is_".toList ++ tolower name) name) [name] :=
  ⟨emojiToks name, emoji_line h, ⟨by kernel_rfl, _, _, _, _, rfl, by decide, .inr (.inr (by decide))⟩, rfl, fun s => by kernel_rfl, by kernel_rfl, by kernel_rfl⟩

theorem gcIs_text {name : Str} (h : Word name) : FnText (codeGcIs name) (cpSig [.word "bool".toList] ("is_".toList ++ tolower name))
    (gcIsFn ("is_".toList ++ tolower name) name) [] :=
  ⟨gcIsToks name, gcIs_line h, ⟨by kernel_rfl, _, _, _, _, rfl, by decide, .inr (.inr (by decide))⟩, rfl, fun s => by kernel_rfl, by kernel_rfl, by kernel_rfl⟩

theorem break_text {name : Str} (h : Word name) (hi : name ≠ "inline".toList) (ht : name ≠ "tables".toList) :
    FnText (codeBreak name) (cpSig [.word name] (tolower name)) (lookupFn name (tolower name) "codepoint".toList name [name, "Undefined".toList]) [name] := by
  refine ⟨breakToks name, break_line h, ⟨by kernel_rfl, _, _, _, _, rfl, fun e => (by cases e), .inl ⟨by simp [p], by simp [p]⟩⟩, rfl, fun s => ?_, by kernel_rfl, ?_⟩
  · have e : bare (breakToks name) = breakToks name := if_neg hi
    unfold readSig
    rw [e]
    show _ = _
    kernel_rfl
  · have e : uses (breakToks name) = name :: (if name = "tables".toList then ["Undefined".toList] else []) := by kernel_rfl
    rw [e, if_neg ht]

end Verif.Tg
