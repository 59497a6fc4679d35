import Verif.Model.TgDir
import Verif.Spec.Lines
import Mathlib.Data.List.Forall2
/-!
# Line ends do not matter to the parser
-/

namespace Verif.Tg
open Verif.Spec.UcdFile

/-- A line as `std::getline` gives it: with or without the carriage return of its line end. -/
def LineEnd (l l' : Str) : Prop := l' = l ∨ l' = l ++ ['\r']

theorem getlinesFrom_line (l : Str) : ∀ (cur s : Str), '\n' ∉ l → getlinesFrom cur (l ++ '\n' :: s) = (cur ++ l) :: getlinesFrom [] s := by
  induction l with
  | nil =>
    intro cur s _
    rw [List.nil_append, getlinesFrom, if_pos rfl, List.append_nil]
  | cons c l ih =>
    intro cur s h
    rw [List.mem_cons, not_or] at h
    rw [List.cons_append, getlinesFrom, if_neg (fun e => h.1 e.symm), ih _ _ h.2, List.append_assoc]
    rfl

theorem getlinesFrom_rest (l : Str) : ∀ cur : Str, '\n' ∉ l → getlinesFrom cur l = if cur ++ l = [] then [] else [cur ++ l] := by
  induction l with
  | nil => intro cur _; rw [getlinesFrom, List.append_nil]
  | cons c l ih =>
    intro cur h
    rw [List.mem_cons, not_or] at h
    rw [getlinesFrom, if_neg (fun e => h.1 e.symm), ih _ h.2, List.append_assoc]
    rfl

/-- `std::getline` finds the lines of a text. -/
theorem getlines_text {ls : List Str} {s : Str} (h : TextOf ls s) : CleanLines ls → List.Forall₂ LineEnd ls (getlines s) := by
  induction h with
  | nil => intro _; exact .nil
  | last l hl =>
    intro hc
    unfold getlines
    rw [getlinesFrom_rest l [] (hc l (by simp)).1, List.nil_append, if_neg hl]
    exact .cons (.inl rfl) .nil
  | unix l h ih =>
    intro hc
    unfold getlines
    rw [getlinesFrom_line l [] _ (hc l (by simp)).1]
    exact .cons (.inl rfl) (ih fun x hx => hc x (List.mem_cons_of_mem _ hx))
  | @dos l ls s h ih =>
    intro hc
    unfold getlines
    have e : l ++ '\r' :: '\n' :: s = (l ++ ['\r']) ++ '\n' :: s := by simp
    rw [e, getlinesFrom_line (l ++ ['\r']) [] _ (by
      rw [List.mem_append, not_or]
      exact ⟨(hc l (by simp)).1, by decide⟩)]
    exact .cons (.inr rfl) (ih fun x hx => hc x (List.mem_cons_of_mem _ hx))

/-! ## The functions on lines -/

theorem dropWhile_snoc (p : Char → Bool) (s : Str) (c : Char) (hc : p c = true) :
    (s ++ [c]).dropWhile p = if s.dropWhile p = [] then [] else s.dropWhile p ++ [c] := by
  induction s with
  | nil => simp [hc]
  | cons x s ih =>
    by_cases hx : p x = true
    · rw [List.cons_append, List.dropWhile_cons_of_pos hx, List.dropWhile_cons_of_pos hx, ih]
    · rw [List.cons_append, List.dropWhile_cons_of_neg hx, List.dropWhile_cons_of_neg hx, if_neg (by simp)]
      rfl

theorem trimBy_snoc (p : Char → Bool) (s : Str) (c : Char) (hc : p c = true) : trimBy p (s ++ [c]) = trimBy p s := by
  unfold trimBy
  rw [dropWhile_snoc p s c hc]
  split
  · rename_i h; rw [h]
  · rw [List.reverse_append, List.reverse_singleton, List.singleton_append, List.dropWhile_cons_of_pos hc]

theorem trim_snoc_cr (s : Str) : trim (s ++ ['\r']) = trim s := trimBy_snoc _ s _ (by decide)

theorem trim_end {l l' : Str} (h : LineEnd l l') : trim l' = trim l := by
  rcases h with rfl | rfl
  · rfl
  · exact trim_snoc_cr l

theorem parse_end {l l' : Str} (hc : '\r' ∉ l) (h : LineEnd l l') : parseStandardLine l' = parseStandardLine l := by
  rcases h with rfl | rfl
  · rfl
  · have h1 : stripCr l = l := by
      unfold stripCr
      rw [if_neg (fun h => hc (List.mem_of_getLast? h))]
    have h2 : stripCr (l ++ ['\r']) = l := by
      unfold stripCr
      rw [if_pos (by simp), List.dropLast_concat]
    unfold parseStandardLine
    rw [h1, h2]

theorem prefix_cr (pat : Str) (hp : '\r' ∉ pat) (l : Str) : pat.isPrefixOf (l ++ ['\r']) = pat.isPrefixOf l := by
  induction pat generalizing l with
  | nil => simp
  | cons c pat ih =>
    rw [List.mem_cons, not_or] at hp
    cases l with
    | nil =>
      have : ¬ c = '\r' := fun e => hp.1 e.symm
      simp [List.isPrefixOf, this]
    | cons x l =>
      rw [List.cons_append, List.isPrefixOf, List.isPrefixOf, ih hp.2]

theorem cutStr_cr (pat : Str) (hp : '\r' ∉ pat) (hne : pat ≠ []) (l : Str) : cutStr pat (l ++ ['\r']) = (cutStr pat l).map (· ++ ['\r']) := by
  have pre : ∀ l : Str, pat.isPrefixOf l = true → pat.length ≤ l.length := fun l h => (List.isPrefixOf_iff_prefix.1 h).length_le
  induction l with
  | nil =>
    rw [List.nil_append, cutStr, cutStr, if_neg hne, cutStr, if_neg hne]
    have : pat.isPrefixOf ['\r'] = false := by
      have := prefix_cr pat hp []
      rw [List.nil_append] at this
      rw [this]
      cases pat with
      | nil => exact absurd rfl hne
      | cons c pat => rfl
    rw [this]
    rfl
  | cons x l ih =>
    have e := prefix_cr pat hp (x :: l)
    rw [List.cons_append] at e
    rw [List.cons_append, cutStr, cutStr, e]
    by_cases h : pat.isPrefixOf (x :: l) = true
    · rw [if_pos h, if_pos h]
      have hle := pre _ h
      rw [← List.cons_append, List.drop_append_of_le_length hle]
      rfl
    · rw [if_neg h, if_neg h, ih]

theorem head_cr (l : Str) (c : Char) (hc : c ≠ '\r') : (l ++ ['\r']).head? = some c ↔ l.head? = some c := by
  cases l with
  | nil => simp [hc.symm]
  | cons x l => simp

theorem firstWord_trim_snoc (v : Str) : firstWord (trim (v ++ ['\r'])) = firstWord (trim v) := by rw [trim_snoc_cr]

theorem header_end (key : Str) (hk : '\r' ∉ key) {l l' : Str} (h : LineEnd l l') : groupHeader key l' = groupHeader key l := by
  rcases h with rfl | rfl
  · rfl
  · unfold groupHeader
    rw [cutStr_cr (key ++ [':']) (by rw [List.mem_append, not_or]; exact ⟨hk, by decide⟩) (by simp)]
    by_cases hh : l.head? = some '#'
    · rw [if_pos hh, if_pos ((head_cr l '#' (by decide)).2 hh), Option.map_map]
      congr 1
      funext v
      exact firstWord_trim_snoc v
    · rw [if_neg hh, if_neg (fun e => hh ((head_cr l '#' (by decide)).1 e))]

theorem grouped_end (key : Str) (hk : '\r' ∉ key) (st : Str × Groups) {l l' : Str} (hc : '\r' ∉ l) (h : LineEnd l l') :
    groupedLine key st l' = groupedLine key st l := by
  unfold groupedLine
  rw [trim_end h, header_end key hk h, parse_end hc h]

theorem alias_end (st : Str × Aliases) {l l' : Str} (h : LineEnd l l') : aliasLine st l' = aliasLine st l := by
  unfold aliasLine
  rw [trim_end h]

theorem gc_end (al : List (Str × Str)) (st : GcState) {l l' : Str} (hc : '\r' ∉ l) (h : LineEnd l l') : gcLine al st l' = gcLine al st l := by
  unfold gcLine
  rw [parse_end hc h]
  generalize parseStandardLine l = o
  generalize hp : "# General_Category=".toList = pat
  have hpr : '\r' ∉ pat := by rw [← hp]; decide
  have hlen : pat.length = 19 := by rw [← hp]; decide
  rcases h with rfl | rfl
  · rfl
  · rw [prefix_cr pat hpr]
    by_cases hx : pat.isPrefixOf l = true
    · rw [if_pos hx, if_pos hx]
      have hle : 19 ≤ l.length := by rw [← hlen]; exact (List.isPrefixOf_iff_prefix.1 hx).length_le
      rw [List.drop_append_of_le_length hle, trim_snoc_cr]
    · rw [if_neg hx, if_neg hx]

theorem core_end (st : Groups × Groups) {l l' : Str} (hc : '\r' ∉ l) (h : LineEnd l l') : coreLine st l' = coreLine st l := by
  unfold coreLine
  rw [parse_end hc h]

theorem emoji_end (gs : Groups) {l l' : Str} (hc : '\r' ∉ l) (h : LineEnd l l') : emojiLine gs l' = emojiLine gs l := by
  unfold emojiLine
  rw [parse_end hc h]

theorem cutAt_cr (c : Char) (hc : c ≠ '\r') (s : Str) : cutAt c (s ++ ['\r']) = (cutAt c s).map fun x => (x.1, x.2 ++ ['\r']) := by
  induction s with
  | nil =>
    have h : ¬ '\r' = c := fun e => hc e.symm
    simp [cutAt, h]
  | cons x s ih =>
    rw [List.cons_append, cutAt, cutAt]
    by_cases hx : x = c
    · rw [if_pos hx, if_pos hx]; rfl
    · rw [if_neg hx, if_neg hx, ih]
      cases cutAt c s <;> rfl

theorem evs_end {l l' : Str} (h : LineEnd l l') : evsLine l' = evsLine l := by
  rcases h with rfl | rfl
  · rfl
  · have he : eraseComment (l ++ ['\r']) = eraseComment l ∨ eraseComment (l ++ ['\r']) = eraseComment l ++ ['\r'] := by
      unfold eraseComment
      rw [cutAt_cr '#' (by decide)]
      cases cutAt '#' l with
      | none => exact .inr rfl
      | some x => exact .inl rfl
    unfold evsLine
    rcases he with he | he
    · rw [he]
    · rw [he, cutAt_cr ';' (by decide)]
      cases cutAt ';' (eraseComment l) with
      | none => rfl
      | some x => rfl

theorem mirrored_end {l l' : Str} (h : LineEnd l l') : mirroredLine l' = mirroredLine l := by unfold mirroredLine; rw [trim_end h]
theorem ud_end (u : Ud) {l l' : Str} (h : LineEnd l l') : udLine u l' = udLine u l := by unfold udLine; rw [trim_end h]
theorem cf_end (u : Folds) {l l' : Str} (h : LineEnd l l') : cfLine u l' = cfLine u l := by unfold cfLine; rw [trim_end h]
theorem sc_end (u : Ud) (s : Special) {l l' : Str} (h : LineEnd l l') : scLine u s l' = scLine u s l := by unfold scLine; rw [trim_end h]
theorem ex_end (s : List Nat) {l l' : Str} (h : LineEnd l l') : exLine s l' = exLine s l := by unfold exLine; rw [trim_end h]
theorem qc_end (q : Qc) {l l' : Str} (h : LineEnd l l') : qcLine q l' = qcLine q l := by unfold qcLine; rw [trim_end h]

/-! ## The functions on files -/

/-- The lines of a file, with other line ends. -/
def LineEnds (ls ls' : List Str) : Prop := List.Forall₂ (fun l l' => '\r' ∉ l ∧ LineEnd l l') ls ls'

theorem foldl_ends {σ : Type} {f : σ → Str → σ} (hf : ∀ st l l', '\r' ∉ l → LineEnd l l' → f st l' = f st l) {ls ls' : List Str} (h : LineEnds ls ls') :
    ∀ st, ls'.foldl f st = ls.foldl f st := by
  induction h with
  | nil => intro st; rfl
  | cons h _ ih => intro st; rw [List.foldl_cons, List.foldl_cons, hf st _ _ h.1 h.2, ih]

theorem filterMap_ends {β : Type} {f : Str → Option β} (hf : ∀ l l', '\r' ∉ l → LineEnd l l' → f l' = f l) {ls ls' : List Str} (h : LineEnds ls ls') :
    ls'.filterMap f = ls.filterMap f := by
  induction h with
  | nil => rfl
  | cons h _ ih => rw [List.filterMap_cons, List.filterMap_cons, hf _ _ h.1 h.2, ih]

theorem flatMap_ends {β : Type} {f : Str → List β} (hf : ∀ l l', '\r' ∉ l → LineEnd l l' → f l' = f l) {ls ls' : List Str} (h : LineEnds ls ls') :
    ls'.flatMap f = ls.flatMap f := by
  induction h with
  | nil => rfl
  | cons h _ ih => rw [List.flatMap_cons, List.flatMap_cons, hf _ _ h.1 h.2, ih]

theorem gcLoop_ends (al : List (Str × Str)) {ls ls' : List Str} (h : LineEnds ls ls') : ∀ st, gcLoop al st ls' = gcLoop al st ls := by
  induction h with
  | nil => intro st; rfl
  | cons h _ ih =>
    intro st
    rw [gcLoop, gcLoop, gc_end al st h.1 h.2]
    cases gcLine al st _ with
    | none => rfl
    | some st' => exact ih st'

theorem evsLoop_ends {ls ls' : List Str} (h : LineEnds ls ls') : evsLoop ls' = evsLoop ls := by
  induction h with
  | nil => rfl
  | cons h _ ih => rw [evsLoop, evsLoop, evs_end h.2, ih]

theorem commentIn_ends {ls ls' : List Str} (h : LineEnds ls ls') (s : Str) : CommentIn ls' s ↔ CommentIn ls s := by
  unfold CommentIn
  induction h with
  | nil => rfl
  | cons h _ ih =>
    simp only [List.exists_mem_cons_iff]
    rw [ih, parse_end h.1 h.2]

end Verif.Tg
