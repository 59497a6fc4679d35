import Verif.Props.TgEmit
import Verif.Model.TgDir
import Verif.Spec.Lines
/-!
# Comments of data lines fit into a line of the generated files
-/

namespace Verif.Tg.Comment

open Verif Verif.Tg
open Verif.Props.Tg (OneLine)
open Verif.Spec.UcdFile (CleanLines)

theorem cutAt_split {c : Char} {s a b : Str} (h : cutAt c s = some (a, b)) : s = a ++ c :: b := by
  induction s generalizing a b with
  | nil => cases h
  | cons x xs ih =>
    rw [cutAt] at h
    split at h
    · rename_i e
      obtain ⟨rfl, rfl⟩ := Prod.mk.inj (Option.some.inj h)
      rw [e]; rfl
    · obtain ⟨⟨a', b'⟩, h1, h2⟩ := Option.map_eq_some_iff.1 h
      obtain ⟨rfl, rfl⟩ := Prod.mk.inj h2
      rw [ih h1]; rfl

theorem takeWhile_all {p : Char → Bool} (s : Str) : ∀ c ∈ s.takeWhile p, p c = true := by
  intro c hc
  exact (List.all_eq_true.1 (List.all_takeWhile (l := s) (p := p))) c hc

theorem trim_split (s : Str) : ∃ a b, s = a ++ trim s ++ b ∧ ∀ c ∈ b, isWs c = true := by
  unfold trim trimBy
  refine ⟨s.takeWhile isWs, ((s.dropWhile isWs).reverse.takeWhile isWs).reverse, ?_, ?_⟩
  · rw [List.append_assoc, ← List.reverse_append, List.takeWhile_append_dropWhile, List.reverse_reverse, List.takeWhile_append_dropWhile]
  · intro c hc
    rw [List.mem_reverse] at hc
    exact Verif.Tg.Comment.takeWhile_all _ c hc

/-- what the comment of a line is -/
theorem comment_of {l : Str} {p : Parsed} (h : parseStandardLine l = some p) : p.comment = [] ∨ ∃ a b, stripCr l = a ++ '#' :: b ∧ p.comment = trim b := by
  have fields : ∀ cp pr c q, parseFields cp pr c = some q → q.comment = c := by
    intro cp pr c q hq
    unfold parseFields checkBounds at hq
    split at hq
    · split at hq
      · cases hq
      · exact (congrArg Parsed.comment (Option.some.inj hq)).symm
    · split at hq
      · cases hq
      · exact (congrArg Parsed.comment (Option.some.inj hq)).symm
  have body : ∀ t c q, parseBody t c = some q → q.comment = c := by
    intro t c q hq
    unfold parseBody at hq
    split at hq
    · cases hq
    · exact fields _ _ _ _ hq
  unfold parseStandardLine parseLine' at h
  split at h
  · cases h
  · split at h
    · rename_i t c e
      exact .inr ⟨t, c, cutAt_split e, body _ _ _ h⟩
    · exact .inl (body _ _ _ h)

/-- No line ends in a backslash and blanks. -/
def Unspliced (lines : List Str) : Prop := ∀ l ∈ lines, ∀ a b, l = a ++ '\\' :: b → ∃ c ∈ b, c ≠ ' ' ∧ c ≠ '\t'

theorem oneLine_of {lines : List Str} (hc : CleanLines lines) (hu : Unspliced lines) {s : Str} (h : CommentIn lines s) : OneLine s := by
  obtain ⟨l, hl, p, hp, rfl⟩ := h
  have hs : stripCr l = l := by
    unfold stripCr
    rw [if_neg]
    intro e
    exact (hc l hl).2 (List.mem_of_getLast? e)
  rcases comment_of hp with e | ⟨a, b, e1, e2⟩
  · rw [e]; exact ⟨(fun h => nomatch h), (fun h => nomatch h)⟩
  · rw [hs] at e1
    obtain ⟨x, y, e3, hy⟩ := trim_split b
    have mem : ∀ c ∈ trim b, c ∈ l := by
      intro c hc'
      rw [e1, e3]
      simp only [List.mem_append, List.mem_cons]
      exact .inr (.inr (.inl (.inr hc')))
    have memy : ∀ c ∈ y, c ∈ l := by
      intro c hc'
      rw [e1, e3]
      simp only [List.mem_append, List.mem_cons]
      exact .inr (.inr (.inr hc'))
    rw [e2]
    refine ⟨fun h => (hc l hl).1 (mem _ h), fun h => ?_⟩
    obtain ⟨t, ht⟩ := List.getLast?_eq_some_iff.1 h
    obtain ⟨c, hc1, hc2, hc3⟩ := hu l hl (a ++ '#' :: (x ++ t)) y (by
      conv => lhs; rw [e1, e3, ht]
      simp only [List.append_assoc, List.cons_append, List.nil_append])
    have := hy c hc1
    unfold isWs at this
    have hn : c ≠ '\n' := fun e => (hc l hl).1 (e ▸ memy c hc1)
    have hr : c ≠ '\r' := fun e => (hc l hl).2 (e ▸ memy c hc1)
    simp only [hc2, hc3, hn, hr, decide_false, Bool.or_self, Bool.false_eq_true] at this

end Verif.Tg.Comment
