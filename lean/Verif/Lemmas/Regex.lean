import Verif.Spec.Regex
import Mathlib.Data.List.TakeWhile
/-!
# Lemmas about the regular expressions
-/

namespace Verif.Spec.Regex

theorem rounds_cls (p : Char → Bool) (s : List Char) : ∀ n, s.length ≤ n → rounds (Rx.ways (.cls p)) n s =
    match s with
    | [] => [⟨[], [], []⟩]
    | c :: t => (if p c then ((rounds (Rx.ways (.cls p)) t.length t).map (fun m => (⟨[c], t, []⟩ : Match).then m)) else []) ++ [⟨[], c :: t, []⟩] := by
  induction s with
  | nil =>
    intro n _
    cases n with
    | zero => rfl
    | succ n => rfl
  | cons c t ih =>
    intro n hn
    cases n with
    | zero => simp at hn
    | succ n =>
      rw [rounds]
      dsimp only
      rw [Rx.ways]
      by_cases h : p c = true
      · rw [if_pos h, if_pos h]
        have h1 := ih n (by simpa using hn)
        have h2 := ih t.length (Nat.le_refl _)
        simp [h1, h2]
      · rw [if_neg h, if_neg h]
        rfl

/-- A run of characters of a class, followed by something that cannot begin with one: it is the longest. -/
theorem star_flatMap {β : Type} (p : Char → Bool) (s : List Char) : ∀ (F : Match → List β), (∀ m c t, m.rest = c :: t → p c = true → F m = []) →
    (Rx.ways (.star (.cls p)) s).flatMap F = F ⟨s.takeWhile p, s.dropWhile p, []⟩ := by
  show ∀ F : Match → List β, _ → (rounds (Rx.ways (.cls p)) s.length s).flatMap F = _
  induction s with
  | nil =>
    intro F _
    rw [rounds_cls p [] _ (Nat.le_refl _)]
    simp
  | cons c t ih =>
    intro F h
    rw [rounds_cls p (c :: t) _ (Nat.le_refl _)]
    dsimp only
    by_cases hc : p c = true
    · rw [if_pos hc, List.flatMap_append, List.dropWhile_cons_of_pos hc, List.takeWhile_cons_of_pos hc]
      simp only [List.flatMap_cons, List.flatMap_nil, h ⟨[], c :: t, []⟩ c t rfl hc, List.append_nil]
      rw [List.flatMap_map, ih (fun m => F ((⟨[c], t, []⟩ : Match).then m)) (fun m c' t' e => h _ c' t' e)]
      rfl
    · rw [if_neg hc, List.dropWhile_cons_of_neg (by simpa using hc), List.takeWhile_cons_of_neg (by simpa using hc)]
      simp

/-- The same with at least one character. -/
theorem plus_flatMap {β : Type} (p : Char → Bool) (s : List Char) (F : Match → List β) (h : ∀ m c t, m.rest = c :: t → p c = true → F m = []) :
    (Rx.ways (.plus (.cls p)) s).flatMap F = if s.takeWhile p = [] then [] else F ⟨s.takeWhile p, s.dropWhile p, []⟩ := by
  rw [Rx.plus]
  cases s with
  | nil => rfl
  | cons c t =>
    rw [Rx.ways, Rx.ways]
    by_cases hc : p c = true
    · rw [if_pos hc, List.flatMap_cons, List.flatMap_nil, List.append_nil]
      dsimp only
      rw [List.flatMap_map, star_flatMap p t (fun m => F ((⟨[c], t, []⟩ : Match).then m)) (fun m c' t' e => h _ c' t' e),
        List.takeWhile_cons_of_pos hc, List.dropWhile_cons_of_pos hc, if_neg (by simp)]
      rfl
    · rw [if_neg hc, List.takeWhile_cons_of_neg (by simpa using hc), if_pos rfl]
      rfl

/-- Greedy: the first way takes the longest run. -/
theorem star_head (p : Char → Bool) (s : List Char) : (Rx.ways (.star (.cls p)) s).head? = some ⟨s.takeWhile p, s.dropWhile p, []⟩ := by
  show (rounds (Rx.ways (.cls p)) s.length s).head? = _
  induction s with
  | nil => rfl
  | cons c t ih =>
    rw [rounds_cls p (c :: t) _ (Nat.le_refl _)]
    dsimp only
    by_cases hc : p c = true
    · rw [if_pos hc, List.head?_append, List.head?_map, ih, List.takeWhile_cons_of_pos hc, List.dropWhile_cons_of_pos hc]
      rfl
    · rw [if_neg hc, List.takeWhile_cons_of_neg (by simpa using hc), List.dropWhile_cons_of_neg (by simpa using hc)]
      rfl

theorem plus_head (p : Char → Bool) (s : List Char) : (Rx.ways (.plus (.cls p)) s).head? =
    if s.takeWhile p = [] then none else some ⟨s.takeWhile p, s.dropWhile p, []⟩ := by
  rw [Rx.plus]
  cases s with
  | nil => rfl
  | cons c t =>
    rw [Rx.ways, Rx.ways]
    by_cases hc : p c = true
    · rw [if_pos hc, List.flatMap_cons, List.flatMap_nil, List.append_nil]
      dsimp only
      rw [List.head?_map, star_head, List.takeWhile_cons_of_pos hc, List.dropWhile_cons_of_pos hc, if_neg (by simp)]
      rfl
    · rw [if_neg hc, List.takeWhile_cons_of_neg (by simpa using hc), if_pos rfl]
      rfl

/-- The first way of a sequence, if every way of the second part can follow the first way of the first. -/
theorem seq_head {a b : Rx} {s : List Char} {m k : Match} (h : (a.ways s).head? = some m) (h' : (b.ways m.rest).head? = some k) :
    (Rx.ways (.seq a b) s).head? = some (m.then k) := by
  obtain ⟨l, e⟩ : ∃ l, a.ways s = m :: l := by
    cases hw : a.ways s with
    | nil => rw [hw] at h; cases h
    | cons x l => rw [hw] at h; cases h; exact ⟨l, rfl⟩
  obtain ⟨l', e'⟩ : ∃ l', b.ways m.rest = k :: l' := by
    cases hw : b.ways m.rest with
    | nil => rw [hw] at h'; cases h'
    | cons x l => rw [hw] at h'; cases h'; exact ⟨l, rfl⟩
  rw [Rx.ways, e, List.flatMap_cons, e']
  rfl

theorem seq_nil {a b : Rx} {s : List Char} (h : a.ways s = []) : Rx.ways (.seq a b) s = [] := by
  rw [Rx.ways, h]; rfl

theorem cls_seq (p : Char → Bool) (b : Rx) (s : List Char) : Rx.ways (.seq (.cls p) b) s =
    match s with
    | [] => []
    | c :: t => if p c then (b.ways t).map (⟨[c], t, []⟩ : Match).then else [] := by
  rw [Rx.ways]
  cases s with
  | nil => rfl
  | cons c t =>
    rw [Rx.ways]
    by_cases hc : p c = true
    · rw [if_pos hc]; simp [hc]
    · rw [if_neg hc]; simp [hc]

end Verif.Spec.Regex
