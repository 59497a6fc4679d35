import Verif.Props.TextPrefix
import Verif.Props.EmojiPrefix
import Verif.Props.Run
import Verif.Props.Case
/-!
# C80 Text that arrives later changes only the end: runs, titlecase
-/

namespace Verif.Props.RunPrefix
open Verif.Run Verif.Spec Verif.Props.Run

variable {α β : Type}

/-- Two lists of labelled ends that describe the same labels at the positions below `P` and the same ends up to `P` (at `P` itself: the same or none). -/
inductive Agree (P : Nat) : List (α × Nat) → List (α × Nat) → Prop
  | same {x : α} {e : Nat} {t t' : List (α × Nat)} : e < P → Agree P t t' → Agree P ((x, e) :: t) ((x, e) :: t')
  | long {x : α} {e e' : Nat} {t t' : List (α × Nat)} : P < e → P < e' → Agree P ((x, e) :: t) ((x, e') :: t')
  | stop {x : α} {t t' : List (α × Nat)} : Agree P ((x, P) :: t) ((x, P) :: t')

theorem ok_step {last n m e : Nat} {x : α} {t : List (α × Nat)} (h : Ok last n ((x, e) :: t)) (hm : m ≤ e) :
    Ok m n (if e > m then (x, e) :: t else t) := by
  unfold Ok at h
  cases h with
  | cons h1 h2 =>
    split
    · exact CoversFrom.cons (by omega) h2
    · have : m = e := by omega
      subst this
      exact h2

/-- Ranges up to a position to which both segmentations agree are the same. -/
theorem merge_agree (P n n' : Nat) : ∀ (k k' last : Nat) (ra ra' : List (α × Nat)) (rb rb' : List (β × Nat)),
    Ok last n ra → Ok last n' ra' → Ok last n rb → Ok last n' rb' → n - last ≤ k → n' - last ≤ k' → last < P →
    Agree P ra ra' → Agree P rb rb' → ∀ r ∈ merge k last ra rb, r.stop ≤ P → r ∈ merge k' last ra' rb' := by
  intro k
  induction k with
  | zero => intro k' last ra ra' rb rb' _ _ _ _ _ _ _ _ _ r hr; simp [merge] at hr
  | succ k ih =>
    intro k' last ra ra' rb rb' h1 h1' h2 h2' hk hk' hP ha hb r hr hs
    have later : ∀ (m : Nat) (ra : List (α × Nat)) (rb : List (β × Nat)), Ok m n ra → Ok m n rb → n - m ≤ k →
        r ∈ merge k m ra rb → m < r.stop := by
      intro m ra rb g1 g2 g3 g4
      exact (List.pairwise_cons.1 (merge_spec k m n ra rb g1 g2 g3).1.pairwise).1 _ (List.mem_map_of_mem g4)
    have pos : ∀ (x : α) (e : Nat) (t : List (α × Nat)) (n : Nat), Ok last n ((x, e) :: t) → last < e ∧ e ≤ n := by
      intro x e t n h
      unfold Ok at h
      cases h with
      | cons g1 g2 => exact ⟨g1, Ok.le (l := t) g2⟩
    have posb : ∀ (x : β) (e : Nat) (t : List (β × Nat)) (n : Nat), Ok last n ((x, e) :: t) → last < e ∧ e ≤ n := by
      intro x e t n h
      unfold Ok at h
      cases h with
      | cons g1 g2 => exact ⟨g1, Ok.le (l := t) g2⟩
    obtain ⟨x, e, e', t, t', rfl, rfl, hx⟩ : ∃ x e e' t t', ra = (x, e) :: t ∧ ra' = (x, e') :: t' ∧
        ((e = e' ∧ e < P ∧ Agree P t t') ∨ (P < e ∧ P < e') ∨ (e = P ∧ e' = P)) := by
      cases ha with
      | same g1 g2 => exact ⟨_, _, _, _, _, rfl, rfl, Or.inl ⟨rfl, g1, g2⟩⟩
      | long g1 g2 => exact ⟨_, _, _, _, _, rfl, rfl, Or.inr (Or.inl ⟨g1, g2⟩)⟩
      | stop => exact ⟨_, _, _, _, _, rfl, rfl, Or.inr (Or.inr ⟨rfl, rfl⟩)⟩
    obtain ⟨y, f, f', u, u', rfl, rfl, hy⟩ : ∃ y f f' u u', rb = (y, f) :: u ∧ rb' = (y, f') :: u' ∧
        ((f = f' ∧ f < P ∧ Agree P u u') ∨ (P < f ∧ P < f') ∨ (f = P ∧ f' = P)) := by
      cases hb with
      | same g1 g2 => exact ⟨_, _, _, _, _, rfl, rfl, Or.inl ⟨rfl, g1, g2⟩⟩
      | long g1 g2 => exact ⟨_, _, _, _, _, rfl, rfl, Or.inr (Or.inl ⟨g1, g2⟩)⟩
      | stop => exact ⟨_, _, _, _, _, rfl, rfl, Or.inr (Or.inr ⟨rfl, rfl⟩)⟩
    have p1 := pos _ _ _ _ h1
    have p1' := pos _ _ _ _ h1'
    have p2 := posb _ _ _ _ h2
    have p2' := posb _ _ _ _ h2'
    obtain ⟨k', rfl⟩ : ∃ j, k' = j + 1 := ⟨k' - 1, by omega⟩
    have o1 := ok_step h1 (Nat.min_le_left e f)
    have o2 := ok_step h2 (Nat.min_le_right e f)
    have o1' := ok_step h1' (Nat.min_le_left e' f')
    have o2' := ok_step h2' (Nat.min_le_right e' f')
    simp only [merge, List.mem_cons] at hr ⊢
    by_cases hlt : min e f < P
    · have hmin : min e' f' = min e f := by omega
      rw [hmin] at o1' o2' ⊢
      rcases hr with rfl | hr
      · exact Or.inl rfl
      · right
        refine ih k' (min e f) _ _ _ _ o1 o1' o2 o2' (by omega) (by omega) hlt ?_ ?_ r hr hs
        · rcases hx with ⟨rfl, q1, q2⟩ | ⟨q1, q2⟩ | ⟨rfl, rfl⟩
          · by_cases hc : e > min e f
            · rw [if_pos hc, if_pos hc]; exact .same q1 q2
            · rw [if_neg hc, if_neg hc]; exact q2
          · rw [if_pos (by omega), if_pos (by omega)]; exact .long q1 q2
          · rw [if_pos hlt, if_pos hlt]; exact .stop
        · rcases hy with ⟨rfl, q1, q2⟩ | ⟨q1, q2⟩ | ⟨rfl, rfl⟩
          · by_cases hc : f > min e f
            · rw [if_pos hc, if_pos hc]; exact .same q1 q2
            · rw [if_neg hc, if_neg hc]; exact q2
          · rw [if_pos (by omega), if_pos (by omega)]; exact .long q1 q2
          · rw [if_pos hlt, if_pos hlt]; exact .stop
    · rcases hr with rfl | hr
      · simp only at hs
        have hmin : min e' f' = min e f := by omega
        rw [hmin]
        exact Or.inl rfl
      · have := later _ _ _ o1 o2 (by omega) hr
        omega

theorem runs_eq_merge (n : Nat) (da : α) (db : β) (ra : List (α × Nat)) (rb : List (β × Nat))
    (ha' : Ok 0 n ra) (hb' : Ok 0 n rb) : runs n da db ra rb = merge n 0 ra rb := by
  unfold runs
  rw [runsLoop_merge n (init n da db ra rb) rfl]
  · simp [init, pending]
  · simpa [init, pending] using ha'
  · simpa [init, pending] using hb'
  · simp [init]; omega
  · simp [init]; omega

/-- Segmentations with the same first segments, the last of which ends at `P` or behind it, agree to `P`. -/
theorem agree_prefix (P : Nat) : ∀ (l : List (α × Nat)) (k n n' : Nat) (t t' : List (α × Nat)), Ok k n (l ++ t) → Ok k n' (l ++ t') → k < P →
    (∃ y ∈ l, P ≤ y.2) → Agree P (l ++ t) (l ++ t') := by
  intro l
  induction l with
  | nil => rintro k n n' t t' _ _ _ ⟨y, hy, _⟩; simp at hy
  | cons x l ih =>
    intro k n n' t t' h h' hk hy
    obtain ⟨x, e⟩ := x
    rcases Nat.lt_trichotomy e P with hlt | rfl | hgt
    · refine .same hlt (ih e n n' t t' ?_ ?_ hlt ?_)
      · unfold Ok at h ⊢; cases h with | cons _ h2 => exact h2
      · unfold Ok at h' ⊢; cases h' with | cons _ h2 => exact h2
      · obtain ⟨y, hy, hle⟩ := hy
        rcases List.mem_cons.1 hy with rfl | hy
        · simp only at hle; omega
        · exact ⟨y, hy, hle⟩
    · exact .stop
    · exact .long hgt hgt

/-- … and when the next segment has the same label in both and ends behind `P`. -/
theorem agree_next (P : Nat) (x : α) (e e' : Nat) (he : P < e) (he' : P < e') : ∀ (l : List (α × Nat)) (k n n' : Nat) (t t' : List (α × Nat)),
    Ok k n (l ++ (x, e) :: t) → Ok k n' (l ++ (x, e') :: t') → k < P → Agree P (l ++ (x, e) :: t) (l ++ (x, e') :: t') := by
  intro l
  induction l with
  | nil => intro k n n' t t' _ _ _; exact .long he he'
  | cons z l ih =>
    intro k n n' t t' h h' hk
    obtain ⟨z, f⟩ := z
    rcases Nat.lt_trichotomy f P with hlt | rfl | hgt
    · refine .same hlt (ih f n n' t t' ?_ ?_ hlt)
      · unfold Ok at h ⊢; cases h with | cons _ h2 => exact h2
      · unfold Ok at h' ⊢; cases h' with | cons _ h2 => exact h2
    · exact .stop
    · exact .long hgt hgt

/-- **C80, runs.** When text `b` is appended to a text, every run of that text that stops in front of its last emoji or text segment, and no later
than its last script run begins, is a run of the longer text: same start, same stop, same script and presentation. -/
theorem C80_runs {D : Verif.Script.Data} (hD : Script.StrongOk D) (cat : Nat → Int) (a b : List Nat)
    (ss : List (Verif.Script.Script × Nat)) (s1 s2 : Verif.Script.Script × Nat) (hs : Verif.Script.runs D a = ss ++ [s1, s2])
    (es : List (Bool × Nat)) (e1 e2 : Bool × Nat) (he : Verif.Emoji.runs (a.map cat) = es ++ [e1, e2])
    (r : Range Verif.Script.Script Bool) (hr : r ∈ textRuns D cat a) (h1 : r.stop ≤ s1.2) (h2 : r.stop < e1.2) :
    r ∈ textRuns D cat (a ++ b) := by
  have okS : ∀ a : List Nat, Ok 0 a.length (Verif.Script.runs D a) := fun a =>
    coversFrom_of_covers (Script.C22_covers hD a).increasing (Script.C22_covers hD a).complete
  have okE : ∀ a : List Nat, Ok 0 a.length (Verif.Emoji.runs (a.map cat)) := fun a => by
    have := Emoji.C23_covers (a.map cat)
    rw [List.length_map] at this
    exact coversFrom_of_covers this.increasing this.complete
  unfold textRuns at hr ⊢
  rw [runs_eq_merge _ _ _ _ _ (okS a) (okE a)] at hr
  rw [runs_eq_merge _ _ _ _ _ (okS _) (okE _)]
  have o1 := okS a
  have o1' := okS (a ++ b)
  have o2 := okE a
  have o2' := okE (a ++ b)
  obtain ⟨s2', rest, g1, _⟩ := TextPrefix.C80_scripts D a b (ss ++ [s1]) s2 (by simpa using hs)
  obtain ⟨f, rest', k1, k2⟩ := EmojiPrefix.C80_emoji (a.map cat) (b.map cat) es e1 e2 he
  rw [← List.map_append] at k1
  have hpos : 0 < r.stop :=
    (List.pairwise_cons.1 (merge_spec a.length 0 a.length _ _ o1 o2 (by omega)).1.pairwise).1 _ (List.mem_map_of_mem hr)
  refine merge_agree r.stop a.length (a ++ b).length _ _ 0 _ _ _ _ o1 o1' o2 o2' (by omega) (by omega) hpos ?_ ?_ r hr (Nat.le_refl _)
  · rw [g1] at o1' ⊢
    rw [hs, show ss ++ [s1, s2] = (ss ++ [s1]) ++ [s2] by simp] at o1 ⊢
    exact agree_prefix r.stop _ 0 _ _ _ _ o1 o1' hpos ⟨s1, by simp, h1⟩
  · rw [k1] at o2' ⊢
    rw [he] at o2 ⊢
    exact agree_next r.stop e1.1 e1.2 f h2 (by omega) es 0 _ _ _ _ o2 o2' hpos

/-- Non-vacuity: Latin, Greek, an emoji, Latin; the first two runs are final although a modifier still changes the emoji's end. -/
example : let cat : Nat → Int := fun c => if c = 0x1F600 then 3 else if c = 0x1F3FB then 4 else -1
    Verif.Script.runs Script.toyScripts [0x61, 0x3B1, 0x1F600, 0x62] = [(.sc 1, 1)] ++ [(.sc 2, 3), (.sc 1, 4)] ∧
    Verif.Emoji.runs ([0x61, 0x3B1, 0x1F600, 0x62].map cat) = [] ++ [(false, 2)] ++ [(true, 3), (false, 4)] ∧
    textRuns Script.toyScripts cat [0x61, 0x3B1, 0x1F600, 0x62] =
      [⟨0, 1, (.sc 1, false)⟩, ⟨1, 2, (.sc 2, false)⟩, ⟨2, 3, (.sc 2, true)⟩, ⟨3, 4, (.sc 1, false)⟩] := by decide

/-! ## Titlecase -/

section Title
open Verif.Spec.Case Verif.Case Verif.Word Verif.Ucd Verif.Props.Case

theorem title_prefix (cased : Nat → Bool) (title lower : Nat → List Nat) (w e : List Nat) :
    ∃ z, titleWordSpec cased title lower (w ++ e) = titleWordSpec cased title lower w ++ z := by
  induction w with
  | nil => exact ⟨titleWordSpec cased title lower e, rfl⟩
  | cons x w ih =>
    by_cases hx : cased x = true
    · refine ⟨e.flatMap (fun d => if cased d then lower d else [d]), ?_⟩
      simp [titleWordSpec, hx]
    · obtain ⟨z, hz⟩ := ih
      refine ⟨z, ?_⟩
      simp only [titleWordSpec] at hz ⊢
      simp only [Bool.not_eq_true] at hx
      simp only [List.cons_append, List.takeWhile_cons, List.dropWhile_cons, hx, Bool.not_false, if_true, hz]

/-- **C80, titlecase.** Let `c`, `d` be the last two words of a text. When text `b` is appended, the titlecase of everything in front of `d` is final:
the titlecase of the text is `p` followed by that of `d`, the titlecase of the longer text begins with `p`. -/
theorem C80_titlecase (U : Table) (T : CaseTables) (hT : TablesSorted T) (a b : List Nat) (cs : List (List Nat)) (c d : List Nat)
    (h : segments U a = cs ++ [c, d]) :
    ∃ (cased : Nat → Bool) (title lower : Nat → List Nat),
      (∀ c, cased c = true ↔ (U c).generalCategory = .Uppercase_Letter ∨ (U c).generalCategory = .Lowercase_Letter
        ∨ (U c).generalCategory = .Titlecase_Letter)
      ∧ (∀ c, MapsTo asciiUp T.fullTitle T.simpleTitle c (title c))
      ∧ (∀ c, MapsTo asciiDown T.fullLower T.simpleLower c (lower c))
      ∧ ∃ p, toTitlecase U T a = p ++ titleWordSpec cased title lower d ∧
        p = (cs ++ [c]).flatMap (titleWordSpec cased title lower) ∧ p <+: toTitlecase U T (a ++ b) := by
  obtain ⟨cased, title, lower, h1, h2, h3, h4⟩ := C35_titlecase U T hT a
  obtain ⟨cased', title', lower', g1, g2, g3, g4⟩ := C35_titlecase U T hT (a ++ b)
  obtain ⟨e, rest, hw⟩ := TextPrefix.C80_words U a b cs c d h
  have e1 : cased' = cased := by
    funext x
    have := (g1 x).trans (h1 x).symm
    exact Bool.eq_iff_iff.2 this
  have e2 : title' = title := by
    funext x
    exact mapsTo_unique _ _ _ hT.ft hT.st x _ _ (g2 x) (h2 x)
  have e3 : lower' = lower := by
    funext x
    exact mapsTo_unique _ _ _ hT.fl hT.sl x _ _ (g3 x) (h3 x)
  subst e1 e2 e3
  refine ⟨cased', title', lower', h1, h2, h3, (cs ++ [c]).flatMap (titleWordSpec cased' title' lower'), ?_, rfl, ?_⟩
  · rw [h4, h]; simp
  · obtain ⟨z, hz⟩ := title_prefix cased' title' lower' c e
    rw [g4, hw]
    refine ⟨z ++ rest.flatMap (titleWordSpec cased' title' lower'), ?_⟩
    simp [hz]

/-- Non-vacuity: `aB ǆ`: the last two segments are the space and the letter; with a `C` appended the last word grows, its front part and all before it are final. -/
example : segments lettered [0x61, 0x42, 0x20, 0x1C6] = [[0x61, 0x42]] ++ [[0x20], [0x1C6]] ∧
    toTitlecase lettered sample [0x61, 0x42, 0x20, 0x1C6] = [0x41, 0x62, 0x20, 0x1C5] ∧
    toTitlecase lettered sample ([0x61, 0x42, 0x20, 0x1C6] ++ [0x43]) = [0x41, 0x62, 0x20] ++ [0x1C5, 0x63] := by decide +kernel

end Title

end Verif.Props.RunPrefix
