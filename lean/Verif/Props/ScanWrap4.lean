import Verif.Props.ScanWrap3
import Mathlib.Data.List.Infix
/-!
# Property C66 for a terminal that keeps the state: the end of the text is reached
-/

namespace Verif.Props.Scan
open Verif.Ucd Verif.Utf8 Verif.Grapheme Verif.Width Verif.Scan Verif.Spec.GB Verif.Spec Verif.Spec.Line Verif.Toy

/-- Lines of `max` columns written with one state, one call of `scan_text` behind the other, until nothing is left of the text. -/
inductive WrittenAll (U : Table) (v : Variant) (w : Nat) (max : Nat) : State → List Nat → List Nat → List Out → Prop
  | done (st : State) (cs : List Nat) : WrittenAll U v w max st cs [] []
  | line (st : State) (cs ds ks : List Nat) (R : Out) (rest : List Out) : ds ++ ks ≠ [] →
      scanText U v w st (some 0) (toUtf8Str cs) (toUtf8Str (ds ++ ks)) max = .ok R → R.next = (toUtf8Str ds).length →
      WrittenAll U v w max R.st (cs ++ ds) ks rest → WrittenAll U v w max st cs (ds ++ ks) (R :: rest)

theorem WrittenAll.written {U : Table} {v : Variant} {w max : Nat} {st : State} {cs ks : List Nat} {Rs : List Out}
    (h : WrittenAll U v w max st cs ks Rs) : Written U v w st cs ks (Rs.map (max, ·)) := by
  induction h with
  | done st cs => exact .done st cs []
  | line st cs ds ks R rest h1 h2 h3 _ ih => exact .line st cs ds ks max R _ h1 h2 h3 ih

/-- Wherever in the text a line begins, its first glyph fits on an empty line of `max` columns. -/
def Roomy (U : Table) (max : Nat) (cs : List Nat) : Prop :=
  ∀ ks cls, ks <:+ cs → Partition cls ks → (∀ l b post, l ≠ [] → ks = l ++ b :: post → (SegBoundary cls l ↔ ScanBorder U l b)) →
    ∀ x xs, glyphs cls = x :: xs → Fits (clusterWidth U) max 0 true x

theorem glyphs_text_ne (cls : List (List Nat)) : ∀ x ∈ glyphs cls, x.text ≠ [] := by
  induction cls with
  | nil => intro x hx; rw [glyphs] at hx; exact absurd hx (by simp)
  | cons s cls ih =>
    cases s with
    | nil => rw [glyphs]; exact ih
    | cons a t =>
      rw [glyphs]
      by_cases ha : a < 0x80
      · rw [if_pos ha]
        by_cases ht : t = []
        · rw [if_pos ht]
          intro x hx
          rcases List.mem_cons.1 hx with rfl | hx
          · simp
          · exact ih x hx
        · rw [if_neg ht]
          intro x hx
          rcases List.mem_cons.1 hx with rfl | hx
          · simp
          rcases List.mem_cons.1 hx with rfl | hx
          · exact ht
          · exact ih x hx
      · rw [if_neg ha]
        intro x hx
        rcases List.mem_cons.1 hx with rfl | hx
        · simp
        · exact ih x hx

theorem written_all {U : Table} (D : DataOk U) (W : WidthOk U) (A : AsciiOk U) (V : VariationOk U) (v : Variant) (w max : Nat) : ∀ (n : Nat)
    (ks : List Nat), ks.length ≤ n → ∀ (st : State) (cs : List Nat) (room : Nat), PlainText U ks → Roomy U max ks →
      (ks ≠ [] → st.utf8.expectedLength = 0) → Halt.Ready U st room ks → ∃ Rs, WrittenAll U v w max st cs ks Rs ∧ Rs.length ≤ ks.length := by
  intro n
  induction n with
  | zero =>
    intro ks hl st cs room _ _ _ _
    have : ks = [] := List.length_eq_zero_iff.1 (by omega)
    subst this
    exact ⟨[], .done st cs, by simp⟩
  | succ n ih =>
    intro ks hl st cs room P hr hid hst
    by_cases hk : ks = []
    · subst hk
      exact ⟨[], .done st cs, by simp⟩
    have hsc : ∀ x ∈ ks, x ≤ 0x1FFFFF := fun x hx => (P.scan x hx).2.2
    have hp := splitText_partition U ks
    have hb := fun l b post hl h => splitText_border D ks l b post hl h
    obtain ⟨Q, front, hQ, ⟨back, fr, hg, hpl, hnf⟩, -, -, -, hqn⟩ := C66_exact D W A V v w ks P.scan max _ hp hb
    obtain ⟨R, hR, -⟩ := scanText_idle_post U v w st (some 0) (hid hk) rfl (toUtf8Str cs) _ (toUtf8Str_lt _ hsc) max
    have h := same_as_fresh D W v w st (hid hk) _ ks hsc 0 room (by rw [Nat.sub_zero]; exact hst)
      (fun c q e => .inr (P.mayStop c q e _ _)) max R Q hR hQ
    have hflat := glyphs_flat (splitText U ks)
    rw [hg, List.flatMap_append, hp.concat] at hflat
    have hfne : front ≠ [] := by
      rintro rfl
      cases back with
      | nil => exact hk (by rw [← hflat]; rfl)
      | cons x xs =>
        generalize Q.count = m at hpl hnf
        cases hpl with
        | nil => exact hnf x xs rfl (hr ks _ (List.suffix_refl ks) hp hb x xs hg)
    obtain ⟨g, front', rfl⟩ : ∃ g front', front = g :: front' := by
      cases front with
      | nil => exact absurd rfl hfne
      | cons g f => exact ⟨g, f, rfl⟩
    have hgt := glyphs_text_ne _ g (by rw [hg]; simp)
    have hgp : 0 < g.text.length := List.length_pos_iff.2 hgt
    generalize hd : (g :: front').flatMap (·.text) = ds at hflat hqn
    have hdp : 0 < ds.length := by
      rw [← hd, List.flatMap_cons, List.length_append]
      omega
    generalize back.flatMap (·.text) = bs at hflat
    subst hflat
    have hn : R.next = (toUtf8Str ds).length := by rw [h.next]; exact hqn
    rw [List.length_append] at hl
    obtain ⟨Rs, h1, h2⟩ := ih bs (by omega) R.st (cs ++ ds) (max - R.count) (plain_rest D W A V v w ds bs P max Q hQ hqn)
      (fun k cls hs => hr k cls (hs.trans (List.suffix_append ..)))
      (fun hb' => idle_at U v w st (hid hk) (some 0) rfl _ ds bs hb' hsc max R hR hn)
      (Halt.ready_from D v w st (hid hk) (some 0) rfl _ _ ds bs hst max R hsc hR hn)
    refine ⟨R :: Rs, .line st cs ds bs R Rs hk hR hn h1, ?_⟩
    rw [List.length_cons, List.length_append]
    omega

/-- **C62/C66 (partial).**  A text as in `C66_plain_text_partial`, written with one state on lines on which every glyph fits: the calls come to the
end of the text, after at most as many lines as it has codepoints, and the lines are filled first come first served. -/
theorem C66_plain_text_ends_partial {U : Table} (D : DataOk U) (W : WidthOk U) (A : AsciiOk U) (V : VariationOk U) (v : Variant) (w max : Nat)
    (cs : List Nat) (P : PlainText U cs) (hr : Roomy U max cs) :
    ∃ Rs, WrittenAll U v w max (State.init U) [] cs Rs ∧ Rs.length ≤ cs.length ∧ Lined U cs (Rs.map (max, ·)) := by
  obtain ⟨Rs, h1, h2⟩ := written_all D W A V v w max cs.length cs (Nat.le_refl _) (State.init U) [] 0 P hr (fun _ => rfl) (fun _ _ _ _ => .inl rfl)
  exact ⟨Rs, h1, h2, C66_plain_text_partial D W A V v w cs P _ h1.written⟩

/-- How to see that a text is such a text. -/
theorem roomy_of {U : Table} (D : DataOk U) (max : Nat) (cs : List Nat) (hm : 0 < max)
    (h : ∀ ks ∈ cs.tails, ∀ x ∈ (glyphs (splitText U ks)).head?, ∀ q ∈ x.text.inits, q ≠ [] →
      clusterWidth U (x.base ++ q) - clusterWidth U x.base ≤ max) : Roomy U max cs := by
  intro ks cls hs hp hb x xs hg
  have hu : cls = splitText U ks := partition_unique cls _ ks hp (splitText_partition U ks)
    (fun l b post h1 h2 => (hb l b post h1 h2).trans (splitText_border D ks l b post h1 h2).symm)
  subst hu
  refine ⟨fun _ => hm, fun q hq hpre => ?_⟩
  have := h ks ((List.mem_tails ..).2 hs) x (by rw [hg]; rfl) q ((List.mem_inits ..).2 hpre) hq
  omega

/-- An accented letter, ASCII, an emoji sequence and a heart with emoji presentation, on lines of two columns. -/
example : PlainText toy [0xE9, 0x301, 0x61, 0x1F600, 0x200D, 0x1F600, 0x2764, 0xFE0F, 0x62] ∧
    Roomy toy 2 [0xE9, 0x301, 0x61, 0x1F600, 0x200D, 0x1F600, 0x2764, 0xFE0F, 0x62] := by
  refine ⟨⟨by unfold Scannable; decide, by decide +kernel, fun x q e => ?_, ?_⟩, roomy_of toy_ok 2 _ (by decide) (by decide +kernel)⟩
  · cases e; decide +kernel
  · intro p a x q e h
    have hp : p.length ≤ 7 := by
      have := congrArg List.length e
      simp at this
      omega
    rcases p with _ | ⟨_, _ | ⟨_, _ | ⟨_, _ | ⟨_, _ | ⟨_, _ | ⟨_, _ | ⟨_, _ | ⟨_, p⟩⟩⟩⟩⟩⟩⟩⟩ <;>
      first
        | (cases e; revert h; decide +kernel)
        | (simp at hp)

/-- Without room for a wide character no line comes to the end. -/
example : ¬ Roomy toy 1 [0x1F600] := by
  intro h
  have hs : splitText toy [0x1F600] = [[0x1F600]] := by decide +kernel
  have hg : glyphs (splitText toy [0x1F600]) = [⟨[], [0x1F600]⟩] := by rw [hs]; rfl
  have := (h [0x1F600] _ (List.suffix_refl _) (splitText_partition toy _) (fun l b post h1 h2 => splitText_border toy_ok _ l b post h1 h2)
    _ _ hg).2 [0x1F600] (by simp) (List.prefix_refl _)
  revert this
  decide +kernel

end Verif.Props.Scan
