import Verif.Props.Run
import Verif.Props.Levels
/-!
# C82 Runs and grapheme clusters
-/

namespace Verif.Props.RunClusters
open Verif.Ucd Verif.Spec Verif.Toy Verif.Script Verif.Props.Script Verif.Props.Run

/-! ## Specification -/

/-- In each cluster, a character with a script of its own behind the first one fits to one before it: it can be written in every script that one can. -/
def Coherent (D : Data) (cs : List (List Nat)) : Prop :=
  ∀ g ∈ cs, ∀ u c v, g = u ++ c :: v → u ≠ [] → Strong D c → ∃ a ∈ u, Strong D a ∧ ∀ s, HasScript D a s → HasScript D c s

/-- The full claim, for runs of script and presentation: no run ends inside a grapheme cluster. -/
def C82_Full : Prop := ∀ (U : Table) (D : Data) (cat : Nat → Int) (text : List Nat), GB.DataOk U → CleanData D →
  Coherent D (Verif.Grapheme.clusters U text) → ∀ r ∈ Verif.Run.textRuns D cat text, SegBoundary (Verif.Grapheme.clusters U text) (text.take r.stop)

/-! ## Proof -/

/-- A position in a text is a border of two parts, or inside one. -/
theorem border_or_inside {α : Type} (c : α) (r : List α) : ∀ (G : List (List α)) (l : List α), G.flatten = l ++ c :: r →
    SegBoundary G l ∨ ∃ H1 u v H2, G = H1 ++ (u ++ c :: v) :: H2 ∧ u ≠ [] ∧ l = H1.flatten ++ u := by
  intro G
  induction G with
  | nil => intro l h; simp at h
  | cons g G ih =>
    intro l h
    rw [List.flatten_cons] at h
    by_cases hl : l = []
    · subst hl
      exact Or.inl ⟨[], g :: G, rfl, rfl⟩
    rcases List.append_eq_append_iff.1 h with ⟨t, rfl, ht⟩ | ⟨t, rfl, ht⟩
    · rcases ih t ht with ⟨s1, s2, rfl, h2⟩ | ⟨H1, u, v, H2, rfl, hu, hl⟩
      · exact Or.inl ⟨g :: s1, s2, rfl, by simp [h2]⟩
      · exact Or.inr ⟨g :: H1, u, v, H2, rfl, hu, by simp [hl]⟩
    · cases t with
      | nil => exact Or.inl ⟨[l ++ []], G, rfl, by simp⟩
      | cons d t =>
        simp only [List.cons_append, List.cons.injEq] at ht
        obtain ⟨rfl, _⟩ := ht
        exact Or.inr ⟨[], l, t, G, rfl, hl, by simp⟩

theorem borders_coherent {D : Data} : ∀ (segs : List (Script × List Nat)) (G : List (List Nat)),
    G.flatten = (segs.map Prod.snd).flatten → (∀ x ∈ segs, SharedBy D x.2 x.1) → ForcedBorders D segs → Coherent D G →
    ∀ A B, segs = A ++ B → SegBoundary G (A.map Prod.snd).flatten := by
  intro segs
  induction segs with
  | nil =>
    intro G _ _ _ _ A B h
    have : A = [] := (List.append_eq_nil_iff.1 h.symm).1
    subst this
    exact ⟨[], G, rfl, rfl⟩
  | cons x segs ih =>
    intro G hG hS hF hC A B h
    cases A with
    | nil => exact ⟨[], G, rfl, rfl⟩
    | cons x' A =>
      simp only [List.cons_append, List.cons.injEq] at h
      obtain ⟨rfl, h⟩ := h
      have hx : ∃ G1 G2, G = G1 ++ G2 ∧ G1.flatten = x.2 := by
        cases segs with
        | nil => exact ⟨G, [], by simp, by simpa using hG⟩
        | cons y segs =>
          obtain ⟨c, cs, hy, hc, hno⟩ := hF [] x y segs rfl
          rw [List.map_cons, List.map_cons, List.flatten_cons, List.flatten_cons, hy, List.cons_append] at hG
          rcases border_or_inside c _ G x.2 hG with ⟨s1, s2, h1, h2⟩ | ⟨H1, u, v, H2, rfl, hu, hl⟩
          · exact ⟨s1, s2, h1, h2⟩
          · exfalso
            obtain ⟨a, ha, hsa, hfit⟩ := hC _ (by simp) u c v rfl hu hc
            refine hno ⟨x.1, fun d hd hsd => ?_⟩
            rcases List.mem_append.1 hd with hd | hd
            · exact hS x (by simp) d hd hsd
            · obtain rfl : d = c := by simpa using hd
              exact hfit _ (hS x (by simp) a (by rw [hl]; simp [ha]) hsa)
      obtain ⟨G1, G2, rfl, h1⟩ := hx
      obtain ⟨s1, s2, h2, h3⟩ := ih G2 (by
          rw [List.flatten_append, List.map_cons, List.flatten_cons, h1] at hG
          exact List.append_cancel_left hG) (fun z hz => hS z (by simp [hz]))
        (fun A x y B hh => hF (_ :: A) x y B (by rw [hh]; rfl)) (fun g hg => hC g (by simp [hg])) A B h
      exact ⟨G1 ++ s1, s2, by rw [h2]; simp, by simp [h1, h3]⟩

/-- **C82, script runs.** A script run never ends inside a grapheme cluster, if inside the clusters a character with a script of its own fits to one
before it. -/
theorem C82_scripts_partial {D : Data} (hD : CleanData D) (U : Table) (text : List Nat) (hC : Coherent D (Verif.Grapheme.clusters U text))
    (r : Script × Nat) (hr : r ∈ runs D text) : SegBoundary (Verif.Grapheme.clusters U text) (text.take r.2) := by
  obtain ⟨segs, h1, h2, h3, h4⟩ := C22_borders_forced hD text
  have hg := C15_partition U text
  have hb := borders_coherent segs (Verif.Grapheme.clusters U text) (by rw [hg.concat, h2.concat]) h3 h4 hC
  have ends : ∀ (segs : List (Script × List Nat)) (k : Nat), ∀ r ∈ endsOf k segs, ∃ A B, segs = A ++ B ∧ r.2 = k + (A.map Prod.snd).flatten.length := by
    intro segs
    induction segs with
    | nil => intro k r hr; simp [endsOf] at hr
    | cons x segs ih =>
      intro k r hr
      obtain ⟨f, s⟩ := x
      simp only [endsOf, List.mem_cons] at hr
      rcases hr with rfl | hr
      · exact ⟨[(f, s)], segs, rfl, by simp⟩
      · obtain ⟨A, B, rfl, h⟩ := ih _ r hr
        exact ⟨(f, s) :: A, B, rfl, by rw [h]; simp; omega⟩
  rw [h1] at hr
  obtain ⟨A, B, hAB, hlen⟩ := ends segs 0 r hr
  have := hb A B hAB
  have ht : text = (A.map Prod.snd).flatten ++ (B.map Prod.snd).flatten := by
    rw [← h2.concat, hAB]; simp
  rw [hlen, Nat.zero_add]
  rwa [show text.take (A.map Prod.snd).flatten.length = (A.map Prod.snd).flatten by
    conv_lhs => rw [ht]
    exact List.take_left' rfl]

/-- **C82, runs.** So a run that ends inside a grapheme cluster ends where an emoji or text segment ends. -/
theorem C82_runs_partial {D : Data} (hD : CleanData D) (U : Table) (cat : Nat → Int) (text : List Nat)
    (hC : Coherent D (Verif.Grapheme.clusters U text)) (r : Verif.Run.Range Script Bool) (hr : r ∈ Verif.Run.textRuns D cat text) :
    SegBoundary (Verif.Grapheme.clusters U text) (text.take r.stop) ∨ r.stop ∈ (Verif.Emoji.runs (text.map cat)).map Prod.snd := by
  rcases ((C25_run_segmenter hD.strong cat text).borders r.stop).1 (List.mem_map_of_mem hr) with h | h
  · obtain ⟨q, hq, hq2⟩ := List.mem_map.1 h
    rw [← hq2]
    exact Or.inl (C82_scripts_partial hD U text hC q hq)
  · exact Or.inr h

/-- An emoji and a combining acute accent are one cluster; the accent is text, so the emoji run ends in between. -/
theorem C82_fails : ¬ C82_Full := by
  intro h
  have hcl : Verif.Grapheme.clusters toy [0x1F600, 0x301] = [[0x1F600, 0x301]] := by decide
  have := h toy toyClean (fun c => if c = 0x1F600 then 2 else -1) [0x1F600, 0x301] toy_ok toyClean_ok (by
    rw [hcl]
    intro g hg u c v hgu _ hc
    have hm : c ∈ [0x1F600, 0x301] := by
      rw [List.mem_singleton] at hg
      rw [← hg, hgu]; simp
    have hw : ∀ c ∈ [0x1F600, 0x301], isPreferred (toyClean.script c) = false := by decide
    rw [strong_iff, hw c hm] at hc
    exact absurd hc (by decide)) ⟨0, 1, (.Common, true)⟩ (by decide)
  rw [hcl] at this
  obtain ⟨s1, s2, h1, h2⟩ := this
  cases s1 with
  | nil => simp at h2
  | cons x s1 =>
    simp only [List.cons_append, List.cons.injEq] at h1
    rw [← h1.1] at h2
    simp at h2

/-- Non-vacuity: two letters of different scripts, each with an accent. -/
example : Coherent toyClean (Verif.Grapheme.clusters toy [0x61, 0x301, 0x3B1, 0x301]) ∧
    runs toyClean [0x61, 0x301, 0x3B1, 0x301] = [(.sc 1, 2), (.sc 2, 4)] := by
  refine ⟨?_, by decide⟩
  rw [show Verif.Grapheme.clusters toy [0x61, 0x301, 0x3B1, 0x301] = [[0x61, 0x301], [0x3B1, 0x301]] by decide]
  intro g hg u c v hgu hu hc
  have hm : c = 0x301 := by
    cases u with
    | nil => exact absurd rfl hu
    | cons x u =>
      simp only [List.mem_cons, List.not_mem_nil, or_false] at hg
      have : [0x301] = u ++ c :: v := by
        rcases hg with rfl | rfl <;> (simp only [List.cons_append, List.cons.injEq] at hgu; exact hgu.2)
      cases u with
      | nil => simp only [List.nil_append, List.cons.injEq] at this; exact this.1.symm
      | cons y u => exact absurd (congrArg List.length this) (by simp)
  subst hm
  exact absurd ((strong_iff _ _).1 hc) (by decide)

end Verif.Props.RunClusters
