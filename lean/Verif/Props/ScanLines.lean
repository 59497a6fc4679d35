import Verif.Props.ScanFill
/-!
# Property C66, continued: call after call, `scan_text` wraps a text into lines

A terminal calls `scan_text` for each line with a new state, on the text from where the last call ended.
-/

namespace Verif.Props.Scan
open Verif.Scan Verif.Ucd Verif.Utf8 Verif.Grapheme Verif.Width Verif.Toy Verif.Spec.GB

/-- Breaking clusters into lines of `max` columns, first come first served: a line takes clusters until the text ends, the line is
full, or the next cluster is wider than what is left.  Every line has a cluster. -/
inductive Wrapped (width : List Nat → Nat) (max : Nat) : List (List Nat) → List (List (List Nat)) → Prop
  | done : Wrapped width max [] []
  | line {front back : List (List Nat)} {rest : List (List (List Nat))} : front ≠ [] → (front.map width).sum ≤ max →
      (back = [] ∨ (front.map width).sum = max ∨ ∃ cl bs, back = cl :: bs ∧ max < (front.map width).sum + width cl) →
      Wrapped width max back rest → Wrapped width max (front ++ back) (front :: rest)

/-- The calls for the text `bytes`, each with a new state on what the call before left, until nothing is left. -/
inductive Calls (U : Table) (v : Variant) (w max : Nat) : List Nat → List Out → Prop
  | done : Calls U v w max [] []
  | call {bytes : List Nat} {R : Out} {Rs : List Out} : bytes ≠ [] → scanText U v w (State.init U) none [] bytes max = .ok R →
      Calls U v w max (bytes.drop R.next.toNat) Rs → Calls U v w max bytes (R :: Rs)

/-- The receiver is told the clusters of this line, with their bytes and widths, and the count is their width. -/
def Tells (U : Table) (R : Out) (line : List (List Nat)) : Prop :=
  R.events.flatMap told = line.map (fun cl => (toUtf8Str cl, clusterWidth U cl)) ∧ R.count = (line.map (clusterWidth U)).sum

theorem scanText_fresh (U : Table) (v : Variant) (w : Nat) (bytes : List Nat) (max : Nat) : ∃ R, scanText U v w (State.init U) none [] bytes max = .ok R := by
  cases bytes with
  | nil => exact ⟨_, rfl⟩
  | cons b bs => exact ⟨_, rfl⟩

theorem fill_step {U : Table} (D : DataOk U) (W : WidthOk U) (A : AsciiOk U) (v : Variant) (w : Nat) (cs : List Nat) (P : Plain U cs) (max : Nat)
    (hmax : 0 < max) (hw : ∀ cl ∈ clusters U cs, clusterWidth U cl ≤ max) (hne : cs ≠ []) (R : Out)
    (hR : scanText U v w (State.init U) none [] (toUtf8Str cs) max = .ok R) :
    ∃ front back, clusters U cs = front ++ back ∧ front ≠ [] ∧ Tells U R front ∧ (front.map (clusterWidth U)).sum ≤ max ∧
      (back = [] ∨ (front.map (clusterWidth U)).sum = max ∨ ∃ cl bs, back = cl :: bs ∧ max < (front.map (clusterWidth U)).sum + clusterWidth U cl) ∧
      (toUtf8Str cs).drop R.next.toNat = toUtf8Str back.flatten ∧ clusters U back.flatten = back ∧ Plain U back.flatten ∧
      back.flatten.length < cs.length := by
  obtain ⟨front, back, h1, h2, h3, h4, h5, h6, h7, h8⟩ := C66_fill_partial D W A v w cs P.scannable P.noVs15 P.noFlags P.noPrepend P.noMark max R hR
  have hcs : cs = front.flatten ++ back.flatten := by
    rw [← List.flatten_append, ← h1, clusters_flatten' U _ cs (Nat.le_refl _)]
  have hfront : front ≠ [] := by
    rintro rfl
    simp only [List.map_nil, List.sum_nil] at h3
    rcases h8 with rfl | h8 | ⟨cl, bs, rfl, h8⟩
    · simp only [List.flatten_nil, List.append_nil] at hcs
      exact hne hcs
    · omega
    · have := hw cl (by rw [h1]; simp)
      omega
  refine ⟨front, back, h1, hfront, ⟨h2, h3⟩, h3 ▸ h4, h3 ▸ h8, ?_, clusters_rest U front cs back h1, Plain.suffix (p := front.flatten) (hcs ▸ P), ?_⟩
  · rw [h7, Int.toNat_natCast, hcs, str_append]
    simp only [List.drop_left]
  · have hl := congrArg List.length hcs
    rw [List.length_append] at hl
    have : 0 < front.flatten.length := by
      obtain ⟨f, fs, rfl⟩ := List.exists_cons_of_ne_nil hfront
      have hf := (C15_partition U cs).2 f (by rw [h1]; simp)
      rw [List.flatten_cons, List.length_append]
      have := List.length_pos_iff.2 hf
      omega
    omega

theorem str_ne_nil {cs : List Nat} (h : toUtf8Str cs ≠ []) : cs ≠ [] := by
  rintro rfl
  exact h str_nil

/-- **C66 (partial), whole texts.**  For every text as in `C66_fill_partial` and every limit no cluster exceeds: calling `scan_text` again
and again reaches the end, after at most as many calls as there are characters, and the lines handed to the receiver are the clusters of
the whole text, in order, each once, broken first come first served. -/
theorem C66_wrap_partial {U : Table} (D : DataOk U) (W : WidthOk U) (A : AsciiOk U) (v : Variant) (w : Nat) (cs : List Nat)
    (hsc : Scannable cs) (hvs : 0xFE0E ∉ cs) (hnf : NoFlags U cs) (hnp : NoPrependAscii U cs) (hm : NoMarkAfterAscii U cs)
    (max : Nat) (hmax : 0 < max) (hw : ∀ cl ∈ clusters U cs, clusterWidth U cl ≤ max) :
    (∃ Rs, Calls U v w max (toUtf8Str cs) Rs) ∧
    ∀ Rs, Calls U v w max (toUtf8Str cs) Rs → Rs.length ≤ cs.length ∧
      ∃ lines, Wrapped (clusterWidth U) max (clusters U cs) lines ∧ lines.flatten = clusters U cs ∧ List.Forall₂ (Tells U) Rs lines := by
  have P : Plain U cs := ⟨hsc, hvs, hnf, hnp, hm⟩
  clear hsc hvs hnf hnp hm
  induction hn : cs.length using Nat.strongRecOn generalizing cs with
  | _ n ih =>
    subst hn
    by_cases hcs : cs = []
    · subst hcs
      refine ⟨⟨[], ?_⟩, fun Rs h => ?_⟩
      · rw [str_nil]; exact .done
      · rw [str_nil] at h
        cases h with
        | done => exact ⟨Nat.le_refl _, [], .done, rfl, .nil⟩
        | call h _ _ => exact absurd rfl h
    · have hb : toUtf8Str cs ≠ [] := by
        obtain ⟨c, q, rfl⟩ := List.exists_cons_of_ne_nil hcs
        rw [str_cons]
        intro h
        exact toUtf8_ne_nil c (List.append_eq_nil_iff.1 h).1
      have step := fill_step D W A v w cs P max hmax hw hcs
      constructor
      · obtain ⟨R, hR⟩ := scanText_fresh U v w (toUtf8Str cs) max
        obtain ⟨front, back, h1, _, _, _, _, h6, h7, h8, h9⟩ := step R hR
        obtain ⟨⟨Rs, hRs⟩, _⟩ := ih _ h9 back.flatten (fun cl hcl => hw cl (by rw [h1]; rw [h7] at hcl; exact List.mem_append_right _ hcl)) h8 rfl
        exact ⟨R :: Rs, .call hb hR (by rw [h6]; exact hRs)⟩
      · intro Rs h
        generalize hbytes : toUtf8Str cs = bytes at h
        cases h with
        | done => exact absurd hbytes hb
        | @call _ R Rs' _ hR hrest =>
          subst hbytes
          obtain ⟨front, back, h1, h2, h3, h4, h5, h6, h7, h8, h9⟩ := step R hR
          rw [h6] at hrest
          obtain ⟨_, hall⟩ := ih _ h9 back.flatten (fun cl hcl => hw cl (by rw [h1]; rw [h7] at hcl; exact List.mem_append_right _ hcl)) h8 rfl
          obtain ⟨hlen, lines, e1, e2, e3⟩ := hall Rs' hrest
          rw [h7] at e1 e2
          refine ⟨by rw [List.length_cons]; omega, front :: lines, ?_, ?_, .cons h3 e3⟩
          · rw [h1]; exact .line h2 h4 h5 e1
          · rw [h1, List.flatten_cons, e2]

/-- "ab", two wide emoji and "b", on lines of three columns: "ab", the first emoji, the second emoji with "b" -/
example : ∃ R1 R2 R3, Calls toy .none 16 3 (toUtf8Str [0x61, 0x62, 0x1F600, 0x1F600, 0x62]) [R1, R2, R3] ∧ R1.count = 2 ∧ R2.count = 2 ∧ R3.count = 3 :=
  ⟨_, _, _, .call (by decide) rfl (.call (by decide) rfl (.call (by decide) rfl .done)), by decide +kernel, by decide +kernel, by decide +kernel⟩

example : (∀ cl ∈ clusters toy [0x61, 0x62, 0x1F600, 0x1F600, 0x62], clusterWidth toy cl ≤ 3) ∧ Scannable [0x61, 0x62, 0x1F600, 0x1F600, 0x62] ∧
    NoMarkAfterAscii toy [0x61, 0x62, 0x1F600, 0x1F600, 0x62] :=
  ⟨by decide +kernel, by unfold Scannable; decide, noMark_of_pairs _ _ (by decide +kernel)⟩

end Verif.Props.Scan
