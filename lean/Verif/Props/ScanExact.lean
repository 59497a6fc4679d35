import Verif.Lemmas.ScanExact
/-!
# C46: the number of columns `scan_text` counts, exactly

`C46_fails_flag` (Props/ScanWidth) refutes that `scan_text` counts what the grapheme width API says.  Here is what it counts, for every text without
control characters: the columns of the characters between the borders `ScanBorder` (Spec/ScanBorder).
-/

namespace Verif.Props.Scan
open Verif.Ucd Verif.Utf8 Verif.Grapheme Verif.Width Verif.Scan Verif.Spec.GB Verif.Spec Verif.Toy

/-! ## The borders -/

theorem since_snoc {l s : List Nat} {c : Nat} (h : Since l s) (hc : 0x80 ≤ c) : Since (l ++ [c]) (s ++ [c]) := by
  obtain ⟨p, h1, h2, h3, h4⟩ := h
  refine ⟨p, by rw [h1, List.append_assoc], by simp, ?_, ?_⟩
  · cases s with
    | nil => exact absurd rfl h2
    | cons x s =>
      intro y hy
      rcases List.mem_append.1 (show y ∈ s ++ [c] from hy) with hy | hy
      · exact h3 y hy
      · simp at hy; omega
  · rcases h4 with h4 | ⟨x, t, h4, hx⟩
    · exact .inl h4
    · exact .inr ⟨x, t ++ [c], by rw [h4]; rfl, hx⟩

theorem since_ascii (l : List Nat) (c : Nat) (hc : c < 0x80) : Since (l ++ [c]) [c] :=
  ⟨l, rfl, by simp, by simp, .inr ⟨c, [], rfl, hc⟩⟩

theorem since_unique_aux (p : List Nat) : ∀ (q s t : List Nat), p ++ s = q ++ t → s ≠ [] → t ≠ [] → (∀ y ∈ s.tail, 0x80 ≤ y) → (∀ y ∈ t.tail, 0x80 ≤ y) →
    (p = [] ∨ ∃ x r, s = x :: r ∧ x < 0x80) → (q = [] ∨ ∃ x r, t = x :: r ∧ x < 0x80) → s = t := by
  induction p with
  | nil =>
    intro q s t h hs ht h1 h2 h3 h4
    cases q with
    | nil => exact h
    | cons a q =>
      obtain ⟨x, r, rfl, hx⟩ : ∃ x r, t = x :: r ∧ x < 0x80 := by
        rcases h4 with h4 | h4
        · cases h4
        · exact h4
      rw [List.nil_append] at h
      have := h1 x (by rw [h]; simp)
      omega
  | cons a p ih =>
    intro q s t h hs ht h1 h2 h3 h4
    obtain ⟨x, r, rfl, hx⟩ : ∃ x r, s = x :: r ∧ x < 0x80 := by
      rcases h3 with h3 | h3
      · cases h3
      · exact h3
    cases q with
    | nil =>
      rw [List.nil_append] at h
      have := h2 x (by rw [← h]; simp)
      omega
    | cons b q =>
      rw [List.cons_append, List.cons_append, List.cons.injEq] at h
      refine ih q _ t h.2 hs ht h1 h2 (.inr ⟨x, r, rfl, hx⟩) ?_
      rcases h4 with h4 | h4
      · cases h4
      · exact .inr h4

theorem since_unique {l s t : List Nat} (h : Since l s) (h' : Since l t) : s = t := by
  obtain ⟨p, h1, h2, h3, h4⟩ := h
  obtain ⟨q, k1, k2, k3, k4⟩ := h'
  exact since_unique_aux p q s t (h1.symm.trans k1) h2 k2 h3 k3 h4 k4

theorem split_head (U : Table) (cs : List Nat) : ∀ (g : GState) (cl : List Nat), ∃ t rest, scanSplit U g cl cs = (cl ++ t) :: rest := by
  induction cs with
  | nil => intro g cl; exact ⟨[], [], by simp [scanSplit]⟩
  | cons c cs ih =>
    intro g cl
    rw [scanSplit]
    split
    · exact ⟨[], _, by simp; rfl⟩
    · split
      · exact ⟨[], _, by simp; rfl⟩
      · obtain ⟨t, rest, h⟩ := ih (processBreakable U c g).1 (cl ++ [c])
        exact ⟨c :: t, rest, by rw [h]; simp⟩

theorem split_partition (U : Table) (cs : List Nat) : ∀ (g : GState) (cl : List Nat), cl ≠ [] → Partition (scanSplit U g cl cs) (cl ++ cs) := by
  induction cs with
  | nil => intro g cl h; exact ⟨by simp [scanSplit], by simp [scanSplit, h]⟩
  | cons c cs ih =>
    intro g cl h
    have key : ∀ g', Partition (cl :: scanSplit U g' [c] cs) (cl ++ c :: cs) := by
      intro g'
      have := ih g' [c] (by simp)
      refine ⟨by rw [List.flatten_cons, this.concat]; rfl, ?_⟩
      intro s hs
      rcases List.mem_cons.1 hs with rfl | hs
      · exact h
      · exact this.nonempty s hs
    rw [scanSplit]
    split
    · exact key _
    · split
      · exact key _
      · have := ih (processBreakable U c g).1 (cl ++ [c]) (by simp)
        rw [List.append_assoc] at this
        exact this

theorem split_border {U : Table} (D : DataOk U) (cs : List Nat) : ∀ (g : GState) (cl l0 pre : List Nat) (a : Nat), InvC U g pre a → InvI U g pre a →
    Since l0 (pre ++ [a]) → cl ≠ [] → ∀ (u : List Nat) (b : Nat) (post : List Nat), cs = u ++ b :: post →
    (SegBoundary (scanSplit U g cl cs) (cl ++ u) ↔ ScanBorder U (l0 ++ u) b) := by
  induction cs with
  | nil => intro g cl l0 pre a _ _ _ _ u b post h; simp at h
  | cons c cs ih =>
    intro g cl l0 pre a hc hi hs hcl u b post hcs
    have hcons : ∀ (l : List Nat) (segs : List (List Nat)), SegBoundary (cl :: segs) (cl ++ l) ↔ SegBoundary segs l := by
      intro l segs
      rw [segBoundary_cons _ _ _ (by simp [hcl])]
      constructor
      · rintro ⟨l', h1, h2⟩
        rw [List.append_cancel_left h1]; exact h2
      · exact fun h => ⟨l, rfl, h⟩
    cases u with
    | nil =>
      rw [List.nil_append, List.cons.injEq] at hcs
      obtain ⟨rfl, rfl⟩ := hcs
      have hyes : ∀ segs : List (List Nat), SegBoundary (cl :: segs) (cl ++ []) := fun segs => (hcons [] segs).2 (segBoundary_nil _)
      rw [scanSplit]
      by_cases hlt : c < 0x80
      · rw [if_pos hlt]
        exact ⟨fun _ => .inl hlt, fun _ => hyes _⟩
      · rw [if_neg hlt]
        have hv := incrementalFrom_exact D [c] g pre a hc hi [] c [] rfl
        have hv' : (processBreakable U c g).2 = true ↔ BoundaryInc U (pre ++ [a]) c := by
          rw [← hv]
          simp [incrementalFrom]
        have hsb : ScanBorder U (l0 ++ []) c ↔ BoundaryInc U (pre ++ [a]) c := by
          rw [List.append_nil]
          constructor
          · rintro (h | ⟨s, h1, h2⟩)
            · exact absurd h hlt
            · rw [since_unique hs h1]; exact h2
          · exact fun h => .inr ⟨_, hs, h⟩
        rw [hsb, ← hv']
        cases hb : (processBreakable U c g).2 with
        | true => exact ⟨fun _ => rfl, fun _ => hyes _⟩
        | false =>
          refine ⟨fun h => ?_, fun h => by cases h⟩
          exfalso
          obtain ⟨t, rest, e⟩ := split_head U cs (processBreakable U c g).1 (cl ++ [c])
          rw [if_neg (by simp), e, segBoundary_cons _ _ _ (by simp [hcl])] at h
          obtain ⟨l', h, -⟩ := h
          have := congrArg List.length h
          simp at this
    | cons x u =>
      rw [List.cons_append, List.cons.injEq] at hcs
      obtain ⟨rfl, hcs⟩ := hcs
      have e1 : l0 ++ c :: u = (l0 ++ [c]) ++ u := by simp
      rw [scanSplit, e1]
      by_cases hlt : c < 0x80
      · rw [if_pos hlt, hcons]
        have h0 := init_first (U := U) c
        exact ih (processInit U c) [c] (l0 ++ [c]) [] c h0.1 (by simp [InvI, processInit]) (since_ascii l0 c hlt) (by simp) u b post hcs
      · rw [if_neg hlt]
        have k1 := step_core D g pre a c hc
        have k2 := invI_step D g pre a c hc hi
        have k3 := since_snoc hs (show 0x80 ≤ c by omega)
        split
        · rw [hcons]
          exact ih _ [c] (l0 ++ [c]) (pre ++ [a]) c k1 k2 k3 (by simp) u b post hcs
        · have e2 : cl ++ c :: u = (cl ++ [c]) ++ u := by simp
          rw [e2]
          exact ih _ (cl ++ [c]) (l0 ++ [c]) (pre ++ [a]) c k1 k2 k3 (by simp) u b post hcs

/-- Where the model of the scanner cuts. -/
theorem splitText_border {U : Table} (D : DataOk U) (cs l : List Nat) (b : Nat) (post : List Nat) (hl : l ≠ []) (h : cs = l ++ b :: post) :
    SegBoundary (splitText U cs) l ↔ ScanBorder U l b := by
  cases l with
  | nil => exact absurd rfl hl
  | cons c u =>
    subst h
    have h0 := init_first (U := U) c
    exact split_border D (u ++ b :: post) (processInit U c) [c] [c] [] c h0.1 (by simp [InvI, processInit])
      ⟨[], rfl, by simp, by simp, .inl rfl⟩ (by simp) u b post rfl

theorem splitText_partition (U : Table) (cs : List Nat) : Partition (splitText U cs) cs := by
  cases cs with
  | nil => exact ⟨rfl, by simp [splitText]⟩
  | cons c cs => exact split_partition U cs (processInit U c) [c] (by simp)

/-- The borders determine the pieces. -/
theorem partition_unique (A : List (List Nat)) : ∀ (B : List (List Nat)) (cs : List Nat), Partition A cs → Partition B cs →
    (∀ l b post, l ≠ [] → cs = l ++ b :: post → (SegBoundary A l ↔ SegBoundary B l)) → A = B := by
  have short : ∀ (A B : List (List Nat)) (s t : List Nat) (cs : List Nat), Partition (s :: A) cs → Partition (t :: B) cs →
      (∀ l b post, l ≠ [] → cs = l ++ b :: post → (SegBoundary (s :: A) l → SegBoundary (t :: B) l)) → t.length ≤ s.length := by
    intro A B s t cs hA hB h
    have hs := hA.nonempty s (by simp)
    by_contra hlt
    have e1 : s ++ A.flatten = cs := hA.concat
    have e2 : t ++ B.flatten = cs := hB.concat
    have hne : A.flatten ≠ [] := by
      intro h0
      rw [h0, List.append_nil] at e1
      have := congrArg List.length e2
      rw [← e1, List.length_append] at this
      omega
    obtain ⟨b, post, hb⟩ := List.exists_cons_of_ne_nil hne
    have := h s b post hs (by rw [← e1, hb]) ⟨[s], A, rfl, by simp⟩
    rw [segBoundary_cons _ _ _ hs] at this
    obtain ⟨l', h', -⟩ := this
    have := congrArg List.length h'
    rw [List.length_append] at this
    omega
  induction A with
  | nil =>
    intro B cs hA hB h
    cases B with
    | nil => rfl
    | cons t B =>
      exfalso
      have e1 : [] = cs := hA.concat
      have e2 : t ++ B.flatten = cs := hB.concat
      rw [← e1, List.append_eq_nil_iff] at e2
      exact hB.nonempty t (by simp) e2.1
  | cons s A ih =>
    intro B cs hA hB h
    have hs := hA.nonempty s (by simp)
    have e1 : s ++ A.flatten = cs := hA.concat
    cases B with
    | nil =>
      exfalso
      have e2 : [] = cs := hB.concat
      rw [← e2, List.append_eq_nil_iff] at e1
      exact hs e1.1
    | cons t B =>
      have e2 : t ++ B.flatten = cs := hB.concat
      have ht := hB.nonempty t (by simp)
      have l1 := short A B s t cs hA hB (fun l b post h1 h2 => (h l b post h1 h2).1)
      have l2 := short B A t s cs hB hA (fun l b post h1 h2 => (h l b post h1 h2).2)
      have hst := List.append_inj (e1.trans e2.symm) (by omega)
      obtain ⟨rfl, hfl⟩ := hst
      congr 1
      refine ih B A.flatten ⟨rfl, fun x hx => hA.nonempty x (by simp [hx])⟩ ⟨hfl.symm, fun x hx => hB.nonempty x (by simp [hx])⟩ ?_
      intro l b post hl hcs
      have := h (s ++ l) b post (by simp [hs]) (by rw [← e1, hcs, List.append_assoc])
      have hcons : ∀ (segs : List (List Nat)), SegBoundary (s :: segs) (s ++ l) ↔ SegBoundary segs l := by
        intro segs
        rw [segBoundary_cons _ _ _ (by simp [hs])]
        constructor
        · rintro ⟨l', h1, h2⟩
          rw [List.append_cancel_left h1]; exact h2
        · exact fun h => ⟨l, rfl, h⟩
      rw [hcons, hcons] at this
      exact this

/-! ## The theorem -/

/-- **C46 (exact).** However a text without control characters is cut at the borders the scanner sees — ASCII characters apart, the others by the
rules of the incremental API since the last ASCII character — `scan_text` counts the columns of the pieces, each by the width rules, and reaches the
end of the text, if no limit is in the way.  Nothing is excluded: flags, U+FE0E, marks on ASCII characters, `Prepend` in front of ASCII. -/
theorem C46_exact {U : Table} (D : DataOk U) (W : WidthOk U) (A : AsciiOk U) (V : VariationOk U) (v : Variant) (w : Nat) (cs : List Nat)
    (hsc : Scannable cs) (max : Nat) (hmax : 3 * cs.length + 1 ≤ max) (cls : List (List Nat)) (hp : Partition cls cs)
    (hb : ∀ l b post, l ≠ [] → cs = l ++ b :: post → (SegBoundary cls l ↔ ScanBorder U l b)) :
    ∃ R, scanText U v w (State.init U) none [] (toUtf8Str cs) max = .ok R ∧
      R.count = (cls.map (clusterWidth U)).sum ∧ R.next = (toUtf8Str cs).length := by
  have hu : cls = splitText U cs := partition_unique cls _ cs hp (splitText_partition U cs)
    (fun l b post h1 h2 => (hb l b post h1 h2).trans (splitText_border D cs l b post h1 h2).symm)
  have hcols : (cls.map (clusterWidth U)).sum = cols U (splitText U cs) := by
    rw [hu]
    unfold cols
    congr 1
    exact List.map_congr_left fun x _ => clusterWidth_eq_acc W x
  rw [hcols]
  cases cs with
  | nil => rw [str_nil]; exact ⟨_, rfl, rfl, rfl⟩
  | cons c cs =>
    obtain ⟨b, bs, hbs, hcx⟩ : ∃ b bs, toUtf8Str (c :: cs) = b :: bs ∧ (isComplex b = true ↔ 0x80 ≤ c) := by
      obtain ⟨h1, h2, h3⟩ := hsc c (by simp)
      by_cases hlt : c < 0x80
      · refine ⟨c, toUtf8Str cs, by rw [str_cons, toUtf8_low c hlt]; rfl, ?_⟩
        rw [isComplex_iff c (by omega)]
      · have hh := (toUtf8_high c (by omega) h3).1
        cases ht : toUtf8 c with
        | nil => exact absurd ht (toUtf8_ne_nil c)
        | cons b bs =>
          have := hh b (by rw [ht]; simp)
          refine ⟨b, bs ++ toUtf8Str cs, by rw [str_cons, ht]; rfl, ?_⟩
          rw [isComplex_iff b this.2]
          constructor <;> intro _ <;> omega
    have hdue : Due U (isComplex b) (c :: cs) (State.init U) (cols U (splitText U (c :: cs))) := by
      cases hx : isComplex b with
      | true => exact ⟨.inr ⟨c, cs, rfl, hcx.1 hx⟩, .inl ⟨rfl, rfl⟩⟩
      | false =>
        refine ⟨.inr ⟨c, cs, rfl, ?_⟩, rfl⟩
        by_contra hn
        rw [hcx.2 (by omega)] at hx
        cases hx
    have key := exact_main D W A V v w max ((toUtf8Str (c :: cs)).length : Int) ((toUtf8Str (c :: cs)).length + 1) (isComplex b) (c :: cs)
      { count := 0, start := 0, fin := 0, st := State.init U, next := 0, events := [] } _ (Nat.lt_succ_self _) hsc rfl (by simp)
      (by show 0 + 3 * _ + 1 ≤ max; omega) hdue
    refine ⟨mainLoop U v w max (toUtf8Str (c :: cs)).length ((toUtf8Str (c :: cs)).length + 1) (isComplex b) (toUtf8Str (c :: cs)) 0
      { count := 0, start := 0, fin := 0, st := State.init U, next := 0, events := [] }, ?_, ?_, key.2⟩
    · unfold scanText
      rw [hbs]
      rfl
    · have := key.1
      rw [Nat.zero_add] at this
      exact this

/-- Every text can be cut at the borders the scanner sees, in exactly one way. -/
theorem C46_pieces {U : Table} (D : DataOk U) (cs : List Nat) :
    ∃ cls, (Partition cls cs ∧ ∀ l b post, l ≠ [] → cs = l ++ b :: post → (SegBoundary cls l ↔ ScanBorder U l b)) ∧
      ∀ cls', Partition cls' cs → (∀ l b post, l ≠ [] → cs = l ++ b :: post → (SegBoundary cls' l ↔ ScanBorder U l b)) → cls' = cls :=
  ⟨splitText U cs, ⟨splitText_partition U cs, fun l b post h1 h2 => splitText_border D cs l b post h1 h2⟩,
    fun cls' hp hb => partition_unique cls' _ cs hp (splitText_partition U cs)
      (fun l b post h1 h2 => (hb l b post h1 h2).trans (splitText_border D cs l b post h1 h2).symm)⟩

theorem toy_variation_ok : VariationOk toy := by
  let Q : Props → Prop := fun p => (p.isEmojiVariationBase = true → p.gcb = .Other) ∧ (p.incb = .Consonant → p.gcb = .Other)
  have key : ∀ c, Q (toy c) := by
    intro c
    unfold toy
    repeat' refine ite_elim Q (fun h => ?_) (fun h => ?_)
    all_goals exact ⟨by decide, by decide⟩
  exact ⟨fun c => (key c).1, fun c => (key c).2⟩

/-- A mark on an ASCII character, U+FE0E after an emoji, and a flag that follows ASCII (two pieces for the scanner): seven columns. -/
example : ∃ R, scanText toy .none 16 (State.init toy) none [] (toUtf8Str [0x61, 0x301, 0x231A, 0xFE0E, 0x62, 0x1F1E6, 0x1F1E7, 0x1F600]) 40 = .ok R ∧
    R.count = 7 ∧ R.next = 22 := by
  have h : splitText toy [0x61, 0x301, 0x231A, 0xFE0E, 0x62, 0x1F1E6, 0x1F1E7, 0x1F600] =
      [[0x61, 0x301], [0x231A, 0xFE0E], [0x62], [0x1F1E6], [0x1F1E7], [0x1F600]] := by decide +kernel
  obtain ⟨R, h1, h2, h3⟩ := C46_exact toy_ok toy_width_ok toy_ascii_ok toy_variation_ok .none 16
    [0x61, 0x301, 0x231A, 0xFE0E, 0x62, 0x1F1E6, 0x1F1E7, 0x1F600] (by intro c hc; simp at hc; omega) 40 (by decide)
    [[0x61, 0x301], [0x231A, 0xFE0E], [0x62], [0x1F1E6], [0x1F1E7], [0x1F600]]
    (by rw [← h]; exact splitText_partition toy _) (by
      intro l b post h1 h2
      rw [← h]
      exact splitText_border toy_ok _ l b post h1 h2)
  refine ⟨R, h1, h2.trans (by decide +kernel), h3.trans (by decide +kernel)⟩

end Verif.Props.Scan
