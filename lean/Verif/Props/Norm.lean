import Mathlib.Data.List.Sort
import Verif.Lemmas.Norm
import Verif.Spec.NormToy
import Verif.Model.Norm8
import Verif.Props.Convert
/-!
# C26-C32: normalization
-/

namespace Verif.Props.Norm
open Verif.Norm Verif.Spec.Norm Verif.Utf8 Verif.Convert

variable {T : Tables}

/-! ## C26 canonical ordering -/

/-- **C26.** Canonical ordering is exactly the Unicode canonical ordering algorithm: the result is reached by
exchanging reorderable pairs only (D109), contains none (D108), and is the only such string. -/
theorem C26_canonical_order (t : List Nat) :
    Reorders T.ccc t (canonicalOrder T t) ∧ Ordered T.ccc (canonicalOrder T t) ∧
    ∀ u, Reorders T.ccc t u → Ordered T.ccc u → u = canonicalOrder T t := by
  refine ⟨canonicalOrder_reorders t, canonicalOrder_ordered t, ?_⟩
  intro u h ho
  rw [order_reorders h, canonicalOrder_of_ordered ho]

/-- **C26.** The order of exchanges does not matter, and ordering is idempotent. -/
theorem C26_confluent (s t : List Nat) (h : Reorders T.ccc s t) :
    canonicalOrder T s = canonicalOrder T t ∧ canonicalOrder T (canonicalOrder T t) = canonicalOrder T t :=
  ⟨order_reorders h, canonicalOrder_idem t⟩

/-- **C26.** Starters keep their positions, nothing moves across a starter. -/
theorem C26_starters (a b : List Nat) (s : Nat) (hs : T.ccc s = 0) :
    canonicalOrder T (a ++ s :: b) = canonicalOrder T a ++ s :: canonicalOrder T b ∧
    ∀ t : List Nat, (canonicalOrder T t).map (fun c => if T.ccc c = 0 then some c else none) =
      t.map (fun c => if T.ccc c = 0 then some c else none) :=
  ⟨canonicalOrder_starter hs a b, fun t => (Reorders.starters (canonicalOrder_reorders t)).symm⟩

/-- **C26.** A run of non-starters is sorted by combining class; it is a permutation, and codepoints of one class keep
their order. -/
theorem C26_sorts_runs (m : List Nat) (hm : Marks T.ccc m) :
    (canonicalOrder T m).Perm m ∧ (canonicalOrder T m).Pairwise (fun x y => T.ccc x ≤ T.ccc y) ∧
    ∀ k, (canonicalOrder T m).filter (fun c => T.ccc c == k) = m.filter (fun c => T.ccc c == k) := by
  refine ⟨canonicalOrder_perm m, ?_, fun k => (Reorders.filter (canonicalOrder_reorders m) k).symm⟩
  have ho := canonicalOrder_ordered (T := T) m
  have hmem : ∀ c ∈ canonicalOrder T m, T.ccc c ≠ 0 := fun c hc => hm c ((canonicalOrder_perm m).mem_iff.1 hc)
  generalize canonicalOrder T m = l at ho hmem
  have hc : l.IsChain (fun x y => T.ccc x ≤ T.ccc y) := by
    rw [ordered_iff_chain] at ho
    refine List.IsChain.imp_of_mem_imp ?_ ho
    intro x y hx hy h
    have := hmem y hy
    unfold Reorderable at h
    omega
  have : IsTrans Nat (fun x y => T.ccc x ≤ T.ccc y) := ⟨fun a b c h1 h2 => le_trans h1 h2⟩
  exact List.isChain_iff_pairwise.1 hc

/-- **C26**, through the API: on a text of codepoints without decompositions, NFD is canonical ordering. -/
theorem C26_api (f : Form) (hf : f = .NFD ∨ f = .NFKD) (text : List Nat)
    (h : ∀ c ∈ text, decompose T f.k c = [c]) : normalize T f text = canonicalOrder T text := by
  rcases hf with rfl | rfl <;> simp [normalize, Form.composes, flatMap_fixed h]

example : canonicalOrder toy [0x61, 0x301, 0x323, 0x307, 0x62, 0x301, 0x316] =
    [0x61, 0x323, 0x301, 0x307, 0x62, 0x316, 0x301] := by decide
example : Reorderable toy.ccc 0x301 0x323 := by unfold Reorderable; decide
example : Marks toy.ccc [0x301, 0x323, 0x307] := by unfold Marks; decide

/-! ## C27 -/

theorem normalize_D {f : Form} (hf : f = .NFD ∨ f = .NFKD) (text : List Nat) :
    normalize T f text = canonicalOrder T (text.flatMap (decompose T f.k)) := by
  rcases hf with rfl | rfl <;> simp [normalize, Form.composes]

/-- **C27.** The result of NFD/NFKD is fully decomposed and canonically ordered. -/
theorem C27_output_form (hT : Ranked T) (hJ : JamoOk T) (f : Form) (hf : f = .NFD ∨ f = .NFKD) (text : List Nat) :
    (∀ c ∈ normalize T f text, decompose T f.k c = [c]) ∧ Ordered T.ccc (normalize T f text) := by
  rw [normalize_D hf]
  exact ⟨mem_order_fixed hT hJ _ _, canonicalOrder_ordered _⟩

/-- **C27.** NFD and NFKD are idempotent. -/
theorem C27_idempotent (hT : Ranked T) (hJ : JamoOk T) (f : Form) (hf : f = .NFD ∨ f = .NFKD) (text : List Nat) :
    normalize T f (normalize T f text) = normalize T f text := by
  obtain ⟨h1, h2⟩ := C27_output_form hT hJ f hf text
  rw [normalize_D hf (normalize T f text), flatMap_fixed h1, canonicalOrder_of_ordered h2]

/-- **C27.** NFD/NFKD of a concatenation is the concatenation when the second part's decomposition begins with a
starter. -/
theorem C27_concat (f : Form) (hf : f = .NFD ∨ f = .NFKD) (a : List Nat) (c : Nat) (b : List Nat) (h : Nat)
    (t : List Nat) (hd : decompose T f.k c = h :: t) (h0 : T.ccc h = 0) :
    normalize T f (a ++ c :: b) = normalize T f a ++ normalize T f (c :: b) := by
  refine normalize_split ⟨h, t, hd, h0, ?_⟩ a b
  rcases hf with rfl | rfl <;> intro hc <;> cases hc

/-- **C27.** NFD/NFKD of a concatenation only depends on NFD/NFKD of the parts. -/
theorem C27_concat_congr (hT : Ranked T) (hJ : JamoOk T) (f : Form) (hf : f = .NFD ∨ f = .NFKD) (a b : List Nat) :
    normalize T f (a ++ b) = normalize T f (normalize T f a ++ normalize T f b) := by
  obtain ⟨h1, _⟩ := C27_output_form hT hJ f hf a
  obtain ⟨h2, _⟩ := C27_output_form hT hJ f hf b
  rw [normalize_D hf, normalize_D hf (normalize T f a ++ normalize T f b), List.flatMap_append, List.flatMap_append,
    flatMap_fixed h1, flatMap_fixed h2, normalize_D hf a, normalize_D hf b]
  exact (OEq.append (OEq.order _) (OEq.order _)).symm

example : normalize toy .NFD [0x1E69, 0x212B, 0xAC01] = [0x73, 0x323, 0x307, 0x41, 0x30A, 0x1100, 0x1161, 0x11A8] := by
  decide
example : normalize toy .NFKD [0xFB01, 0x1E9B, 0x323] = [0x66, 0x69, 0x73, 0x323, 0x307] := by decide
example : Ranked toy ∧ JamoOk toy ∧ CompOk toy := ⟨toy_ranked, toy_jamo, toy_comp⟩
example : decompose toy false 0x1E69 = [0x73, 0x323, 0x307] ∧ toy.ccc 0x73 = 0 := by decide

/-! ## C28 -/

/-- What C28 claims of a table. -/
def C28_Equivalent (T : Tables) : Prop := ∀ s, normalize T .NFD (normalize T .NFC s) = normalize T .NFD s

/-- **C28** is violated: the accent of `x` moves in front of it (and so onto the preceding letter), and normalizing
twice differs from normalizing once. -/
theorem C28_fails : ¬ C28_Equivalent toy ∧
    normalize toy .NFC [0x65, 0x78, 0x301] = [0x65, 0x301, 0x78] ∧
    normalize toy .NFC (normalize toy .NFC [0x65, 0x78, 0x301]) = [0xE9, 0x78] := by
  refine ⟨?_, by decide, by decide⟩
  intro h
  exact absurd (h [0x65, 0x78, 0x301]) (by decide)

/-- **C28** is violated: U+11A7 after an LV syllable disappears. -/
theorem C28_fails_tbase : normalize toy .NFC [0xAC00, 0x11A7] = [0xAC00] ∧
    normalize toy .NFD [0xAC00, 0x11A7] = [0x1100, 0x1161, 0x11A7] := by decide

/-- **C28.** Exactly what NFC/NFKC computes: the composed groups of the Unicode algorithm, each with its remaining
marks *before* its starter. -/
theorem C28_exact (f : Form) (hf : f = .NFC ∨ f = .NFKC) (text : List Nat) :
    normalize T f text =
      (composition T.ccc (primary T) (canonicalOrder T (text.flatMap (decompose T f.k)))).1 ++
      (groupsOf T f.k text).flatMap fun g => g.marks ++ [g.starter] := by
  rcases hf with rfl | rfl <;> exact compose_groups _

theorem unicode_C {f : Form} (hf : f = .NFC ∨ f = .NFKC) (text : List Nat) :
    unicodeNormalize T f text =
      (composition T.ccc (primary T) (canonicalOrder T (text.flatMap (decompose T f.k)))).1 ++
      (groupsOf T f.k text).flatMap fun g => g.starter :: g.marks := by
  rcases hf with rfl | rfl <;> rfl

theorem decomposed_k (f : Form) : (decomposed f).k = f.k := by cases f <;> rfl
theorem decomposed_D (f : Form) : decomposed f = .NFD ∨ decomposed f = .NFKD := by cases f <;> simp [decomposed, Form.k]

/-- **C28** for the specification: the Unicode algorithm preserves equivalence (so `unicodeNormalize` is a fair
reference), provided U+11A7 does not occur. -/
theorem C28_reference_equivalent (hT : Ranked T) (hJ : JamoOk T) (hC : CompOk T) (f : Form) (hf : f = .NFC ∨ f = .NFKC)
    (text : List Nat) (hn : 0x11A7 ∉ normalize T (decomposed f) text) :
    normalize T (decomposed f) (unicodeNormalize T f text) = normalize T (decomposed f) text := by
  rw [normalize_D (decomposed_D f)] at hn
  rw [normalize_D (decomposed_D f), normalize_D (decomposed_D f)]
  rw [decomposed_k] at hn ⊢
  rw [unicode_C hf]
  have := composition_equiv (T := T) (k := f.k) (pc := primary T)
    (canonicalOrder T (text.flatMap (decompose T f.k))) (canonicalOrder_ordered _) (mem_order_fixed hT hJ _ _)
    (fun b hb => primary_pcOk hT hJ hC f.k b (fun e => hn (e ▸ hb)))
  have h2 := this.trans (OEq.order _)
  exact h2

theorem flatMap_group_eq_iff (ccc : Nat → Nat) (gs : List Group)
    (h : ∀ g ∈ gs, ccc g.starter = 0 ∧ Marks ccc g.marks) :
    (gs.flatMap fun g => g.marks ++ [g.starter]) = (gs.flatMap fun g => g.starter :: g.marks) ↔
      ∀ g ∈ gs, g.marks = [] := by
  induction gs with
  | nil => simp
  | cons g gs ih =>
    have ih := ih fun g hg => h g (List.mem_cons_of_mem _ hg)
    obtain ⟨h0, hm⟩ := h g List.mem_cons_self
    simp only [List.flatMap_cons, List.mem_cons, forall_eq_or_imp]
    constructor
    · intro he
      have hl := List.append_inj he (by simp)
      refine ⟨?_, ih.1 hl.2⟩
      cases hg : g.marks with
      | nil => rfl
      | cons m ms =>
        have := hl.1
        rw [hg] at this
        simp only [List.cons_append, List.cons.injEq] at this
        have h1 := hm m (by rw [hg]; exact List.mem_cons_self)
        rw [this.1] at h1
        exact absurd h0 h1
    · rintro ⟨h1, h2⟩
      rw [ih.2 h2, h1]
      rfl

/-- What every composed group looks like: its starter's decomposition begins with a starter. -/
structure GroupOk (T : Tables) (k : Bool) (g : Group) : Prop where
  head : ∃ h t, decompose T k g.starter = h :: t ∧ T.ccc h = 0
  marks : Marks T.ccc g.marks
  fixed : ∀ m ∈ g.marks, decompose T k m = [m]

theorem composeGroups_ok {k : Bool} {pc : Nat → Nat → Option Nat} (rest : List Nat) (g : Group) (hg : GroupOk T k g)
    (hf : ∀ c ∈ rest, decompose T k c = [c]) (hpc : ∀ b ∈ rest, PcOk T k pc b) :
    ∀ g' ∈ composeGroups T.ccc pc g rest, GroupOk T k g' := by
  induction rest generalizing g with
  | nil =>
    intro g' h
    rw [composeGroups_nil, List.mem_singleton] at h
    rw [h]; exact hg
  | cons c cs ih =>
    have hf' : ∀ c ∈ cs, decompose T k c = [c] := fun x hx => hf x (List.mem_cons_of_mem _ hx)
    have hpc' : ∀ b ∈ cs, PcOk T k pc b := fun x hx => hpc x (List.mem_cons_of_mem _ hx)
    rw [composeGroups_cons]
    split
    · rename_i p hp
      have hp : pc g.starter c = some p := by
        split at hp
        · exact hp
        · exact absurd hp (by simp)
      refine ih ⟨p, g.marks⟩ ⟨?_, hg.marks, hg.fixed⟩ hf' hpc'
      obtain ⟨h, t, e, h0⟩ := hg.head
      exact ⟨h, t ++ decompose T k c, by rw [hpc c List.mem_cons_self _ _ hp, e]; rfl, h0⟩
    · split
      · rename_i h0
        intro g' h
        rcases List.mem_cons.1 h with rfl | h
        · exact hg
        · refine ih ⟨c, []⟩ ⟨⟨c, [], hf c List.mem_cons_self, h0⟩, by simp [Marks], by simp⟩ hf' hpc' g' h
      · rename_i h0
        refine ih ⟨g.starter, g.marks ++ [c]⟩ ⟨hg.head, ?_, ?_⟩ hf' hpc'
        · intro m hm
          rcases List.mem_append.1 hm with h' | h'
          · exact hg.marks m h'
          · rw [List.mem_singleton.1 h']; exact h0
        · intro m hm
          rcases List.mem_append.1 hm with h' | h'
          · exact hg.fixed m h'
          · rw [List.mem_singleton.1 h']; exact hf c List.mem_cons_self

theorem mem_takeWhile_true {p : Nat → Bool} {l : List Nat} {c : Nat} (h : c ∈ l.takeWhile p) : p c = true := by
  induction l with
  | nil => simp at h
  | cons x l ih =>
    rw [List.takeWhile_cons] at h
    split at h
    · rcases List.mem_cons.1 h with rfl | h
      · assumption
      · exact ih h
    · simp at h

theorem dropWhile_head {p : Nat → Bool} {l : List Nat} {s : Nat} {r : List Nat} (h : l.dropWhile p = s :: r) :
    p s = false := by
  induction l with
  | nil => simp at h
  | cons x l ih =>
    rw [List.dropWhile_cons] at h
    split at h
    · exact ih h
    · rename_i hx
      have : x = s := (List.cons.inj h).1
      rw [← this]; simpa using hx

theorem composition_ok {k : Bool} {pc : Nat → Nat → Option Nat} (d : List Nat)
    (hf : ∀ c ∈ d, decompose T k c = [c]) (hpc : ∀ b ∈ d, PcOk T k pc b) :
    (∀ g ∈ (composition T.ccc pc d).2, GroupOk T k g) ∧ Marks T.ccc (composition T.ccc pc d).1 ∧
    (∀ c ∈ (composition T.ccc pc d).1, c ∈ d) := by
  unfold composition
  have he := List.takeWhile_append_dropWhile (p := fun c => T.ccc c != 0) (l := d)
  cases h : d.dropWhile (fun c => T.ccc c != 0) with
  | nil =>
    refine ⟨by simp, ?_, fun c hc => hc⟩
    rw [h, List.append_nil] at he
    intro c hc
    simp only at hc
    rw [← he] at hc
    have := mem_takeWhile_true hc
    simpa using this
  | cons s rest =>
    rw [h] at he
    have h0 : T.ccc s = 0 := by simpa using dropWhile_head h
    have hmem : ∀ x ∈ s :: rest, x ∈ d := by
      intro x hx
      rw [← he]
      exact List.mem_append_right _ hx
    refine ⟨?_, ?_, ?_⟩
    · refine composeGroups_ok rest ⟨s, []⟩ ⟨⟨s, [], hf s (hmem s List.mem_cons_self), h0⟩, by simp [Marks], by simp⟩ ?_ ?_
      · exact fun c hc => hf c (hmem c (List.mem_cons_of_mem _ hc))
      · exact fun c hc => hpc c (hmem c (List.mem_cons_of_mem _ hc))
    · intro c hc
      have := mem_takeWhile_true hc
      simpa using this
    · intro c hc
      rw [← he]
      exact List.mem_append_left _ hc

theorem count_contra (P m X Y : List Nat) (h h' : Nat) (h0' : T.ccc h' = 0) (hm : Marks T.ccc m) (hne : m ≠ [])
    (e : canonicalOrder T (P ++ m) ++ h :: X = canonicalOrder T P ++ h' :: Y) : False := by
  have hl : (canonicalOrder T (P ++ m)).length = P.length + m.length := by
    rw [(canonicalOrder_perm _).length_eq]; simp
  have hlP : (canonicalOrder T P).length = P.length := (canonicalOrder_perm _).length_eq
  have hmpos : 0 < m.length := List.length_pos_of_ne_nil hne
  have e2 := congrArg (fun l => (l.take (P.length + 1)).countP (fun c => T.ccc c == 0)) e
  have hL : (canonicalOrder T (P ++ m) ++ h :: X).take (P.length + 1) =
      (canonicalOrder T (P ++ m)).take (P.length + 1) := List.take_append_of_le_length (by omega)
  have hR : (canonicalOrder T P ++ h' :: Y).take (P.length + 1) = canonicalOrder T P ++ [h'] := by
    rw [List.take_append, hlP, List.take_of_length_le (by omega)]
    simp
  rw [hL, hR] at e2
  have c1 : ((canonicalOrder T (P ++ m)).take (P.length + 1)).countP (fun c => T.ccc c == 0) ≤
      (canonicalOrder T (P ++ m)).countP (fun c => T.ccc c == 0) :=
    (List.take_sublist _ _).countP_le
  rw [(canonicalOrder_perm (P ++ m)).countP_eq, List.countP_append] at c1
  have c2 : m.countP (fun c => T.ccc c == 0) = 0 := by
    rw [List.countP_eq_zero]
    intro c hc
    simpa using hm c hc
  rw [List.countP_append, (canonicalOrder_perm P).countP_eq] at e2
  have c3 : [h'].countP (fun c => T.ccc c == 0) = 1 := by simp [h0']
  omega

theorem groups_equiv_imp {k : Bool} (gs : List Group) (hg : ∀ g ∈ gs, GroupOk T k g) (P : List Nat)
    (h : OEq T (P ++ dec T k (gs.flatMap fun g => g.marks ++ [g.starter]))
      (P ++ dec T k (gs.flatMap fun g => g.starter :: g.marks))) : ∀ g ∈ gs, g.marks = [] := by
  induction gs generalizing P with
  | nil => simp
  | cons g gs ih =>
    obtain ⟨⟨x, t, e, h0⟩, hm, hf⟩ := hg g List.mem_cons_self
    have hfm : dec T k g.marks = g.marks := flatMap_fixed hf
    simp only [List.flatMap_cons, dec_append, dec_cons, hfm] at h
    by_cases hne : g.marks = []
    · intro g' hg'
      rcases List.mem_cons.1 hg' with rfl | hg'
      · exact hne
      · refine ih (fun g hg'' => hg g (List.mem_cons_of_mem _ hg'')) (P ++ decompose T k g.starter) ?_ g' hg'
        rw [hne] at h
        simpa [List.append_assoc] using h
    · exfalso
      rw [e] at h
      unfold OEq at h
      have e1 : P ++ (g.marks ++ (x :: t ++ dec T k []) ++ dec T k (gs.flatMap fun g => g.marks ++ [g.starter])) =
          (P ++ g.marks) ++ x :: (t ++ dec T k (gs.flatMap fun g => g.marks ++ [g.starter])) := by simp
      have e2 : P ++ (x :: t ++ g.marks ++ dec T k (gs.flatMap fun g => g.starter :: g.marks)) =
          P ++ x :: (t ++ g.marks ++ dec T k (gs.flatMap fun g => g.starter :: g.marks)) := by simp
      rw [e1, e2, canonicalOrder_starter h0, canonicalOrder_starter h0] at h
      exact count_contra P g.marks _ _ x x h0 hm hne h

/-- **C28, partial.** Exactly when NFC/NFKC preserves equivalence (texts in whose decomposition U+11A7 does not occur):
iff in the composed text no starter keeps a mark.  Missing with respect to C28: the texts where one does. -/
theorem C28_equivalent_iff_partial (hT : Ranked T) (hJ : JamoOk T) (hC : CompOk T) (f : Form)
    (hf : f = .NFC ∨ f = .NFKC) (text : List Nat) (hn : 0x11A7 ∉ normalize T (decomposed f) text) :
    normalize T (decomposed f) (normalize T f text) = normalize T (decomposed f) text ↔
      ∀ g ∈ groupsOf T f.k text, g.marks = [] := by
  have href := C28_reference_equivalent hT hJ hC f hf text hn
  rw [← href, normalize_D (decomposed_D f), normalize_D (decomposed_D f), decomposed_k, unicode_C hf, C28_exact f hf]
  rw [normalize_D (decomposed_D f), decomposed_k] at hn
  obtain ⟨hg, hl, hlm⟩ := composition_ok (T := T) (k := f.k) (pc := primary T)
    (canonicalOrder T (text.flatMap (decompose T f.k))) (mem_order_fixed hT hJ _ _)
    (fun b hb => primary_pcOk hT hJ hC f.k b (fun e => hn (e ▸ hb)))
  constructor
  · intro h
    rw [List.flatMap_append, List.flatMap_append] at h
    exact groups_equiv_imp _ hg _ h
  · intro h
    have e1 : ((groupsOf T f.k text).flatMap fun g => g.marks ++ [g.starter]) =
        (groupsOf T f.k text).flatMap fun g => g.starter :: g.marks := by
      refine List.flatMap_congr ?_
      intro g hg'
      rw [h g hg']; rfl
    rw [e1]

/-- **C28, partial.** When no starter keeps a mark NFC/NFKC is the Unicode normalization form. -/
theorem C28_unicode_partial (f : Form) (hf : f = .NFC ∨ f = .NFKC) (text : List Nat)
    (h : ∀ g ∈ groupsOf T f.k text, g.marks = []) : normalize T f text = unicodeNormalize T f text := by
  rw [unicode_C hf, C28_exact f hf]
  congr 1
  refine List.flatMap_congr ?_
  intro g hg'
  rw [h g hg']; rfl

example : normalize toy .NFC [0x73, 0x307, 0x323, 0x41, 0x30A] = [0x1E69, 0xC5] ∧
    (∀ g ∈ groupsOf toy false [0x73, 0x307, 0x323, 0x41, 0x30A], g.marks = []) ∧
    0x11A7 ∉ normalize toy (decomposed .NFC) [0x73, 0x307, 0x323, 0x41, 0x30A] := by decide
example : unicodeNormalize toy .NFC [0x65, 0x78, 0x301] = [0x65, 0x78, 0x301] := by decide

/-! ## C29 Hangul -/

/-- **C29.** Composing the decomposition of a syllable gives the syllable. -/
theorem C29_compose_decompose (s : Nat) (h : 0xAC00 ≤ s ∧ s ≤ 0xD7A3) :
    ∃ l v t, 0x1100 ≤ l ∧ l ≤ 0x1112 ∧ 0x1161 ≤ v ∧ v ≤ 0x1175 ∧ (t = 0 ∨ 0x11A8 ≤ t ∧ t ≤ 0x11C2) ∧
      hangulDecompose s = (if t = 0 then [l, v] else [l, v, t]) ∧ hangulCompose l v t = s := by
  have hs : isHangulSyllable s = true := (isHangulSyllable_iff s).2 (by omega)
  rw [hangulDecompose_eq s hs]
  have key : ∀ l v t : Nat, 4352 ≤ l → l < 4371 → 4449 ≤ v → v < 4470 → (t = 0 ∨ 4519 < t ∧ t < 4547) →
      44032 + ((l - 4352) * 588 + (v - 4449) * 28) + (t - 4519) = s → hangulCompose l v t = s := by
    intro l v t h1 h2 h3 h4 h5 h6
    have a1 : isHangulL l = true := (isHangulL_iff l).2 ⟨h1, h2⟩
    have a2 : isHangulV v = true := (isHangulV_iff v).2 ⟨h3, h4⟩
    unfold hangulCompose
    rw [a1, a2]
    by_cases ht : t = 0
    · rw [if_neg (by decide), if_pos ht]
      show 44032 + ((l - 4352) * 588 + (v - 4449) * 28) = s
      omega
    · have a3 : isHangulT t = true := (isHangulT_iff t).2 (by omega)
      rw [a3, if_neg (by decide), if_neg ht, if_neg (by decide)]
      exact h6
  by_cases ht : (s - 44032) % 28 > 0
  · refine ⟨4352 + (s - 44032) / 588, 4449 + (s - 44032) % 588 / 28, 4519 + (s - 44032) % 28, by omega, by omega,
      by omega, by omega, by omega, ?_, ?_⟩
    · rw [if_pos ht, if_neg (by omega)]
    · exact key _ _ _ (by omega) (by omega) (by omega) (by omega) (by omega) (by omega)
  · refine ⟨4352 + (s - 44032) / 588, 4449 + (s - 44032) % 588 / 28, 0, by omega, by omega,
      by omega, by omega, by omega, ?_, ?_⟩
    · rw [if_neg ht, if_pos rfl]
    · exact key _ _ _ (by omega) (by omega) (by omega) (by omega) (by omega) (by omega)

/-- **C29.** Decomposing the composition of jamo gives the jamo. -/
theorem C29_decompose_compose (l v t : Nat) (hl : 0x1100 ≤ l ∧ l ≤ 0x1112) (hv : 0x1161 ≤ v ∧ v ≤ 0x1175)
    (ht : t = 0 ∨ 0x11A8 ≤ t ∧ t ≤ 0x11C2) :
    0xAC00 ≤ hangulCompose l v t ∧ hangulCompose l v t ≤ 0xD7A3 ∧
      hangulDecompose (hangulCompose l v t) = if t = 0 then [l, v] else [l, v, t] := by
  have a1 : isHangulL l = true := (isHangulL_iff l).2 (by omega)
  have a2 : isHangulV v = true := (isHangulV_iff v).2 (by omega)
  have hc : hangulCompose l v t = 44032 + ((l - 4352) * 588 + (v - 4449) * 28) + (t - 4519) := by
    unfold hangulCompose
    rw [a1, a2]
    by_cases h0 : t = 0
    · rw [if_neg (by decide), if_pos h0]
      show 44032 + ((l - 4352) * 588 + (v - 4449) * 28) = _
      omega
    · have a3 : isHangulT t = true := (isHangulT_iff t).2 (by omega)
      rw [a3, if_neg (by decide), if_neg h0, if_neg (by decide)]
      rfl
  rw [hc]
  have hs : isHangulSyllable (44032 + ((l - 4352) * 588 + (v - 4449) * 28) + (t - 4519)) = true :=
    (isHangulSyllable_iff _).2 (by omega)
  refine ⟨by omega, by omega, ?_⟩
  rw [hangulDecompose_eq _ hs]
  have e1 : 4352 + (44032 + ((l - 4352) * 588 + (v - 4449) * 28) + (t - 4519) - 44032) / 588 = l := by omega
  have e2 : 4449 + (44032 + ((l - 4352) * 588 + (v - 4449) * 28) + (t - 4519) - 44032) % 588 / 28 = v := by omega
  rw [e1, e2]
  by_cases h0 : t = 0
  · rw [if_neg (by omega), if_pos h0]
  · have e3 : 4519 + (44032 + ((l - 4352) * 588 + (v - 4449) * 28) + (t - 4519) - 44032) % 28 = t := by omega
    rw [if_pos (by omega), if_neg h0, e3]

/-- **C29.** No two syllables have the same decomposition. -/
theorem C29_injective (s s' : Nat) (h : 0xAC00 ≤ s ∧ s ≤ 0xD7A3) (h' : 0xAC00 ≤ s' ∧ s' ≤ 0xD7A3)
    (e : hangulDecompose s = hangulDecompose s') : s = s' := by
  obtain ⟨l, v, t, _, _, _, _, ht, e1, c1⟩ := C29_compose_decompose s h
  obtain ⟨l', v', t', _, _, _, _, ht', e2, c2⟩ := C29_compose_decompose s' h'
  rw [e1, e2] at e
  by_cases a : t = 0 <;> by_cases b : t' = 0
  · rw [if_pos a, if_pos b] at e
    obtain ⟨rfl, rfl⟩ : l = l' ∧ v = v' := by
      have := List.cons.inj e
      exact ⟨this.1, (List.cons.inj this.2).1⟩
    rw [← c1, ← c2, a, b]
  · rw [if_pos a, if_neg b] at e
    have := congrArg List.length e
    simp at this
  · rw [if_neg a, if_pos b] at e
    have := congrArg List.length e
    simp at this
  · rw [if_neg a, if_neg b] at e
    have h1 := List.cons.inj e
    have h2 := List.cons.inj h1.2
    have h3 := List.cons.inj h2.2
    rw [← c1, ← c2, h1.1, h2.1, h3.1]

/-- **C29.** Arguments that are not jamo compose to nothing, codepoints that are not syllables decompose to nothing. -/
theorem C29_others (l v t : Nat) :
    (hangulCompose l v t ≠ 0 → (0x1100 ≤ l ∧ l ≤ 0x1112) ∧ (0x1161 ≤ v ∧ v ≤ 0x1175) ∧
      (t = 0 ∨ 0x11A8 ≤ t ∧ t ≤ 0x11C2)) ∧
    (hangulDecompose l ≠ [] → 0xAC00 ≤ l ∧ l ≤ 0xD7A3) := by
  constructor
  · intro h
    unfold hangulCompose at h
    split at h
    · exact absurd rfl h
    · rename_i hlv
      simp only [Bool.or_eq_true, Bool.not_eq_true', not_or, Bool.not_eq_false] at hlv
      have h1 := (isHangulL_iff l).1 hlv.1
      have h2 := (isHangulV_iff v).1 hlv.2
      split at h
      · rename_i h0
        exact ⟨by omega, by omega, .inl h0⟩
      · split at h
        · exact absurd rfl h
        · rename_i h3
          have h3 : isHangulT t = true := by simpa using h3
          have h4 := (isHangulT_iff t).1 h3
          exact ⟨by omega, by omega, .inr (by omega)⟩
  · intro h
    unfold hangulDecompose at h
    split at h
    · rename_i hs
      have := (isHangulSyllable_iff l).1 hs
      omega
    · exact absurd rfl h

example : hangulDecompose 0xD55C = [0x1112, 0x1161, 0x11AB] ∧ hangulCompose 0x1112 0x1161 0x11AB = 0xD55C := by decide

/-! ## C30 streaming -/

/-- The claim of C30 for one form. -/
def C30_StreamEqWhole (T : Tables) (f : Form) : Prop :=
  ∀ text, (feedAll T f [] text).2 ++ (flush T f (feedAll T f [] text).1).2 = normalize T f text

/-- **C30** is violated for NFD (a starter whose decomposition begins with a non-starter) and for NFC (U+11A7 after
an LV syllable: only the whole-string result loses it). -/
theorem C30_fails : ¬ C30_StreamEqWhole toy .NFD ∧ ¬ C30_StreamEqWhole toy .NFC := by
  constructor
  · intro h; exact absurd (h [0x61, 0x301, 0xF73]) (by decide)
  · intro h; exact absurd (h [0xAC00, 0x11A7]) (by decide)

theorem feedAll_append (f : Form) (p a b : List Nat) :
    feedAll T f p (a ++ b) = ((feedAll T f (feedAll T f p a).1 b).1,
      (feedAll T f p a).2 ++ (feedAll T f (feedAll T f p a).1 b).2) := by
  induction a generalizing p with
  | nil => simp [feedAll]
  | cons c a ih =>
    rw [List.cons_append, feedAll, ih]
    simp [feedAll]

theorem feedAll_flush (f : Form) (pending text : List Nat)
    (h : ∀ c ∈ text, isBoundary T f c = true → SafeStart T f c) :
    (feedAll T f pending text).2 ++ (flush T f (feedAll T f pending text).1).2 = normalize T f (pending ++ text) := by
  induction text generalizing pending with
  | nil => simp [feedAll, flush]
  | cons c cs ih =>
    have ih := fun p => ih p fun x hx => h x (List.mem_cons_of_mem _ hx)
    simp only [feedAll, List.append_assoc, ih]
    unfold Verif.Norm.feed
    split
    · rename_i hb
      rw [normalize_split (h c List.mem_cons_self hb.2)]
      simp
    · simp

/-- **C30, partial.** Streaming equals whole-string normalization, in all four forms, for every text each of whose
boundary codepoints really starts a segment (`SafeStart`: its decomposition begins with a starter and, for NFC/NFKC,
that starter combines with nothing before it).  Missing: texts containing other boundary codepoints, where the claim
is false (`C30_fails`). -/
theorem C30_stream_eq_whole_partial (f : Form) (text : List Nat)
    (h : ∀ c ∈ text, isBoundary T f c = true → SafeStart T f c) :
    (feedAll T f [] text).2 ++ (flush T f (feedAll T f [] text).1).2 = normalize T f text := by
  simpa using feedAll_flush f [] text h

/-- **C30.** `flush` leaves the normalizer as new, so a history of texts each ended by `flush` yields the
concatenation of their normalizations. -/
theorem C30_flush_restarts_partial (f : Form) (texts : List (List Nat))
    (h : ∀ t ∈ texts, ∀ c ∈ t, isBoundary T f c = true → SafeStart T f c) :
    texts.foldl (fun (s : List Nat × List Nat) t =>
        ((flush T f (feedAll T f s.1 t).1).1,
          s.2 ++ (feedAll T f s.1 t).2 ++ (flush T f (feedAll T f s.1 t).1).2)) ([], []) =
      ([], texts.flatMap (normalize T f)) := by
  suffices H : ∀ acc, texts.foldl (fun (s : List Nat × List Nat) t =>
        ((flush T f (feedAll T f s.1 t).1).1,
          s.2 ++ (feedAll T f s.1 t).2 ++ (flush T f (feedAll T f s.1 t).1).2)) ([], acc) =
      ([], acc ++ texts.flatMap (normalize T f)) by simpa using H []
  induction texts with
  | nil => simp
  | cons t ts ih =>
    intro acc
    rw [List.foldl_cons]
    have e := C30_stream_eq_whole_partial f t (h t List.mem_cons_self)
    rw [List.append_assoc, e]
    have := ih (fun t ht => h t (List.mem_cons_of_mem _ ht)) (acc ++ normalize T f t)
    simp only [flush] at this ⊢
    rw [this]
    simp

/-- `is_boundary` is the boundary test of the specification. -/
theorem isBoundary_iff (f : Form) (c : Nat) : isBoundary T f c = true ↔ Boundary T f c := by
  unfold isBoundary Boundary
  by_cases h : T.ccc c = 0
  · cases f
    · cases h1 : T.nfcNo c <;> cases h2 : T.nfcMaybe c <;> simp [h, qcOf, h1, h2]
    · simp [h]
    · cases h1 : T.nfkcNo c <;> cases h2 : T.nfkcMaybe c <;> simp [h, qcOf, h1, h2]
    · simp [h]
  · simp [h]

/-- Every text has its segments. -/
theorem segments_exist (f : Form) (text : List Nat) : ∃ segs, Segments T f text segs := by
  induction text with
  | nil => exact ⟨[], rfl, by simp, by simp, by simp⟩
  | cons c cs ih =>
    obtain ⟨segs, h1, h2, h3, h4⟩ := ih
    cases segs with
    | nil => exact ⟨[[c]], by simpa using h1, by simp, by simp, by simp⟩
    | cons s segs =>
      have hs := h2 s List.mem_cons_self
      obtain ⟨d, ds, rfl⟩ := List.exists_cons_of_ne_nil hs
      by_cases hb : Boundary T f d
      · refine ⟨[c] :: (d :: ds) :: segs, by simpa using h1, ?_, ?_, ?_⟩
        · intro x hx
          rcases List.mem_cons.1 hx with rfl | hx
          · simp
          · exact h2 x hx
        · intro x hx
          rcases List.mem_cons.1 hx with rfl | hx
          · simp
          · exact h3 x hx
        · intro x hx e he
          rcases List.mem_cons.1 hx with rfl | hx
          · simp at he; subst he; exact hb
          · exact h4 x hx e he
      · refine ⟨(c :: d :: ds) :: segs, by simpa using h1, ?_, ?_, h4⟩
        · intro x hx
          rcases List.mem_cons.1 hx with rfl | hx
          · simp
          · exact h2 x (List.mem_cons_of_mem _ hx)
        · intro x hx
          rcases List.mem_cons.1 hx with rfl | hx
          · intro e he
            rcases List.mem_cons.1 he with rfl | he
            · exact hb
            · exact h3 _ List.mem_cons_self e he
          · exact h3 x (List.mem_cons_of_mem _ hx)

theorem feedAll_inside (f : Form) (p l : List Nat) (h : ∀ c ∈ l, ¬ Boundary T f c) : feedAll T f p l = (p ++ l, []) := by
  induction l generalizing p with
  | nil => simp [feedAll]
  | cons c cs ih =>
    have hf : Verif.Norm.feed T f p c = (p ++ [c], []) := by
      unfold Verif.Norm.feed
      rw [if_neg]
      rintro ⟨_, hb⟩
      exact h c List.mem_cons_self ((isBoundary_iff f c).1 hb)
    rw [feedAll, hf, ih _ (fun x hx => h x (List.mem_cons_of_mem _ hx))]
    simp

/-- **C30.** Exactly what streaming outputs, for every text and every table: the text is cut before its boundaries and
the pieces are normalized one by one. -/
theorem C30_segments (f : Form) (text : List Nat) (segs : List (List Nat)) (h : Segments T f text segs) :
    (feedAll T f [] text).2 ++ (flush T f (feedAll T f [] text).1).2 = segs.flatMap (normalize T f) := by
  obtain ⟨rfl, h2, h3, h4⟩ := h
  have go : ∀ (segs : List (List Nat)) (p : List Nat), p ≠ [] → (∀ s ∈ segs, s ≠ []) →
      (∀ s ∈ segs, ∀ c ∈ s.tail, ¬ Boundary T f c) → (∀ s ∈ segs, ∀ c, s.head? = some c → Boundary T f c) →
      (feedAll T f p segs.flatten).2 ++ (flush T f (feedAll T f p segs.flatten).1).2 =
        normalize T f p ++ segs.flatMap (normalize T f) := by
    intro segs
    induction segs with
    | nil => intro p _ _ _ _; simp [feedAll, flush]
    | cons s segs ih =>
      intro p hp a1 a2 a3
      obtain ⟨d, ds, rfl⟩ := List.exists_cons_of_ne_nil (a1 s List.mem_cons_self)
      have hb := a3 _ List.mem_cons_self d rfl
      have hfeed : Verif.Norm.feed T f p d = ([d], normalize T f p) := by
        unfold Verif.Norm.feed
        rw [if_pos ⟨hp, (isBoundary_iff f d).2 hb⟩]
      have hin := feedAll_inside f [d] ds (a2 _ List.mem_cons_self)
      rw [List.flatten_cons, List.cons_append, feedAll, hfeed, feedAll_append, hin, List.flatMap_cons]
      have := ih (d :: ds) (by simp) (fun s hs => a1 s (List.mem_cons_of_mem _ hs))
        (fun s hs => a2 s (List.mem_cons_of_mem _ hs)) (fun s hs => a3 s (List.mem_cons_of_mem _ hs))
      simp only [List.singleton_append, List.nil_append, List.append_assoc]
      rw [this]
  cases segs with
  | nil => cases f <;> rfl
  | cons s segs =>
    obtain ⟨d, ds, rfl⟩ := List.exists_cons_of_ne_nil (h2 s List.mem_cons_self)
    have hfeed : Verif.Norm.feed T f [] d = ([d], []) := by
      unfold Verif.Norm.feed
      rw [if_neg (fun hh => hh.1 rfl)]; rfl
    have hin := feedAll_inside f [d] ds (h3 _ List.mem_cons_self)
    have := go segs (d :: ds) (by simp) (fun s hs => h2 s (List.mem_cons_of_mem _ hs))
      (fun s hs => h3 s (List.mem_cons_of_mem _ hs)) h4
    rw [List.flatten_cons, List.cons_append, feedAll, hfeed, feedAll_append, hin, List.flatMap_cons]
    simp only [List.singleton_append, List.nil_append]
    exact this

theorem boundary_primary {f : Form} (hB : BoundaryOk T f) {h : Nat} (hb : Boundary T f h)
    (h7 : h ≠ 0x11A7) (a : Nat) : primary T a h = none := by
  have key : tryCompose T a h = T.comp a h := by
    unfold tryCompose
    split
    · split
      · rename_i hV
        have hV' : 4449 ≤ h ∧ h < 4470 := hV
        exact absurd hb (hB.jamo h (.inl ((isHangulV_iff h).2 hV')))
      · rfl
    · split
      · split
        · split
          · rename_i hTr
            have hT' : 4519 ≤ h ∧ h < 4547 := hTr
            exact absurd hb (hB.jamo h (.inr ((isHangulT_iff h).2 (by omega))))
          · rfl
        · rfl
      · rfl
  unfold primary
  rw [key, if_neg]
  rintro ⟨h1, h2⟩
  exact hB.second a h h1 h2 hb

theorem boundary_safe (hT : Ranked T) {f : Form} (hB : BoundaryOk T f) (_hf : f.composes = true)
    {c : Nat} (hb : Boundary T f c) (h7 : (decompose T f.k c).head? ≠ some 0x11A7) : SafeStart T f c := by
  have hT' := hT
  obtain ⟨rank, _, hr⟩ := hT'
  have main : ∀ n c, rank c < n → Boundary T f c → ∃ h t, decompose T f.k c = h :: t ∧ Boundary T f h := by
    intro n
    induction n with
    | zero => intro c hc; omega
    | succ n ih =>
      intro c hc hb
      by_cases hh : isHangulSyllable c = true
      · have hL := (isHangulSyllable_iff c).1 hh
        obtain ⟨l, v, t, h1, h2, _, _, _, e, _⟩ := C29_compose_decompose c (by omega)
        have hl := hB.lead l ((isHangulL_iff l).2 (by omega))
        rw [decompose_eq hT, if_pos hh, e]
        split
        · exact ⟨l, _, rfl, hl⟩
        · exact ⟨l, _, rfl, hl⟩
      · have hh' : isHangulSyllable c = false := by simpa using hh
        rw [decompose_eq hT, if_neg hh]
        split
        · exact ⟨c, [], rfl, hb⟩
        · rename_i hm
          obtain ⟨d, ds, e⟩ := List.exists_cons_of_ne_nil hm
          have hd := hB.first c d ds hh' hb e
          have hlt := mapping_mem_rank (hr c hh') f.k d (by rw [e]; simp)
          obtain ⟨h, t, e1, e2⟩ := ih d (by omega) hd
          exact ⟨h, t ++ ds.flatMap (decompose T f.k), by rw [e, List.flatMap_cons, e1]; rfl, e2⟩
  obtain ⟨h, t, e1, e2⟩ := main _ c (Nat.lt_succ_self _) hb
  rw [e1] at h7
  exact ⟨h, t, e1, e2.1, fun _ a => boundary_primary hB e2 (fun e => h7 (by rw [e]; rfl)) a⟩

/-- **C30, partial.** For NFC/NFKC and tables whose quick-check values are right (`BoundaryOk`), streaming equals
whole-string normalization for every text without U+11A7 at the head of a decomposition.  Missing: U+11A7 (`C30_fails`). -/
theorem C30_composed_stream_partial (hT : Ranked T) (f : Form) (hB : BoundaryOk T f) (hf : f.composes = true)
    (text : List Nat) (h7 : ∀ c ∈ text, (decompose T f.k c).head? ≠ some 0x11A7) :
    (feedAll T f [] text).2 ++ (flush T f (feedAll T f [] text).1).2 = normalize T f text :=
  C30_stream_eq_whole_partial f text fun c hc hb => boundary_safe hT hB hf ((isBoundary_iff f c).1 hb) (h7 c hc)

/-- The codepoints a UTF-8 client sees: decoded, with U+FFFD for every `Invalid` report. -/
def replaced (rs : List Result) : List Nat :=
  rs.filterMap fun | .success v => some v | .invalid => some 0xFFFD | .incomplete => none

theorem replaced_of_valid (rs : List Result) (h : Result.invalid ∉ rs) : replaced rs = successes rs := by
  induction rs with
  | nil => rfl
  | cons r rs ih =>
    have ih := ih fun h' => h (List.mem_cons_of_mem _ h')
    unfold replaced successes at *
    cases r with
    | invalid => exact absurd List.mem_cons_self h
    | incomplete => simpa using ih
    | success v => simpa using ih

theorem toUtf8Str_append' (a b : List Nat) : toUtf8Str (a ++ b) = toUtf8Str a ++ toUtf8Str b :=
  (Verif.Props.C02_to_utf8_append a b)

theorem u8feed_eq (f : Form) (p : List Nat) (d : DecState) (bs : List Nat) :
    u8feed T f ⟨p, d⟩ bs =
      (⟨(feedAll T f p (replaced (Utf8.feed d bs).2)).1, (Utf8.feed d bs).1⟩,
        toUtf8Str (feedAll T f p (replaced (Utf8.feed d bs).2)).2) := by
  induction bs generalizing p d with
  | nil => simp [u8feed, Utf8.feed, replaced, feedAll, toUtf8Str]
  | cons b bs ih =>
    rw [u8feed]
    have hf : Utf8.feed d (b :: bs) =
      ((Utf8.feed (fromUtf8 d b).1 bs).1, (fromUtf8 d b).2 :: (Utf8.feed (fromUtf8 d b).1 bs).2) := rfl
    rw [hf]
    have step : ∀ v, (fromUtf8 d b).2 = .success v ∨ ((fromUtf8 d b).2 = .invalid ∧ v = 0xFFFD) →
        u8byte T f ⟨p, d⟩ b = u8emit T f p (fromUtf8 d b).1 v ∧
        replaced ((fromUtf8 d b).2 :: (Utf8.feed (fromUtf8 d b).1 bs).2) =
          v :: replaced (Utf8.feed (fromUtf8 d b).1 bs).2 := by
      rintro v (h | ⟨h, rfl⟩)
      · simp [u8byte, h, replaced]
      · simp [u8byte, h, replaced]
    have fin : ∀ v, u8byte T f ⟨p, d⟩ b = u8emit T f p (fromUtf8 d b).1 v ∧
        replaced ((fromUtf8 d b).2 :: (Utf8.feed (fromUtf8 d b).1 bs).2) =
          v :: replaced (Utf8.feed (fromUtf8 d b).1 bs).2 →
        ((u8feed T f (u8byte T f ⟨p, d⟩ b).1 bs).1, (u8byte T f ⟨p, d⟩ b).2 ++ (u8feed T f (u8byte T f ⟨p, d⟩ b).1 bs).2) =
        ((⟨(feedAll T f p (replaced ((fromUtf8 d b).2 :: (Utf8.feed (fromUtf8 d b).1 bs).2))).1,
            (Utf8.feed (fromUtf8 d b).1 bs).1⟩ : U8),
          toUtf8Str (feedAll T f p (replaced ((fromUtf8 d b).2 :: (Utf8.feed (fromUtf8 d b).1 bs).2))).2) := by
      rintro v ⟨h1, h2⟩
      rw [h1, h2, u8emit]
      simp only
      rw [ih]
      simp [feedAll, toUtf8Str_append']
    cases h : (fromUtf8 d b).2 with
    | success v => have := fin v (step v (.inl h)); rwa [h] at this
    | invalid => have := fin _ (step _ (.inr ⟨h, rfl⟩)); rwa [h] at this
    | incomplete =>
      simp only [u8byte, h, List.nil_append]
      rw [ih]
      simp [replaced]

theorem u8feed_append (f : Form) (s : U8) (a b : List Nat) :
    u8feed T f s (a ++ b) = ((u8feed T f (u8feed T f s a).1 b).1,
      (u8feed T f s a).2 ++ (u8feed T f (u8feed T f s a).1 b).2) := by
  induction a generalizing s with
  | nil => simp [u8feed]
  | cons c a ih =>
    rw [List.cons_append, u8feed, ih]
    simp [u8feed]

theorem u8chunks_eq (f : Form) (s : U8) (cs : List (List Nat)) : u8chunks T f s cs = u8feed T f s cs.flatten := by
  induction cs generalizing s with
  | nil => simp [u8chunks, u8feed]
  | cons c cs ih => simp [u8chunks, ih, u8feed_append]

/-- **C30.** The UTF-8 streaming normalizer does not depend on how the bytes are cut into chunks, for arbitrary
bytes and in the middle of multi-byte sequences. -/
theorem C30_utf8_chunking (f : Form) (s : U8) (cs cs' : List (List Nat)) (h : cs.flatten = cs'.flatten) :
    u8chunks T f s cs = u8chunks T f s cs' := by
  rw [u8chunks_eq, u8chunks_eq, h]

/-- **C30, partial.** What the UTF-8 streaming normalizer outputs in total: the UTF-8 form of the normalized decoded
text, with U+FFFD for every ill-formed sequence reported by the decoder. -/
theorem C30_utf8_stream_partial (f : Form) (cs : List (List Nat))
    (h : ∀ c ∈ replaced (Utf8.feed {} cs.flatten).2, isBoundary T f c = true → SafeStart T f c) :
    (u8chunks T f ⟨[], {}⟩ cs).2 ++ (u8flush T f (u8chunks T f ⟨[], {}⟩ cs).1).2 =
      toUtf8Str (normalize T f (replaced (Utf8.feed {} cs.flatten).2)) := by
  rw [u8chunks_eq, u8feed_eq, u8flush]
  rw [← toUtf8Str_append', C30_stream_eq_whole_partial f _ h]

/-- **C30, partial.** For well-formed UTF-8 cut anywhere, the UTF-8 streaming normalizer and the whole-string UTF-8
function return the same bytes. -/
theorem C30_utf8_eq_whole_partial (f : Form) (simd : Nat) (text : List Nat) (cs : List (List Nat))
    (hc : cs.flatten = toUtf8Str text) (hr : ∀ c ∈ text, c ≤ 0x1FFFFF)
    (h : ∀ c ∈ text, isBoundary T f c = true → SafeStart T f c) :
    normalize8 T simd f cs.flatten =
      .ok ((u8chunks T f ⟨[], {}⟩ cs).2 ++ (u8flush T f (u8chunks T f ⟨[], {}⟩ cs).1).2) := by
  have hrep : replaced (Utf8.feed {} cs.flatten).2 = text := by
    obtain ⟨h1, h2, _⟩ := Verif.Props.C02_utf8_incremental_string text hr {} rfl
    rw [hc, replaced_of_valid _ h2, h1]
  rw [C30_utf8_stream_partial f cs (by rw [hrep]; exact h), hrep]
  rw [normalize8, hc, Verif.Props.C02_utf8_string_roundtrip simd text hr, convertTo8From32, convert32_any,
    toUtf8Str_eq]
  rfl

/-- **C30.** The UTF-8 `flush` outputs the normalization of what is pending and leaves nothing pending; an unfinished UTF-8
sequence is kept. -/
theorem C30_utf8_flush (f : Form) (s : U8) :
    (u8flush T f s).1 = ⟨[], s.dec⟩ ∧ (u8flush T f s).2 = toUtf8Str (normalize T f s.pending) := ⟨rfl, rfl⟩

/-- **C30, partial.** A history of texts, each cut into chunks anywhere and ended by `flush`: the outputs are the UTF-8
forms of their normalizations. -/
theorem C30_utf8_flush_restarts_partial (f : Form) (hist : List (List Nat × List (List Nat)))
    (hc : ∀ h ∈ hist, h.2.flatten = toUtf8Str h.1) (hr : ∀ h ∈ hist, ∀ c ∈ h.1, c ≤ 0x1FFFFF)
    (hs : ∀ h ∈ hist, ∀ c ∈ h.1, isBoundary T f c = true → SafeStart T f c) :
    (hist.foldl (fun (s : U8 × List Nat) h =>
        ((u8flush T f (u8chunks T f s.1 h.2).1).1,
          s.2 ++ (u8chunks T f s.1 h.2).2 ++ (u8flush T f (u8chunks T f s.1 h.2).1).2)) (⟨[], {}⟩, [])).2 =
      hist.flatMap fun h => toUtf8Str (normalize T f h.1) := by
  suffices H : ∀ (d : DecState) acc, d.expectedLength = 0 → (hist.foldl (fun (s : U8 × List Nat) h =>
        ((u8flush T f (u8chunks T f s.1 h.2).1).1,
          s.2 ++ (u8chunks T f s.1 h.2).2 ++ (u8flush T f (u8chunks T f s.1 h.2).1).2)) (⟨[], d⟩, acc)).2 =
      acc ++ hist.flatMap fun h => toUtf8Str (normalize T f h.1) by simpa using H {} [] rfl
  induction hist with
  | nil => intro d acc _; simp
  | cons h hist ih =>
    intro d acc hd
    obtain ⟨h1, h2, h3⟩ := Verif.Props.C02_utf8_incremental_string h.1 (hr h List.mem_cons_self) d hd
    have hrep : replaced (Utf8.feed d h.2.flatten).2 = h.1 := by
      rw [hc h List.mem_cons_self, replaced_of_valid _ h2, h1]
    rw [List.foldl_cons, u8chunks_eq, u8feed_eq, hrep]
    have e := C30_stream_eq_whole_partial f h.1 (hs h List.mem_cons_self)
    have hfl : ∀ p d, u8flush T f ⟨p, d⟩ = (⟨[], d⟩, toUtf8Str (normalize T f p)) := fun _ _ => rfl
    rw [hfl]
    have e' : toUtf8Str (feedAll T f [] h.1).2 ++ toUtf8Str (normalize T f (feedAll T f [] h.1).1) =
        toUtf8Str (normalize T f h.1) := by
      rw [← toUtf8Str_append', ← e]; rfl
    rw [ih (fun x hx => hc x (List.mem_cons_of_mem _ hx)) (fun x hx => hr x (List.mem_cons_of_mem _ hx))
      (fun x hx => hs x (List.mem_cons_of_mem _ hx))]
    · show acc ++ toUtf8Str (feedAll T f [] h.1).2 ++ toUtf8Str (normalize T f (feedAll T f [] h.1).1) ++ _ = _
      rw [List.append_assoc acc, e', List.flatMap_cons, List.append_assoc]
    · rw [hc h List.mem_cons_self]; exact h3

example : ∀ c ∈ [0x61, 0x301, 0x323, 0x1E69, 0x62], isBoundary toy .NFD c = true → SafeStart toy .NFD c := by
  intro c hc _
  simp only [List.mem_cons, List.not_mem_nil, or_false] at hc
  have : ∀ c ∈ [0x61, 0x1E69, 0x62], ∃ h ∈ decompose toy false c, (decompose toy false c).head? = some h ∧ toy.ccc h = 0 := by
    decide
  have key : ∀ c ∈ [0x61, 0x1E69, 0x62], SafeStart toy .NFD c := by
    intro c hc
    obtain ⟨h, _, h1, h2⟩ := this c hc
    obtain ⟨t, ht⟩ := List.head?_eq_some_iff.1 h1
    exact ⟨h, t, ht, h2, by intro h; cases h⟩
  rcases hc with rfl | rfl | rfl | rfl | rfl
  · exact key _ (by decide)
  · exact absurd ‹isBoundary toy .NFD 0x301 = true› (by decide)
  · exact absurd ‹isBoundary toy .NFD 0x323 = true› (by decide)
  · exact key _ (by decide)
  · exact key _ (by decide)
example : (feedAll toy .NFC [] [0x65, 0x301, 0x62]).2 = [0xE9] := by decide

/-! ## C31 quick check -/

/-- The quick-check tables agree with the decomposition tables. -/
structure QcOk (T : Tables) : Prop where
  nfd : ∀ c, T.nfdNo c = true ↔ decompose T false c ≠ [c]
  nfkd : ∀ c, T.nfkdNo c = true ↔ decompose T true c ≠ [c]

/-- Canonical order of `last` followed by the text. -/
def ordFrom (ccc : Nat → Nat) : Nat → List Nat → Prop
  | _, [] => True
  | last, c :: cs => ¬ (ccc c ≠ 0 ∧ last > ccc c) ∧ ordFrom ccc (ccc c) cs

theorem ordFrom_iff (ccc : Nat → Nat) (cs : List Nat) : ordFrom ccc 0 cs ↔ Ordered ccc cs := by
  rw [ordered_iff_chain]
  cases cs with
  | nil => simp [ordFrom]
  | cons c cs =>
    have : ∀ (x : Nat) (l : List Nat), ordFrom ccc (ccc x) l ↔ (x :: l).IsChain (fun x y => ¬ Reorderable ccc x y) := by
      intro x l
      induction l generalizing x with
      | nil => simp [ordFrom]
      | cons y l ih =>
        rw [List.isChain_cons_cons, ordFrom, ih y]
        unfold Reorderable
        constructor
        · rintro ⟨a, b⟩; exact ⟨by omega, b⟩
        · rintro ⟨a, b⟩; exact ⟨by omega, b⟩
    rw [ordFrom, this]
    simp

theorem qc_yes_iff (f : Form) (last : Nat) (cs : List Nat) :
    quickCheckFrom T f last .Yes cs = .Yes ↔ (∀ c ∈ cs, qcOf T f c = .Yes) ∧ ordFrom T.ccc last cs := by
  have hm : ∀ last cs, quickCheckFrom T f last .Maybe cs ≠ .Yes := by
    intro last cs
    induction cs generalizing last with
    | nil => simp [quickCheckFrom]
    | cons c cs ih =>
      rw [quickCheckFrom]
      split
      · simp
      · cases qcOf T f c <;> simp [ih]
  induction cs generalizing last with
  | nil => simp [quickCheckFrom, ordFrom]
  | cons c cs ih =>
    rw [quickCheckFrom, ordFrom]
    split
    · rename_i h
      simp [h]
    · rename_i h
      cases hq : qcOf T f c with
      | Yes => simp [hq, ih, h]
      | No => simp [hq]
      | Maybe => simp [hq, hm]

theorem qc_never_maybe {f : Form} (hf : f = .NFD ∨ f = .NFKD) (last : Nat) (cs : List Nat) :
    quickCheckFrom T f last .Yes cs ≠ .Maybe := by
  induction cs generalizing last with
  | nil => simp [quickCheckFrom]
  | cons c cs ih =>
    rw [quickCheckFrom]
    split
    · simp
    · have : qcOf T f c ≠ .Maybe := by
        rcases hf with rfl | rfl <;> simp only [qcOf] <;> split <;> simp
      cases h : qcOf T f c with
      | Yes => exact ih _
      | No => simp
      | Maybe => exact absurd h this

theorem qcOf_D (hQ : QcOk T) {f : Form} (hf : f = .NFD ∨ f = .NFKD) (c : Nat) :
    qcOf T f c = .Yes ↔ decompose T f.k c = [c] := by
  rcases hf with rfl | rfl
  · have := hQ.nfd c
    simp only [qcOf, Form.k]
    by_cases h : T.nfdNo c = true
    · simp [h, this.1 h]
    · have h' : decompose T false c = [c] := by tauto
      simp [h, h']
  · have := hQ.nfkd c
    simp only [qcOf, Form.k]
    by_cases h : T.nfkdNo c = true
    · simp [h, this.1 h]
    · have h' : decompose T true c = [c] := by tauto
      simp [h, h']

/-- **C31.** For NFD and NFKD the quick check is decisive and exact: it answers Yes exactly when normalizing leaves the
text unchanged and No otherwise; so is `is_normalized`. -/
theorem C31_decomposed_forms (hT : Ranked T) (hJ : JamoOk T) (hQ : QcOk T) (f : Form) (hf : f = .NFD ∨ f = .NFKD)
    (text : List Nat) :
    (quickCheck T f text = .Yes ↔ normalize T f text = text) ∧
    (quickCheck T f text = .No ↔ normalize T f text ≠ text) ∧
    (isNormalized T f text = true ↔ normalize T f text = text) := by
  have h1 : quickCheck T f text = .Yes ↔ normalize T f text = text := by
    rw [quickCheck, qc_yes_iff, ordFrom_iff]
    constructor
    · rintro ⟨a, b⟩
      rw [normalize_D hf, flatMap_fixed fun c hc => (qcOf_D hQ hf c).1 (a c hc), canonicalOrder_of_ordered b]
    · intro e
      obtain ⟨h1, h2⟩ := C27_output_form hT hJ f hf text
      rw [e] at h1 h2
      exact ⟨fun c hc => (qcOf_D hQ hf c).2 (h1 c hc), h2⟩
  have hm : quickCheck T f text ≠ .Maybe := qc_never_maybe hf 0 text
  refine ⟨h1, ?_, ?_⟩
  · cases h : quickCheck T f text <;> simp_all
  · unfold isNormalized
    cases h : quickCheck T f text <;> simp_all

/-- **C31** is violated for NFC: the quick check answers Yes for `x` + combining grave below, which `to_nfc` changes. -/
theorem C31_fails_nfc : quickCheck toy .NFC [0x78, 0x316] = .Yes ∧ isNormalized toy .NFC [0x78, 0x316] = true ∧
    normalize toy .NFC [0x78, 0x316] ≠ [0x78, 0x316] := by decide

/-- **C31, partial.** NFC/NFKC: a text of starters with quick-check value Yes, each stable by itself, is answered Yes
and is indeed unchanged. Missing: texts with combining marks, where the claim is false (`C31_fails_nfc`). -/
theorem C31_composed_yes_partial (f : Form) (text : List Nat)
    (h : ∀ c ∈ text, T.ccc c = 0 ∧ qcOf T f c = .Yes ∧ SafeStart T f c ∧ normalize T f [c] = [c]) :
    quickCheck T f text = .Yes ∧ normalize T f text = text := by
  constructor
  · rw [quickCheck, qc_yes_iff]
    refine ⟨fun c hc => (h c hc).2.1, ?_⟩
    rw [ordFrom_iff]
    rintro a b x y rfl ⟨h1, h2⟩
    have := (h y (by simp)).1
    omega
  · induction text with
    | nil => cases f <;> rfl
    | cons c cs ih =>
      have ih := ih fun x hx => h x (List.mem_cons_of_mem _ hx)
      cases cs with
      | nil => exact (h c List.mem_cons_self).2.2.2
      | cons d ds =>
        have := normalize_split (h d (by simp)).2.2.1 [c] ds
        rw [List.singleton_append] at this
        rw [this, ih, (h c List.mem_cons_self).2.2.2]
        rfl

/-- What C31 needs of the composition-form tables: a codepoint with value No is not in the normalization form by
itself (it decomposes, and it is no primary composite of a starter, or it is changed by compatibility mappings);
composites of starters and Hangul syllables are starters. -/
structure QcCOk (T : Tables) : Prop where
  nfc : ∀ c, T.nfcNo c = true → decompose T false c ≠ [c] ∧ ∀ a b, T.ccc a = 0 → primary T a b ≠ some c
  nfkc : ∀ c, T.nfkcNo c = true → decompose T true c ≠ [c] ∧
    ((∀ a b, T.ccc a = 0 → primary T a b ≠ some c) ∨ decompose T true c ≠ decompose T false c)
  comp0 : ∀ a b, T.ccc a = 0 → T.comp a b ≠ 0 → T.ccc (T.comp a b) = 0
  hangul : ∀ c, isHangulSyllable c = true → T.ccc c = 0

theorem hangulDecompose_length {c : Nat} (h : isHangulSyllable c = true) : 2 ≤ (hangulDecompose c).length := by
  rw [hangulDecompose_eq c h]; split <;> simp

theorem flatMap_singleton_inv {α : Type} {l : List α} {F : α → List Nat} (hne : ∀ x ∈ l, F x ≠ []) {e : Nat}
    (h : l.flatMap F = [e]) : ∃ x, l = [x] ∧ F x = [e] := by
  match l with
  | [] => simp at h
  | [x] => exact ⟨x, rfl, by simpa using h⟩
  | x :: y :: l =>
    have h1 := hne x (by simp)
    have h2 := hne y (by simp)
    have := congrArg List.length h
    simp only [List.flatMap_cons, List.length_append, List.length_cons, List.length_nil] at this
    have := List.length_pos_of_ne_nil h1
    have := List.length_pos_of_ne_nil h2
    omega

/-- A codepoint is fully decomposed exactly when it has no mapping. -/
theorem fixed_iff (hT : Ranked T) (k : Bool) (c : Nat) :
    decompose T k c = [c] ↔ isHangulSyllable c = false ∧ mapping T k c = [] := by
  constructor
  · intro h
    have hn : isHangulSyllable c = false := by
      by_contra hh
      have hh : isHangulSyllable c = true := by simpa using hh
      have hl := hangulDecompose_length hh
      rw [decompose_eq hT, if_pos hh] at h
      rw [h] at hl
      simp at hl
    refine ⟨hn, ?_⟩
    by_contra hm
    have hne := decompose_ne_nil hT k
    have hT' := hT
    obtain ⟨rank, _, hr⟩ := hT'
    have chain : ∀ n d, rank d < n → ∀ e, decompose T k d = [e] → e = d ∨ rank e < rank d := by
      intro n
      induction n with
      | zero => intro d hd; omega
      | succ n ih =>
        intro d hd e he
        by_cases hh : isHangulSyllable d = true
        · have hl := hangulDecompose_length hh
          rw [decompose_eq hT, if_pos hh] at he
          rw [he] at hl
          simp at hl
        · have hh : isHangulSyllable d = false := by simpa using hh
          rw [decompose_eq hT, hh] at he
          simp only [Bool.false_eq_true, ↓reduceIte] at he
          split at he
          · left; exact (List.cons.inj he).1.symm
          · obtain ⟨x, hx, hx'⟩ := flatMap_singleton_inv (fun x _ => hne x) he
            have hlt := mapping_mem_rank (hr d hh) k x (by rw [hx]; simp)
            rcases ih x (by omega) e hx' with rfl | h'
            · right; exact hlt
            · right; omega
    rw [decompose_eq hT, hn] at h
    simp only [Bool.false_eq_true, ↓reduceIte, hm] at h
    obtain ⟨x, hx, hx'⟩ := flatMap_singleton_inv (fun x _ => hne x) h
    have hlt := mapping_mem_rank (hr c hn) k x (by rw [hx]; simp)
    rcases chain _ x (Nat.lt_succ_self _) c hx' with rfl | h'
    · omega
    · omega
  · rintro ⟨h1, h2⟩
    rw [decompose_eq hT, h1, h2]
    simp

theorem fixed_canon (hT : Ranked T) {k : Bool} {c : Nat} (h : decompose T k c = [c]) : decompose T false c = [c] := by
  obtain ⟨h1, h2⟩ := (fixed_iff hT k c).1 h
  refine (fixed_iff hT false c).2 ⟨h1, ?_⟩
  unfold mapping at h2 ⊢
  split at h2
  · rename_i h'
    simpa using h'.1
  · simpa using h2

theorem tryCompose_ccc (hQ : QcCOk T) {a b : Nat} (h0 : T.ccc a = 0) (h : tryCompose T a b ≠ 0) :
    T.ccc (tryCompose T a b) = 0 := by
  unfold tryCompose at h ⊢
  split
  · rename_i hL
    rw [if_pos hL] at h
    split
    · rename_i hV
      refine hQ.hangul _ ((isHangulSyllable_iff _).2 ?_)
      have hL' : 4352 ≤ a ∧ a < 4371 := hL
      have hV' : 4449 ≤ b ∧ b < 4470 := hV
      show 44032 ≤ 44032 + ((a - 4352) * 21 + (b - 4449)) * 28 ∧ 44032 + ((a - 4352) * 21 + (b - 4449)) * 28 < 55204
      omega
    · rename_i hV
      rw [if_neg hV] at h
      exact hQ.comp0 a b h0 h
  · rename_i hL
    rw [if_neg hL] at h
    split
    · rename_i hS
      rw [if_pos hS] at h
      split
      · rename_i hM
        rw [if_pos hM] at h
        split
        · rename_i hTr
          refine hQ.hangul _ ((isHangulSyllable_iff _).2 ?_)
          have hS' : 44032 ≤ a ∧ a < 55204 := hS
          have hM' : (a - 44032) % 28 = 0 := hM
          have hT' : 4519 ≤ b ∧ b < 4547 := hTr
          show 44032 ≤ a + (b - 4519) ∧ a + (b - 4519) < 55204
          omega
        · rename_i hTr
          rw [if_neg hTr] at h
          exact hQ.comp0 a b h0 h
      · rename_i hM
        rw [if_neg hM] at h
        exact hQ.comp0 a b h0 h
    · rename_i hS
      rw [if_neg hS] at h
      exact hQ.comp0 a b h0 h

/-- What a starter of the composed text is: a fully decomposed codepoint or a permitted composite of such. -/
structure OutOk (T : Tables) (k : Bool) (s : Nat) : Prop where
  ccc : T.ccc s = 0
  canon : decompose T k s = decompose T false s
  kind : decompose T k s = [s] ∨ ∃ a b, T.ccc a = 0 ∧ primary T a b = some s

theorem composeGroups_out (hT : Ranked T) (hQ : QcCOk T) {k : Bool} (rest : List Nat) (g : Group)
    (hg : OutOk T k g.starter) (hf : ∀ c ∈ rest, decompose T k c = [c])
    (hpc : ∀ b ∈ rest, PcOk T k (primary T) b) (hpc' : ∀ b ∈ rest, PcOk T false (primary T) b) :
    ∀ g' ∈ composeGroups T.ccc (primary T) g rest, OutOk T k g'.starter := by
  induction rest generalizing g with
  | nil =>
    intro g' h
    rw [composeGroups_nil, List.mem_singleton] at h
    rw [h]; exact hg
  | cons c cs ih =>
    have ih := fun g hg => ih g hg (fun x hx => hf x (List.mem_cons_of_mem _ hx))
      (fun x hx => hpc x (List.mem_cons_of_mem _ hx)) (fun x hx => hpc' x (List.mem_cons_of_mem _ hx))
    rw [composeGroups_cons]
    split
    · rename_i p hp
      have hp : primary T g.starter c = some p := by
        split at hp
        · exact hp
        · exact absurd hp (by simp)
      have e1 := hpc c List.mem_cons_self _ _ hp
      have e2 := hpc' c List.mem_cons_self _ _ hp
      have hcf := hf c List.mem_cons_self
      refine ih ⟨p, g.marks⟩ ⟨?_, ?_, ?_⟩
      · unfold primary at hp
        split at hp
        · rename_i hne
          rw [← Option.some.inj hp]
          exact tryCompose_ccc hQ hg.ccc hne.1
        · exact absurd hp (by simp)
      · simp only
        rw [e1, e2, hg.canon, hcf, fixed_canon hT hcf]
      · exact .inr ⟨_, _, hg.ccc, hp⟩
    · have hcf := hf c List.mem_cons_self
      split
      · rename_i h0
        intro g' h
        rcases List.mem_cons.1 h with rfl | h
        · exact hg
        · refine ih ⟨c, []⟩ ⟨h0, ?_, .inl hcf⟩ g' h
          rw [hcf, fixed_canon hT hcf]
      · exact ih ⟨g.starter, g.marks ++ [c]⟩ hg

theorem Ordered.left {ccc : Nat → Nat} {a b : List Nat} (h : Ordered ccc (a ++ b)) : Ordered ccc a := by
  intro p q x y e
  exact h p (q ++ b) x y (by rw [e]; simp)

theorem qc_no {f : Form} (last : Nat) (res : QC) (hres : res ≠ .No) (cs : List Nat)
    (h : quickCheckFrom T f last res cs = .No) : (∃ c ∈ cs, qcOf T f c = .No) ∨ ¬ ordFrom T.ccc last cs := by
  induction cs generalizing last res with
  | nil => exact absurd h hres
  | cons c cs ih =>
    rw [quickCheckFrom] at h
    rw [ordFrom]
    split at h
    · right; tauto
    · cases hq : qcOf T f c with
      | No => left; exact ⟨c, List.mem_cons_self, hq⟩
      | Yes =>
        rw [hq] at h
        rcases ih _ _ hres h with ⟨x, hx, hx'⟩ | h'
        · left; exact ⟨x, List.mem_cons_of_mem _ hx, hx'⟩
        · right; tauto
      | Maybe =>
        rw [hq] at h
        rcases ih _ _ (by simp) h with ⟨x, hx, hx'⟩ | h'
        · left; exact ⟨x, List.mem_cons_of_mem _ hx, hx'⟩
        · right; tauto

/-- **C31.** NFC/NFKC: the quick check never answers No for a text that normalization leaves unchanged, so
`is_normalized` has no false negatives (U+11A7 excepted). -/
theorem C31_composed_no (hT : Ranked T) (hJ : JamoOk T) (hC : CompOk T) (hQ : QcCOk T) (f : Form)
    (hf : f = .NFC ∨ f = .NFKC) (text : List Nat) (hn : 0x11A7 ∉ normalize T (decomposed f) text) :
    (quickCheck T f text = .No → normalize T f text ≠ text) ∧
    (normalize T f text = text → isNormalized T f text = true) := by
  have key : quickCheck T f text = .No → normalize T f text ≠ text := by
    intro hno he
    have hiff := C28_equivalent_iff_partial hT hJ hC f hf text hn
    have hmarks := hiff.1 (by rw [he])
    have hex := C28_exact (T := T) f hf text
    rw [he] at hex
    have hstart : ((groupsOf T f.k text).flatMap fun g => g.marks ++ [g.starter]) =
        (groupsOf T f.k text).map Group.starter := by
      rw [← List.flatMap_singleton' ((groupsOf T f.k text).map Group.starter), List.flatMap_map]
      refine List.flatMap_congr ?_
      intro g hg
      rw [hmarks g hg]; rfl
    rw [hstart] at hex
    have hfix := mem_order_fixed hT hJ f.k text
    rw [normalize_D (decomposed_D f), decomposed_k] at hn
    have hgs : ∀ g ∈ groupsOf T f.k text, OutOk T f.k g.starter := by
      unfold groupsOf composition
      have hed := List.takeWhile_append_dropWhile (p := fun c => T.ccc c != 0)
        (l := canonicalOrder T (text.flatMap (decompose T f.k)))
      cases h : (canonicalOrder T (text.flatMap (decompose T f.k))).dropWhile (fun c => T.ccc c != 0) with
      | nil => simp
      | cons s rest =>
        rw [h] at hed
        have h0 : T.ccc s = 0 := by simpa using dropWhile_head h
        have hmem : ∀ x ∈ s :: rest, x ∈ canonicalOrder T (text.flatMap (decompose T f.k)) := by
          intro x hx
          rw [← hed]
          exact List.mem_append_right _ hx
        have hsf := hfix s (hmem s List.mem_cons_self)
        refine composeGroups_out hT hQ rest ⟨s, []⟩ ⟨h0, ?_, .inl hsf⟩ ?_ ?_ ?_
        · simp only
          rw [hsf, fixed_canon hT hsf]
        · exact fun c hc => hfix c (hmem c (List.mem_cons_of_mem _ hc))
        · exact fun c hc => primary_pcOk hT hJ hC _ c (fun e => hn (e ▸ hmem c (List.mem_cons_of_mem _ hc)))
        · exact fun c hc => primary_pcOk hT hJ hC _ c (fun e => hn (e ▸ hmem c (List.mem_cons_of_mem _ hc)))
    obtain ⟨_, hlm, hld⟩ := composition_ok (T := T) (k := f.k) (pc := primary T)
      (canonicalOrder T (text.flatMap (decompose T f.k))) hfix
      (fun b hb => primary_pcOk hT hJ hC f.k b (fun e => hn (e ▸ hb)))
    have hlo : Ordered T.ccc (composition T.ccc (primary T) (canonicalOrder T (text.flatMap (decompose T f.k)))).1 := by
      have ho := canonicalOrder_ordered (T := T) (text.flatMap (decompose T f.k))
      unfold composition
      cases h : (canonicalOrder T (text.flatMap (decompose T f.k))).dropWhile (fun c => T.ccc c != 0) with
      | nil => exact ho
      | cons s rest =>
        have hed := List.takeWhile_append_dropWhile (p := fun c => T.ccc c != 0)
          (l := canonicalOrder T (text.flatMap (decompose T f.k)))
        rw [← hed] at ho
        exact Ordered.left ho
    rcases qc_no 0 .Yes (by simp) text hno with ⟨c, hc, hq⟩ | hord
    · have hcase : decompose T f.k c = [c] ∨ (decompose T f.k c = decompose T false c ∧ ∃ a b, T.ccc a = 0 ∧ primary T a b = some c) := by
        rw [hex, List.mem_append] at hc
        rcases hc with hc | hc
        · exact .inl (hfix c (hld c hc))
        · obtain ⟨g, hg, rfl⟩ := List.mem_map.1 hc
          have := hgs g hg
          rcases this.kind with h | h
          · exact .inl h
          · exact .inr ⟨this.canon, h⟩
      rcases hf with rfl | rfl
      · have hno : T.nfcNo c = true := by
          simp only [qcOf] at hq
          by_contra hx
          simp only [hx] at hq
          revert hq
          cases T.nfcMaybe c <;> simp
        obtain ⟨a, b⟩ := hQ.nfc c hno
        rcases hcase with h | ⟨_, x, y, h0, h⟩
        · exact a h
        · exact b x y h0 h
      · have hno : T.nfkcNo c = true := by
          simp only [qcOf] at hq
          by_contra hx
          simp only [hx] at hq
          revert hq
          cases T.nfkcMaybe c <;> simp
        obtain ⟨a, b⟩ := hQ.nfkc c hno
        rcases hcase with h | ⟨h', x, y, h0, h⟩
        · exact a h
        · rcases b with b | b
          · exact b x y h0 h
          · exact b h'
    · apply hord
      rw [ordFrom_iff]
      rw [hex]
      intro a b x y e hr
      have hy : T.ccc y ≠ 0 := by have := hr.2; omega
      have hx : T.ccc x ≠ 0 := by have := hr.1; omega
      have hS : ∀ s ∈ (groupsOf T f.k text).map Group.starter, T.ccc s = 0 := by
        intro s hs
        obtain ⟨g, hg, rfl⟩ := List.mem_map.1 hs
        exact (hgs g hg).ccc
      generalize (groupsOf T f.k text).map Group.starter = S at e hS
      rcases List.append_eq_append_iff.1 e with ⟨p, e1, e2⟩ | ⟨p, e1, e2⟩
      · exact hy (hS y (by rw [e2]; simp))
      · match p, e2 with
        | [], e2 => exact hx (hS x (by simp at e2; rw [← e2]; simp))
        | [u], e2 =>
          simp only [List.singleton_append, List.cons.injEq] at e2
          exact hy (hS y (by rw [← e2.2]; simp))
        | u :: v :: p, e2 =>
          simp only [List.cons_append, List.cons.injEq] at e2
          obtain ⟨rfl, rfl, _⟩ := e2
          exact hlo a p x y e1 hr
  refine ⟨key, ?_⟩
  intro he
  unfold isNormalized
  cases hq : quickCheck T f text with
  | Yes => rfl
  | No => exact absurd he (key hq)
  | Maybe => simpa using he

/-- **C31.** For NFC/NFKC `is_normalized` is exact whenever the quick check does not answer Yes (the wrong answers of
`C31_fails_nfc` are all quick-check Yes answers). -/
theorem C31_composed_exact_unless_yes (hT : Ranked T) (hJ : JamoOk T) (hC : CompOk T) (hQ : QcCOk T) (f : Form)
    (hf : f = .NFC ∨ f = .NFKC) (text : List Nat) (hn : 0x11A7 ∉ normalize T (decomposed f) text)
    (hy : quickCheck T f text ≠ .Yes) : isNormalized T f text = true ↔ normalize T f text = text := by
  refine ⟨fun h => ?_, (C31_composed_no hT hJ hC hQ f hf text hn).2⟩
  unfold isNormalized at h
  cases hq : quickCheck T f text with
  | Yes => exact absurd hq hy
  | No => rw [hq] at h; exact absurd h (by simp)
  | Maybe => rw [hq] at h; simpa using h

example : quickCheck toy .NFC [0x65, 0x301] ≠ .Yes ∧ 0x11A7 ∉ normalize toy (decomposed .NFC) [0x65, 0x301] ∧
    quickCheck toy .NFC [0x78, 0x301] = .Maybe ∧ quickCheck toy .NFC [0x958] = .No := by decide

/-! ### The hypotheses hold of the excerpt of the Unicode data -/

/-- The excerpt, for NFC. -/
theorem toy_boundary : BoundaryOk toy .NFC := by
  have nb : ∀ c ∈ [0x301, 0x307, 0x30A, 0x323, 0xF72], ¬ Boundary toy .NFC c := by
    intro c hc
    rw [← isBoundary_iff]
    revert c
    decide
  constructor
  · intro a b h _
    have hc : toy.comp a b = (compTab.lookup (a, b)).getD 0 := rfl
    cases hl : compTab.lookup (a, b) with
    | none => rw [hc, hl] at h; exact absurd rfl h
    | some v =>
      have hm := lookup_mem _ _ _ hl
      have : ∀ p ∈ compTab, p.1.2 ∈ [0x301, 0x307, 0x30A, 0x323, 0xF72] := by decide
      exact nb b (this _ hm)
  · intro c hc hb
    have h2 : toy.nfcMaybe c = false := hb.2.2
    have : toy.nfcMaybe c = true := by
      show (decide (c ∈ [0x301, 0x307, 0x30A, 0x323]) || isHangulV c || isHangulT c) = true
      rcases hc with hc | hc <;> simp [hc]
    rw [this] at h2
    exact absurd h2 (by simp)
  · intro c hc
    have h1 := (toy_jamo c (.inl hc)).2.2.1
    have hc' := (isHangulL_iff c).1 hc
    refine ⟨h1, ?_, ?_⟩
    · show decide (c ∈ [0x344, 0x958, 0xF73, 0x212B]) = false
      rw [decide_eq_false_iff_not]
      simp only [List.mem_cons, List.not_mem_nil, or_false]
      omega
    · show (decide (c ∈ [0x301, 0x307, 0x30A, 0x323]) || isHangulV c || isHangulT c) = false
      have a : isHangulV c = false := by
        rw [← Bool.not_eq_true, isHangulV_iff]; omega
      have b : isHangulT c = false := by
        rw [← Bool.not_eq_true, isHangulT_iff]; omega
      rw [a, b, Bool.or_false, Bool.or_false, decide_eq_false_iff_not]
      simp only [List.mem_cons, List.not_mem_nil, or_false]
      omega
  · intro c d ds _ hb hm
    have hm' : look canonTab [] c = d :: ds := by
      have : mapping toy false c = look canonTab [] c := by simp [mapping]; rfl
      rwa [show Form.NFC.k = false from rfl, this] at hm
    have hin : (c, d :: ds) ∈ canonTab := by
      rcases look_cases canonTab [] c with h | h
      · rw [h] at hm'; exact absurd hm' (by simp)
      · rwa [hm'] at h
    have key : ∀ p ∈ canonTab, isBoundary toy .NFC p.1 = true → ∀ d, p.2.head? = some d → isBoundary toy .NFC d = true := by
      intro p hp hb
      have : ∀ p ∈ canonTab, isBoundary toy .NFC p.1 = true → isBoundary toy .NFC (p.2.headD 0) = true := by decide
      have := this p hp hb
      intro d hd
      rw [List.headD_eq_head?_getD, hd] at this
      exact this
    rw [← isBoundary_iff] at hb ⊢
    exact key _ hin hb d rfl

example : ∀ c ∈ [0x65, 0x301, 0xAC00, 0x11A8, 0x212B, 0xF73], (decompose toy Form.NFC.k c).head? ≠ some 0x11A7 := by decide
example : Segments toy .NFC [0x65, 0x301, 0x62, 0xAC00, 0x11A8] [[0x65, 0x301], [0x62], [0xAC00, 0x11A8]] := by
  constructor
  · decide
  · decide
  · intro s hs c hc
    rw [← isBoundary_iff]
    revert s c
    decide
  · have : ∀ s ∈ [[0x62], [0xAC00, 0x11A8]], isBoundary toy .NFC (s.headD 0) = true := by decide
    intro s hs c hc
    have h := this s hs
    rw [List.headD_eq_head?_getD, hc] at h
    exact (isBoundary_iff _ _).1 h

theorem toy_qc : QcOk toy := by
  constructor
  · intro c
    rw [Ne, fixed_iff toy_ranked]
    show (isHangulSyllable c || decide (look canonTab [] c ≠ [])) = true ↔ _
    have : mapping toy false c = look canonTab [] c := by simp [mapping]; rfl
    rw [this, Bool.or_eq_true, decide_eq_true_iff]
    cases isHangulSyllable c <;> simp
  · intro c
    rw [Ne, fixed_iff toy_ranked]
    show (isHangulSyllable c || decide (look canonTab [] c ≠ []) || decide (look compatTab [] c ≠ [])) = true ↔ _
    have : mapping toy true c = if look canonTab [] c = [] then look compatTab [] c else look canonTab [] c := by
      simp [mapping]; rfl
    rw [this, Bool.or_eq_true, Bool.or_eq_true, decide_eq_true_iff, decide_eq_true_iff]
    by_cases h : look canonTab [] c = [] <;> cases isHangulSyllable c <;> simp [h]

/-- A primary composite is a Hangul syllable or listed in the composition table. -/
theorem primary_cases {T : Tables} {a b c : Nat} (h : primary T a b = some c) :
    isHangulSyllable c = true ∨ (T.comp a b = c ∧ c ≠ 0 ∧ T.excl c = false) := by
  unfold primary at h
  split at h
  · rename_i hne
    have e := Option.some.inj h
    have key : isHangulSyllable (tryCompose T a b) = true ∨ tryCompose T a b = T.comp a b := by
      unfold tryCompose
      split
      · rename_i hL
        split
        · rename_i hV
          left
          refine (isHangulSyllable_iff _).2 ?_
          have hL' : 4352 ≤ a ∧ a < 4371 := hL
          have hV' : 4449 ≤ b ∧ b < 4470 := hV
          show 44032 ≤ 44032 + ((a - 4352) * 21 + (b - 4449)) * 28 ∧ 44032 + ((a - 4352) * 21 + (b - 4449)) * 28 < 55204
          omega
        · exact .inr rfl
      · split
        · rename_i hS
          split
          · rename_i hM
            split
            · rename_i hTr
              left
              refine (isHangulSyllable_iff _).2 ?_
              have hS' : 44032 ≤ a ∧ a < 55204 := hS
              have hM' : (a - 44032) % 28 = 0 := hM
              have hT' : 4519 ≤ b ∧ b < 4547 := hTr
              show 44032 ≤ a + (b - 4519) ∧ a + (b - 4519) < 55204
              omega
            · exact .inr rfl
          · exact .inr rfl
        · exact .inr rfl
    rw [e] at key hne
    rcases key with key | key
    · exact .inl key
    · exact .inr ⟨key.symm, hne⟩
  · exact absurd h (by simp)

theorem toy_primary {a b c : Nat} (h0 : toy.ccc a = 0) (h : primary toy a b = some c) :
    isHangulSyllable c = true ∨ c ∈ [0xC5, 0xE9, 0x1E63, 0x1E9B, 0x1E69] := by
  rcases primary_cases h with h | ⟨hc, hne, _⟩
  · exact .inl h
  · right
    have hc' : (compTab.lookup (a, b)).getD 0 = c := hc
    cases hl : compTab.lookup (a, b) with
    | none => rw [hl] at hc'; exact absurd hc'.symm hne
    | some v =>
      rw [hl] at hc'
      have hm := lookup_mem _ _ _ hl
      have : ∀ p ∈ compTab, toy.ccc p.1.1 = 0 → p.2 ∈ [0xC5, 0xE9, 0x1E63, 0x1E9B, 0x1E69] := by decide
      have := this _ hm h0
      rwa [show v = c from hc'] at this

theorem toy_qcc : QcCOk toy := by
  have np : ∀ c ∈ [0x344, 0x958, 0xF73, 0x212B], ∀ a b, toy.ccc a = 0 → primary toy a b ≠ some c := by
    intro c hc a b h0 h
    have k1 : ∀ c ∈ [0x344, 0x958, 0xF73, 0x212B], isHangulSyllable c = false := by decide
    have k2 : ∀ c ∈ [0x344, 0x958, 0xF73, 0x212B], c ∉ [0xC5, 0xE9, 0x1E63, 0x1E9B, 0x1E69] := by decide
    rcases toy_primary h0 h with h | h
    · rw [k1 c hc] at h; exact absurd h (by simp)
    · exact k2 c hc h
  constructor
  · intro c h
    have h' : c ∈ [0x344, 0x958, 0xF73, 0x212B] := by simpa [toy] using h
    have : ∀ c ∈ [0x344, 0x958, 0xF73, 0x212B], decompose toy false c ≠ [c] := by decide
    exact ⟨this c h', np c h'⟩
  · intro c h
    have h' : c ∈ [0x344, 0x958, 0xF73, 0x212B] ++ [0x17F, 0x1E9B, 0xFB01] := by simpa [toy] using h
    have : ∀ c ∈ [0x344, 0x958, 0xF73, 0x212B] ++ [0x17F, 0x1E9B, 0xFB01], decompose toy true c ≠ [c] := by decide
    refine ⟨this c h', ?_⟩
    rcases List.mem_append.1 h' with h' | h'
    · exact .inl (np c h')
    · have : ∀ c ∈ [0x17F, 0x1E9B, 0xFB01], decompose toy true c ≠ decompose toy false c := by decide
      exact .inr (this c h')
  · intro a b h0 h
    have hc : toy.comp a b = (compTab.lookup (a, b)).getD 0 := rfl
    cases hl : compTab.lookup (a, b) with
    | none => rw [hc, hl] at h; exact absurd rfl h
    | some v =>
      rw [hc, hl]
      have hm := lookup_mem _ _ _ hl
      have : ∀ p ∈ compTab, toy.ccc p.1.1 = 0 → toy.ccc p.2 = 0 := by decide
      exact this _ hm h0
  · intro c hc
    have hc' := (isHangulSyllable_iff c).1 hc
    refine look_dflt _ _ _ ?_
    have : ∀ p ∈ cccTab, ¬ (44032 ≤ p.1 ∧ p.1 < 55204) := by decide
    intro p hp e
    exact this p hp (e ▸ hc')

example : quickCheck toy .NFD [0x73, 0x323, 0x307] = .Yes ∧ quickCheck toy .NFKD [0x17F] = .No ∧
    quickCheck toy .NFC [0x65, 0x301] = .Maybe ∧ isNormalized toy .NFC [0x65, 0x301] = false ∧
    isNormalized toy .NFC [0xE9, 0x1E69] = true := by decide

/-! ## C32 -/

/-- **C32.** Both equivalences are equivalence relations. -/
theorem C32_equivalence :
    (Equivalence fun a b => canonEquiv T a b = true) ∧ (Equivalence fun a b => compatEquiv T a b = true) := by
  constructor <;> constructor
  · intro a; simp [canonEquiv]
  · intro a b h; simp [canonEquiv] at *; exact h.symm
  · intro a b c h1 h2; simp [canonEquiv] at *; exact h1.trans h2
  · intro a; simp [compatEquiv]
  · intro a b h; simp [compatEquiv] at *; exact h.symm
  · intro a b c h1 h2; simp [compatEquiv] at *; exact h1.trans h2

/-- **C32.** Every text is equivalent to its NFD (NFKD), and NFD (NFKD) picks one representative per class. -/
theorem C32_representative (hT : Ranked T) (hJ : JamoOk T) (a b : List Nat) :
    canonEquiv T a (normalize T .NFD a) = true ∧ compatEquiv T a (normalize T .NFKD a) = true ∧
    (canonEquiv T a b = true ↔ normalize T .NFD a = normalize T .NFD b) := by
  refine ⟨?_, ?_, by simp [canonEquiv]⟩
  · simp [canonEquiv, C27_idempotent hT hJ .NFD (.inl rfl)]
  · simp [compatEquiv, C27_idempotent hT hJ .NFKD (.inr rfl)]

/-- **C32.** Equivalence is a congruence for concatenation. -/
theorem C32_congruence (hT : Ranked T) (hJ : JamoOk T) (a a' b b' : List Nat) :
    (canonEquiv T a a' = true → canonEquiv T b b' = true → canonEquiv T (a ++ b) (a' ++ b') = true) ∧
    (compatEquiv T a a' = true → compatEquiv T b b' = true → compatEquiv T (a ++ b) (a' ++ b') = true) := by
  constructor
  · intro h1 h2
    simp only [canonEquiv, decide_eq_true_eq] at *
    rw [C27_concat_congr hT hJ .NFD (.inl rfl) a b, h1, h2, ← C27_concat_congr hT hJ .NFD (.inl rfl)]
  · intro h1 h2
    simp only [compatEquiv, decide_eq_true_eq] at *
    rw [C27_concat_congr hT hJ .NFKD (.inr rfl) a b, h1, h2, ← C27_concat_congr hT hJ .NFKD (.inr rfl)]

theorem dec_true_reorders (hT : Ranked T) (hM : ∀ c, T.ccc c ≠ 0 → T.compat c = []) {s t : List Nat}
    (h : Reorders T.ccc s t) (hs : ∀ c ∈ s, decompose T false c = [c]) : OEq T (dec T true s) (dec T true t) := by
  induction h with
  | refl => exact OEq.refl _
  | tail h1 h2 ih =>
    refine ih.trans ?_
    have hb := fun c hc => hs c ((Reorders.perm h1).mem_iff.2 hc)
    cases h2 with
    | mk a b x y hr =>
      have fixK : ∀ z, T.ccc z ≠ 0 → decompose T false z = [z] → decompose T true z = [z] := by
        intro z hz hzf
        obtain ⟨z1, z2⟩ := (fixed_iff hT false z).1 hzf
        refine (fixed_iff hT true z).2 ⟨z1, ?_⟩
        have : T.canon z = [] := by simpa [mapping] using z2
        simp [mapping, this, hM z hz]
      have hx := fixK x (by have := hr.1; omega) (hb x (by simp))
      have hy := fixK y (by have := hr.2; omega) (hb y (by simp))
      simp only [dec_append, dec_cons, hx, hy]
      exact OEq.of_reorders (Relation.ReflTransGen.single (by simpa using Swap.mk (ccc := T.ccc) (dec T true a) (dec T true b) x y hr))

/-- **C32.** NFKD factors through NFD, so canonical equivalence implies compatibility equivalence (non-starters have no
compatibility mapping, as in the Unicode data). -/
theorem C32_canonical_imp_compat (hT : Ranked T) (hJ : JamoOk T) (hM : ∀ c, T.ccc c ≠ 0 → T.compat c = [])
    (a b : List Nat) :
    normalize T .NFKD (normalize T .NFD a) = normalize T .NFKD a ∧
    (canonEquiv T a b = true → compatEquiv T a b = true) := by
  have key : ∀ a, normalize T .NFKD (normalize T .NFD a) = normalize T .NFKD a := by
    intro a
    rw [normalize_D (.inr rfl), normalize_D (.inr rfl), normalize_D (.inl rfl)]
    have h1 := dec_true_reorders hT hM (canonicalOrder_reorders (T := T) (a.flatMap (decompose T false)))
      (mem_flatMap_fixed hT hJ false a)
    have h2 : dec T true (a.flatMap (decompose T false)) = a.flatMap (decompose T true) := by
      unfold dec
      rw [List.flatMap_assoc]
      exact List.flatMap_congr fun c _ => decompose_true_false hT hJ c
    have h3 : OEq T (dec T true (canonicalOrder T (a.flatMap (decompose T false)))) (a.flatMap (decompose T true)) := by
      rw [← h2]; exact h1.symm
    exact h3
  refine ⟨key a, ?_⟩
  intro h
  simp only [canonEquiv, compatEquiv, decide_eq_true_eq] at *
  rw [← key a, ← key b, h]

example : canonEquiv toy [0x1E69] [0x73, 0x307, 0x323] = true ∧ canonEquiv toy [0x1E9B] [0x1E69] = false ∧
    compatEquiv toy [0x1E9B, 0x323] [0x1E69] = true := by decide
example : ∀ c, toy.ccc c ≠ 0 → toy.compat c = [] := by
  intro c h
  rcases look_cases cccTab 0 c with h' | h'
  · exact absurd h' h
  · have : ∀ p ∈ cccTab, toy.compat p.1 = [] := by decide
    exact this _ h'

/-- **C32.** Equivalent texts have the same composed normalization form: canonically equivalent texts the same NFC,
compatibility equivalent texts the same NFKC. -/
theorem C32_same_composed (a b : List Nat) :
    (canonEquiv T a b = true → normalize T .NFC a = normalize T .NFC b) ∧
    (compatEquiv T a b = true → normalize T .NFKC a = normalize T .NFKC b) := by
  constructor
  · intro h
    simp only [canonEquiv, decide_eq_true_eq] at h
    show compose T (normalize T .NFD a) = compose T (normalize T .NFD b)
    rw [h]
  · intro h
    simp only [compatEquiv, decide_eq_true_eq] at h
    show compose T (normalize T .NFKD a) = compose T (normalize T .NFKD b)
    rw [h]

/-! ## C29 through the API -/

/-- **C29.** Texts of Hangul syllables are in NFC and survive NFD followed by NFC. -/
theorem C29_nfc_syllables (hT : Ranked T) (hJ : JamoOk T) (hS : ∀ c, isHangulSyllable c = true → T.excl c = false)
    (hL : ∀ a l, isHangulL l = true → T.comp a l = 0) (text : List Nat)
    (h : ∀ c ∈ text, 0xAC00 ≤ c ∧ c ≤ 0xD7A3) :
    normalize T .NFC text = text ∧ normalize T .NFC (normalize T .NFD text) = text := by
  have tryLV : ∀ l v, isHangulL l = true → isHangulV v = true →
      tryCompose T l v = SBase + ((l - LBase) * VCount + (v - VBase)) * TCount := by
    intro l v h1 h2
    have h1' : l ≥ LBase ∧ l < LBase + LCount := by simpa [isHangulL] using h1
    have h2' : v ≥ VBase ∧ v < VBase + VCount := by simpa [isHangulV] using h2
    rw [tryCompose, if_pos h1', if_pos h2']
  have single : ∀ c, 0xAC00 ≤ c ∧ c ≤ 0xD7A3 → normalize T .NFC [c] = [c] ∧ SafeStart T .NFC c := by
    intro c hc
    have hcs : isHangulSyllable c = true := (isHangulSyllable_iff c).2 (by omega)
    have hd : decompose T false c = hangulDecompose c := by rw [decompose_eq hT, if_pos hcs]
    obtain ⟨l, v, t, l1, l2, v1, v2, ht, e, _⟩ := C29_compose_decompose c hc
    have jl : isHangulL l = true := (isHangulL_iff l).2 (by omega)
    have jv : isHangulV v = true := (isHangulV_iff v).2 (by omega)
    obtain ⟨_, _, cl, _⟩ := hJ l (.inl jl)
    obtain ⟨_, _, cv, _⟩ := hJ v (.inr (.inl jv))
    have hsafe : ∀ a, primary T a l = none := by
      intro a
      have : tryCompose T a l = 0 := by
        have hlc := hL a l jl
        have n1 : ¬ (l ≥ VBase ∧ l < VBase + VCount) := by simp only [VBase, VCount]; omega
        have n2 : ¬ (l ≥ TBase ∧ l < TBase + TCount) := by simp only [TBase, TCount]; omega
        unfold tryCompose
        rw [if_neg n1, if_neg n2, hlc]
        simp
      simp [primary, this]
    rw [hangulDecompose_eq c hcs] at e
    have hLV : tryCompose T l v = 44032 + ((l - 4352) * 21 + (v - 4449)) * 28 := tryLV l v jl jv
    have sLV : isHangulSyllable (tryCompose T l v) = true := by
      rw [hLV, isHangulSyllable_iff]; omega
    have step1 : composeStep T ⟨[], l, 0⟩ v = ⟨[], tryCompose T l v, 0⟩ := by
      have : candidate T ⟨[], l, 0⟩ v = tryCompose T l v := by simp [candidate]
      rw [composeStep, this, if_pos ⟨by rw [hLV]; omega, hS _ sLV⟩]
    have comp1 : ∀ r, compose T (l :: v :: r) = (r.foldl (composeStep T) ⟨[], tryCompose T l v, 0⟩).result ++
        [(r.foldl (composeStep T) ⟨[], tryCompose T l v, 0⟩).starter] := by
      intro r
      simp [compose, cl, step1]
    refine ⟨?_, ?_⟩
    · show compose T (canonicalOrder T ([c].flatMap (decompose T false))) = [c]
      simp only [List.flatMap_cons, List.flatMap_nil, List.append_nil]
      rw [hd, hangulDecompose_eq c hcs, e]
      by_cases h0 : t = 0
      · rw [if_pos h0] at e ⊢
        rw [canonicalOrder_cons_starter cl, canonicalOrder_cons_starter cv]
        show compose T [l, v] = [c]
        rw [comp1]
        have : c = tryCompose T l v := by
          rw [hLV]
          split at e
          · have := congrArg List.length e; simp at this
          · have e1 := List.cons.inj e
            have e2 := List.cons.inj e1.2
            omega
        simp [← this]
      · rw [if_neg h0] at e ⊢
        have jt : isHangulT t = true := (isHangulT_iff t).2 (by omega)
        obtain ⟨_, _, ct, _⟩ := hJ t (.inr (.inr jt))
        rw [canonicalOrder_cons_starter cl, canonicalOrder_cons_starter cv, canonicalOrder_cons_starter ct]
        show compose T [l, v, t] = [c]
        rw [comp1]
        have hc' : tryCompose T (tryCompose T l v) t = c := by
          have n1 : ¬ (tryCompose T l v ≥ LBase ∧ tryCompose T l v < LBase + LCount) := by
            rw [hLV]; simp only [LBase, LCount]; omega
          have n2 : tryCompose T l v ≥ SBase ∧ tryCompose T l v < SBase + SCount :=
            (isHangulSyllable_iff _).1 sLV
          have n3 : (tryCompose T l v - SBase) % TCount = 0 := by
            rw [hLV]; simp only [SBase, TCount]; omega
          have n4 : t ≥ TBase ∧ t < TBase + TCount := by simp only [TBase, TCount]; omega
          conv_lhs => rw [tryCompose]
          rw [if_neg n1, if_pos n2, if_pos n3, if_pos n4, hLV]
          show 44032 + ((l - 4352) * 21 + (v - 4449)) * 28 + (t - 4519) = c
          split at e
          · have e1 := List.cons.inj e
            have e2 := List.cons.inj e1.2
            have e3 := List.cons.inj e2.2
            omega
          · have := congrArg List.length e; simp at this
        have step2 : composeStep T ⟨[], tryCompose T l v, 0⟩ t = ⟨[], c, 0⟩ := by
          have : candidate T ⟨[], tryCompose T l v, 0⟩ t = c := by simp [candidate, hc']
          rw [composeStep, this, if_pos ⟨by omega, hS _ hcs⟩]
        simp [step2]
    · refine ⟨l, if t = 0 then [v] else [v, t], ?_, cl, fun _ => hsafe⟩
      show decompose T false c = _
      rw [hd, hangulDecompose_eq c hcs, e]
      split <;> rfl
  have whole : normalize T .NFC text = text := by
    induction text with
    | nil => rfl
    | cons c cs ih =>
      have ih := ih fun x hx => h x (List.mem_cons_of_mem _ hx)
      cases cs with
      | nil => exact (single c (h c List.mem_cons_self)).1
      | cons d ds =>
        have := normalize_split (single d (h d (by simp))).2 [c] ds
        rw [List.singleton_append] at this
        rw [this, ih, (single c (h c List.mem_cons_self)).1]
        rfl
  refine ⟨whole, ?_⟩
  have : normalize T .NFC (normalize T .NFD text) = normalize T .NFC text := by
    obtain ⟨h1, h2⟩ := C27_output_form hT hJ .NFD (.inl rfl) text
    have e1 : (normalize T .NFD text).flatMap (decompose T false) = normalize T .NFD text := flatMap_fixed h1
    show compose T (canonicalOrder T ((normalize T .NFD text).flatMap (decompose T false))) = _
    rw [e1, canonicalOrder_of_ordered h2]
    rfl
  rw [this, whole]

example : normalize toy .NFC [0x1112, 0x1161, 0x11AB, 0x1100, 0x1173, 0x11AF] = [0xD55C, 0xAE00] := by decide

end Verif.Props.Norm
