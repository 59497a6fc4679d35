import Verif.Lemmas.Tables
/-!
# C36 – C38: table look-ups

`Sorted tab`: what the table writers produce (strictly ascending keys).  `Verif.Utf8.Mem.oob` is the outcome of an access outside
the table, so an equation `… = .ok r` also says that no such access happens.
-/

namespace Verif.Props.Tables
open Verif.Utf8 (Mem)
open Verif.Tables

/-- The keys are strictly ascending. -/
def Sorted {α : Type} (key : α → Nat) (tab : List α) : Prop := tab.Pairwise (fun x y => key x < key y)

/-! ## C36 -/

/-- **C36.** For every sorted table and every codepoint, the look-up returns the entry whose key is the codepoint, and
nothing if there is none. -/
theorem C36_lookup_exact {α : Type} (tab : List α) (key : α → Nat) (hs : Sorted key tab) (c : Nat) :
    ∃ r, lookupSorted tab key c = .ok r ∧ (∀ e, r = some e ↔ e ∈ tab ∧ key e = c)
      ∧ (r = none ↔ ∀ e ∈ tab, key e ≠ c) := by
  refine ⟨_, lookupSorted_spec tab key hs c, fun e => find?_key_unique tab key hs c e, ?_⟩
  rw [List.find?_eq_none]
  simp

/-- **C36.** `lookup_simple`: the mapping of the codepoint, or the codepoint itself. -/
theorem C36_simple (tab : List (Nat × Nat)) (hs : Sorted (·.1) tab) (c : Nat) :
    (∀ d, (c, d) ∈ tab → lookupSimple tab c = .ok d) ∧ ((∀ d, (c, d) ∉ tab) → lookupSimple tab c = .ok c) := by
  obtain ⟨r, hr, h1, h2⟩ := C36_lookup_exact tab (·.1) hs c
  unfold lookupSimple
  rw [hr]
  constructor
  · intro d hd; rw [(h1 (c, d)).2 ⟨hd, rfl⟩]
  · intro h; rw [h2.2 (fun e he hc => h e.2 (by subst hc; exact he))]

/-- **C36.** `lookup_full` and `find_decomposition`: the targets, or none. -/
theorem C36_list (tab : List (Nat × List Nat)) (hs : Sorted (·.1) tab) (c : Nat) :
    (∀ d, (c, d) ∈ tab → lookupList tab c = .ok d) ∧ ((∀ d, (c, d) ∉ tab) → lookupList tab c = .ok []) := by
  obtain ⟨r, hr, h1, h2⟩ := C36_lookup_exact tab (·.1) hs c
  unfold lookupList
  rw [hr]
  constructor
  · intro d hd; rw [(h1 (c, d)).2 ⟨hd, rfl⟩]
  · intro h; rw [h2.2 (fun e he hc => h e.2 (by subst hc; exact he))]

/-- **C36.** `lookup_ccc`: the combining class, 0 for codepoints that are not listed. -/
theorem C36_ccc (tab : List (Nat × Nat)) (hs : Sorted (·.1) tab) (c : Nat) :
    (∀ d, (c, d) ∈ tab → lookupCcc tab c = .ok d) ∧ ((∀ d, (c, d) ∉ tab) → lookupCcc tab c = .ok 0) := by
  obtain ⟨r, hr, h1, h2⟩ := C36_lookup_exact tab (·.1) hs c
  unfold lookupCcc
  rw [hr]
  constructor
  · intro d hd; rw [(h1 (c, d)).2 ⟨hd, rfl⟩]
  · intro h; rw [h2.2 (fun e he hc => h e.2 (by subst hc; exact he))]

/-- **C36.** `contains_codepoint` decides membership. -/
theorem C36_membership (tab : List Nat) (hs : Sorted id tab) (c : Nat) :
    containsCodepoint tab c = .ok (decide (c ∈ tab)) := by
  have hl := lookupSorted_spec tab id hs c
  unfold lookupSorted at hl
  unfold containsCodepoint
  simp only [id] at hl
  obtain ⟨p, hp, -, hple⟩ := lowerBoundLoop_total tab (fun e => decide (e < c)) 0 tab.length (by omega)
  have hlb : lowerBound tab (fun e => decide (e < c)) = .ok p := hp
  rw [hlb] at hl ⊢
  dsimp only at hl ⊢
  have hmem : c ∈ tab ↔ tab.find? (fun e => e = c) = some c := by
    rw [show (fun e : Nat => decide (e = c)) = (fun e => decide (id e = c)) from rfl, find?_key_unique tab id hs c c]
    simp
  by_cases hpl : p = tab.length
  · rw [if_pos hpl] at hl ⊢
    have : tab.find? (fun e => e = c) = none := by injection hl with h; exact h.symm
    rw [this] at hmem
    simp [hmem]
  · rw [if_neg hpl] at hl ⊢
    rw [at?_of_lt tab p (by omega)] at hl ⊢
    dsimp only at hl ⊢
    -- the element at the lower bound is not smaller than c
    have hge : ¬ tab[p]'(by omega) < c := by
      intro hlt
      -- lower_bound returned p, and the element at p is smaller: contradiction with the search
      have hget := List.pairwise_iff_getElem.1 hs
      have hall : ∀ k, k ≤ tab.length → (∀ (i : Nat) (h : i < tab.length), i < k → tab[i] < c) →
          (∀ (i : Nat) (h : i < tab.length), k ≤ i → ¬ tab[i] < c) → p = k := by
        intro k hk h1 h2
        have := lowerBoundLoop_spec tab (fun e => decide (e < c)) k hk (fun i h hi => decide_eq_true (h1 i h hi))
          (fun i h hi => decide_eq_false (h2 i h hi)) 0 tab.length (by omega) (by omega) (by omega)
        rw [hp] at this
        injection this
      -- take the number of elements smaller than c
      have hex : ∃ k, k ≤ tab.length ∧ (∀ (i : Nat) (h : i < tab.length), i < k → tab[i] < c) ∧
          (∀ (i : Nat) (h : i < tab.length), k ≤ i → ¬ tab[i] < c) := by
        by_contra hno
        have : ∀ n, n ≤ tab.length → ∀ (i : Nat) (h : i < tab.length), i < n → tab[i] < c := by
          intro n
          induction n with
          | zero => intro _ i h hi; omega
          | succ n ih =>
            intro hn i h hi
            by_cases hin : i < n
            · exact ih (by omega) i h hin
            · have hin' : i = n := by omega
              subst hin'
              by_contra hc
              refine hno ⟨i, by omega, ih (by omega), ?_⟩
              intro j hj hij hjc
              rcases Nat.lt_or_eq_of_le hij with h' | h'
              · have := hget i j h hj h'
                simp only [id] at this
                omega
              · subst h'; exact hc hjc
        refine hno ⟨tab.length, Nat.le_refl _, this _ (Nat.le_refl _), fun i h hi => by omega⟩
      obtain ⟨k, hk, h1, h2⟩ := hex
      have := hall k hk h1 h2
      subst this
      exact h2 p (by omega) (Nat.le_refl _) hlt
    by_cases hc : tab[p]'(by omega) = c
    · have : c ∈ tab := by rw [← hc]; exact List.getElem_mem _
      simp [this, hc]
    · rw [if_neg hc] at hl
      have : tab.find? (fun e => e = c) = none := by injection hl with h; exact h.symm
      rw [this] at hmem
      have hn : c ∉ tab := by simp [hmem]
      simp only [hn, decide_false]
      congr 1
      simp; omega

/-- **C36.** The composition search: for a table sorted by (first, second), the composite of the pair, or 0. -/
theorem C36_compose (tab : List Comp) (hs : tab.Pairwise (fun x y => x.first < y.first ∨ (x.first = y.first ∧ x.second < y.second)))
    (a b : Nat) :
    (∀ d, ⟨a, b, d⟩ ∈ tab → composeLookup tab a b = .ok d)
    ∧ ((∀ d, ⟨a, b, d⟩ ∉ tab) → composeLookup tab a b = .ok 0) := by
  obtain ⟨r, hr, h⟩ := composeLoop_spec tab hs a b 0 tab.length (by omega) (by omega) (fun j _ h => by omega)
    (fun j h h' => by omega)
  unfold composeLookup
  rw [hr]
  constructor
  · intro d hd
    rcases h with ⟨m, hm, h1, h2, h3⟩ | ⟨h1, h2⟩
    · have : m = ⟨a, b, d⟩ := by
        obtain ⟨i, hi, rfl⟩ := List.getElem_of_mem hm
        obtain ⟨j, hj, hj'⟩ := List.getElem_of_mem hd
        have hget := List.pairwise_iff_getElem.1 hs
        rcases Nat.lt_trichotomy i j with h | h | h
        · have := hget i j hi hj h; rw [hj'] at this; simp only at this; omega
        · subst h; exact hj'
        · have := hget j i hj hi h; rw [hj'] at this; simp only at this; omega
      rw [h3, this]
    · exact absurd ⟨rfl, rfl⟩ (h2 _ hd)
  · intro hn
    rcases h with ⟨m, hm, h1, h2, h3⟩ | ⟨h1, h2⟩
    · exact absurd (show (⟨a, b, m.composed⟩ : Comp) ∈ tab by rw [← h1, ← h2]; exact hm) (hn _)
    · rw [h1]

/-- **C36.** Even for unsorted tables no look-up leaves the table. -/
theorem C36_memory_safe {α : Type} (tab : List α) (key : α → Nat) (c : Nat) :
    lookupSorted tab key c ≠ .oob := by
  obtain ⟨p, hp, -, hple⟩ := lowerBoundLoop_total tab (fun e => decide (key e < c)) 0 tab.length (by omega)
  unfold lookupSorted lowerBound
  rw [hp]
  dsimp only
  by_cases hpl : p = tab.length
  · rw [if_pos hpl]; simp
  · rw [if_neg hpl, at?_of_lt tab p (by omega)]
    dsimp only
    split <;> simp

/-- Sortedness cannot be dropped: in this table the entry for 1 is not found. -/
theorem C36_needs_sorted : lookupSimple [(5, 50), (1, 10), (2, 20)] 5 = .ok 5 := by
  unfold lookupSimple lookupSorted lowerBound
  simp [lowerBoundLoop, at?]

example : Sorted (·.1) [(0x61, 0x41), (0xE9, 0xC9), (0x101, 0x100)] := by unfold Sorted; decide
example : lookupSimple [(0x61, 0x41), (0xE9, 0xC9), (0x101, 0x100)] 0xE9 = .ok 0xC9 :=
  (C36_simple _ (by unfold Sorted; decide) _).1 _ (by decide)
example : composeLookup [⟨0x41, 0x300, 0xC0⟩, ⟨0x41, 0x301, 0xC1⟩, ⟨0x45, 0x300, 0xC8⟩] 0x41 0x301 = .ok 0xC1 :=
  (C36_compose _ (by decide) _ _).1 _ (by decide)

/-! ## C37 -/

/-- Sorted, disjoint, non-empty intervals. -/
structure Intervals {α : Type} (tab : List (Entry α)) : Prop where
  ordered : tab.Pairwise (fun x y => x.hi < y.lo)
  valid : ∀ x ∈ tab, x.lo ≤ x.hi

/-- **C37.** `contains` holds exactly for the codepoints inside one of the intervals, for every non-empty table of
sorted disjoint intervals. -/
theorem C37_contains {α : Type} (tab : List (Entry α)) (h : Intervals tab) (hne : tab ≠ []) (hlen : tab.length < 2 ^ 64)
    (c : Nat) : ∃ r, contains tab c = .ok r ∧ (r = true ↔ ∃ x ∈ tab, x.lo ≤ c ∧ c ≤ x.hi) := by
  have hpos : 0 < tab.length := List.length_pos_iff.2 hne
  unfold contains
  rw [lastIndex_of_pos _ hpos hlen]
  exact containsLoop_spec tab h.ordered h.valid c 0 (tab.length - 1) hpos (by omega) (fun j _ hj => by omega)
    (fun j hj hj' => by omega)

/-- **C37.** `search` returns the value of the interval that covers the codepoint, and nothing if none does. -/
theorem C37_search {α : Type} (tab : List (Entry α)) (h : Intervals tab) (hne : tab ≠ []) (hlen : tab.length < 2 ^ 64)
    (c : Nat) : ∃ r, search tab c = .ok r ∧ (∀ v, r = some v ↔ ∃ x ∈ tab, x.lo ≤ c ∧ c ≤ x.hi ∧ x.val = v)
      ∧ (r = none ↔ ∀ x ∈ tab, ¬ (x.lo ≤ c ∧ c ≤ x.hi)) := by
  have hpos : 0 < tab.length := List.length_pos_iff.2 hne
  obtain ⟨r, hr, hcase⟩ := searchLoop_spec tab h.ordered h.valid c 0 (tab.length - 1) hpos (by omega)
    (fun j _ hj => by omega) (fun j hj hj' => by omega)
  refine ⟨r, by unfold search; rw [lastIndex_of_pos _ hpos hlen]; exact hr, ?_, ?_⟩
  · intro v
    rcases hcase with ⟨m, hm, hc, rfl⟩ | ⟨rfl, hno⟩
    · constructor
      · intro hv; exact ⟨m, hm, hc.1, hc.2, by injection hv⟩
      · rintro ⟨x, hx, h1, h2, rfl⟩
        have : m = x := by
          obtain ⟨i, hi, rfl⟩ := List.getElem_of_mem hm
          obtain ⟨j, hj, rfl⟩ := List.getElem_of_mem hx
          have hget := List.pairwise_iff_getElem.1 h.ordered
          unfold Entry.Covers at hc
          rcases Nat.lt_trichotomy i j with h' | h' | h'
          · have := hget i j hi hj h'; omega
          · subst h'; rfl
          · have := hget j i hj hi h'; omega
        rw [this]
    · constructor
      · intro hv; exact absurd hv (by simp)
      · rintro ⟨x, hx, h1, h2, -⟩; exact absurd ⟨h1, h2⟩ (hno x hx)
  · rcases hcase with ⟨m, hm, hc, rfl⟩ | ⟨rfl, hno⟩
    · simp only [reduceCtorEq, false_iff]
      intro hno; exact hno m hm hc
    · exact ⟨fun _ => hno, fun _ => rfl⟩

/-- **C37.** An empty table must not be searched: the index of the last interval wraps around and the first access is out
of bounds. -/
theorem C37_empty_oob {α : Type} (c : Nat) : contains ([] : List (Entry α)) c = .oob ∧ search ([] : List (Entry α)) c = .oob := by
  constructor
  · unfold contains containsLoop
    rw [dif_pos (show 0 < lastIndex ([] : List (Entry α)).length from (by decide : 0 < lastIndex 0))]
    simp [at?]
  · unfold search searchLoop
    rw [dif_pos (show 0 < lastIndex ([] : List (Entry α)).length from (by decide : 0 < lastIndex 0))]
    simp [at?]

/-- **C37.** For a non-empty table neither function reads outside it, sorted or not. -/
theorem C37_memory_safe {α : Type} (tab : List (Entry α)) (hne : tab ≠ []) (hlen : tab.length < 2 ^ 64) (c : Nat) :
    contains tab c ≠ .oob ∧ search tab c ≠ .oob := by
  have hpos : 0 < tab.length := List.length_pos_iff.2 hne
  have hC : ∀ n a b, b - a = n → a < tab.length → b < tab.length → containsLoop tab c a b ≠ .oob := by
    intro n
    induction n using Nat.strongRecOn with
    | ind n ih =>
      intro a b hn ha hb
      unfold containsLoop
      by_cases h : a < b
      · rw [dif_pos h, at?_of_lt tab _ (by omega)]
        dsimp only
        split
        · exact ih _ (by omega) _ _ rfl (by omega) hb
        · split
          · split
            · simp
            · exact ih _ (by omega) _ _ rfl ha (by omega)
          · simp
      · rw [dif_neg h]
        split
        · rw [at?_of_lt tab _ ha]; simp
        · simp
  have hS : ∀ n a b, b - a = n → a < tab.length → b < tab.length → searchLoop tab c a b ≠ .oob := by
    intro n
    induction n using Nat.strongRecOn with
    | ind n ih =>
      intro a b hn ha hb
      unfold searchLoop
      by_cases h : a < b
      · rw [dif_pos h, at?_of_lt tab _ (by omega)]
        dsimp only
        split
        · split
          · simp
          · exact ih _ (by omega) _ _ rfl (by omega) hb
        · split
          · split
            · simp
            · exact ih _ (by omega) _ _ rfl ha (by omega)
          · simp
      · rw [dif_neg h]
        split
        · rw [at?_of_lt tab _ ha]
          dsimp only
          split <;> simp
        · simp
  unfold contains search
  rw [lastIndex_of_pos _ hpos hlen]
  exact ⟨hC _ _ _ rfl hpos (by omega), hS _ _ _ rfl hpos (by omega)⟩

/-- A table meeting the hypotheses: two gaps, three intervals. -/
def sampleIntervals : List (Entry Nat) := [⟨0x41, 0x5A, 1⟩, ⟨0x61, 0x7A, 1⟩, ⟨0x370, 0x3FF, 2⟩]

theorem sample_ok : Intervals sampleIntervals :=
  ⟨by unfold sampleIntervals; decide, by unfold sampleIntervals; decide⟩

example : ∃ r, search sampleIntervals 0x3B1 = .ok r ∧ r = some 2 := by
  obtain ⟨r, h, h1, -⟩ := C37_search sampleIntervals sample_ok (by unfold sampleIntervals; decide) (by unfold sampleIntervals; decide) 0x3B1
  exact ⟨r, h, (h1 2).2 ⟨_, by unfold sampleIntervals; exact List.mem_cons_of_mem _ (List.mem_cons_of_mem _ (List.mem_cons_self ..)), by decide, by decide, rfl⟩⟩

/-! ## C38 -/

variable {α : Type} [DecidableEq α]

/-- **C38.** For every input whose length is a multiple of the block size, every hash function, and provided the input has
at most as many different blocks as a stage-1 element has values and at most as many different values as a stage-2 element
has, the generated table returns the input value at every index up to `MaxValue`. -/
theorem C38_exact (S : Shape) (hash : List α → Nat) (input : List α) (n : Nat) (hB : 0 < S.B)
    (hlen : input.length = n * S.B)
    (blocks : List (List α)) (hblocks : blocks.length ≤ S.w1)
    (hcover : ∀ j < n, (input.drop (j * S.B)).take S.B ∈ blocks)
    (values : List α) (hvalues : values.length ≤ S.w2) (hvcover : ∀ v ∈ input, v ∈ values) :
    ∃ g, generate S hash input = .ok g ∧
      ∀ (i : Nat) (h : i < input.length), i ≤ S.max → get S g i = .ok input[i] := by
  have hw2 : input.dedup.length ≤ S.w2 := by
    have := nodup_length_le input.dedup values (List.nodup_dedup _) (fun v hv => hvcover v (List.mem_dedup.1 hv))
    omega
  obtain ⟨g, hg, hok⟩ := generateLoop_spec S hash input hB hw2 blocks hblocks n hlen hcover n 0 (by omega) {}
    ⟨⟨by simp, by simp, by simp, by simp⟩, rfl, by simp, by simp, by simp, fun j hj => by omega⟩
  refine ⟨g, by unfold generate; rw [hlen, Nat.mul_div_cancel _ hB]; exact hg, ?_⟩
  intro i hi hmax
  unfold Verif.Tables.get
  rw [if_pos hmax]
  have hj : i / S.B < n := by rw [Nat.div_lt_iff_lt_mul hB, ← hlen]; exact hi
  obtain ⟨p, hp, hpo⟩ := hok.reads (i / S.B) hj
  obtain ⟨q, hq, hq'⟩ := hpo (i % S.B) (Nat.mod_lt _ hB)
  unfold unsafeGet
  rw [(at?_some _ _ _).2 hp]
  dsimp only
  rw [(at?_some _ _ _).2 hq]
  dsimp only
  rw [at?_some, hq', Nat.div_add_mod', List.getElem?_eq_getElem hi]

/-- **C38.** Codepoints beyond `MaxValue` get the properties of U+0000. -/
theorem C38_fallback (S : Shape) (g : Gen α) (i : Nat) (h : S.max < i) : get S g i = get S g 0 := by
  unfold Verif.Tables.get
  rw [if_neg (by omega), if_pos (Nat.zero_le _)]

/-- **C38**, instance for the properties table of the library: 0x110000 codepoints, at most 256 different blocks of 256
codepoints, at most 65536 different property values.  Every Unicode codepoint gets its own properties back. -/
theorem C38_properties (hash : List α → Nat) (input : List α) (hlen : input.length = 0x110000)
    (blocks : List (List α)) (hblocks : blocks.length ≤ 256)
    (hcover : ∀ j < 0x1100, (input.drop (j * 256)).take 256 ∈ blocks)
    (values : List α) (hvalues : values.length ≤ 65536) (hvcover : ∀ v ∈ input, v ∈ values) :
    ∃ g, generate propertiesShape hash input = .ok g ∧
      ∀ (c : Nat) (h : c ≤ 0x10FFFF), get propertiesShape g c = .ok (input[c]'(by omega)) := by
  obtain ⟨g, hg, h⟩ := C38_exact propertiesShape hash input 0x1100 (by decide) hlen blocks hblocks hcover values hvalues hvcover
  exact ⟨g, hg, fun c hc => h c (by omega) hc⟩

/-- A small shape, for examples: 2-bit stage 1, 3-bit stage 2, blocks of 2. -/
def small : Shape := ⟨4, 8, 2, 9⟩

example : ∃ g, generate small (fun _ => 0) [7, 7, 7, 8, 7, 7, 9, 9, 7, 8] = .ok g ∧ get small g 6 = .ok 9 := by
  obtain ⟨g, hg, h⟩ := C38_exact small (fun _ => 0) [7, 7, 7, 8, 7, 7, 9, 9, 7, 8] 5 (by decide) rfl
    [[7, 7], [7, 8], [9, 9]] (by decide) (by decide) [7, 8, 9] (by decide) (by decide)
  exact ⟨g, hg, h 6 (by decide) (by decide)⟩

/-- **C38 fails** with the element types of `codepoint_properties` (8-bit stage 1, 16-bit stage 2): 257 different blocks
(here of one element, to keep the witness small) pass all checks of the generator and element 256 reads back as element 0. -/
theorem C38_fails_257_blocks :
    ∃ g, generate (⟨256, 65536, 1, 0x10FFFF⟩ : Shape) (fun _ => 0) (List.range 257) = .ok g ∧
      get (⟨256, 65536, 1, 0x10FFFF⟩ : Shape) g 256 = .ok 0 := by
  have h : (match generate (⟨256, 65536, 1, 0x10FFFF⟩ : Shape) (fun _ => 0) (List.range 257) with
      | .ok g => decide (get (⟨256, 65536, 1, 0x10FFFF⟩ : Shape) g 256 = .ok 0)
      | .oob => false) = true := by decide +kernel
  split at h
  · rename_i g hg
    exact ⟨g, hg, of_decide_eq_true h⟩
  · exact absurd h (by decide)

/-- **C38 fails** without the bound on the number of blocks: the index of a new block is truncated to
`Stage1ElementType` and the generator's only check is against `Stage2ElementType`.  With five different blocks and a
two-bit stage 1 the last block reads back as the first. -/
theorem C38_fails_truncation :
    ∃ g, generate (⟨4, 8, 1, 4⟩ : Shape) (fun _ => 0) [10, 11, 12, 13, 14] = .ok g ∧
      get (⟨4, 8, 1, 4⟩ : Shape) g 4 = .ok 10 := ⟨_, rfl, rfl⟩

end Verif.Props.Tables
