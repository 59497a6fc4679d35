import Verif.Model.TgNames
import Verif.Props.TgApi3
import Mathlib.Data.List.Pairwise
/-!
# C53, continued: `codepoint_properties::name`
-/

namespace Verif.Tables
open Verif.Utf8 (Mem)
variable {α : Type} [DecidableEq α]

/-- Comparing by value is one of the representations. -/
theorem generateBy_value (S : Shape) (hash : List α → Nat) (input : List α) :
    generateBy S (fun a b => decide (block S input a = block S input b)) (fun s => hash (block S input s)) input
      = generate S hash input := by
  unfold generateBy generate
  generalize input.length / S.B = n
  generalize ({} : Gen α) = g
  induction n generalizing g with
  | zero => rfl
  | succ n ih =>
    rw [generateLoopBy, generateLoop]
    have : blockIndexBy S (fun a b => decide (block S input a = block S input b)) (fun s => hash (block S input s)) input g
        (g.stage1.length * S.B) = blockIndex S hash input g (g.stage1.length * S.B) := rfl
    rw [this]
    cases blockIndex S hash input g (g.stage1.length * S.B) with
    | oob => rfl
    | ok r => exact ih _

/-- Block `j` of the input is stored as block `t` of stage 2, and stage 1 has `t` truncated. -/
def ReadsAt (S : Shape) (input : List α) (g : Gen α) (j t : Nat) : Prop :=
  g.stage1[j]? = some (t % S.w1) ∧ ∀ o < S.B, ∃ q, g.stage2[t * S.B + o]? = some q ∧ g.stage3[q]? = input[j * S.B + o]?

structure GenByOk (S : Shape) (never : Prop) (input : List α) (k : Nat) (g : Gen α) : Prop where
  ix : IndexOk input.dedup g
  len1 : g.stage1.length = k
  len2 : g.stage2.length = g.seen.length * S.B
  starts : ∀ s ∈ g.seen, ∃ j < k, s = j * S.B
  seen_le : g.seen.length ≤ k
  seen_eq : never → g.seen.length = k
  reads : ∀ j < k, ∃ t ≤ j, ReadsAt S input g j t ∧ (never → t = j)

theorem genByStep (S : Shape) (same : Nat → Nat → Bool) (hash : Nat → Nat) (input : List α) (hB : 0 < S.B)
    (hw2 : input.dedup.length ≤ S.w2) (n : Nat) (hn : input.length = n * S.B)
    (hsame : ∀ i j, i < j → j < n → same (i * S.B) (j * S.B) = true → block S input (i * S.B) = block S input (j * S.B))
    (never : Prop) (hnever : never → ∀ i j, i < j → j < n → same (i * S.B) (j * S.B) = false)
    (k : Nat) (hk : k < n) (g : Gen α) (hg : GenByOk S never input k g) :
    ∃ g' i, blockIndexBy S same hash input g (k * S.B) = .ok (g', i)
      ∧ GenByOk S never input (k + 1) { g' with stage1 := g'.stage1 ++ [i] } := by
  unfold blockIndexBy
  cases hf : findSameBy S same hash g (k * S.B) with
  | some other =>
    dsimp only
    unfold findSameBy at hf
    rw [Option.map_eq_some_iff] at hf
    obtain ⟨s, hs, rfl⟩ := hf
    have hsm := (List.mem_filter.1 (List.mem_of_find?_eq_some hs)).1
    have hss : same s (k * S.B) = true := by simpa using List.find?_some hs
    obtain ⟨j, hj, rfl⟩ := hg.starts s hsm
    have hsb := hsame j k hj hk hss
    rw [Nat.mul_div_cancel _ hB]
    obtain ⟨t, ht, ⟨hp, hpo⟩, htn⟩ := hg.reads j hj
    rw [(at?_some g.stage1 j _).2 hp]
    have hnn : ¬ never := fun h => by rw [hnever h j k hj hk] at hss; exact absurd hss (by decide)
    refine ⟨g, _, rfl, ⟨⟨hg.ix.nodup, hg.ix.sub, hg.ix.fwd, hg.ix.bwd⟩, by simp [hg.len1], hg.len2, ?_, ?_, fun h => absurd h hnn, ?_⟩⟩
    · intro s hs; obtain ⟨j, hj, h⟩ := hg.starts s hs; exact ⟨j, by omega, h⟩
    · have := hg.seen_le; show g.seen.length ≤ k + 1; omega
    · intro j' hj'
      by_cases hjk : j' < k
      · obtain ⟨t', ht', ⟨hp', h⟩, hn'⟩ := hg.reads j' hjk
        exact ⟨t', ht', ⟨by show (g.stage1 ++ [t % S.w1])[j']? = _; rw [List.getElem?_append_left (by rw [hg.len1]; exact hjk)]; exact hp', h⟩, hn'⟩
      · have : j' = k := by omega
        subst this
        refine ⟨t, by omega, ⟨by show (g.stage1 ++ [t % S.w1])[j']? = _; rw [List.getElem?_append_right (by rw [hg.len1]; omega)]; simp [hg.len1], ?_⟩, fun h => absurd h hnn⟩
        intro o ho
        obtain ⟨q, hq, hq'⟩ := hpo o ho
        refine ⟨q, hq, ?_⟩
        show g.stage3[q]? = _
        rw [hq', ← block_getElem? S input _ o ho, hsb, block_getElem? S input _ o ho]
  | none =>
    dsimp only
    unfold newBlock
    have hblk : ∀ v ∈ block S input (k * S.B), v ∈ input.dedup := by
      intro v hv
      rw [List.mem_dedup]
      exact List.mem_of_mem_drop (List.mem_of_mem_take hv)
    have hblen : (block S input (k * S.B)).length = S.B := by
      unfold block
      rw [List.length_take, List.length_drop, hn]
      have : (k + 1) * S.B ≤ n * S.B := Nat.mul_le_mul_right _ hk
      rw [Nat.add_mul] at this
      omega
    have hidx : g.stage2.length / S.B = g.seen.length := by
      rw [hg.len2, Nat.mul_div_cancel _ hB]
    rw [hidx]
    obtain ⟨h1, h2, h3, ⟨ext, h4⟩, qs, h5, h6, h7⟩ := pushBlock_spec S input.dedup hw2 (block S input (k * S.B)) hblk
      { g with seen := g.seen ++ [k * S.B] } ⟨hg.ix.nodup, hg.ix.sub, hg.ix.fwd, hg.ix.bwd⟩
    generalize hG : pushBlock S { g with seen := g.seen ++ [k * S.B] } (block S input (k * S.B)) = G at *
    refine ⟨G, _, rfl, ⟨⟨h1.nodup, h1.sub, h1.fwd, h1.bwd⟩, by simp [h2, hg.len1], ?_, ?_, ?_, ?_, ?_⟩⟩
    · show G.stage2.length = G.seen.length * S.B
      rw [h5, h3, List.length_append, h6, hblen]
      show g.stage2.length + S.B = (g.seen ++ [k * S.B]).length * S.B
      rw [hg.len2, List.length_append, Nat.add_mul]
      simp
    · show ∀ s ∈ G.seen, _
      rw [h3]
      intro s hs
      rw [List.mem_append, List.mem_singleton] at hs
      rcases hs with hs | rfl
      · obtain ⟨j, hj, h⟩ := hg.starts s hs; exact ⟨j, by omega, h⟩
      · exact ⟨k, by omega, rfl⟩
    · show G.seen.length ≤ k + 1
      rw [h3]; have := hg.seen_le; simp; omega
    · intro h
      show G.seen.length = k + 1
      rw [h3]; have := hg.seen_eq h; simp; omega
    · intro j hj
      by_cases hjk : j < k
      · obtain ⟨t, ht, ⟨hp, h⟩, hn'⟩ := hg.reads j hjk
        refine ⟨t, ht, ⟨?_, ?_⟩, hn'⟩
        · show (G.stage1 ++ _)[j]? = _
          rw [h2, List.getElem?_append_left (by show j < g.stage1.length; rw [hg.len1]; exact hjk)]; exact hp
        · intro o ho
          obtain ⟨q, hq, hq'⟩ := h o ho
          refine ⟨q, ?_, ?_⟩
          · show G.stage2[_]? = _
            rw [h5]
            obtain ⟨hi, _⟩ := List.getElem?_eq_some_iff.1 hq
            rw [List.getElem?_append_left hi]; exact hq
          · show G.stage3[q]? = _
            have hlt : j * S.B + o < input.length := by
              rw [hn]
              have : (j + 1) * S.B ≤ n * S.B := Nat.mul_le_mul_right _ (by omega)
              rw [Nat.add_mul] at this; omega
            rw [List.getElem?_eq_getElem hlt] at hq' ⊢
            obtain ⟨hi, _⟩ := List.getElem?_eq_some_iff.1 hq'
            rw [h4, List.getElem?_append_left hi]; exact hq'
      · have : j = k := by omega
        subst this
        refine ⟨g.seen.length, hg.seen_le, ⟨?_, ?_⟩, hg.seen_eq⟩
        · show (G.stage1 ++ _)[j]? = _
          rw [h2]
          show (g.stage1 ++ _)[j]? = _
          rw [List.getElem?_append_right (by rw [hg.len1]; omega)]; simp [hg.len1]
        · intro o ho
          obtain ⟨q, hq, hq'⟩ := h7 o (by rw [hblen]; exact ho)
          refine ⟨q, ?_, ?_⟩
          · show G.stage2[_]? = _
            rw [h5]
            show (g.stage2 ++ qs)[_]? = _
            rw [List.getElem?_append_right (by rw [hg.len2]; omega), hg.len2, Nat.add_sub_cancel_left]; exact hq
          · show G.stage3[q]? = _
            rw [hq', block_getElem? S input _ o ho]

theorem generateBy_spec (S : Shape) (same : Nat → Nat → Bool) (hash : Nat → Nat) (input : List α) (hB : 0 < S.B)
    (hw2 : input.dedup.length ≤ S.w2) (n : Nat) (hn : input.length = n * S.B)
    (hsame : ∀ i j, i < j → j < n → same (i * S.B) (j * S.B) = true → block S input (i * S.B) = block S input (j * S.B))
    (never : Prop) (hnever : never → ∀ i j, i < j → j < n → same (i * S.B) (j * S.B) = false) :
    ∃ g, generateBy S same hash input = .ok g ∧ GenByOk S never input n g := by
  unfold generateBy
  rw [hn, Nat.mul_div_cancel _ hB]
  suffices hh : ∀ m k (g : Gen α), k + m = n → GenByOk S never input k g →
      ∃ g', generateLoopBy S same hash input m g = .ok g' ∧ GenByOk S never input n g' from
    hh n 0 {} (by omega) ⟨⟨by simp, by simp, by simp, by simp⟩, rfl, by simp, by simp, by simp, fun _ => rfl, fun j hj => by omega⟩
  intro m
  induction m with
  | zero => intro k g hk hg; exact ⟨g, rfl, by rw [← hk]; exact hg⟩
  | succ m ih =>
    intro k g hk hg
    obtain ⟨g', i, h1, h2⟩ := genByStep S same hash input hB hw2 n hn hsame never hnever k (by omega) g hg
    obtain ⟨g'', h3, h4⟩ := ih (k + 1) _ (by omega) h2
    refine ⟨g'', ?_, h4⟩
    rw [generateLoopBy, hg.len1, h1]
    exact h3

/-- What is read back: exactly the input as long as the block number fits into a stage-1 element; and, if no block is
recognised as a repetition, the input at the block number modulo the number of stage-1 values. -/
theorem unsafeGet_by (S : Shape) (never : Prop) (input : List α) (n : Nat) (hB : 0 < S.B) (hn : input.length = n * S.B)
    (g : Gen α) (hg : GenByOk S never input n g) (i : Nat) (hi : i < input.length) :
    (i / S.B < S.w1 → unsafeGet S g i = .ok input[i]) ∧
    (never → ∀ (h : i / S.B % S.w1 * S.B + i % S.B < input.length), 0 < S.w1 → unsafeGet S g i = .ok input[i / S.B % S.w1 * S.B + i % S.B]) := by
  have hj : i / S.B < n := (Nat.div_lt_iff_lt_mul hB).2 (by rw [← hn]; exact hi)
  have hdm : i / S.B * S.B + i % S.B = i := by rw [Nat.mul_comm]; exact Nat.div_add_mod i S.B
  have ho : i % S.B < S.B := Nat.mod_lt _ hB
  obtain ⟨t, ht, ⟨h1, h2⟩, h3⟩ := hg.reads _ hj
  constructor
  · intro hw
    unfold unsafeGet
    rw [(at?_some _ _ _).2 h1]
    obtain ⟨q, hq, hq'⟩ := h2 _ ho
    rw [Nat.mod_eq_of_lt (by omega)]
    dsimp only
    rw [(at?_some _ _ _).2 hq]
    dsimp only
    rw [hdm] at hq'
    rw [at?_some, hq', List.getElem?_eq_getElem hi]
  · intro hnv h hw
    have ht' := h3 hnv
    subst ht'
    obtain ⟨t', ht', ⟨k1, k2⟩, k3⟩ := hg.reads (i / S.B % S.w1) (by have := Nat.mod_le (i / S.B) S.w1; omega)
    have k3' := k3 hnv
    subst k3'
    unfold unsafeGet
    rw [(at?_some _ _ _).2 h1]
    obtain ⟨q, hq, hq'⟩ := k2 _ ho
    dsimp only
    rw [(at?_some _ _ _).2 hq]
    dsimp only
    rw [at?_some, hq', List.getElem?_eq_getElem h]

end Verif.Tables

namespace Verif.Props.Tg
open Verif.Utf8 (Mem)
open Verif.Tg
open Verif.Spec.Ucd
open Verif.Spec.UcdFile
open Verif.Tables (propertiesShape)

theorem nameArray_spec (es : List (Nat × Str)) (hf : ∀ c v w, (c, v) ∈ es → (c, w) ∈ es → v = w) (arr : List Str)
    (hb : ∀ e ∈ es, e.1 < arr.length) :
    ∃ arr', nameArray es arr = .ok arr' ∧ arr'.length = arr.length ∧
      ∀ c, (∀ v, (c, v) ∈ es → arr'[c]? = some v) ∧ ((∀ v, (c, v) ∉ es) → arr'[c]? = arr[c]?) := by
  induction es generalizing arr with
  | nil => exact ⟨arr, rfl, rfl, fun c => ⟨fun v h => absurd h (by simp), fun _ => rfl⟩⟩
  | cons e es ih =>
    obtain ⟨cp, name⟩ := e
    have hcp := hb (cp, name) (by simp)
    obtain ⟨arr', h1, h2, h3⟩ := ih (fun c v w hv hw => hf c v w (by simp [hv]) (by simp [hw])) (arr.set cp name)
      (fun e he => by rw [List.length_set]; exact hb e (by simp [he]))
    refine ⟨arr', by rw [nameArray, if_pos hcp]; exact h1, by rw [h2, List.length_set], fun c => ⟨?_, ?_⟩⟩
    · intro v hv
      by_cases hin : ∃ w, (c, w) ∈ es
      · obtain ⟨w, hw⟩ := hin
        rw [hf c v w hv (by simp [hw])]
        exact (h3 c).1 w hw
      · rcases List.mem_cons.1 hv with h | h
        · injection h with h4 h5
          subst h4 h5
          rw [(h3 c).2 (fun w hw => hin ⟨w, hw⟩), List.getElem?_set_self hcp]
        · exact absurd ⟨v, h⟩ hin
    · intro hno
      rw [(h3 c).2 (fun w hw => hno w (by simp [hw]))]
      rw [List.getElem?_set_ne]
      intro h
      exact hno name (by rw [h]; simp)

theorem nameEntries_mem {lines : List Str} {es : List Entry} (h : FileOf lines es) (c : Nat) (v : Str) :
    (c, v) ∈ nameEntries lines ↔ Assigns es c v := by
  induction h with
  | nil => simp [nameEntries, Assigns]
  | skip hn hs _ ih =>
    have : ∀ (l : Str) ls, parseStandardLine l = none → nameEntries (l :: ls) = nameEntries ls := by
      intro l ls hl; unfold nameEntries; rw [List.flatMap_cons, hl]; rfl
    rw [this _ _ (C48_skips _ _ hn hs)]; exact ih
  | @data line stored lines es a b value hd hs hab hb _ ih =>
    have hp := C48_line_exact _ _ _ _ _ hd hs (by omega) (by omega)
    rw [if_pos ⟨hab, hb⟩] at hp
    have hval : trim value = value := by
      cases hd with
      | range _ _ _ _ _ h _ _ => exact value_trim h
      | single _ _ _ _ h _ _ => exact value_trim h
    cases hq : parseStandardLine stored with
    | none => rw [hq] at hp; simp at hp
    | some p =>
      rw [hq] at hp
      simp at hp
      obtain ⟨rfl, rfl, rfl⟩ := hp
      unfold nameEntries at ih ⊢
      rw [List.flatMap_cons, List.mem_append, ih, hq]
      simp only [List.mem_map, mem_cpRange, Prod.mk.injEq]
      unfold Assigns
      simp only [List.mem_cons, exists_eq_or_imp]
      rw [hval]
      constructor
      · rintro (⟨x, hx, rfl, rfl⟩ | h)
        · exact Or.inl ⟨hx.1, hx.2, rfl⟩
        · exact Or.inr h
      · rintro (⟨h1, h2, h3⟩ | h)
        · exact Or.inl ⟨c, ⟨h1, h2⟩, rfl, h3⟩
        · exact Or.inr h

theorem assigns_one {es : List Entry} (hs : Separate es) {c : Nat} {v w : Str} (hv : Assigns es c v) (hw : Assigns es c w) :
    v = w := by
  obtain ⟨e, he, e1, e2, e3⟩ := hv
  obtain ⟨f, hf, f1, f2, f3⟩ := hw
  by_cases h : e = f
  · rw [← e3, ← f3, h]
  · haveI : Std.Symm (fun a b : Entry => a.2.1 < b.1 ∨ b.2.1 < a.1) := ⟨fun a b h => h.symm⟩
    have := List.Pairwise.forall (R := fun a b : Entry => a.2.1 < b.1 ∨ b.2.1 < a.1) hs he hf h
    omega

/-- The array of the names. -/
theorem nameArray_exact {F D U} (hl : Loads F D) (hd : Describes F U) (hs : Separate U.names) :
    ∃ arr, nameArray D.names (List.replicate 0x110000 []) = .ok arr ∧ arr.length = 0x110000 ∧
      ∀ c (h : c < arr.length) v, arr[c] = v ↔ ValueOf U.names [] c v := by
  have hmem : ∀ c v, (c, v) ∈ D.names ↔ Assigns U.names c v := by
    intro c v
    rw [hl.names.1.mem_iff]
    exact nameEntries_mem hd.names c v
  obtain ⟨arr, h1, h2, h3⟩ := nameArray_spec D.names
    (fun c v w hv hw => assigns_one hs ((hmem c v).1 hv) ((hmem c w).1 hw)) (List.replicate 0x110000 []) (by
      rintro ⟨c, v⟩ he
      rw [List.length_replicate]
      obtain ⟨e, he, e1, e2, -⟩ := (hmem c v).1 he
      have := (fileOf_valid hd.names e he).2
      show c < 0x110000
      omega)
  rw [List.length_replicate] at h2
  refine ⟨arr, h1, h2, ?_⟩
  intro c h v
  have hg : arr[c] = v ↔ arr[c]? = some v := by rw [List.getElem?_eq_getElem h]; simp
  rw [hg]
  by_cases hin : ∃ w, Assigns U.names c w
  · obtain ⟨w, hw⟩ := hin
    rw [(h3 c).1 w ((hmem c w).2 hw)]
    constructor
    · intro e; injection e with e; rw [← e]; exact Or.inl hw
    · rintro (h | ⟨h, -⟩)
      · rw [assigns_one hs h hw]
      · exact absurd hw (h w)
  · have hno : ∀ w, ¬ Assigns U.names c w := fun w hw => hin ⟨w, hw⟩
    rw [(h3 c).2 (fun w hw => hno w ((hmem c w).1 hw)), List.getElem?_replicate, if_pos (by omega)]
    constructor
    · intro e; injection e with e; exact Or.inr ⟨hno, e.symm⟩
    · rintro (h | ⟨-, h⟩)
      · exact absurd h (hno v)
      · rw [h]

/-- When `memcmp` reports two blocks of 256 names as equal, they are. -/
def SameNames (U : Contents) (same : Nat → Nat → Bool) : Prop :=
  ∀ i j, i < j → j < 0x1100 → same (i * 256) (j * 256) = true → ∀ o < 256, ∀ v,
    ValueOf U.names [] (i * 256 + o) v ↔ ValueOf U.names [] (j * 256 + o) v

/-- `memcmp` reports no two blocks as equal: the case of libstdc++, whose string objects hold a pointer to their
characters — to a part of themselves if the string is short, to memory of their own otherwise. -/
def NeverSame (same : Nat → Nat → Bool) : Prop := ∀ i j, i < j → j < 0x1100 → same (i * 256) (j * 256) = false

theorem apiName_eq {F D U} (hl : Loads F D) (hd : Describes F U) (hs : Separate U.names)
    (hv : (U.names.map (·.2.2)).dedup.length < 65536) (same : Nat → Nat → Bool) (hash : Nat → Nat) (hsame : SameNames U same)
    (never : Prop) (hnever : never → NeverSame same) :
    ∃ arr : List Str, ∃ g, nameArray D.names (List.replicate 0x110000 []) = .ok arr ∧ arr.length = 0x110000 ∧
      (∀ c (h : c < arr.length) v, arr[c] = v ↔ ValueOf U.names [] c v) ∧
      Tables.generateBy propertiesShape same hash arr = .ok g ∧
      Tables.GenByOk propertiesShape never arr 0x1100 g := by
  obtain ⟨arr, h1, h2, h3⟩ := nameArray_exact hl hd hs
  have hB : propertiesShape.B = 256 := rfl
  obtain ⟨g, g1, g2⟩ := Tables.generateBy_spec propertiesShape same hash arr (by decide) (by
      have := Tables.nodup_length_le arr.dedup ([] :: (U.names.map (·.2.2)).dedup) (List.nodup_dedup _) (by
        intro v hv
        obtain ⟨c, hc, rfl⟩ := List.getElem_of_mem (List.mem_dedup.1 hv)
        rcases (h3 c hc _).1 rfl with ⟨e, he, -, -, e3⟩ | ⟨-, h⟩
        · rw [List.mem_cons, List.mem_dedup]
          exact Or.inr (List.mem_map.2 ⟨e, he, e3⟩)
        · rw [h]; simp)
      show _ ≤ 65536
      rw [List.length_cons] at this
      omega) 0x1100 (by rw [h2, hB]) (by
      intro i j hij hj he
      rw [hB] at he ⊢
      apply List.ext_getElem?
      intro o
      by_cases ho : o < 256
      · have hbl := fun s => Tables.block_getElem? propertiesShape arr s o ho
        rw [hbl, hbl,
          List.getElem?_eq_getElem (by omega), List.getElem?_eq_getElem (by omega)]
        have hb : arr[i * 256 + o]'(by omega) = arr[j * 256 + o]'(by omega) := by
          rw [h3 _ _ _, hsame i j hij hj he o ho, ← h3 _ (by omega)]
        exact congrArg some hb
      · have hlen : ∀ s, (Tables.block propertiesShape arr s).length ≤ 256 := by
          intro s; unfold Tables.block; rw [List.length_take]; exact Nat.min_le_left _ _
        rw [List.getElem?_eq_none (by have := hlen (i * 256); omega), List.getElem?_eq_none (by have := hlen (j * 256); omega)]) never
      (fun hn i j hij hj => by rw [hB]; exact hnever hn i j hij hj)
  exact ⟨arr, g, h1, h2, h3, g1, g2⟩

/-- **C53, `name`, partial.** In the Basic Multilingual Plane, for every `memcmp` and every hash: the value of the data
file.  (Beyond, see `C53_fails_name_supplementary`.) -/
theorem C53_name_value_partial {F D U} (hl : Loads F D) (hd : Describes F U) (hs : Separate U.names)
    (hv : (U.names.map (·.2.2)).dedup.length < 65536) (same : Nat → Nat → Bool) (hash : Nat → Nat) (hsame : SameNames U same)
    (c : Nat) (hc : c ≤ 0xFFFF) (n : Str) :
    apiName same hash D c = .ok n ↔ ValueOf U.names [] c n := by
  obtain ⟨arr, g, h1, h2, h3, g1, g2⟩ := apiName_eq hl hd hs hv same hash hsame False False.elim
  unfold apiName
  rw [h1]
  show getIn c (Tables.generateBy propertiesShape same hash arr) = _ ↔ _
  rw [g1]
  show Tables.get propertiesShape g c = _ ↔ _
  unfold Tables.get
  rw [if_pos (show c ≤ propertiesShape.max by show c ≤ 0x10FFFF; omega)]
  rw [(Tables.unsafeGet_by propertiesShape False arr 0x1100 (by decide) h2 g g2 c (by omega)).1 (show c / 256 < 256 by omega)]
  rw [← h3 c (by omega) n]
  constructor
  · intro h; injection h
  · intro h; rw [h]

/-- **C53, `name`, partial**, in terms of names: exact in the Basic Multilingual Plane for codepoints whose entry has no
placeholder; the empty string if there is no entry. -/
theorem C53_name_partial {F D U} (hl : Loads F D) (hd : Describes F U) (hs : Separate U.names)
    (hv : (U.names.map (·.2.2)).dedup.length < 65536) (same : Nat → Nat → Bool) (hash : Nat → Nat) (hsame : SameNames U same)
    (c : Nat) (hc : c ≤ 0xFFFF) (hstar : ∀ v, Assigns U.names c v → v.getLast? ≠ some '*') (n : Str) :
    apiName same hash D c = .ok n ↔ NameOf U.names c n ∨ (∀ v, ¬ NameOf U.names c v) ∧ n = [] := by
  rw [C53_name_value_partial hl hd hs hv same hash hsame c hc n]
  have hN : ∀ m, NameOf U.names c m ↔ Assigns U.names c m := by
    intro m
    constructor
    · rintro ⟨v, h1, ⟨-, rfl⟩ | ⟨s, h, rfl, -, -⟩⟩
      · exact h1
      · exact absurd (by simp) (hstar _ h1)
    · intro h
      exact ⟨m, h, Or.inl ⟨hstar m h, rfl⟩⟩
  unfold ValueOf
  simp only [hN]

/-- **C53 fails** for names with a placeholder: the function returns the text of the data file, with the `*`, which is not
the name. -/
theorem C53_fails_name_star {F D U} (hl : Loads F D) (hd : Describes F U) (hs : Separate U.names)
    (hv : (U.names.map (·.2.2)).dedup.length < 65536) (same : Nat → Nat → Bool) (hash : Nat → Nat) (hsame : SameNames U same)
    (c : Nat) (hc : c ≤ 0xFFFF) (s : Str) (ha : Assigns U.names c (s ++ ['*'])) :
    apiName same hash D c = .ok (s ++ ['*']) ∧ ¬ NameOf U.names c (s ++ ['*']) := by
  refine ⟨(C53_name_value_partial hl hd hs hv same hash hsame c hc _).2 (Or.inl ha), ?_⟩
  rintro ⟨v, h1, ⟨h2, rfl⟩ | ⟨t, h, rfl, hh, he⟩⟩
  · exact h2 (by simp)
  · have hv := assigns_one hs h1 ha
    have : t = s := (List.append_inj' hv rfl).1
    subst this
    have := List.append_cancel_left he
    subst this
    have := ((hexOf_facts _ _ hh.1).2.2 '*' (by simp)).1
    exact absurd this (by decide)

/-- **C53 fails** beyond the Basic Multilingual Plane: where `memcmp` on string objects never finds two equal blocks, the
name of a codepoint is the name of the codepoint with the same lower 16 bits. -/
theorem C53_fails_name_supplementary {F D U} (hl : Loads F D) (hd : Describes F U) (hs : Separate U.names)
    (hv : (U.names.map (·.2.2)).dedup.length < 65536) (same : Nat → Nat → Bool) (hash : Nat → Nat) (hnever : NeverSame same)
    (c : Nat) (hc : c ≤ 0x10FFFF) (n : Str) :
    apiName same hash D c = .ok n ↔ ValueOf U.names [] (c % 0x10000) n := by
  obtain ⟨arr, g, h1, h2, h3, g1, g2⟩ := apiName_eq hl hd hs hv same hash
    (fun i j hij hj he => by rw [hnever i j hij hj] at he; exact absurd he (by decide)) True (fun _ => hnever)
  unfold apiName
  rw [h1]
  show getIn c (Tables.generateBy propertiesShape same hash arr) = _ ↔ _
  rw [g1]
  show Tables.get propertiesShape g c = _ ↔ _
  unfold Tables.get
  rw [if_pos (show c ≤ propertiesShape.max from hc)]
  have e : c / 256 % 256 * 256 + c % 256 = c % 0x10000 := by omega
  rw [(Tables.unsafeGet_by propertiesShape True arr 0x1100 (by decide) h2 g g2 c (by omega)).2 trivial
    (show c / 256 % 256 * 256 + c % 256 < arr.length by omega) (by decide)]
  show Mem.ok arr[c / 256 % 256 * 256 + c % 256] = _ ↔ _
  rw [← e, ← h3 (c / 256 % 256 * 256 + c % 256) (by omega) n]
  constructor
  · intro h; injection h
  · intro h; rw [h]

end Verif.Props.Tg
