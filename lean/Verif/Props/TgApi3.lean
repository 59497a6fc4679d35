import Verif.Props.TgApi2
/-!
# C53, continued: blocks, planes, script extensions, mirroring, emoji variation sequences
-/

namespace Verif.Props.Tg
open Verif.Utf8 (Mem)
open Verif.Tg
open Verif.Spec.Ucd
open Verif.Spec.UcdFile
open Verif.Props.Tables

theorem comment_noData {line : Str} (h : Comment line) : NoData line := by
  rcases h with h | h
  · exact Or.inl h
  · exact Or.inr (Or.inr h)

theorem fileWith_filterMap {A E : Type} {Line : Str → E → Prop} (f : Str → Option A) (g : E → Option A)
    (hskip : ∀ line stored, Comment line → Stored line stored → f stored = none)
    (hdata : ∀ line stored e, Line line e → Stored line stored → f stored = g e)
    {lines : List Str} {es : List E} (h : FileWith Line lines es) : lines.filterMap f = es.filterMap g := by
  induction h with
  | nil => rfl
  | skip h1 h2 _ ih => rw [List.filterMap_cons, hskip _ _ h1 h2]; exact ih
  | data h1 h2 _ ih => rw [List.filterMap_cons, List.filterMap_cons, hdata _ _ _ h1 h2, ih]

theorem fileWith_valid {E : Type} {Line : Str → E → Prop} {P : E → Prop} (hp : ∀ line e, Line line e → P e)
    {lines : List Str} {es : List E} (h : FileWith Line lines es) : ∀ e ∈ es, P e := by
  induction h with
  | nil => simp
  | skip _ _ _ ih => exact ih
  | data h1 _ _ ih =>
    intro e he
    rcases List.mem_cons.1 he with rfl | he
    · exact hp _ _ h1
    · exact ih e he

/-! ## Blocks -/

theorem value_trim {v : Str} (h : Value v) : trim v = v :=
  trim_id v (fun c hc => by obtain ⟨h1, h2, h3, h4⟩ := h.head c hc; simp [isWs, h1, h2, h3, h4])
    (fun c hc => by obtain ⟨h1, h2, h3, h4⟩ := h.last c hc; simp [isWs, h1, h2, h3, h4])

theorem loadBlocks_eq {lines : List Str} {es : List Entry} (h : FileWith BlockLine lines es) :
    loadBlocks lines = es.map fun e => ⟨e.1, e.2.1, e.2.2⟩ := by
  unfold loadBlocks
  rw [fileWith_filterMap (Line := BlockLine) _ (fun e : Entry => some (⟨e.1, e.2.1, e.2.2⟩ : PRange)) ?_ ?_ h]
  · rw [List.filterMap_eq_map']
  · intro line stored h1 h2
    rw [C48_skips _ _ (comment_noData h1) h2]
  · rintro line stored e ⟨h₁, h₂, w₂, w₃, w₄, tail, hh1, hh2, hw2, hw3, hv, hw4, ht, hab, hb, rfl⟩ hs
    have := parse_range (w₁ := []) (by intro c hc; simp at hc) hh1 hh2 hw2 hw3 hv hw4 ht hs (by omega) (by omega)
    rw [if_pos ⟨hab, hb⟩] at this
    cases hp : parseStandardLine stored with
    | none => rw [hp] at this; simp at this
    | some p =>
      rw [hp] at this
      simp at this
      obtain ⟨a, b, r, pr, cm⟩ := p
      simp at this
      obtain ⟨rfl, rfl, rfl, rfl⟩ := this
      simp only [if_true]
      rw [value_trim hv]

theorem sanitize_identifier (t : Str) (v : Str) : v = sanitize t ↔ Identifier t v := by
  unfold sanitize Identifier
  constructor
  · rintro rfl
    exact ⟨by simp, fun i h h' => by simp⟩
  · rintro ⟨h1, h2⟩
    apply List.ext_getElem
    · simp [h1]
    · intro i h h'
      rw [h2 i (by omega) h]
      simp

/-- The block of a codepoint, as an identifier. -/
def BlockOf (es : List Entry) (c : Nat) (v : Str) : Prop :=
  (∃ t, Assigns es c t ∧ Identifier t v) ∨ (∀ t, ¬ Assigns es c t) ∧ v = "Unspecified".toList

/-- **C53, `block`.** The generator does not sort the blocks: the file has to list them in ascending order (it does). -/
theorem C53_block {F D U} (hl : Loads F D) (hd : Describes F U) (ha : Ascending U.blocks) (hne : U.blocks ≠ [])
    (hsize : U.blocks.length < 2 ^ 64) (c : Nat) (v : Str) :
    apiBlock D c = .ok v ↔ BlockOf U.blocks c v := by
  have hv : ∀ e ∈ U.blocks, e.1 ≤ e.2.1 := fileWith_valid (P := fun e => e.1 ≤ e.2.1)
    (by rintro line e ⟨_, _, _, _, _, _, _, _, _, _, _, _, _, h, _⟩; exact h) hd.blocks
  have := valueOr_exact (U.blocks.map fun e => (e.1, e.2.1, sanitize e.2.2)) (by unfold Ascending; rw [List.pairwise_map]; exact ha) (by
      intro x hx
      obtain ⟨e, he, rfl⟩ := List.mem_map.1 hx
      exact hv e he) (by simpa using hne) (by simpa using hsize) "Unspecified".toList c v
    (propTable (D.blocks.map fun b => { b with property := sanitize b.property })) (by
      rw [hl.blocks, loadBlocks_eq hd.blocks]
      unfold propTable
      simp [List.map_map, Function.comp_def])
  unfold apiBlock
  rw [this]
  have hA : ∀ w, Assigns (U.blocks.map fun e => (e.1, e.2.1, sanitize e.2.2)) c w ↔ ∃ t, Assigns U.blocks c t ∧ Identifier t w := by
    intro w
    constructor
    · rintro ⟨x, hx, x1, x2, x3⟩
      obtain ⟨e, he, rfl⟩ := List.mem_map.1 hx
      exact ⟨e.2.2, ⟨e, he, x1, x2, rfl⟩, (sanitize_identifier _ _).1 x3.symm⟩
    · rintro ⟨t, ⟨e, he, x1, x2, x3⟩, hi⟩
      refine ⟨_, List.mem_map.2 ⟨e, he, rfl⟩, x1, x2, ?_⟩
      rw [x3]
      exact ((sanitize_identifier _ _).2 hi).symm
  unfold ValueOf BlockOf
  simp only [hA]
  constructor
  · rintro (h | ⟨h, h'⟩)
    · exact Or.inl h
    · exact Or.inr ⟨fun t ht => h (sanitize t) ⟨t, ht, (sanitize_identifier _ _).1 rfl⟩, h'⟩
  · rintro (h | ⟨h, h'⟩)
    · exact Or.inl h
    · exact Or.inr ⟨fun w ⟨t, h1, _⟩ => h t h1, h'⟩

/-! ## Planes -/

/-- The table of the planes as ranges. -/
def planeEnts : List Entry := (List.range 17).map fun i => (i * 0x10000, i * 0x10000 + 0xFFFF, (planeNames.getD i "").toList)

theorem planes_eq : propTable (planes.map fun p => { p with property := sanitize p.property })
    = planeEnts.map fun e => ⟨e.1, e.2.1, e.2.2⟩ := by decide +kernel

/-- **C53, `plane`.** For every codepoint: the plane numbered `c / 0x10000`; `Unassigned` beyond U+10FFFF. -/
theorem C53_plane (c : Nat) (v : Str) :
    apiPlane c = .ok v ↔ (c ≤ 0x10FFFF ∧ ∃ s, planeNames[c / 0x10000]? = some s ∧ v = s.toList) ∨ (0x10FFFF < c ∧ v = "Unassigned".toList) := by
  have := valueOr_exact planeEnts (by
      unfold Ascending planeEnts
      rw [List.pairwise_map]
      refine List.Pairwise.imp ?_ List.pairwise_lt_range
      intro a b h
      show a * 0x10000 + 0xFFFF < b * 0x10000
      omega) (by
      intro x hx
      obtain ⟨i, -, rfl⟩ := List.mem_map.1 hx
      show i * 0x10000 ≤ i * 0x10000 + 0xFFFF
      omega) (by unfold planeEnts; simp) (by unfold planeEnts; simp) "Unassigned".toList c v _ planes_eq
  unfold apiPlane
  rw [this]
  have hA : ∀ w, Assigns planeEnts c w ↔ c ≤ 0x10FFFF ∧ w = (planeNames.getD (c / 0x10000) "").toList := by
    intro w
    unfold Assigns planeEnts
    constructor
    · rintro ⟨x, hx, x1, x2, x3⟩
      obtain ⟨i, hi, rfl⟩ := List.mem_map.1 hx
      rw [List.mem_range] at hi
      simp only at x1 x2 x3
      have : c / 0x10000 = i := by omega
      rw [this, ← x3]
      exact ⟨by omega, rfl⟩
    · rintro ⟨h, rfl⟩
      refine ⟨_, List.mem_map.2 ⟨c / 0x10000, List.mem_range.2 (by omega), rfl⟩, ?_, ?_, rfl⟩
      · show c / 0x10000 * 0x10000 ≤ c; omega
      · show c ≤ c / 0x10000 * 0x10000 + 0xFFFF; omega
  have hG : c ≤ 0x10FFFF → planeNames[c / 0x10000]? = some (planeNames.getD (c / 0x10000) "") := by
    intro h
    have : c / 0x10000 < planeNames.length := by show c / 0x10000 < 17; omega
    rw [List.getD_eq_getElem?_getD, List.getElem?_eq_getElem this, Option.getD_some]
  unfold ValueOf
  simp only [hA]
  constructor
  · rintro (⟨h1, h2⟩ | ⟨h1, h2⟩)
    · exact Or.inl ⟨h1, _, hG h1, h2⟩
    · refine Or.inr ⟨?_, h2⟩
      by_contra hc
      exact h1 _ ⟨by omega, rfl⟩
  · rintro (⟨h1, s, h2, h3⟩ | ⟨h1, h2⟩)
    · rw [hG h1] at h2
      injection h2 with h2
      exact Or.inl ⟨h1, by rw [h3, h2]⟩
    · exact Or.inr ⟨fun w h => by omega, h2⟩

/-! ## Script extensions -/

/-- Letters only. -/
def Letters (w : Str) : Prop := w ≠ [] ∧ ∀ c ∈ w, c.isAlpha = true

theorem letter_facts {c : Char} (h : c.isAlpha = true) : isSpace c = false ∧ isWs c = false ∧ c ≠ '_' := by
  have hn : ∀ d : Char, d.isAlpha = false → c ≠ d := by intro d hd e; rw [e, hd] at h; exact Bool.false_ne_true h
  have h1 := hn ' ' (by decide)
  have h2 := hn '\t' (by decide)
  have h3 := hn '\n' (by decide)
  have h4 := hn '\r' (by decide)
  have h5 := hn '\x0b' (by decide)
  have h6 := hn '\x0c' (by decide)
  have h7 := hn '_' (by decide)
  exact ⟨by simp [isSpace, h1, h2, h3, h4, h5, h6], by simp [isWs, h1, h2, h3, h4], h7⟩

theorem tokensLoop_step (n : Nat) (w r : Str) (hne : w ≠ []) (hw : ∀ c ∈ w, isSpace c = false)
    (hr : ∀ c, r.head? = some c → isSpace c = true) : tokensLoop (n + 1) (w ++ r) = w :: tokensLoop n r := by
  cases w with
  | nil => exact absurd rfl hne
  | cons x w =>
    have hx := hw x (by simp)
    rw [tokensLoop, List.cons_append, List.dropWhile_cons, hx, if_neg Bool.false_ne_true]
    simp only
    rw [← List.cons_append, List.takeWhile_append_of_pos (fun c hc => by rw [hw c hc]; rfl)]
    have e1 : r.takeWhile (fun x => !isSpace x) = [] := by
      cases r with
      | nil => rfl
      | cons y r => rw [List.takeWhile_cons, hr y rfl]; rfl
    have e2 : (x :: w ++ r).dropWhile (fun x => !isSpace x) = r := by
      have hd : ∀ u : Str, (∀ c ∈ u, isSpace c = false) → (u ++ r).dropWhile (fun x => !isSpace x) = r := by
        intro u
        induction u with
        | nil =>
          intro _
          cases r with
          | nil => rfl
          | cons y r => rw [List.nil_append, List.dropWhile_cons, hr y rfl]; rfl
        | cons y u ih =>
          intro h
          rw [List.cons_append, List.dropWhile_cons, h y (by simp)]
          exact ih (fun c hc => h c (by simp [hc]))
      exact hd _ hw
    rw [e1, e2, List.append_nil]

theorem tokensLoop_blank (n : Nat) (b s : Str) (hb : ∀ c ∈ b, isSpace c = true) : tokensLoop (n + 1) (b ++ s) = tokensLoop (n + 1) s := by
  have : (b ++ s).dropWhile isSpace = s.dropWhile isSpace := dropWhile_past b s hb
  unfold tokensLoop
  rw [this]

theorem blank_space {b : Str} (h : Blank b) : ∀ c ∈ b, isSpace c = true := by
  intro c hc
  rcases h c hc with rfl | rfl <;> decide

theorem tokens_words {s : Str} {ws : List Str} (h : WordsOf s ws) (hl : ∀ w ∈ ws, Letters w) (n : Nat) (hn : s.length < n) :
    tokensLoop n s = ws := by
  induction h generalizing n with
  | @one w hw =>
    obtain ⟨h1, h2⟩ := hl w (by simp)
    cases n with
    | zero => omega
    | succ n =>
      have := tokensLoop_step n w [] h1 (fun c hc => (letter_facts (h2 c hc)).1) (by simp)
      rw [List.append_nil] at this
      rw [this]
      cases n <;> rfl
  | @cons w b s ws hw hb hbne _ ih =>
    obtain ⟨h1, h2⟩ := hl _ (List.mem_cons_self ..)
    cases n with
    | zero => omega
    | succ n =>
      rw [List.append_assoc, tokensLoop_step n w _ h1 (fun c hc => (letter_facts (h2 c hc)).1) ?_]
      · rw [List.length_append, List.length_append] at hn
        have : 0 < w.length := List.length_pos_iff.2 h1
        cases n with
        | zero => omega
        | succ n =>
          rw [tokensLoop_blank n b s (blank_space hb), ih (fun w hw => hl w (by simp [hw])) (n + 1) (by omega)]
      · intro c hc
        cases b with
        | nil => exact absurd rfl hbne
        | cons y b =>
          simp at hc
          subst hc
          exact blank_space hb _ (by simp)

theorem sortInsert_perm (k : Str) (s : List Str) : (sortInsert k s).Perm (k :: s) := by
  induction s with
  | nil => exact List.Perm.refl _
  | cons y s ih =>
    unfold sortInsert
    split
    · exact (List.Perm.cons y ih).trans (List.Perm.swap k y s)
    · exact List.Perm.refl _

theorem sortStrs_perm (xs : List Str) : (sortStrs xs).Perm xs := by
  unfold sortStrs
  induction xs with
  | nil => exact List.Perm.refl _
  | cons x xs ih => rw [List.foldr_cons]; exact (sortInsert_perm _ _).trans (List.Perm.cons x ih)

theorem sceKey_inj {ps qs : List Str} (hp : ∀ w ∈ ps, Letters w) (hq : ∀ w ∈ qs, Letters w) (h : sceKey ps = sceKey qs) : ps = qs := by
  unfold sceKey at h
  replace h := List.append_cancel_left h
  have split : ∀ (s t x y : Str), (∀ c ∈ s, c ≠ '_') → (∀ c ∈ t, c ≠ '_') → (x = [] ∨ x.head? = some '_') → (y = [] ∨ y.head? = some '_') →
      s ++ x = t ++ y → s = t ∧ x = y := by
    intro s
    induction s with
    | nil =>
      intro t x y _ ht hx _ e
      cases t with
      | nil => exact ⟨rfl, e⟩
      | cons d t =>
        exfalso
        rw [List.nil_append, List.cons_append] at e
        rw [e] at hx
        rcases hx with hx | hx
        · simp at hx
        · simp at hx; exact ht d (by simp) hx
    | cons c s ih =>
      intro t x y hs ht hx hy e
      cases t with
      | nil =>
        exfalso
        rw [List.nil_append, List.cons_append] at e
        rw [← e] at hy
        rcases hy with hy | hy
        · simp at hy
        · simp at hy; exact hs c (by simp) hy
      | cons d t =>
        rw [List.cons_append, List.cons_append] at e
        injection e with e1 e2
        obtain ⟨r1, r2⟩ := ih t x y (fun c hc => hs c (by simp [hc])) (fun c hc => ht c (by simp [hc])) hx hy e2
        exact ⟨by rw [e1, r1], r2⟩
  have hflat : ∀ l : List Str, (l.flatMap fun s => '_' :: s) = [] ∨ (l.flatMap fun s => '_' :: s).head? = some '_' := by
    intro l
    cases l with
    | nil => exact Or.inl rfl
    | cons a l => exact Or.inr rfl
  induction ps generalizing qs with
  | nil =>
    cases qs with
    | nil => rfl
    | cons q qs => simp at h
  | cons p ps ih =>
    cases qs with
    | nil => simp at h
    | cons q qs =>
      rw [List.flatMap_cons, List.flatMap_cons, List.cons_append, List.cons_append] at h
      injection h with _ h
      obtain ⟨r1, r2⟩ := split p q _ _ (fun c hc => (letter_facts ((hp p (by simp)).2 c hc)).2.2)
        (fun c hc => (letter_facts ((hq q (by simp)).2 c hc)).2.2) (hflat _) (hflat _) h
      rw [r1, ih (fun w hw => hp w (by simp [hw])) (fun w hw => hq w (by simp [hw])) r2]

theorem sceArrays_keep (al : List (Str × Str)) (rs : List MRange) (done : List (Str × List Str)) (k : Str) (x : Str × List Str)
    (h : done.find? (fun e => e.1 = k) = some x) : (sceArrays al rs done).find? (fun e => e.1 = k) = some x := by
  induction rs generalizing done with
  | nil => exact h
  | cons r rs ih =>
    rw [sceArrays]
    split
    · exact ih _ h
    · apply ih
      rw [List.find?_append, h]; rfl

theorem sceArrays_find (al : List (Str × Str)) (rs : List MRange) (done : List (Str × List Str))
    (hd : ∀ x ∈ done, ∃ ps, (∀ w ∈ ps, Letters w) ∧ x = (sceKey ps, ps.map (scriptName al)))
    (hrs : ∀ r ∈ rs, ∀ w ∈ r.props, Letters w) (r : MRange) (hr : r ∈ rs) :
    (sceArrays al rs done).find? (fun e => e.1 = sceKey r.props) = some (sceKey r.props, r.props.map (scriptName al)) := by
  induction rs generalizing done with
  | nil => simp at hr
  | cons q rs ih =>
    have huniq : ∀ x ∈ done, x.1 = sceKey q.props → x = (sceKey q.props, q.props.map (scriptName al)) := by
      intro x hx he
      obtain ⟨ps, hps, rfl⟩ := hd x hx
      rw [sceKey_inj hps (hrs q (by simp)) he]
    rw [sceArrays]
    split
    · rename_i hs
      rcases List.mem_cons.1 hr with rfl | hr
      · obtain ⟨x, hx⟩ := Option.isSome_iff_exists.1 hs
        have h1 := List.mem_of_find?_eq_some hx
        have h2 := List.find?_some hx
        rw [sceArrays_keep al rs done _ x hx, huniq x h1 (by simpa using h2)]
      · exact ih done hd (fun r hr => hrs r (by simp [hr])) hr
    · rename_i hs
      have hd' : ∀ x ∈ done ++ [(sceKey q.props, q.props.map (scriptName al))], ∃ ps, (∀ w ∈ ps, Letters w) ∧ x = (sceKey ps, ps.map (scriptName al)) := by
        intro x hx
        rcases List.mem_append.1 hx with hx | hx
        · exact hd x hx
        · simp at hx; exact ⟨q.props, hrs q (by simp), hx⟩
      rcases List.mem_cons.1 hr with rfl | hr
      · apply sceArrays_keep
        rw [List.find?_append]
        have : done.find? (fun e => e.1 = sceKey r.props) = none := by
          cases hf : done.find? (fun e => e.1 = sceKey r.props) with
          | none => rfl
          | some x => rw [hf] at hs; simp at hs
        rw [this]
        simp
      · exact ih _ hd' (fun r hr => hrs r (by simp [hr])) hr

theorem sceEntries_eq {lines : List Str} {es : List Entry} (h : FileOf lines es) :
    sceEntries lines = es.map fun e => ⟨e.1, e.2.1, sortStrs (tokens (trim e.2.2))⟩ := by
  unfold sceEntries
  rw [fileOf_filterMap _ (fun e : Entry => some (⟨e.1, e.2.1, sortStrs (tokens (trim e.2.2))⟩ : MRange)) ?_ ?_ h]
  · rw [List.filterMap_eq_map']
  · intro line stored h1 h2
    rw [C48_skips _ _ h1 h2]; rfl
  · intro line stored e h1 h2
    obtain ⟨q, q1, q2, q3, q4⟩ := parse_rangeLine h1 h2
    rw [q1, Option.map_some, q2, q3, q4]

theorem words_ends {s : Str} {ws : List Str} (h : WordsOf s ws) : (∀ c, s.head? = some c → isWs c = false) ∧
    (∀ c, s.getLast? = some c → isWs c = false) ∧ s ≠ [] := by
  induction h with
  | one hw => exact ⟨word_head hw, word_last hw, hw.1⟩
  | @cons w b s ws hw _ _ _ ih =>
    obtain ⟨-, i2, i3⟩ := ih
    refine ⟨?_, ?_, by simp [hw.1]⟩
    · intro c hc
      cases w with
      | nil => exact absurd rfl hw.1
      | cons x w => exact word_head hw c (by simpa using hc)
    · intro c hc
      rw [List.getLast?_append_of_ne_nil _ i3] at hc
      exact i2 c hc

/-- **C53, `script_extensions`.** The scripts listed for the codepoint, by their long names (in an unspecified order), or
nothing if the file does not list it. -/
theorem C53_script_extensions {F D U} (hl : Loads F D) (hd : Describes F U) (hn : (U.aliases.map (·.1)).Nodup) (al : List (Str × Str))
    (hs : ("Script".toList, al) ∈ U.aliases) (hf : Functional al) (hsep : Separate U.sce) (hne : U.sce ≠ []) (hsize : U.sce.length < 2 ^ 64)
    (hw : ∀ e ∈ U.sce, ∃ ws, WordsOf e.2.2 ws ∧ ∀ w ∈ ws, Letters w ∧ ∃ n, (w, n) ∈ al) (c : Nat) :
    ∃ m r, amFind D.aliases "Script".toList = some m ∧ apiScriptExtensions D m c = .ok r ∧
      (r = none ↔ ∀ v, ¬ Assigns U.sce c v) ∧
      ∀ l, r = some l → ∃ v ws ns, Assigns U.sce c v ∧ WordsOf v ws ∧ List.Forall₂ (fun w n => (w, n) ∈ al) ws ns ∧ l.Perm ns := by
  obtain ⟨m, m1, m2⟩ := C53_aliases hl hd hn _ (by decide) al hs hf
  have hld := hl.sce
  rw [sceEntries_eq hd.sce] at hld
  -- the properties of the loaded ranges
  have hprop : ∀ r ∈ D.sce, ∃ e ∈ U.sce, ∃ ws, r.first = e.1 ∧ r.last = e.2.1 ∧ WordsOf e.2.2 ws ∧ r.props.Perm ws ∧
      ∀ w ∈ ws, Letters w ∧ ∃ n, (w, n) ∈ al := by
    intro r hr
    obtain ⟨e, he, rfl⟩ := List.mem_map.1 (hld.1.mem_iff.1 hr)
    obtain ⟨ws, w1, w2⟩ := hw e he
    refine ⟨e, he, ws, rfl, rfl, w1, ?_, w2⟩
    have ht : trim e.2.2 = e.2.2 := trim_id _ (words_ends w1).1 (words_ends w1).2.1
    have hk : tokens e.2.2 = ws := tokens_words w1 (fun w hw => (w2 w hw).1) _ (Nat.lt_succ_self _)
    show (sortStrs (tokens (trim e.2.2))).Perm ws
    rw [ht, hk]
    exact sortStrs_perm ws
  have hlet : ∀ r ∈ D.sce, ∀ w ∈ r.props, Letters w := by
    intro r hr w hw'
    obtain ⟨e, -, ws, -, -, -, hp, hl'⟩ := hprop r hr
    exact (hl' w (hp.mem_iff.1 hw')).1
  let f : MRange → Entry := fun r => (r.first, r.last, sceKey r.props)
  have hasc : Ascending (D.sce.map f) := by
    apply ascending_of_sorted (hld.1.map f) (List.pairwise_map.2 hld.2)
    · unfold Separate
      rw [List.map_map, List.pairwise_map]
      exact hsep
    · intro x hx
      rw [List.map_map] at hx
      obtain ⟨e, he, rfl⟩ := List.mem_map.1 hx
      exact (fileOf_valid hd.sce e he).1
  have hval : ∀ x ∈ D.sce.map f, x.1 ≤ x.2.1 := by
    intro x hx
    obtain ⟨r, hr, rfl⟩ := List.mem_map.1 hx
    obtain ⟨e, he, ws, h1, h2, -⟩ := hprop r hr
    show r.first ≤ r.last
    rw [h1, h2]
    exact (fileOf_valid hd.sce e he).1
  have hlen : D.sce.length = U.sce.length := by rw [hld.1.length_eq, List.length_map]
  obtain ⟨r, r1, r2, r3⟩ := search_exact (α := Str) (fun e => e.2.2) (D.sce.map f) hasc hval
    (by intro h; rw [List.map_eq_nil_iff] at h; rw [h] at hlen; exact hne (List.length_eq_zero_iff.1 hlen.symm))
    (by rw [List.length_map, hlen]; exact hsize) c
    (D.sce.map fun r => (⟨r.first, r.last, sceKey r.props⟩ : Verif.Tables.Entry Str)) (by rw [List.map_map]; rfl)
  have hcov : (∃ x ∈ D.sce.map f, x.1 ≤ c ∧ c ≤ x.2.1) ↔ ∃ v, Assigns U.sce c v := by
    constructor
    · rintro ⟨x, hx, x1, x2⟩
      obtain ⟨r, hr, rfl⟩ := List.mem_map.1 hx
      obtain ⟨e, he, ws, h1, h2, -⟩ := hprop r hr
      exact ⟨e.2.2, e, he, h1 ▸ x1, h2 ▸ x2, rfl⟩
    · rintro ⟨v, e, he, x1, x2, -⟩
      have := hld.1.mem_iff.2 (List.mem_map.2 ⟨e, he, rfl⟩)
      exact ⟨_, List.mem_map.2 ⟨_, this, rfl⟩, x1, x2⟩
  have hder : apiScriptExtensions D m c = deref (sceArrays m D.sce []) (.ok r) := by
    have e0 : apiScriptExtensions D m c = deref (sceArrays m D.sce [])
      (Verif.Tables.search (D.sce.map fun r => (⟨r.first, r.last, sceKey r.props⟩ : Verif.Tables.Entry Str)) c) := rfl
    rw [e0, r1]
  cases r with
  | none =>
    refine ⟨m, none, m1, hder, ?_, by simp⟩
    refine ⟨fun _ => ?_, fun _ => rfl⟩
    intro v hv
    obtain ⟨x, hx, x1⟩ := hcov.2 ⟨v, hv⟩
    exact r3.1 rfl x hx x1
  | some key =>
    obtain ⟨x, hx, x1, x2, x3⟩ := (r2 key).1 rfl
    obtain ⟨rg, hrg, rfl⟩ := List.mem_map.1 hx
    have hkey : key = sceKey rg.props := x3.symm
    have hfind := sceArrays_find m D.sce [] (by simp) hlet rg hrg
    refine ⟨m, some (rg.props.map (scriptName m)), m1, ?_, ?_, ?_⟩
    · rw [hder, deref, hkey, hfind]; rfl
    · refine ⟨fun h => by simp at h, fun h => ?_⟩
      obtain ⟨v, hv⟩ := hcov.1 ⟨_, hx, x1, x2⟩
      exact absurd hv (h v)
    · intro l hl'
      injection hl' with hl'
      subst hl'
      obtain ⟨e, he, ws, h1, h2, h3, h4, h5⟩ := hprop rg hrg
      refine ⟨e.2.2, ws, ws.map (scriptName m), ⟨e, he, h1 ▸ x1, h2 ▸ x2, rfl⟩, h3, ?_, h4.map _⟩
      rw [List.forall₂_map_right_iff, List.forall₂_same]
      intro w hw'
      obtain ⟨-, n, hn'⟩ := h5 w hw'
      unfold scriptName
      rw [(m2 w n).2 hn']
      exact hn'

/-! ## Mirroring -/

theorem compressFrom_spec (cs : List Nat) (a b : Nat) (hab : a ≤ b) (h : (b :: cs).Pairwise (· < ·)) :
    (compressFrom a b cs).Pairwise (fun x y => x.2 + 1 < y.1) ∧ (∀ x ∈ compressFrom a b cs, x.1 ≤ x.2 ∧ a ≤ x.1) ∧
      (∀ c, (∃ x ∈ compressFrom a b cs, x.1 ≤ c ∧ c ≤ x.2) ↔ (a ≤ c ∧ c ≤ b) ∨ c ∈ cs) ∧
      (compressFrom a b cs).length ≤ cs.length + 1 := by
  induction cs generalizing a b with
  | nil => exact ⟨List.pairwise_singleton _ _, by simp [compressFrom, hab], by simp [compressFrom], by simp [compressFrom]⟩
  | cons d cs ih =>
    have hbd : b < d := by rw [List.pairwise_cons] at h; exact h.1 d (by simp)
    have htl : (d :: cs).Pairwise (· < ·) := (List.pairwise_cons.1 h).2
    rw [compressFrom]
    split
    · rename_i hd
      obtain ⟨i1, i2, i3, i4⟩ := ih a d (by omega) htl
      refine ⟨i1, i2, fun c => ?_, by simp; omega⟩
      rw [i3 c, List.mem_cons]
      constructor
      · rintro (h | h)
        · by_cases hc : c = d
          · exact Or.inr (Or.inl hc)
          · exact Or.inl (by omega)
        · exact Or.inr (Or.inr h)
      · rintro (h | h | h)
        · exact Or.inl (by omega)
        · exact Or.inl (by omega)
        · exact Or.inr h
    · obtain ⟨i1, i2, i3, i4⟩ := ih d d (Nat.le_refl _) htl
      refine ⟨?_, ?_, fun c => ?_, by simp; omega⟩
      · rw [List.pairwise_cons]
        refine ⟨fun y hy => ?_, i1⟩
        have := (i2 y hy).2
        show b + 1 < y.1
        omega
      · intro x hx
        rcases List.mem_cons.1 hx with rfl | hx
        · exact ⟨hab, Nat.le_refl _⟩
        · have := i2 x hx
          omega
      · rw [List.mem_cons]
        constructor
        · rintro ⟨x, hx, x1⟩
          rcases List.mem_cons.1 hx with rfl | hx
          · exact Or.inl x1
          · rcases (i3 c).1 ⟨x, hx, x1⟩ with h | h
            · exact Or.inr (Or.inl (by omega))
            · exact Or.inr (Or.inr h)
        · rintro (h | h | h)
          · exact ⟨(a, b), by simp, h⟩
          · obtain ⟨x, hx, x1⟩ := (i3 c).2 (Or.inl (by omega))
            exact ⟨x, by simp [hx], x1⟩
          · obtain ⟨x, hx, x1⟩ := (i3 c).2 (Or.inr h)
            exact ⟨x, by simp [hx], x1⟩

theorem strict_of_sorted {α : Type} (key : α → Nat) {inp out : List α} (h : SortedBy key inp out) (hn : (inp.map key).Nodup) :
    out.Pairwise fun a b => key a < key b := by
  have h1 : (out.map key).Nodup := (h.1.map key).nodup_iff.2 hn
  rw [List.Nodup, List.pairwise_map] at h1
  refine List.Pairwise.imp ?_ (List.Pairwise.and h.2 h1)
  rintro a b ⟨x, y⟩
  omega

theorem mirroredLine_eq {line stored : Str} {e : Nat × Bool} (h : MirrorLine line e) (hs : Stored line stored) :
    mirroredLine stored = if e.2 then some e.1 else none := by
  obtain ⟨fs, hlen, rfl, hsep, hcp, hb, hm⟩ := h
  have hne : fs ≠ [] := by intro h; simp [h] at hlen
  have e1 : fs = fs.take 14 ++ [fs.getD 14 []] := by
    have h14 : 14 < fs.length := by omega
    have h2 : fs.drop 14 = [fs.getD 14 []] := by
      rw [List.drop_eq_getElem_cons h14, List.drop_eq_nil_of_le (by omega)]
      simp [List.getD_eq_getElem?_getD, List.getElem?_eq_getElem h14]
    rw [← h2, List.take_append_drop]
  have hne14 : fs.take 14 ≠ [] := by
    intro h; have := congrArg List.length h; rw [List.length_take, hlen] at this; exact absurd this (by decide)
  have e2 : join fs = join (fs.take 14) ++ [';'] ++ fs.getD 14 [] := by
    conv => lhs; rw [e1]
    rw [join_snoc _ hne14 _, List.append_assoc]
    rfl
  have hget0 : (fs.take 14).getD 0 [] = fs.getD 0 [] := by
    rw [List.getD_eq_getElem?_getD, List.getD_eq_getElem?_getD, List.getElem?_take_of_lt (by decide)]
  obtain ⟨r, hr⟩ : ∃ r, join (fs.take 14) = fs.getD 0 [] ++ r := by
    cases h : fs.take 14 with
    | nil => exact absurd h hne14
    | cons f gs => rw [h] at hget0; rw [← hget0]; exact join_head f gs
  have hlast14 : ';' ∉ fs.getD 14 [] := by
    rw [List.getD_eq_getElem?_getD, List.getElem?_eq_getElem (by omega), Option.getD_some]
    exact hsep _ (List.getElem_mem _)
  obtain ⟨y, hy, htrim⟩ : ∃ y, ';' ∉ y ∧ trim stored = join (fs.take 14) ++ [';'] ++ y := by
    have key : ∀ q, ';' ∉ q → ∃ y, ';' ∉ y ∧ trim (join (fs.take 14) ++ [';'] ++ q) = join (fs.take 14) ++ [';'] ++ y := by
      intro q hq
      refine ⟨rtrim q, fun h => hq ((rtrim_prefix q).subset h), ?_⟩
      have := trim_core [] (join (fs.take 14) ++ [';']) q (by simp) (by simp) (by
        intro c hc
        rw [hr, List.append_assoc] at hc
        exact hex_head hcp _ c hc) (by
        intro c hc
        rw [List.getLast?_concat] at hc
        injection hc with hc
        subst hc; rfl)
      rw [List.nil_append] at this
      exact this
    rcases hs with rfl | rfl
    · rw [e2]; exact key _ hlast14
    · rw [e2, List.append_assoc (join (fs.take 14) ++ [';'])]
      apply key
      intro h
      rcases List.mem_append.1 h with h | h
      · exact hlast14 h
      · simp at h
  have hsplit : splitFields (trim stored) = fs.take 14 ++ [y] := by
    have : trim stored = join (fs.take 14 ++ [y]) := by
      rw [htrim, join_snoc _ hne14 _, List.append_assoc]; rfl
    rw [this, splitFields_join _ (by simp)]
    intro f hf
    rcases List.mem_append.1 hf with hf | hf
    · exact hsep f (List.mem_of_mem_take hf)
    · simp at hf; rw [hf]; exact hy
  unfold mirroredLine
  rw [if_neg, hsplit]
  · have h9 : (fs.take 14 ++ [y])[9]? = some (fs.getD 9 []) := by
      rw [List.getElem?_append_left (by rw [List.length_take, hlen]; decide), List.getElem?_take_of_lt (by decide),
        List.getElem?_eq_getElem (by omega), List.getD_eq_getElem?_getD, List.getElem?_eq_getElem (by omega)]
      rfl
    have h0 : (fs.take 14 ++ [y]).getD 0 [] = fs.getD 0 [] := by
      rw [← hget0, List.getD_eq_getElem?_getD, List.getElem?_append_left (by rw [List.length_take, hlen]; decide),
        ← List.getD_eq_getElem?_getD]
    rw [h9, h0, hm, parseCodepoint_hex _ _ hcp (by omega)]
    cases e.2 with
    | false => rfl
    | true => rfl
  · rw [htrim, hr]
    obtain ⟨n1, -, f1⟩ := hexOf_facts _ _ hcp
    obtain ⟨x, xs, hx⟩ := List.exists_cons_of_ne_nil n1
    rw [hx]
    have := (f1 x (by rw [hx]; simp)).2.2.2.2.2.1
    simp [this]

theorem mirroredCps_eq {lines : List Str} {es : List (Nat × Bool)} (h : FileWith MirrorLine lines es) :
    mirroredCps lines = es.filterMap fun e => if e.2 then some e.1 else none := by
  unfold mirroredCps
  refine fileWith_filterMap (Line := MirrorLine) _ _ ?_ (fun line stored e h1 h2 => mirroredLine_eq h1 h2) h
  intro line stored h1 h2
  have := skipped_comment h1 h2
  unfold skipped at this
  unfold mirroredLine
  rw [if_pos (by simpa using this)]

/-- **C53, the table of mirrored codepoints** holds exactly the codepoints with a `Y` in field 9 of UnicodeData.txt, as intervals in ascending order
between any two of which a codepoint is missing, and no more of them than lines. -/
theorem C53_mirrored_intervals {F D U} (hl : Loads F D) (hd : Describes F U) (hn : (U.mirrored.map (·.1)).Nodup)
    (hne : ∃ c, (c, true) ∈ U.mirrored) :
    D.mirrored.Pairwise (fun x y => x.2 + 1 < y.1) ∧ (∀ x ∈ D.mirrored, x.1 ≤ x.2) ∧ D.mirrored ≠ []
    ∧ (∀ c, (∃ x ∈ D.mirrored, x.1 ≤ c ∧ c ≤ x.2) ↔ (c, true) ∈ U.mirrored) ∧ D.mirrored.length ≤ U.mirrored.length := by
  obtain ⟨cps, h1, h2⟩ := hl.mirrored
  rw [mirroredCps_eq hd.mirrored] at h1
  generalize hcs : (U.mirrored.filterMap fun e => if e.2 then some e.1 else none) = cs at h1
  have hmem : ∀ x, x ∈ cs ↔ (x, true) ∈ U.mirrored := by
    intro x
    rw [← hcs, List.mem_filterMap]
    constructor
    · rintro ⟨⟨y, b⟩, he, h⟩
      cases b with
      | false => simp at h
      | true => simp at h; subst h; exact he
    · intro h; exact ⟨_, h, rfl⟩
  have hnd : cs.Nodup := by
    rw [← hcs]
    have : ∀ es : List (Nat × Bool), (es.map (·.1)).Nodup → (es.filterMap fun e => if e.2 then some e.1 else none).Nodup := by
      intro es
      induction es with
      | nil => intro _; exact List.nodup_nil
      | cons e es ih =>
        intro hn
        rw [List.map_cons, List.nodup_cons] at hn
        rw [List.filterMap_cons]
        split
        · exact ih hn.2
        · rename_i a ha
          rw [List.nodup_cons]
          refine ⟨?_, ih hn.2⟩
          intro hin
          apply hn.1
          obtain ⟨e', he', ha'⟩ := List.mem_filterMap.1 hin
          have q1 : e.1 = a := by cases hb : e.2 <;> rw [hb] at ha <;> simp at ha; exact ha
          have q2 : e'.1 = a := by cases hb : e'.2 <;> rw [hb] at ha' <;> simp at ha'; exact ha'
          exact List.mem_map.2 ⟨e', he', by rw [q1, q2]⟩
    exact this _ hn
  have hlen : cps.length ≤ U.mirrored.length := by
    rw [h1.1.length_eq, ← hcs]; exact List.length_filterMap_le _ _
  have hstrict : cps.Pairwise (· < ·) := strict_of_sorted id h1 (by rw [List.map_id]; exact hnd)
  have hcm : ∀ x, x ∈ cps ↔ (x, true) ∈ U.mirrored := fun x => (h1.1.mem_iff).trans (hmem x)
  cases cps with
  | nil =>
    obtain ⟨x, hx⟩ := hne
    have := (hcm x).2 hx
    simp at this
  | cons a cps =>
    obtain ⟨i1, i2, i3, i4⟩ := compressFrom_spec cps a a (Nat.le_refl _) hstrict
    have hD : D.mirrored = compressFrom a a cps := h2
    rw [hD]
    have hiff : ∀ c, (∃ x ∈ compressFrom a a cps, x.1 ≤ c ∧ c ≤ x.2) ↔ (c, true) ∈ U.mirrored := by
      intro c
      rw [i3 c, ← hcm c, List.mem_cons]
      exact ⟨fun h => h.imp_left (by omega), fun h => h.imp_left (by omega)⟩
    refine ⟨i1, fun x hx => (i2 x hx).1, fun h => ?_, hiff, ?_⟩
    · obtain ⟨x, hx, -⟩ := (i3 a).2 (Or.inl ⟨Nat.le_refl _, Nat.le_refl _⟩)
      rw [h] at hx
      exact absurd hx List.not_mem_nil
    · rw [List.length_cons] at hlen; omega

/-- **C53, `is_mirrored`.** Yes exactly for the codepoints with a `Y` in field 9 of UnicodeData.txt. -/
theorem C53_is_mirrored {F D U} (hl : Loads F D) (hd : Describes F U) (hn : (U.mirrored.map (·.1)).Nodup)
    (hne : ∃ c, (c, true) ∈ U.mirrored) (hsize : U.mirrored.length < 2 ^ 64) (c : Nat) :
    ∃ b, apiMirrored D c = .ok b ∧ (b = true ↔ (c, true) ∈ U.mirrored) := by
  obtain ⟨i1, i2, i3, i4, i5⟩ := C53_mirrored_intervals hl hd hn hne
  obtain ⟨b, b1, b2⟩ := contains_exact (D.mirrored.map fun i => (i.1, i.2, []))
    (by unfold Ascending; rw [List.pairwise_map]; exact i1.imp fun {x y} h => show x.2 < y.1 by omega)
    (by
      intro x hx
      obtain ⟨i, hi, rfl⟩ := List.mem_map.1 hx
      exact i2 i hi)
    (by rw [ne_eq, List.map_eq_nil_iff]; exact i3)
    (by rw [List.length_map]; omega) c (D.mirrored.map fun i => (⟨i.1, i.2, ()⟩ : Verif.Tables.Entry Unit)) (by rw [List.map_map]; rfl)
  refine ⟨b, b1, ?_⟩
  rw [b2, ← i4 c]
  simp

theorem glyphEntries_eq {lines : List Str} {es : List (Nat × Nat)} (h : FileWith GlyphLine lines es) : glyphEntries lines = es := by
  unfold glyphEntries
  rw [fileWith_filterMap (Line := GlyphLine) _ (fun e : Nat × Nat => some e) ?_ ?_ h]
  · rw [List.filterMap_some]
  · intro line stored h1 h2
    rw [C48_skips _ _ (comment_noData h1) h2]; rfl
  · rintro line stored e ⟨v, h1, h2, h3, h4⟩ hs
    have hr : RangeLine line (e.1, e.1, v) := ⟨h1, Nat.le_refl _, h2⟩
    obtain ⟨q, q1, q2, q3, q4⟩ := parse_rangeLine hr hs
    rw [q1, Option.map_some, q2, q4, parseCodepoint_hex _ _ h3 (by omega)]

/-- **C53, `bidi_mirroring_glyph`.** The mirror image listed for the codepoint, or the codepoint itself. -/
theorem C53_bidi_mirroring_glyph {F D U} (hl : Loads F D) (hd : Describes F U) (hn : (U.glyphs.map (·.1)).Nodup) (c g : Nat) :
    apiGlyph D c = .ok g ↔ (c, g) ∈ U.glyphs ∨ (∀ g', (c, g') ∉ U.glyphs) ∧ g = c := by
  have h := hl.glyphs
  rw [glyphEntries_eq hd.glyphs] at h
  have hs : Sorted Prod.fst D.glyphs := strict_of_sorted Prod.fst h hn
  obtain ⟨r, r1, r2, r3⟩ := C36_lookup_exact D.glyphs Prod.fst hs c
  unfold apiGlyph
  rw [r1]
  have huniq : ∀ g g', (c, g) ∈ D.glyphs → (c, g') ∈ D.glyphs → g = g' := by
    intro g g' h1 h2
    have a := (r2 (c, g)).2 ⟨h1, rfl⟩
    have b := (r2 (c, g')).2 ⟨h2, rfl⟩
    rw [a] at b
    injection b with b
    injection b
  cases r with
  | none =>
    have hnone : ∀ g', (c, g') ∉ U.glyphs := fun g' hg => (r3.1 rfl) (c, g') (h.1.mem_iff.2 hg) rfl
    show Mem.ok c = Mem.ok g ↔ _
    constructor
    · intro e; injection e with e; exact Or.inr ⟨hnone, e.symm⟩
    · rintro (e | ⟨-, e⟩)
      · exact absurd e (hnone g)
      · rw [e]
  | some x =>
    obtain ⟨x1, x2⟩ := (r2 x).1 rfl
    have hx : x = (c, x.2) := by rw [← x2]
    rw [hx] at x1
    show Mem.ok x.2 = Mem.ok g ↔ _
    constructor
    · intro e; injection e with e; rw [← e]; exact Or.inl (h.1.mem_iff.1 x1)
    · rintro (e | ⟨e, -⟩)
      · rw [huniq _ _ x1 (h.1.mem_iff.2 e)]
      · exact absurd (h.1.mem_iff.1 x1) (e _)

/-! ## Emoji variation sequences -/

theorem evsLine_eq {line stored : Str} {b : Nat} (h : VariationLine line b) (hs : Stored line stored) : evsLine stored = some (some b) := by
  obtain ⟨hx, w, sel, rest, hh, hb, hw, hwne, hsel, rfl⟩ := h
  obtain ⟨n1, n2, f1⟩ := hexOf_facts _ _ hh
  obtain ⟨rest', hst⟩ : ∃ rest', stored = (hx ++ w ++ sel) ++ ';' :: rest' := by
    rcases hs with rfl | rfl
    · exact ⟨rest, rfl⟩
    · exact ⟨rest ++ ['\r'], by simp⟩
  have hno : ∀ c ∈ hx ++ w ++ sel, c ≠ ';' ∧ c ≠ '#' := by
    intro c hc
    rcases List.mem_append.1 hc with hc | hc
    · rcases List.mem_append.1 hc with hc | hc
      · have := f1 c hc; exact ⟨this.2.2.2.2.1, this.2.2.2.2.2.1⟩
      · rcases hw c hc with rfl | rfl <;> decide
    · exact hsel c hc
  have hsemi : ';' ∉ hx ++ w ++ sel := fun h => (hno _ h).1 rfl
  obtain ⟨r2, hr2⟩ : ∃ r2, eraseComment stored = (hx ++ w ++ sel) ++ ';' :: r2 := by
    unfold eraseComment
    by_cases hr : '#' ∈ rest'
    · obtain ⟨a, b', rfl, ha⟩ : ∃ a b', rest' = a ++ '#' :: b' ∧ '#' ∉ a := by
        have := List.append_of_mem hr
        clear hst
        induction rest' with
        | nil => simp at hr
        | cons x r ih =>
          by_cases hx : x = '#'
          · exact ⟨[], r, by rw [hx]; rfl, by simp⟩
          · have hr' : '#' ∈ r := by
              rcases List.mem_cons.1 hr with h | h
              · exact absurd h.symm hx
              · exact h
            obtain ⟨a, b', e, ha⟩ := ih hr' (List.append_of_mem hr')
            exact ⟨x :: a, b', by rw [e]; rfl, by simp [ha, Ne.symm hx]⟩
      refine ⟨a, ?_⟩
      have e : stored = (hx ++ w ++ sel ++ ';' :: a) ++ '#' :: b' := by rw [hst]; simp
      rw [e, cutAt_append]
      intro h
      rcases List.mem_append.1 h with h | h
      · exact (hno _ h).2 rfl
      · rcases List.mem_cons.1 h with h | h
        · exact absurd h (by decide)
        · exact ha h
    · refine ⟨rest', ?_⟩
      rw [cutAt_none]
      · exact hst
      · rw [hst]
        intro h
        rcases List.mem_append.1 h with h | h
        · exact (hno _ h).2 rfl
        · rcases List.mem_cons.1 h with h | h
          · exact absurd h (by decide)
          · exact hr h
  unfold evsLine
  rw [hr2, cutAt_append _ _ _ hsemi]
  simp only
  have ht : tokens (hx ++ w ++ sel) = hx :: tokensLoop (hx ++ w ++ sel).length (w ++ sel) := by
    unfold tokens
    rw [List.append_assoc hx]
    apply tokensLoop_step _ _ _ n1
    · intro c hc
      have := f1 c hc
      have hhex := this.1
      have hne : ∀ d : Char, isHex d = false → c ≠ d := by intro d hd e; rw [e, hd] at hhex; exact Bool.false_ne_true hhex
      simp [isSpace, hne ' ' (by decide), hne '\t' (by decide), hne '\n' (by decide), hne '\r' (by decide), hne '\x0b' (by decide),
        hne '\x0c' (by decide)]
    · intro c hc
      cases w with
      | nil => exact absurd rfl hwne
      | cons y w => simp at hc; subst hc; exact blank_space hw _ (by simp)
  rw [ht]
  simp only
  have htw : hx.takeWhile isHex = hx := by
    have := List.takeWhile_append_of_pos (l₂ := []) (fun c hc => (f1 c hc).1)
    simpa using this
  unfold stoulHex
  rw [htw, if_neg n1, n2, Nat.mod_eq_of_lt (by omega)]
  rfl

theorem evsLoop_eq {lines : List Str} {bs : List Nat} (h : FileWith VariationLine lines bs) : evsLoop lines = some bs := by
  induction h with
  | nil => rfl
  | @skip line stored lines es h1 h2 _ ih =>
    have : evsLine stored = some none := by
      unfold evsLine
      rcases h1 with ⟨t, rfl⟩ | h1
      · obtain ⟨t', rfl⟩ := (comment_head h2).1
        have : eraseComment ('#' :: t') = [] := by
          unfold eraseComment
          rw [show '#' :: t' = [] ++ '#' :: t' from rfl, cutAt_append _ _ _ (by simp)]
        rw [this]; rfl
      · have hno : ∀ c ∈ stored, c ≠ ';' ∧ c ≠ '#' := by
          intro c hc
          have : c = ' ' ∨ c = '\t' ∨ c = '\r' := by
            rcases h2 with rfl | rfl
            · rcases h1 c hc with h | h
              · exact Or.inl h
              · exact Or.inr (Or.inl h)
            · rcases List.mem_append.1 hc with hc | hc
              · rcases h1 c hc with h | h
                · exact Or.inl h
                · exact Or.inr (Or.inl h)
              · simp at hc; exact Or.inr (Or.inr hc)
          rcases this with rfl | rfl | rfl <;> decide
        unfold eraseComment
        rw [cutAt_none _ _ (fun h => (hno _ h).2 rfl)]
        simp only
        rw [cutAt_none _ _ (fun h => (hno _ h).1 rfl)]
    rw [evsLoop, this, ih]
  | data h1 h2 _ ih => rw [evsLoop, evsLine_eq h1 h2, ih]

theorem unique_spec (xs : List Nat) (h : xs.Pairwise (· ≤ ·)) : (unique xs).Pairwise (· < ·) ∧ ∀ x, x ∈ unique xs ↔ x ∈ xs := by
  induction xs with
  | nil => exact ⟨List.Pairwise.nil, fun x => Iff.rfl⟩
  | cons a xs ih =>
    cases xs with
    | nil => exact ⟨List.pairwise_singleton _ _, fun x => Iff.rfl⟩
    | cons b xs =>
      obtain ⟨h1, h2⟩ := List.pairwise_cons.1 h
      obtain ⟨i1, i2⟩ := ih h2
      rw [unique]
      split
      · rename_i e
        subst e
        exact ⟨i1, fun x => by rw [i2 x]; simp⟩
      · rename_i e
        refine ⟨?_, fun x => by rw [List.mem_cons, i2 x, List.mem_cons, List.mem_cons, List.mem_cons]⟩
        rw [List.pairwise_cons]
        refine ⟨fun y hy => ?_, i1⟩
        have hy' := (i2 y).1 hy
        have hab : a < b := by have := h1 b (by simp); omega
        rcases List.mem_cons.1 hy' with rfl | hy'
        · exact hab
        · have := (List.pairwise_cons.1 h2).1 y hy'
          omega

/-- **C53, emoji variation sequences.** The bases the generator knows are the bases in the file, each once, in ascending
order. -/
theorem C53_variation_bases {F D U} (hl : Loads F D) (hd : Describes F U) :
    D.evs.Pairwise (· < ·) ∧ ∀ c, c ∈ D.evs ↔ c ∈ U.evs := by
  obtain ⟨bs, bs', h1, h2, h3⟩ := hl.evs
  rw [evsLoop_eq hd.evs] at h1
  injection h1 with h1
  obtain ⟨u1, u2⟩ := unique_spec bs' h2.2
  rw [h3]
  exact ⟨u1, fun c => by rw [u2 c, h2.1.mem_iff, h1]⟩

end Verif.Props.Tg
