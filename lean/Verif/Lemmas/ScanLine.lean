import Verif.Lemmas.ScanExact
import Verif.Spec.ScanLine
/-!
# What the scanner does with every text without control characters, whatever the limit
-/

namespace Verif.Scan
open Verif.Ucd Verif.Utf8 Verif.Grapheme Verif.Width Verif.Props Verif.Props.Scan Verif.Spec.GB Verif.Spec Verif.Spec.Line

/-! ## Glyphs -/

/-- The glyphs of an open character: `bf` has been placed. -/
def opened (bf cl : List Nat) : List Glyph := if cl = [] then [] else [⟨bf, cl⟩]

/-- The glyphs behind `bf`. -/
def glyphsFrom (bf : List Nat) (X : List (List Nat)) : List Glyph :=
  match bf with
  | [] => glyphs X
  | _ => (glyphs X).tail

/-- The open character. -/
def OpenOk (bf cl : List Nat) : Prop := (bf = [] ∧ ∃ a t, cl = a :: t ∧ 0x80 ≤ a) ∨ ∃ x, bf = [x] ∧ x < 0x80

theorem glyphsFrom_cons {bf cl : List Nat} (h : OpenOk bf cl) (rest : List (List Nat)) :
    glyphsFrom bf ((bf ++ cl) :: rest) = opened bf cl ++ glyphs rest := by
  rcases h with ⟨rfl, a, t, rfl, ha⟩ | ⟨x, rfl, hx⟩
  · show glyphs ((a :: t) :: rest) = _
    rw [glyphs, if_neg (by omega)]
    unfold opened
    rw [if_neg (by simp)]
    rfl
  · show (glyphs ((x :: cl) :: rest)).tail = _
    rw [glyphs, if_pos hx]
    unfold opened
    split <;> rfl

theorem OpenOk.snoc {bf cl : List Nat} (h : OpenOk bf cl) (t : List Nat) : OpenOk bf (cl ++ t) := by
  rcases h with ⟨rfl, a, t', rfl, ha⟩ | h
  · exact .inl ⟨rfl, a, t' ++ t, rfl, ha⟩
  · exact .inr h

theorem opened_text (bf cl : List Nat) : (opened bf cl).flatMap (·.text) = cl := by
  unfold opened
  split
  · rename_i h; rw [h]; rfl
  · simp

/-- What the receiver is told of a glyph. -/
def say (U : Table) (x : Glyph) : List Nat × Nat := (toUtf8Str x.text, x.columns (accWidth U))

theorem places_trans {wd : List Nat → Nat} {max n : Nat} {f : Bool} {xs : List Glyph} {m : Nat} {f' : Bool} (h : Places wd max n f xs m f') :
    ∀ {ys k f''}, Places wd max m f' ys k f'' → Places wd max n f (xs ++ ys) k f'' := by
  induction h with
  | nil => exact fun h => h
  | cons h1 _ ih => exact fun h => .cons h1 (ih h)

theorem places_le {wd : List Nat → Nat} {max n : Nat} {f : Bool} {xs : List Glyph} {m : Nat} {f' : Bool} (h : Places wd max n f xs m f') :
    (∀ x ∈ xs, x.text ≠ []) → n ≤ max → m ≤ max := by
  induction h with
  | nil => exact fun _ h => h
  | cons h1 _ ih =>
    intro h _
    refine ih (fun y hy => h y (List.mem_cons_of_mem _ hy)) ?_
    exact h1.2 _ (h _ (List.mem_cons_self ..)) (List.prefix_refl _)

theorem split_head' (U : Table) (cs : List Nat) : ∀ (g : GState) (cl : List Nat), ∃ t rest, scanSplit U g cl cs = (cl ++ t) :: rest := by
  induction cs with
  | nil => intro g cl; exact ⟨[], [], by simp [scanSplit]⟩
  | cons c cs ih =>
    intro g cl
    rw [scanSplit]
    split
    · exact ⟨[], _, by simp; rfl⟩
    · split
      · exact ⟨[], _, by simp; rfl⟩
      · obtain ⟨t, rest, h⟩ := ih (processBreakable U c g).1 (cl ++ [c])
        exact ⟨c :: t, rest, by rw [h]; simp⟩

/-! ## A pass over text that is not ASCII -/

/-- Why a pass ends. -/
def LineEnds (U : Table) (max m : Nat) (rs : List Nat) (back : List Glyph) : Prop :=
  (rs = [] ∧ back = []) ∨ (∃ y q, rs = y :: q ∧ y < 0x80 ∧ back = glyphs (splitText U rs)) ∨
  (∃ y t, rs = y :: t ∧ 0x80 ≤ y) ∧ ∃ x xs, back = x :: xs ∧ ∀ f, ¬ Fits (accWidth U) max m f x

/-- What a pass has done. -/
structure PassLine (U : Table) (T : List Nat) (max n : Nat) (f : Bool) (P txt : List Nat) (ev : List (List Nat × Nat)) (X : List Glyph) (M : Loop)
    (front back : List Glyph) (m : Nat) (f' : Bool) (rs : List Nat) : Prop where
  split : X = front ++ back
  placed : Places (accWidth U) max n f front m f'
  count : M.count = m
  text : txt = front.flatMap (·.text) ++ rs
  input : M.input = P.length + (toUtf8Str (front.flatMap (·.text))).length
  resultEnd : M.resultEnd = M.input
  events : (flush T M.input M).events.flatMap told = ev ++ front.map (say U)
  idle : M.st.utf8.expectedLength = 0
  ends : LineEnds U max m rs back

/-- Handing over the open character, if there is something of it in this pass. -/
theorem flush_opened (U : Table) (T P bf cl rest : List Nat) (hT : T = P ++ (toUtf8Str cl ++ rest)) (L : Loop) (e : Nat)
    (hs : L.clusterStart = P.length) (he : e = P.length + (toUtf8Str cl).length) (hr : L.st.reported = accWidth U (bf ++ cl)) :
    (flush T e L).events.flatMap told = L.events.flatMap told ++ (opened bf cl).map (say U) := by
  unfold flush opened
  by_cases hcl : cl = []
  · subst hcl
    rw [str_nil] at he
    simp only [List.length_nil, Nat.add_zero] at he
    simp only
    rw [if_neg (by omega)]
    simp
  · have hp := str_pos cl hcl
    simp only
    rw [if_pos (by omega), if_neg hcl, List.flatMap_append]
    congr 1
    have hsl : (T.drop L.clusterStart).take (e - L.clusterStart) = toUtf8Str cl := by
      rw [hT, hs, List.drop_left, he, Nat.add_sub_cancel_left, List.take_left]
    simp only [hsl, hr, say, Glyph.columns, List.map_cons, List.map_nil, told, List.flatMap_cons, List.flatMap_nil, List.append_nil]

theorem places_opened {wd : List Nat → Nat} {max n : Nat} {f : Bool} (hf : f = true → n < max) {bf cl : List Nat} (hcl : ∀ c ∈ cl, 0x80 ≤ c)
    (h : ∀ q, q ≠ [] → q <+: cl → n + (wd (bf ++ q) - wd bf) ≤ max) :
    ∃ f', (f' = true → n + (wd (bf ++ cl) - wd bf) < max) ∧ Places wd max n f (opened bf cl) (n + (wd (bf ++ cl) - wd bf)) f' := by
  unfold opened
  split
  · rename_i e
    subst e
    rw [List.append_nil, Nat.sub_self]
    exact ⟨f, hf, .nil _ _⟩
  · rename_i hne
    refine ⟨false, (fun h => by cases h), .cons ⟨hf, h⟩ ?_⟩
    have : (Glyph.mk bf cl).ascii = false := by
      obtain ⟨a, t, rfl⟩ := List.exists_cons_of_ne_nil hne
      have := hcl a (by simp)
      unfold Glyph.ascii
      rw [List.all_cons, decide_eq_false (by omega)]
      rfl
    rw [this]
    exact .nil _ _

/-- What may follow the text: nothing, or a control character. -/
def EndsLine (tail : List Nat) : Prop := tail = [] ∨ ∃ b t, tail = b :: t ∧ (b < 0x20 ∨ 0x80 ≤ b ∧ b ≤ 0x9F)

theorem EndsLine.loop {tail : List Nat} (h : EndsLine tail) (U : Table) (T : List Nat) (max : Nat) (L : Loop) (hm : L.count ≤ max)
    (hid : L.st.utf8.expectedLength = 0) : loop U T max tail L = L ∨ loop U T max tail L = atControl U T L := by
  rcases h with rfl | ⟨b, t, rfl, hb⟩
  · exact .inl rfl
  · right
    show (match step U T max b L with | .stop L' => L' | .go L' => Verif.Scan.loop U T max t L') = _
    have : step U T max b L = .stop (atControl U T L) := by
      unfold step
      have hc : (isControl b || !isComplex b || (L.st.utf8.expectedLength == 0 && isC1 b)) = true := by
        rw [hid]
        unfold isControl isC1
        rcases hb with hb | ⟨h1, h2⟩
        · rw [decide_eq_true hb]; rfl
        · rw [decide_eq_true h1, decide_eq_true h2]; simp
      rw [if_neg (by omega), if_pos hc]
    rw [this]

theorem atControl_idle (U : Table) (T : List Nat) (L : Loop) (hid : L.st.utf8.expectedLength = 0) :
    (atControl U T L).events = (flush T L.input L).events ∧ (atControl U T L).count = L.count ∧
      (atControl U T L).input = L.input ∧ (atControl U T L).clusterStart = L.input ∧ (atControl U T L).resultEnd = L.input ∧
      (atControl U T L).st.utf8.expectedLength = 0 := by
  unfold atControl
  simp only [hid, ne_eq, not_true_eq_false, if_false]
  exact ⟨trivial, trivial, rfl, rfl, trivial, trivial⟩

theorem line_loop {U : Table} (D : DataOk U) (V : VariationOk U) (T : List Nat) (max : Nat) (tail : List Nat) (htl : EndsLine tail) (cs : List Nat) :
    ∀ (L : Loop) (bf cl P : List Nat) (n : Nat) (f : Bool), T = P ++ (toUtf8Str cl ++ (toUtf8Str cs ++ tail)) → L.clusterStart = P.length →
      L.input = P.length + (toUtf8Str cl).length → OpenOk bf cl → (∀ c ∈ cl, 0x80 ≤ c) →
      L.st.utf8.expectedLength = 0 → L.st.hint ≠ 0 → L.st.acc = (bf ++ cl).foldl (push U) {} →
      L.st.reported = L.st.acc.width → L.st.reported = accWidth U bf + L.countedHere → L.count = n + L.countedHere → L.count ≤ max →
      (bf = [] ∨ accWidth U bf = 1 ∧ AH U L.st.acc ∧ AG L.st.g) → (f = true → n < max) →
      (∀ q, q ≠ [] → q <+: cl → n + (accWidth U (bf ++ q) - accWidth U bf) ≤ max) →
      L.byteCount = 0 → L.resultEnd = L.input → Scannable cs →
      ∃ front back m f' rs, PassLine U T max n f P (cl ++ cs) (L.events.flatMap told) (glyphsFrom bf (scanSplit U L.st.g (bf ++ cl) cs))
        (loop U T max (toUtf8Str cs ++ tail) L) front back m f' rs := by
  have w0 : accWidth U [] = 0 := rfl
  induction cs with
  | nil =>
    intro L bf cl P n f hT hst hin hok hhigh hid hh hacc hrep hb hcnt hmax hbase hf hfit hbc hre _
    have hw : accWidth U (bf ++ cl) = L.st.reported := by rw [hrep, hacc]; rfl
    obtain ⟨f', -, hp⟩ := places_opened hf hhigh hfit
    have hX : glyphsFrom bf (scanSplit U L.st.g (bf ++ cl) []) = opened bf cl ++ [] := by rw [scanSplit, glyphsFrom_cons hok]; rfl
    rw [str_nil, List.nil_append]
    rcases htl.loop U T max L hmax hid with hlp | hlp
    · rw [hlp]
      refine ⟨opened bf cl, [], _, f', [], hX, hp, ?_, ?_, ?_, hre, ?_, hid, .inl ⟨rfl, rfl⟩⟩
      · show L.count = _; omega
      · rw [opened_text]
      · rw [opened_text]; exact hin
      · exact flush_opened U T P bf cl _ hT L _ hst hin hw.symm
    · rw [hlp]
      obtain ⟨e1, e2, e3, e4, e5, e6⟩ := atControl_idle U T L hid
      refine ⟨opened bf cl, [], _, f', [], hX, hp, ?_, ?_, ?_, by rw [e5, e3], ?_, e6, .inl ⟨rfl, rfl⟩⟩
      · rw [e2]; omega
      · rw [opened_text]
      · rw [opened_text, e3]; exact hin
      · have : (flush T (atControl U T L).input (atControl U T L)).events = (atControl U T L).events := by
          unfold flush
          simp only [e3, e4, gt_iff_lt, Nat.lt_irrefl, if_false]
        rw [this, e1]; exact flush_opened U T P bf cl _ hT L _ hst hin hw.symm
  | cons c cs ih =>
    intro L bf cl P n f hT hst hin hok hhigh hid hh hacc hrep hb hcnt hmax hbase hf hfit hbc hre hsc
    have hw : accWidth U (bf ++ cl) = L.st.reported := by rw [hrep, hacc]; rfl
    obtain ⟨hlo, hdel, hhi⟩ := hsc c (by simp)
    have hsc' : Scannable cs := fun x hx => hsc x (by simp [hx])
    obtain ⟨f', hff, hp⟩ := places_opened hf hhigh hfit
    have hm : n + (accWidth U (bf ++ cl) - accWidth U bf) = L.count := by omega
    rw [hm] at hp hff
    by_cases hlt : c < 0x80
    · have hcx : isComplex c = false := by
        cases h : isComplex c with
        | false => rfl
        | true => have := (isComplex_iff c (by omega)).1 h; omega
      have hlp : loop U T max (toUtf8Str (c :: cs) ++ tail) L = atControl U T L := by
        rw [str_cons, toUtf8_low c hlt]
        show (match step U T max c L with | .stop L' => L' | .go L' => loop U T max _ L') = _
        have : step U T max c L = .stop (atControl U T L) := by
          unfold step
          rw [if_neg (by omega), if_pos (by rw [hcx]; simp)]
        rw [this]
      rw [hlp]
      obtain ⟨e1, e2, e3, e4, e5, e6⟩ := atControl_idle U T L hid
      refine ⟨opened bf cl, glyphs (splitText U (c :: cs)), _, f', c :: cs, ?_, hp, e2, ?_, ?_, by rw [e5, e3], ?_, e6, .inr (.inl ⟨c, cs, rfl, hlt, rfl⟩)⟩
      · rw [scanSplit, if_pos hlt, glyphsFrom_cons hok]; rfl
      · rw [opened_text]
      · rw [opened_text, e3]; exact hin
      · have : (flush T (atControl U T L).input (atControl U T L)).events = (atControl U T L).events := by
          unfold flush
          simp only [e3, e4, gt_iff_lt, Nat.lt_irrefl, if_false]
        rw [this, e1]; exact flush_opened U T P bf cl _ hT L _ hst hin hw.symm
    · obtain ⟨u, hu, hlp⟩ := loop_char U T max c (by omega) hhi (toUtf8Str cs ++ tail) L hmax hid hbc
      rw [str_cons, List.append_assoc, hlp]
      have hbk : isBreakable U (within L u (toUtf8 c).length).st c = processBreakable U c L.st.g := by
        show (if L.st.hint = 0 then (processInit U c, true) else processBreakable U c L.st.g) = _
        rw [if_neg hh]
      have hsub : (within L u (toUtf8 c).length).input - (within L u (toUtf8 c).length).byteCount = L.input := Nat.add_sub_cancel ..
      have hon : onSuccess U T max c (within L u (toUtf8 c).length) =
          if (processBreakable U c L.st.g).2 then
            openCluster U T max L.input c
              { L with st := { L.st with utf8 := u, hint := c, g := (processBreakable U c L.st.g).1 }, input := L.input + (toUtf8 c).length, byteCount := 0 }
          else joinCluster U max c
              { L with st := { L.st with utf8 := u, hint := c, g := (processBreakable U c L.st.g).1 }, input := L.input + (toUtf8 c).length, byteCount := 0 } := by
        unfold onSuccess
        simp only [hbk, hsub]
        rfl
      rw [hon]
      cases hv : (processBreakable U c L.st.g).2 with
      | true =>
        rw [if_pos rfl]
        have hX : glyphsFrom bf (scanSplit U L.st.g (bf ++ cl) (c :: cs)) = opened bf cl ++ glyphs (scanSplit U (processBreakable U c L.st.g).1 [c] cs) := by
          rw [scanSplit, if_neg hlt, if_pos hv, glyphsFrom_cons hok]
        have hnew : OpenOk [] [c] := .inl ⟨rfl, c, [], rfl, by omega⟩
        by_cases hov : L.count + (push U {} c).width > max
        · have hopen : openCluster U T max L.input c
              { L with st := { L.st with utf8 := u, hint := c, g := (processBreakable U c L.st.g).1 }, input := L.input + (toUtf8 c).length, byteCount := 0 } =
              .stop { L with st := { L.st with utf8 := u, hint := c, g := (processBreakable U c L.st.g).1 }, byteCount := 0 } := by
            unfold openCluster
            simp only
            rw [if_pos hov]
          rw [hopen]
          simp only
          obtain ⟨t, rest, ht⟩ := split_head' U cs (processBreakable U c L.st.g).1 [c]
          refine ⟨opened bf cl, _, _, f', c :: cs, hX, hp, rfl, ?_, ?_, hre, ?_, hu, .inr (.inr ⟨⟨c, cs, rfl, by omega⟩, ?_⟩)⟩
          · rw [opened_text]
          · rw [opened_text]; exact hin
          · exact flush_opened U T P bf cl _ hT { L with st := { L.st with utf8 := u, hint := c, g := (processBreakable U c L.st.g).1 }, byteCount := 0 } _ hst hin hw.symm
          · have e := glyphsFrom_cons (bf := []) (hnew.snoc t) rest
            rw [List.nil_append] at e
            have e' : glyphs (scanSplit U (processBreakable U c L.st.g).1 [c] cs) = ⟨[], [c] ++ t⟩ :: glyphs rest := by
              rw [ht]
              exact e.trans rfl
            refine ⟨_, _, e', fun f hF => ?_⟩
            have := hF.2 [c] (by simp) (List.prefix_append _ _)
            have e2 : accWidth U ([] ++ [c]) = (push U {} c).width := rfl
            rw [e2, w0] at this
            omega
        · unfold openCluster
          simp only
          rw [if_neg hov]
          simp only
          have key := ih
            { flush T L.input { L with st := { L.st with utf8 := u, hint := c, g := (processBreakable U c L.st.g).1 }, input := L.input + (toUtf8 c).length, byteCount := 0 } with
              count := L.count + (push U {} c).width, countedHere := (push U {} c).width,
              st := { utf8 := u, hint := c, g := (processBreakable U c L.st.g).1, acc := push U {} c, reported := (push U {} c).width }, resultEnd := ((L.input + (toUtf8 c).length : Nat) : Int) }
            [] [c] (P ++ toUtf8Str cl) L.count f'
            (by rw [hT, str_cons, str_cons, str_nil, List.append_nil, List.append_assoc, List.append_assoc])
            (by show L.input = _; rw [List.length_append]; exact hin)
            (by show L.input + (toUtf8 c).length = _; rw [hin, List.length_append, str_cons, str_nil, List.append_nil])
            hnew (by simp; omega) hu (by show c ≠ 0; omega) rfl rfl (by show _ = accWidth U [] + _; rw [w0, Nat.zero_add]) rfl (by show L.count + _ ≤ max; omega) (.inl rfl)
            hff
            (by
              intro q hq hpre
              have : q = [c] := by
                have h1 := hpre.length_le
                have h2 := List.length_pos_iff.2 hq
                exact hpre.eq_of_length (by simp at h1 ⊢; omega)
              subst this
              have e2 : accWidth U ([] ++ [c]) = (push U {} c).width := rfl
              rw [e2, w0]
              omega)
            rfl rfl hsc'
          obtain ⟨front, back, m, f'', rs, h⟩ := key
          refine ⟨opened bf cl ++ front, back, m, f'', rs, ?_, places_trans hp h.placed, h.count, ?_, ?_, h.resultEnd, ?_, h.idle, h.ends⟩
          · rw [hX, List.append_assoc]
            exact congrArg _ h.split
          · have e := h.text
            rw [List.flatMap_append, opened_text, List.append_assoc, ← e]
            rfl
          · have e := h.input
            rw [List.flatMap_append, opened_text, str_append, List.length_append]
            rw [List.length_append] at e
            have h2 : ∀ a b c d : Nat, a = b + c + d → a = b + (c + d) := by intros; omega
            exact h2 _ _ _ _ e
          · have e := h.events
            refine e.trans ?_
            rw [List.map_append, ← List.append_assoc]
            congr 1
            exact flush_opened U T P bf cl _ hT { L with st := { L.st with utf8 := u, hint := c, g := (processBreakable U c L.st.g).1 }, input := L.input + (toUtf8 c).length, byteCount := 0 } _ hst hin hw.symm
      | false =>
        rw [if_neg (by simp)]
        have hX : glyphsFrom bf (scanSplit U L.st.g (bf ++ cl) (c :: cs)) = glyphsFrom bf (scanSplit U (processBreakable U c L.st.g).1 (bf ++ (cl ++ [c])) cs) := by
          rw [scanSplit, if_neg hlt, if_neg (by rw [hv]; simp), List.append_assoc]
        have hok' : OpenOk bf (cl ++ [c]) := hok.snoc [c]
        have hbase' : bf = [] ∨ accWidth U bf = 1 ∧ AH U (push U L.st.acc c) ∧ AG (processBreakable U c L.st.g).1 := by
          rcases hbase with h | ⟨h, h1, h2⟩
          · exact .inl h
          · obtain ⟨j1, j2⟩ := h2.join D V c (by omega) hv
            exact .inr ⟨h, h1.push V c j1, j2⟩
        have hge : accWidth U bf ≤ (push U L.st.acc c).width := by
          rcases hbase' with h | ⟨h, h1, -⟩
          · rw [h, w0]; exact Nat.zero_le _
          · rw [h]; exact h1.width
        have hpush : accWidth U (bf ++ (cl ++ [c])) = (push U L.st.acc c).width := by
          rw [hacc, ← List.append_assoc]
          unfold accWidth
          rw [List.foldl_append]
          rfl
        by_cases hov : n + ((push U L.st.acc c).width - accWidth U bf) > max
        · have hj : joinCluster U max c
              { L with st := { L.st with utf8 := u, hint := c, g := (processBreakable U c L.st.g).1 }, input := L.input + (toUtf8 c).length, byteCount := 0 } =
              .stop { L with count := L.count - L.countedHere, input := L.clusterStart, byteCount := 0, resultEnd := L.clusterStart,
                             st := { utf8 := u, hint := c, g := (processBreakable U c L.st.g).1, acc := {}, reported := 0 } } := by
            unfold joinCluster
            simp only
            rw [if_pos (by omega), if_pos (by omega)]
          rw [hj]
          simp only
          obtain ⟨t, rest, ht⟩ := split_head' U cs (processBreakable U c L.st.g).1 (bf ++ (cl ++ [c]))
          refine ⟨[], _, n, f, cl ++ c :: cs, rfl, .nil _ _, ?_, rfl, ?_, rfl, ?_, hu, .inr (.inr ⟨?_, ?_⟩)⟩
          · show L.count - L.countedHere = n; omega
          · show L.clusterStart = _
            rw [hst]
            show _ = _ + (toUtf8Str []).length
            rw [str_nil]; rfl
          · show (flush T L.clusterStart _).events.flatMap told = _
            unfold flush
            simp only [gt_iff_lt, Nat.lt_irrefl, if_false, List.map_nil, List.append_nil]
          · cases cl with
            | nil => exact ⟨c, cs, rfl, by omega⟩
            | cons a t => exact ⟨a, _, rfl, hhigh a (by simp)⟩
          · have e := glyphsFrom_cons (hok'.snoc t) rest
            have e' : glyphsFrom bf (scanSplit U L.st.g (bf ++ cl) (c :: cs)) = ⟨bf, cl ++ [c] ++ t⟩ :: glyphs rest := by
              rw [hX, ht, List.append_assoc, e]
              unfold opened
              rw [if_neg (by simp)]
              rfl
            refine ⟨_, _, e', fun f hF => ?_⟩
            have := hF.2 (cl ++ [c]) (by simp) (List.prefix_append _ _)
            have this' : n + (accWidth U (bf ++ (cl ++ [c])) - accWidth U bf) ≤ max := this
            rw [hpush] at this'
            omega
        · obtain ⟨n', k, hn, hnk, hj⟩ : ∃ n' k : Nat, (push U L.st.acc c).width = accWidth U bf + k ∧ n' = n + k ∧
              joinCluster U max c
                { L with st := { L.st with utf8 := u, hint := c, g := (processBreakable U c L.st.g).1 }, input := L.input + (toUtf8 c).length, byteCount := 0 } =
              .go { L with count := n', countedHere := k, input := L.input + (toUtf8 c).length, byteCount := 0,
                           st := { utf8 := u, hint := c, g := (processBreakable U c L.st.g).1, acc := push U L.st.acc c, reported := (push U L.st.acc c).width },
                           resultEnd := ((L.input + (toUtf8 c).length : Nat) : Int) } := by
            unfold joinCluster
            simp only
            by_cases hup : (push U L.st.acc c).width ≥ L.st.reported
            · rw [if_pos hup, if_neg (by omega)]
              exact ⟨_, _, by omega, by omega, rfl⟩
            · rw [if_neg hup]
              exact ⟨_, _, by omega, by omega, rfl⟩
          rw [hj]
          simp only
          obtain ⟨front, back, m, f'', rs, h⟩ := ih
            { L with count := n', countedHere := k, input := L.input + (toUtf8 c).length, byteCount := 0,
                     st := { utf8 := u, hint := c, g := (processBreakable U c L.st.g).1, acc := push U L.st.acc c, reported := (push U L.st.acc c).width },
                     resultEnd := ((L.input + (toUtf8 c).length : Nat) : Int) }
            bf (cl ++ [c]) P n f
            (by rw [hT, str_append, str_cons, str_cons, str_nil, List.append_nil, List.append_assoc, List.append_assoc])
            hst (by show L.input + _ = _; rw [hin, str_append, List.length_append, str_cons, str_nil, List.append_nil, Nat.add_assoc]) hok'
            (by
              intro x hx
              rcases List.mem_append.1 hx with hx | hx
              · exact hhigh x hx
              · rw [List.mem_singleton.1 hx]; omega)
            hu (by show c ≠ 0; omega) (by show push U L.st.acc c = _; rw [hacc, ← List.append_assoc, List.foldl_append (l := bf ++ cl)]; rfl) rfl hn hnk
            (by show n' ≤ max; omega) hbase' hf
            (by
              intro q hq hpre
              rcases List.prefix_concat_iff.1 hpre with h | h
              · rw [h, hpush]; omega
              · exact hfit q hq h)
            rfl rfl hsc'
          refine ⟨front, back, m, f'', rs, hX.trans h.split, h.placed, h.count, ?_, h.input, h.resultEnd, h.events, h.idle, h.ends⟩
          have e := h.text
          rw [List.append_assoc] at e
          exact e

/-- A pass from the beginning of a text that is not ASCII. -/
theorem line_pass {U : Table} (D : DataOk U) (W : WidthOk U) (A : AsciiOk U) (V : VariationOk U) (c : Nat) (cs : List Nat) (hc : 0x80 ≤ c)
    (hsc : Scannable (c :: cs)) (tail : List Nat) (htl : EndsLine tail) (st : State) (hid : st.utf8.expectedLength = 0) (max : Nat) (hmax : 0 < max) (X : List Glyph)
    (hst : (st.hint = 0 ∧ X = glyphs (splitText U (c :: cs))) ∨
      ∃ x st0, 0x20 ≤ x ∧ x < 0x7F ∧ st = seed U st0 x ∧ X = glyphsFrom [x] (scanSplit U (processInit U x) [x] (c :: cs))) :
    ∃ M front back m f rs, scanNonAscii U st (toUtf8Str (c :: cs) ++ tail) max = flush (toUtf8Str (c :: cs) ++ tail) M.input M ∧
      PassLine U (toUtf8Str (c :: cs) ++ tail) max 0 true [] (c :: cs) [] X M front back m f rs := by
  have w0 : accWidth U [] = 0 := rfl
  have hhi := (hsc c (by simp)).2.2
  have hr : resultStart st = 0 := by unfold resultStart; rw [if_neg (by simpa using hid)]
  refine ⟨loop U (toUtf8Str (c :: cs) ++ tail) max (toUtf8Str (c :: cs) ++ tail) { st := st, resultEnd := 0 }, ?_⟩
  have hsn : scanNonAscii U st (toUtf8Str (c :: cs) ++ tail) max =
      flush (toUtf8Str (c :: cs) ++ tail) (loop U (toUtf8Str (c :: cs) ++ tail) max (toUtf8Str (c :: cs) ++ tail) { st := st, resultEnd := 0 }).input
        (loop U (toUtf8Str (c :: cs) ++ tail) max (toUtf8Str (c :: cs) ++ tail) { st := st, resultEnd := 0 }) := by
    unfold scanNonAscii
    rw [hr]
  rw [hsn]
  rcases hst with ⟨h0, rfl⟩ | ⟨x, st0, x1, x2, hseed, rfl⟩
  · have hbr : isBreakable U st c = (processInit U c, true) := by unfold isBreakable; rw [if_pos h0]
    obtain ⟨u, hu, hlp⟩ := loop_char U (toUtf8Str (c :: cs) ++ tail) max c hc hhi (toUtf8Str cs ++ tail) { st := st, resultEnd := 0 } (Nat.zero_le _) hid rfl
    have hsplit : toUtf8Str (c :: cs) ++ tail = toUtf8 c ++ (toUtf8Str cs ++ tail) := by rw [str_cons, List.append_assoc]
    rw [← hsplit] at hlp
    rw [hlp]
    have hop : within { st := st, resultEnd := 0 } u (toUtf8 c).length = opening st u (toUtf8 c).length 0 := by
      unfold within opening
      simp only [Nat.zero_add]
    have hnew : OpenOk [] [c] := .inl ⟨rfl, c, [], rfl, hc⟩
    by_cases hov : (push U {} c).width > max
    · rw [hop, onSuccess_opening U _ max c st u _ (by rw [hbr]), if_pos hov]
      simp only
      obtain ⟨t, rest, ht⟩ := split_head' U cs (processInit U c) [c]
      refine ⟨[], glyphs (splitText U (c :: cs)), 0, true, c :: cs, trivial, rfl, .nil _ _, rfl, rfl, ?_, rfl, ?_, hu, .inr (.inr ⟨⟨c, cs, rfl, hc⟩, ?_⟩)⟩
      · show 0 = _ + (toUtf8Str []).length; rw [str_nil]; rfl
      · unfold flush
        simp
      · have e := glyphsFrom_cons (bf := []) (hnew.snoc t) rest
        rw [List.nil_append] at e
        have e' : glyphs (splitText U (c :: cs)) = ⟨[], [c] ++ t⟩ :: glyphs rest := by
          show glyphs (scanSplit U (processInit U c) [c] cs) = _
          rw [ht]
          exact e.trans rfl
        refine ⟨_, _, e', fun f hF => ?_⟩
        have := hF.2 [c] (by simp) (List.prefix_append _ _)
        have e2 : accWidth U ([] ++ [c]) = (push U {} c).width := rfl
        rw [e2, w0] at this
        omega
    · rw [hop, onSuccess_opening U _ max c st u _ (by rw [hbr]), if_neg hov, hbr]
      simp only
      obtain ⟨front, back, m, f, rs, h⟩ := line_loop D V (toUtf8Str (c :: cs) ++ tail) max tail htl cs
        { st := ⟨u, c, processInit U c, push U {} c, (push U {} c).width⟩, count := (push U {} c).width, input := (toUtf8 c).length,
          countedHere := (push U {} c).width, resultEnd := (toUtf8 c).length } [] [c] [] 0 true
        (by rw [str_cons, str_cons, str_nil, List.append_nil, List.append_assoc]; rfl) rfl
        (by show (toUtf8 c).length = _; rw [str_cons, str_nil, List.append_nil]; simp) hnew (by simp; omega) hu (show c ≠ 0 by omega) rfl rfl
        (by show _ = accWidth U [] + _; rw [w0, Nat.zero_add]) (Nat.zero_add _).symm (by show (push U {} c).width ≤ max; omega) (.inl rfl) (fun _ => hmax)
        (by
          intro q hq hpre
          have : q = [c] := by
            have h1 := hpre.length_le
            have h2 := List.length_pos_iff.2 hq
            exact hpre.eq_of_length (by simp at h1 ⊢; omega)
          subst this
          have e2 : accWidth U ([] ++ [c]) = (push U {} c).width := rfl
          rw [e2, w0]
          omega)
        rfl rfl (fun y hy => hsc y (List.mem_cons_of_mem _ hy))
      exact ⟨front, back, m, f, rs, trivial, h⟩
  · subst hseed
    have hw : (push U {} x).width = 1 := push_ascii_width W A x x1 x2
    obtain ⟨front, back, m, f, rs, h⟩ := line_loop D V (toUtf8Str (c :: cs) ++ tail) max tail htl (c :: cs)
      { st := seed U st0 x, resultEnd := 0 } [x] [] [] 0 true (by rw [str_nil]; rfl) rfl (by rw [str_nil]; rfl)
      (.inr ⟨x, rfl, by omega⟩) (by simp) hid (show x ≠ 0 by omega) rfl hw.symm hw.symm
      rfl (Nat.zero_le _) (.inr ⟨hw, AH.init A x x1 x2, AG.init D A x x1 x2⟩) (fun _ => hmax)
      (by intro q hq hpre; exact absurd (List.prefix_nil.1 hpre) hq) rfl rfl hsc
    exact ⟨front, back, m, f, rs, rfl, h⟩

/-! ## The passes -/

theorem fits_shift {wd : List Nat → Nat} {max r n : Nat} {f : Bool} {x : Glyph} (hr : r ≤ max) :
    Fits wd (max - r) n f x ↔ Fits wd max (r + n) f x := by
  constructor
  · rintro ⟨h1, h2⟩
    exact ⟨fun h => by have := h1 h; omega, fun q hq hp => by have := h2 q hq hp; omega⟩
  · rintro ⟨h1, h2⟩
    exact ⟨fun h => by have := h1 h; omega, fun q hq hp => by have := h2 q hq hp; omega⟩

theorem places_shift {wd : List Nat → Nat} {max r n : Nat} {f : Bool} {xs : List Glyph} {m : Nat} {f' : Bool} (hr : r ≤ max)
    (h : Places wd (max - r) n f xs m f') : Places wd max (r + n) f xs (r + m) f' := by
  induction h with
  | nil => exact .nil _ _
  | cons h1 _ ih =>
    refine .cons ((fits_shift hr).1 h1) ?_
    rw [Nat.add_assoc]
    exact ih

theorem glyphs_text : ∀ X : List (List Nat), ∀ x ∈ glyphs X, x.text ≠ []
  | [] => fun x hx => by cases hx
  | [] :: X => fun x hx => glyphs_text X x (by rwa [glyphs] at hx)
  | (a :: t) :: X => fun x hx => by
    rw [glyphs] at hx
    split at hx
    · split at hx
      · rcases List.mem_cons.1 hx with rfl | hx
        · simp
        · exact glyphs_text X x hx
      · rename_i ht
        rcases List.mem_cons.1 hx with rfl | hx
        · simp
        rcases List.mem_cons.1 hx with rfl | hx
        · exact ht
        · exact glyphs_text X x hx
    · rcases List.mem_cons.1 hx with rfl | hx
      · simp
      · exact glyphs_text X x hx

theorem glyphsFrom_text (bf : List Nat) (X : List (List Nat)) : ∀ x ∈ glyphsFrom bf X, x.text ≠ [] := by
  intro x hx
  unfold glyphsFrom at hx
  split at hx
  · exact glyphs_text X x hx
  · exact glyphs_text X x (List.mem_of_mem_tail hx)

/-- ASCII characters at the front of a text. -/
theorem glyphs_ascii (X : List (List Nat)) (zs : List Nat) : (∀ x ∈ zs, x < 0x80) →
    glyphs (zs.map (fun x => [x]) ++ X) = zs.map (fun x => ⟨[], [x]⟩) ++ glyphs X := by
  induction zs with
  | nil => exact fun _ => rfl
  | cons z zs ih =>
    intro h
    show glyphs ([z] :: (zs.map (fun x => [x]) ++ X)) = _
    rw [glyphs, if_pos (h z (by simp)), if_pos rfl, ih (fun x hx => h x (List.mem_cons_of_mem _ hx))]
    rfl

/-- What the loop over the passes is given: `X` is still to be placed. -/
def DueLine (U : Table) (max : Nat) (complex : Bool) (rem : List Nat) (R : Out) (X : List Glyph) : Prop :=
  match complex with
  | false => (rem = [] ∧ X = []) ∨ (∃ y q, rem = y :: q ∧ y < 0x80 ∧ X = glyphs (splitText U rem)) ∨
      (∃ y q, rem = y :: q ∧ 0x80 ≤ y) ∧ ∃ x xs, X = x :: xs ∧ ∀ f, ¬ Fits (accWidth U) max R.count f x
  | true => (R.count = max ∨ rem = [] ∨ ∃ y q, rem = y :: q ∧ 0x80 ≤ y) ∧
      ((R.st.hint = 0 ∧ X = glyphs (splitText U rem)) ∨
        ∃ x st0, 0x20 ≤ x ∧ x < 0x7F ∧ R.st = seed U st0 x ∧ X = glyphsFrom [x] (scanSplit U (processInit U x) [x] rem))

/-- What has been done at the end. -/
def LineDone (U : Table) (max : Nat) (f : Bool) (R R' : Out) (X : List Glyph) : Prop :=
  ∃ front back f', X = front ++ back ∧ Places (accWidth U) max R.count f front R'.count f' ∧
    (∀ x xs, back = x :: xs → ¬ Fits (accWidth U) max R'.count f' x) ∧
    R'.next = R.next + (toUtf8Str (front.flatMap (·.text))).length ∧ R'.fin = R'.next ∧ R'.start = R.start ∧
    R'.events.flatMap told = R.events.flatMap told ++ front.map (say U)

theorem LineDone.step {U : Table} {max : Nat} {f f' : Bool} {R R1 R' : Out} {X front X1 : List Glyph} (hX : X = front ++ X1)
    (hp : Places (accWidth U) max R.count f front R1.count f') (hn : R1.next = R.next + (toUtf8Str (front.flatMap (·.text))).length)
    (hs : R1.start = R.start) (he : R1.events.flatMap told = R.events.flatMap told ++ front.map (say U))
    (h : LineDone U max f' R1 R' X1) : LineDone U max f R R' X := by
  obtain ⟨fr, back, f'', h1, h2, h3, h4, h5, h6, h7⟩ := h
  refine ⟨front ++ fr, back, f'', by rw [hX, h1, List.append_assoc], places_trans hp h2, h3, ?_, h5, h6.trans hs, ?_⟩
  · rw [h4, hn, List.flatMap_append, str_append, List.length_append]; push_cast; omega
  · rw [h7, he, List.map_append, List.append_assoc]

theorem LineDone.here {U : Table} {max : Nat} {f : Bool} {R : Out} {X : List Glyph} (hf : R.fin = R.next)
    (h : ∀ x xs, X = x :: xs → ¬ Fits (accWidth U) max R.count f x) : LineDone U max f R R X := by
  refine ⟨[], X, f, rfl, .nil _ _, h, ?_, hf, rfl, by simp⟩
  show R.next = R.next + (toUtf8Str []).length
  rw [str_nil]; simp

theorem scanAscii_tail (v : Variant) (w m : Nat) (xs ys tail : List Nat) (hsc : Scannable (xs ++ ys)) (hx : ∀ x ∈ xs, x < 0x80) (hbt : ∀ b ∈ tail, b < 256)
    (htl : EndsLine tail) (hm : xs.length ≤ m) (hs : xs.length = m ∨ ys = [] ∨ ∃ y q, ys = y :: q ∧ 0x80 ≤ y) :
    scanAscii v w (toUtf8Str (xs ++ ys) ++ tail) m = xs.length := by
  have hc : ∀ c ∈ xs ++ ys, c ≤ 0x1FFFFF := fun c h => (hsc c h).2.2
  have hb : ∀ b ∈ toUtf8Str (xs ++ ys) ++ tail, b < 256 := by
    intro b h
    rcases List.mem_append.1 h with h | h
    · exact toUtf8Str_lt _ hc b h
    · exact hbt b h
  refine longest_unique _ m _ _ (C11_longest_prefix v w _ hb m) ?_
  rw [str_append, str_ascii xs hx, List.append_assoc]
  refine ⟨hm, by simp, ?_, ?_⟩
  · intro b hb
    rw [List.take_left] at hb
    have h1 := hsc b (by simp [hb])
    have h2 := hx b hb
    exact ⟨h1.1, by omega⟩
  · rcases hs with h | rfl | ⟨y, q, rfl, hy⟩
    · exact .inl h
    · right
      rw [str_nil, List.nil_append]
      rcases htl with rfl | ⟨b, t, rfl, hb⟩
      · left; simp
      · right
        refine ⟨b, by simp, ?_⟩
        rintro ⟨h1, h2⟩
        omega
    · right; right
      have hy' := hc y (by simp)
      rw [str_cons]
      have hh := (toUtf8_high y hy hy').1
      cases ht : toUtf8 y with
      | nil => exact absurd ht (toUtf8_ne_nil y)
      | cons b bs =>
        refine ⟨b, by simp, ?_⟩
        have := hh b (by rw [ht]; simp)
        rintro ⟨_, h⟩
        omega

theorem line_main {U : Table} (D : DataOk U) (W : WidthOk U) (A : AsciiOk U) (V : VariationOk U) (v : Variant) (w max : Nat) (fin : Int)
    (tail : List Nat) (htl : EndsLine tail) (hbt : ∀ b ∈ tail, b < 256)
    (fuel : Nat) : ∀ (complex : Bool) (rem : List Nat) (R : Out) (X : List Glyph), (toUtf8Str rem ++ tail).length < fuel → Scannable rem →
      R.st.utf8.expectedLength = 0 → R.fin = R.next → fin = R.next + (toUtf8Str rem ++ tail).length → R.count ≤ max → DueLine U max complex rem R X →
      ∀ f, (complex = true → f = true) → LineDone U max f R (mainLoop U v w max fin fuel complex (toUtf8Str rem ++ tail) R.next R) X := by
  have w0 : accWidth U [] = 0 := rfl
  have wa : ∀ x, 0x20 ≤ x → x < 0x7F → accWidth U [x] = 1 := fun x h1 h2 => push_ascii_width W A x h1 h2
  have afits : ∀ x n f, 0x20 ≤ x → x < 0x7F → (Fits (accWidth U) max n f ⟨[], [x]⟩ ↔ n < max) := by
    intro x n f h1 h2
    constructor
    · rintro ⟨-, h⟩
      have := h [x] (by simp) (List.prefix_refl _)
      rw [List.nil_append, wa x h1 h2, w0] at this
      omega
    · intro h
      refine ⟨fun _ => h, fun q hq hp => ?_⟩
      have : q = [x] := by
        have h1 := hp.length_le
        have h2 := List.length_pos_iff.2 hq
        exact hp.eq_of_length (by simp at h1 ⊢; omega)
      subst this
      rw [List.nil_append, wa x h1 h2, w0]
      omega
  have aplaces : ∀ (zs : List Nat), (∀ x ∈ zs, 0x20 ≤ x ∧ x < 0x7F) → ∀ n f, n + zs.length ≤ max →
      ∃ f', Places (accWidth U) max n f (zs.map (fun x => ⟨[], [x]⟩)) (n + zs.length) f' ∧ (zs ≠ [] → f' = true) := by
    intro zs
    induction zs with
    | nil => exact fun _ n f _ => ⟨f, .nil _ _, fun h => absurd rfl h⟩
    | cons z zs ih =>
      intro h n f hn
      rw [List.length_cons] at hn
      obtain ⟨h1, h2⟩ := h z (by simp)
      have hadd : (Glyph.mk [] [z]).adds (accWidth U) = 1 := by
        show accWidth U ([] ++ [z]) - accWidth U [] = 1
        rw [List.nil_append, wa z h1 h2, w0]
      have hasc : (Glyph.mk [] [z]).ascii = true := by
        show ([z].all fun x => decide (x < 0x80)) = true
        rw [List.all_cons, decide_eq_true (by omega)]; rfl
      obtain ⟨f', hp, hz⟩ := ih (fun x hx => h x (List.mem_cons_of_mem _ hx)) (n + 1) true (by omega)
      refine ⟨f', .cons ((afits z n f h1 h2).2 (by omega)) ?_, fun _ => ?_⟩
      · rw [hadd, hasc, List.length_cons]
        have e : n + (zs.length + 1) = n + 1 + zs.length := by omega
        rw [e]
        exact hp
      · cases zs with
        | nil => cases hp; rfl
        | cons _ _ => exact hz (by simp)
  induction fuel with
  | zero => intro complex rem R X hf; omega
  | succ fuel ih =>
    intro complex rem R X hfu hsc hid hfn hlen hmax hdue f hff
    unfold mainLoop
    by_cases hgo : R.count < max ∧ R.next ≠ fin
    · rw [if_pos hgo]
      by_cases hne : rem = []
      · subst hne
        rw [str_nil, List.nil_append] at hlen ⊢
        have hX : X = [] := by
          cases complex with
          | false =>
            rcases hdue with ⟨-, h⟩ | ⟨y, q, h, -⟩ | ⟨⟨y, q, h, -⟩, -⟩
            · exact h
            · cases h
            · cases h
          | true =>
            rcases hdue.2 with ⟨-, h⟩ | ⟨z, st0, h1, h2, -, h⟩
            · exact h
            · rw [h]
              show (glyphs [[z]]).tail = []
              rw [glyphs, if_pos (by omega), if_pos rfl]
              rfl
        subst hX
        cases complex with
        | true =>
          simp only [if_true]
          have hr : resultStart R.st = 0 := by unfold resultStart; rw [if_neg (by simpa using hid)]
          have hS : ∃ st', scanNonAscii U R.st tail (max - R.count) = { st := st', resultEnd := 0 } := by
            unfold scanNonAscii
            rw [hr]
            rcases htl.loop U tail (max - R.count) { st := R.st, resultEnd := 0 } (Nat.zero_le _) hid with h | h
            · rw [h]; exact ⟨_, rfl⟩
            · rw [h]
              unfold atControl
              simp only [hid, ne_eq, not_true_eq_false, if_false]
              exact ⟨_, rfl⟩
          obtain ⟨st', hS⟩ := hS
          rw [hS, hr]
          simp only [Int.sub_zero, Int.toNat_zero, if_true]
          refine ⟨[], [], f, rfl, ?_, (fun x xs h => by cases h), ?_, ?_, rfl, ?_⟩
          · exact .nil _ _
          · show R.next + ((0 : Nat) : Int) = R.next + (toUtf8Str []).length
            rw [str_nil]; rfl
          · show R.next + 0 = R.next + ((0 : Nat) : Int); rfl
          · show (R.events ++ []).flatMap told = _
            rw [List.append_nil]; simp
        | false =>
          simp only [Bool.false_eq_true, if_false]
          have := scanAscii_tail v w (max - R.count) [] [] tail hsc (by simp) hbt htl (Nat.zero_le _) (.inr (.inl rfl))
          rw [List.append_nil, str_nil, List.nil_append] at this
          rw [this, List.length_nil, if_pos rfl]
          exact LineDone.here hfn (fun x xs h => by cases h)
      cases complex with
      | true =>
        obtain rfl := hff rfl
        simp only [if_true]
        obtain ⟨hh, hst⟩ := hdue
        obtain ⟨y, q, rfl, hy⟩ : ∃ y q, rem = y :: q ∧ 0x80 ≤ y := by
          rcases hh with h | h | h
          · omega
          · exact absurd h hne
          · exact h
        have hXt : ∀ x ∈ X, x.text ≠ [] := by
          rcases hst with ⟨-, h⟩ | ⟨x, st0, -, -, -, h⟩
          · rw [h]; exact glyphs_text _
          · rw [h]; exact glyphsFrom_text _ _
        obtain ⟨M, front, back, m, f', rs, hM, p⟩ := line_pass D W A V y q hy hsc tail htl R.st hid (max - R.count) (by omega) X hst
        have hft : ∀ x ∈ front, x.text ≠ [] := fun x hx => hXt x (by rw [p.split]; exact List.mem_append_left _ hx)
        have hr : resultStart R.st = 0 := by unfold resultStart; rw [if_neg (by simpa using hid)]
        rw [hM, hr]
        have hS : (flush (toUtf8Str (y :: q) ++ tail) M.input M).count = M.count ∧ (flush (toUtf8Str (y :: q) ++ tail) M.input M).resultEnd = M.resultEnd ∧
            (flush (toUtf8Str (y :: q) ++ tail) M.input M).input = M.input ∧ (flush (toUtf8Str (y :: q) ++ tail) M.input M).st = M.st := ⟨rfl, rfl, rfl, rfl⟩
        obtain ⟨s1, s2, s3, s4⟩ := hS
        have s5 := p.events
        generalize flush (toUtf8Str (y :: q) ++ tail) M.input M = S at s1 s2 s3 s4 s5
        rw [s1, s2, s3, s4, p.resultEnd]
        have hz : ((M.input : Int) - 0).toNat = M.input := by omega
        rw [hz]
        have hin : M.input = (toUtf8Str (front.flatMap (·.text))).length := by have := p.input; rw [this]; simp
        have hpl : Places (accWidth U) max R.count true front (R.count + M.count) f' := by
          rw [p.count]
          exact places_shift (Nat.le_of_lt hgo.1) p.placed
        have hmle : R.count + M.count ≤ max := places_le hpl hft hmax
        have hev : (R.events ++ S.events).flatMap told = R.events.flatMap told ++ front.map (say U) := by
          rw [List.flatMap_append, s5]; rfl
        by_cases h0 : M.input = 0
        · rw [if_pos h0]
          have hfr : front = [] := by
            cases front with
            | nil => rfl
            | cons x xs =>
              exfalso
              have := str_pos ((x :: xs).flatMap (·.text)) (by simp; intro h; exact absurd h (hft x (by simp)))
              omega
          refine LineDone.step (front := front) (X1 := back) (R1 := { R with count := R.count + M.count, fin := R.next + M.input, st := M.st, next := R.next + M.input, events := R.events ++ S.events }) p.split hpl (by rw [hin]) rfl hev ?_
          refine LineDone.here rfl ?_
          intro x xs hb
          rcases p.ends with ⟨h, -⟩ | ⟨y', q', h, hy', -⟩ | ⟨-, x', xs', hb', hF⟩
          · exfalso
            have := p.text
            rw [hfr, h] at this
            simp at this
          · exfalso
            have := p.text
            rw [hfr, h] at this
            simp only [List.flatMap_nil, List.nil_append, List.cons.injEq] at this
            omega
          · rw [hb] at hb'
            obtain ⟨rfl, rfl⟩ := List.cons.inj hb'
            intro hF'
            refine hF f' ((fits_shift (Nat.le_of_lt hgo.1)).2 ?_)
            rw [← p.count]
            exact hF'
        · rw [if_neg h0]
          have hdrop : (toUtf8Str (y :: q) ++ tail).drop M.input = toUtf8Str rs ++ tail := by
            rw [p.text, str_append, hin, List.append_assoc, List.drop_left]
          have hlen2 : (toUtf8Str (y :: q) ++ tail).length = M.input + (toUtf8Str rs ++ tail).length := by
            rw [p.text, str_append, List.append_assoc, List.length_append, hin]
          rw [hdrop]
          have key := ih false rs { R with count := R.count + M.count, fin := R.next + M.input, st := M.st, next := R.next + M.input, events := R.events ++ S.events }
            back (by omega) (fun z hz => hsc z (by rw [p.text]; exact List.mem_append_right _ hz)) p.idle rfl
            (by show fin = R.next + (M.input : Int) + _; rw [hlen, hlen2]; push_cast; omega) hmle
            (by
              rcases p.ends with h | h | ⟨h, x', xs', hb', hF⟩
              · exact .inl h
              · exact .inr (.inl h)
              · refine .inr (.inr ⟨h, x', xs', hb', fun f hF' => ?_⟩)
                refine hF f ((fits_shift (Nat.le_of_lt hgo.1)).2 ?_)
                rw [← p.count]
                exact hF') f' (by simp)
          exact LineDone.step (front := front) (X1 := back) (R1 := { R with count := R.count + M.count, fin := R.next + M.input, st := M.st, next := R.next + M.input, events := R.events ++ S.events }) p.split hpl (by rw [hin]) rfl hev key
      | false =>
        simp only [Bool.false_eq_true, if_false]
        obtain ⟨xs, ys, h1, h2, h3, h4⟩ := ascii_prefix rem (max - R.count)
        have hscan := scanAscii_tail v w (max - R.count) xs ys tail (by rw [← h1]; exact hsc) h3 hbt htl h2 h4
        rw [← h1] at hscan
        rw [hscan]
        rcases hdue with ⟨h, -⟩ | ⟨y, q, hr, hy, hX⟩ | ⟨⟨y, q, hr, hy⟩, x, xs', hX, hF⟩
        · exact absurd h hne
        · have hxs : xs ≠ [] := by
            rintro rfl
            rw [List.nil_append] at h1
            rcases h4 with h4 | h4 | ⟨y', q', h4, hy'⟩
            · rw [List.length_nil] at h4; omega
            · rw [h4] at h1; exact hne h1
            · rw [hr, h4] at h1
              simp only [List.cons.injEq] at h1
              omega
          have hl0 : 0 < xs.length := List.length_pos_iff.2 hxs
          rw [if_neg (by omega)]
          have hpr : ∀ x ∈ xs, 0x20 ≤ x ∧ x < 0x7F := by
            intro x hx
            have := hsc x (by rw [h1]; exact List.mem_append_left _ hx)
            have := h3 x hx
            omega
          have hstr : toUtf8Str rem = xs ++ toUtf8Str ys := by rw [h1, str_append, str_ascii xs h3]
          have hdrop : (toUtf8Str rem ++ tail).drop xs.length = toUtf8Str ys ++ tail := by rw [hstr, List.append_assoc, List.drop_left]
          have htake : (toUtf8Str rem ++ tail).take xs.length = xs := by rw [hstr, List.append_assoc, List.take_left]
          obtain ⟨zs, z, hz⟩ : ∃ zs z, xs = zs ++ [z] := by
            rcases List.eq_nil_or_concat xs with h | ⟨zs, z, h⟩
            · exact absurd h hxs
            · exact ⟨zs, z, by rw [h]; simp⟩
          have hget : (toUtf8Str rem ++ tail).getD (xs.length - 1) 0 = z := by
            rw [hstr, hz]
            simp [List.getD_eq_getElem?_getD]
          rw [hdrop, hget, htake]
          have hlen2 : (toUtf8Str rem ++ tail).length = xs.length + (toUtf8Str ys ++ tail).length := by rw [hstr, List.append_assoc, List.length_append]
          have hz' := hpr z (by rw [hz]; simp)
          have hzs : ∀ x ∈ zs, x < 0x80 := fun x hx => h3 x (by rw [hz]; simp [hx])
          have hsp : X = xs.map (fun x => ⟨[], [x]⟩) ++ glyphsFrom [z] (scanSplit U (processInit U z) [z] ys) := by
            rw [hX, h1, hz, split_ascii U z (by omega) ys zs hzs, glyphs_ascii _ zs hzs, List.map_append, List.append_assoc]
            congr 1
            obtain ⟨t, rest, ht⟩ := split_head' U ys (processInit U z) [z]
            rw [ht]
            show glyphs ((z :: t) :: rest) = ⟨[], [z]⟩ :: (glyphs ((z :: t) :: rest)).tail
            rw [glyphs, if_pos (by omega)]
            split <;> rfl
          obtain ⟨f', hpl, hf'⟩ := aplaces xs hpr R.count f (by omega)
          have htx : ∀ l : List Nat, (l.map (fun x => Glyph.mk [] [x])).flatMap (·.text) = l := by
            intro l
            induction l with
            | nil => rfl
            | cons a l ih => rw [List.map_cons, List.flatMap_cons, ih]; rfl
          have hsay : (xs.map (fun x => Glyph.mk [] [x])).map (say U) = xs.map fun b => ([b], 1) := by
            rw [List.map_map]
            refine List.map_congr_left fun x hx => ?_
            show (toUtf8Str [x], accWidth U ([] ++ [x])) = _
            rw [List.nil_append, wa x (hpr x hx).1 (hpr x hx).2, str_cons, str_nil, toUtf8_low x (h3 x hx)]
            rfl
          have key := ih true ys { R with count := R.count + xs.length, fin := R.fin + xs.length, st := seed U R.st z, next := R.next + xs.length,
                                          events := R.events ++ [Event.ascii xs] }
            (glyphsFrom [z] (scanSplit U (processInit U z) [z] ys)) (by omega) (fun z hz => hsc z (by rw [h1]; exact List.mem_append_right _ hz)) hid
            (by show R.fin + _ = R.next + _; rw [hfn])
            (by show fin = R.next + (xs.length : Int) + _; rw [hlen, hlen2]; push_cast; omega)
            (by show R.count + xs.length ≤ max; omega)
            ⟨by
              rcases h4 with h4 | h4
              · exact .inl (by show R.count + xs.length = max; omega)
              · exact .inr h4, .inr ⟨z, R.st, hz'.1, hz'.2, rfl, rfl⟩⟩ true (fun _ => rfl)
          have hft := hf' hxs
          rw [hft] at hpl
          refine LineDone.step (R1 := { R with count := R.count + xs.length, fin := R.fin + xs.length, st := seed U R.st z, next := R.next + xs.length,
                                               events := R.events ++ [Event.ascii xs] }) hsp hpl ?_ rfl ?_ key
          · show R.next + (xs.length : Int) = _
            rw [htx, str_ascii xs h3]
          · rw [List.flatMap_append, hsay]
            simp [told]
        · have hx0 : xs = [] := by
            cases xs with
            | nil => rfl
            | cons x xs =>
              exfalso
              have := h3 x (by simp)
              rw [hr] at h1
              simp only [List.cons_append, List.cons.injEq] at h1
              omega
          rw [hx0, if_pos List.length_nil]
          refine LineDone.here hfn ?_
          intro x' xs'' hb
          rw [hX] at hb
          obtain ⟨rfl, rfl⟩ := List.cons.inj hb
          exact hF f
    · rw [if_neg hgo]
      refine LineDone.here hfn ?_
      intro x xs hX
      have hcase : rem = [] ∨ R.count = max := by
        by_cases hc : R.count < max
        · left
          by_contra hne
          have := str_pos rem hne
          have := List.length_append (as := toUtf8Str rem) (bs := tail)
          exact hgo ⟨hc, by omega⟩
        · right; omega
      rcases hcase with h | h
      · exfalso
        subst h
        cases complex with
        | false =>
          rcases hdue with ⟨-, h⟩ | ⟨y, q, h, -⟩ | ⟨⟨y, q, h, -⟩, -⟩
          · rw [h] at hX; cases hX
          · cases h
          · cases h
        | true =>
          rcases hdue.2 with ⟨-, h⟩ | ⟨z, st0, h1, h2, -, h⟩
          · rw [h] at hX; cases hX
          · have : glyphsFrom [z] (scanSplit U (processInit U z) [z] []) = [] := by
              show (glyphs [[z]]).tail = []
              rw [glyphs, if_pos (by omega), if_pos rfl]
              rfl
            rw [h, this] at hX
            cases hX
      · cases complex with
        | true =>
          obtain rfl := hff rfl
          intro hF
          have := hF.1 rfl
          omega
        | false =>
          rcases hdue with ⟨-, hx⟩ | ⟨y, q, hr, hy, hx⟩ | ⟨-, x', xs', hx, hF⟩
          · rw [hx] at hX; cases hX
          · obtain ⟨t, rest, ht⟩ := split_head' U q (processInit U y) [y]
            have : ∃ t', glyphs (splitText U rem) = ⟨[], [y]⟩ :: t' := by
              rw [hr]
              show ∃ t', glyphs (scanSplit U (processInit U y) [y] q) = _
              rw [ht]
              show ∃ t', glyphs ((y :: t) :: rest) = _
              rw [glyphs, if_pos hy]
              split <;> exact ⟨_, rfl⟩
            obtain ⟨t', ht'⟩ := this
            rw [hx, ht'] at hX
            obtain ⟨rfl, rfl⟩ := List.cons.inj hX
            obtain ⟨h1, h2, -⟩ := hsc y (by rw [hr]; simp)
            intro hF
            have := (afits y _ _ h1 (by omega)).1 hF
            omega
          · rw [hx] at hX
            obtain ⟨rfl, rfl⟩ := List.cons.inj hX
            exact hF f

end Verif.Scan
