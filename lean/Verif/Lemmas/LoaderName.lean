import Verif.Lemmas.LoaderPass
/-!
# The file of names, as the run-time loader reads it
-/

namespace Verif.Load
open Verif.Tg Verif.Props.Tg Verif.Spec.Regex Verif.Spec.UcdFile Verif.Spec.Ucd

theorem hex_unique {h x r r' : Str} (e : h ++ r = x ++ r') (hh : ∀ c ∈ h, isUpperHex c = true) (hx : ∀ c ∈ x, isUpperHex c = true)
    (hr : ∀ c t, r = c :: t → isUpperHex c = false) (hr' : ∀ c t, r' = c :: t → isUpperHex c = false) : h = x ∧ r = r' := by
  have a := takeWhile_app (p := isUpperHex) hh hr
  have b := takeWhile_app (p := isUpperHex) hx hr'
  rw [e] at a
  exact ⟨a.1.symm.trans b.1, a.2.symm.trans b.2⟩

theorem white_then {w : Str} {c : Char} {t : Str} (hw : White w) (hc : isUpperHex c = false) : ∀ d u, w ++ c :: t = d :: u → isUpperHex d = false := by
  intro d u e
  cases w with
  | nil => obtain ⟨rfl, -⟩ := List.cons.inj e; exact hc
  | cons x y =>
    obtain ⟨rfl, -⟩ := List.cons.inj e
    cases h : isUpperHex x with
    | false => rfl
    | true =>
      have := hw x (List.mem_cons_self ..)
      rw [hex_not_white x h] at this; cases this

theorem dot_head {t : Str} : ∀ d u, '.' :: t = d :: u → isUpperHex d = false := by
  intro d u e
  obtain ⟨rfl, -⟩ := List.cons.inj e; decide

/-- White space and a semicolon do not begin with a full stop. -/
theorem white_not_dot {w t u : Str} (hw : White w) (e : w ++ ';' :: t = '.' :: u) : False := by
  cases w with
  | nil => exact absurd (List.cons.inj e).1 (by decide)
  | cons x y =>
    obtain ⟨rfl, -⟩ := List.cons.inj e
    exact absurd (hw _ (List.mem_cons_self ..)) (by decide)

/-- A tidy data line, whatever its value. -/
theorem tidy_shape {line stored : Str} {a b : Nat} {value : Str} (hd : DataLine line a b value) (hs : Stored line stored) (ht : Tidy stored) :
    (∃ h w t, HexOf h a ∧ a = b ∧ (∀ c ∈ h, isUpperHex c = true) ∧ White w ∧ stored = h ++ (w ++ ';' :: t)) ∨
    (∃ h₁ h₂ w t, HexOf h₁ a ∧ HexOf h₂ b ∧ (∀ c ∈ h₁, isUpperHex c = true) ∧ (∀ c ∈ h₂, isUpperHex c = true) ∧ White w ∧
      stored = h₁ ++ '.' :: '.' :: (h₂ ++ (w ++ ';' :: t))) := by
  have hlead : ∀ {w₁ r : Str}, Blank w₁ → line = w₁ ++ r → w₁ = [] := by
    intro w₁ r hb e
    cases w₁ with
    | nil => rfl
    | cons c t =>
      have h1 : stored.head? = some c := by
        rcases hs with rfl | rfl <;> rw [e] <;> rfl
      have h2 := ht.head c h1
      rcases hb c (List.mem_cons_self ..) with rfl | rfl
      · exact absurd rfl h2.1
      · exact absurd rfl h2.2
  have hsemi : ∀ {w : Str}, Blank w → ';' ∉ w := by
    intro w hw hc
    rcases hw _ hc with h | h <;> exact absurd h (by decide)
  have happ : ∃ t', stored = line ++ t' := by
    rcases hs with h | h
    · exact ⟨[], by rw [h, List.append_nil]⟩
    · exact ⟨_, h⟩
  obtain ⟨t', e'⟩ := happ
  cases hd with
  | @range w₁ h₁ h₂ w₂ w₃ _ w₄ tail _ _ b1 x1 x2 b2 b3 _ b4 htl =>
    right
    obtain rfl := hlead (w₁ := w₁) (r := h₁ ++ ['.', '.'] ++ h₂ ++ w₂ ++ [';'] ++ w₃ ++ value ++ w₄ ++ tail) b1 (by simp [List.append_assoc])
    have f1 := hexOf_facts _ _ x1
    have f2 := hexOf_facts _ _ x2
    have e : stored = h₁ ++ '.' :: '.' :: (h₂ ++ (w₂ ++ ';' :: (w₃ ++ value ++ w₄ ++ tail ++ t'))) := by rw [e']; simp [List.append_assoc]
    have hpre : h₁ <+: stored := by rw [e]; simp only [List.append_assoc]; exact List.prefix_append _ _
    have hup := ht.upper (fun t => (hex_front x1 hpre t).1) (fun t => (hex_front x1 hpre t).2) (h₁ ++ '.' :: '.' :: h₂ ++ w₂) (w₃ ++ value ++ w₄ ++ tail ++ t') (by rw [e]; simp [List.append_assoc]) (by
      simp only [List.mem_append, List.mem_cons, not_or]
      exact ⟨⟨fun h => (f1.2.2 _ h).2.2.2.2.1 rfl, by decide, by decide, fun h => (f2.2.2 _ h).2.2.2.2.1 rfl⟩, hsemi b2⟩)
    exact ⟨h₁, h₂, w₂, _, x1, x2, upper_of_hex x1 (fun c hc => hup c (by simp [hc])), upper_of_hex x2 (fun c hc => hup c (by simp [hc])),
      blank_white b2, e⟩
  | @single w₁ h w₂ w₃ _ w₄ tail _ b1 x1 b2 b3 _ b4 htl =>
    left
    obtain rfl := hlead (w₁ := w₁) (r := h ++ w₂ ++ [';'] ++ w₃ ++ value ++ w₄ ++ tail) b1 (by simp [List.append_assoc])
    have f1 := hexOf_facts _ _ x1
    have e : stored = h ++ (w₂ ++ ';' :: (w₃ ++ value ++ w₄ ++ tail ++ t')) := by rw [e']; simp [List.append_assoc]
    have hpre : h <+: stored := by rw [e]; simp only [List.append_assoc]; exact List.prefix_append _ _
    have hup := ht.upper (fun t => (hex_front x1 hpre t).1) (fun t => (hex_front x1 hpre t).2) (h ++ w₂) (w₃ ++ value ++ w₄ ++ tail ++ t') (by rw [e]; simp [List.append_assoc]) (by
      simp only [List.mem_append, not_or]
      exact ⟨fun h => (f1.2.2 _ h).2.2.2.2.1 rfl, hsemi b2⟩)
    exact ⟨h, w₂, _, x1, rfl, upper_of_hex x1 (fun c hc => hup c (by simp [hc])), blank_white b2, e⟩

/-- A tidy data line concerns the codepoints it lists, whatever its value: either it is skipped, or the callback gets exactly these codepoints. -/
theorem any_line {line stored : Str} {a b : Nat} {value : Str} (cb : Callback) (s : State) (hd : DataLine line a b value) (hs : Stored line stored)
    (ht : Tidy stored) (hab : a ≤ b) (hb : b ≤ 0x10FFFF) :
    processLine cb stored s = .ok s ∨ ∃ v, processLine cb stored s = rangeLoop cb v (b + 1 - a) a s := by
  by_cases h1 : ∃ h v, Single stored h v
  · obtain ⟨h, v, H⟩ := h1
    right
    refine ⟨v, ?_⟩
    rw [single_line cb s H]
    obtain ⟨u₁, u₂, rest, e, hh, hx, hu, -⟩ := H
    rcases tidy_shape hd hs ht with ⟨g, w, t, x1, rfl, hg, hw, e'⟩ | ⟨h₁, h₂, w, t, x1, x2, hg, -, -, e'⟩
    · have := hex_unique (h := h) (x := g) (r := u₁ ++ ';' :: (u₂ ++ v ++ rest)) (r' := w ++ ';' :: t) (by rw [← e', e]; simp [List.append_assoc]) hx hg
        (white_then hu (by decide)) (white_then hw (by decide))
      obtain ⟨rfl, -⟩ := this
      rw [stoul_hex x1 hb, show a + 1 - a = 1 by omega]
      show cb a v s = (cb a v s).bind _
      cases cb a v s <;> rfl
    · have := hex_unique (h := h) (x := h₁) (r := u₁ ++ ';' :: (u₂ ++ v ++ rest)) (r' := '.' :: '.' :: (h₂ ++ (w ++ ';' :: t)))
        (by rw [← e', e]; simp [List.append_assoc]) hx hg (white_then hu (by decide)) dot_head
      exact (white_not_dot hu this.2).elim
  · by_cases h2 : ∃ x y v, Ranged stored x y v
    · obtain ⟨x, y, v, H⟩ := h2
      right
      refine ⟨v, ?_⟩
      rw [ranged_line cb s H]
      obtain ⟨u₁, u₂, rest, e, hh, hx, hh', hx', hu, -⟩ := H
      rcases tidy_shape hd hs ht with ⟨g, w, t, x1, rfl, hg, hw, e'⟩ | ⟨h₁, h₂, w, t, x1, x2, hg, hg', hw, e'⟩
      · have := hex_unique (h := x) (x := g) (r := '.' :: '.' :: (y ++ (u₁ ++ ';' :: (u₂ ++ v ++ rest)))) (r' := w ++ ';' :: t)
          (by rw [← e', e]; simp [List.append_assoc]) hx hg dot_head (white_then hw (by decide))
        exact (white_not_dot hw this.2.symm).elim
      · have h3 := hex_unique (h := x) (x := h₁) (r := '.' :: '.' :: (y ++ (u₁ ++ ';' :: (u₂ ++ v ++ rest)))) (r' := '.' :: '.' :: (h₂ ++ (w ++ ';' :: t)))
          (by rw [← e', e]; simp [List.append_assoc]) hx hg dot_head dot_head
        have h4 := hex_unique (h := y) (x := h₂) (List.cons.inj (List.cons.inj h3.2).2).2 hx' hg' (white_then hu (by decide)) (white_then hw (by decide))
        obtain ⟨rfl, -⟩ := h3
        obtain ⟨rfl, -⟩ := h4
        rw [stoul_hex x1 (by omega), stoul_hex x2 hb]
        show range cb v a b s = _
        unfold range
        cases rangeLoop cb v (b + 1 - a) a s with
        | ok s' => show (if _ then _ else _) = _; rw [if_neg (by omega)]
        | _ => rfl
    · left
      exact other_line cb s (fun h v H => h1 ⟨h, v, H⟩) (fun x y v H => h2 ⟨x, y, v, H⟩)

theorem loop_names (v : Str) (n : Nat) : ∀ a s, a + n ≤ 0x110000 →
    rangeLoop onName v n a s = .ok { s with names := fun x => if a ≤ x ∧ x < a + n then v else s.names x } := by
  induction n with
  | zero =>
    intro a s _
    rw [rangeLoop]
    congr 1
    obtain ⟨p, q⟩ := s
    congr 1
    funext x
    rw [if_neg (by omega)]
  | succ n ih =>
    intro a s hn
    rw [rangeLoop, onName, if_pos (by omega)]
    show rangeLoop onName v n (a + 1) _ = _
    rw [ih (a + 1) _ (by omega)]
    congr 2
    funext x
    dsimp only
    by_cases h1 : x = a
    · rw [if_neg (by omega), if_pos h1, if_pos (by omega)]
    · rw [if_neg h1]
      by_cases h2 : a + 1 ≤ x ∧ x < a + 1 + n
      · rw [if_pos h2, if_pos (by omega)]
      · rw [if_neg h2, if_neg (by omega)]

/-- A data line of the file of names. -/
theorem name_line {line stored : Str} {a b : Nat} {value : Str} (s : State) (hd : DataLine line a b value) (hs : Stored line stored)
    (ht : Tidy stored) (hab : a ≤ b) (hb : b ≤ 0x10FFFF) :
    ∃ s', processLine onName stored s = .ok s' ∧ s'.props = s.props ∧ ∀ x, ¬ (a ≤ x ∧ x ≤ b) → s'.names x = s.names x := by
  rcases any_line onName s hd hs ht hab hb with e | ⟨v, e⟩
  · exact ⟨s, e, rfl, fun _ _ => rfl⟩
  · rw [e, loop_names v _ _ _ (by omega)]
    refine ⟨_, rfl, rfl, fun x hx => ?_⟩
    show (if _ then _ else _) = _
    rw [if_neg (by omega)]

/-- Words of plain characters, as the value of a line with a single codepoint. -/
theorem name_single {h w₂ w₃ value w₄ tail stored : Str} {a : Nat} (s : State) (x1 : HexOf h a) (b2 : Blank w₂) (b3 : Blank w₃) (b4 : Blank w₄) (htl : Tail tail)
    (hs : Stored (h ++ w₂ ++ [';'] ++ w₃ ++ value ++ w₄ ++ tail) stored) (ht : Tidy stored) (hv : Phrase value) (ha : a ≤ 0x10FFFF) :
    processLine onName stored s = .ok { s with names := fun x => if x = a then value else s.names x } := by
  have hsemi : ∀ {w : Str}, Blank w → ';' ∉ w := by
    intro w hw hc
    rcases hw _ hc with h | h <;> exact absurd h (by decide)
  have key : ∀ t', (t' = [] ∨ t' = ['\r']) → ∃ rest, h ++ w₂ ++ [';'] ++ w₃ ++ value ++ w₄ ++ tail ++ t' = h ++ w₂ ++ ';' :: w₃ ++ value ++ rest ∧ Stops rest := by
    intro t' h'
    rcases htl with rfl | ⟨t, rfl⟩
    · refine ⟨w₄ ++ t', by simp, ?_⟩
      have hw : White (w₄ ++ t') := by
        intro c hc
        rcases List.mem_append.1 hc with hc | hc
        · exact blank_white b4 c hc
        · rcases h' with rfl | rfl
          · cases hc
          · obtain rfl := List.mem_singleton.1 hc; decide
      have := stops_of hw (rest := []) (Or.inl rfl)
      rwa [List.append_nil] at this
    · exact ⟨w₄ ++ ('#' :: t ++ t'), by simp, stops_of (blank_white b4) (Or.inr (Or.inr ⟨t ++ t', rfl⟩))⟩
  obtain ⟨rest, e, hr⟩ : ∃ rest, stored = h ++ w₂ ++ ';' :: w₃ ++ value ++ rest ∧ Stops rest := by
    rcases hs with hs | hs
    · obtain ⟨r, h1, h2⟩ := key [] (Or.inl rfl)
      exact ⟨r, by rw [hs, ← h1, List.append_nil], h2⟩
    · obtain ⟨r, h1, h2⟩ := key ['\r'] (Or.inr rfl)
      exact ⟨r, by rw [hs, ← h1], h2⟩
  have f1 := hexOf_facts _ _ x1
  have hpre : h <+: stored := by rw [e]; simp only [List.append_assoc]; exact List.prefix_append _ _
  have hup := ht.upper (fun t => (hex_front x1 hpre t).1) (fun t => (hex_front x1 hpre t).2) (h ++ w₂) (w₃ ++ value ++ rest) (by rw [e]; simp [List.append_assoc]) (by
    simp only [List.mem_append, not_or]
    exact ⟨fun h => (f1.2.2 _ h).2.2.2.2.1 rfl, hsemi b2⟩)
  have H : Single stored h value := ⟨w₂, w₃, rest, e, f1.1, upper_of_hex x1 (fun c hc => hup c (by simp [hc])), blank_white b2, blank_white b3, hv, hr⟩
  rw [single_line onName s H, stoul_hex x1 ha]
  show onName a value s = _
  rw [onName, if_pos (by omega)]

theorem name_lines {lines : List Str} {es : List Entry} (h : FileOf lines es) (ht : ∀ l ∈ lines, Tidy l) : ∀ s,
    ∃ s', processLines onName lines s = .ok s' ∧ s'.props = s.props ∧ ∀ x, (∀ v, ¬ Assigns es x v) → s'.names x = s.names x := by
  induction h with
  | nil => intro s; exact ⟨s, rfl, rfl, fun _ _ => rfl⟩
  | skip hn hs _ ih =>
    intro s
    rw [processLines, nodata_line onName s hn hs]
    exact ih (fun l hl => ht l (List.mem_cons_of_mem _ hl)) s
  | data hd hs hab hb _ ih =>
    intro s
    obtain ⟨s₁, h1, h2, h3⟩ := name_line s hd hs (ht _ (List.mem_cons_self ..)) hab hb
    obtain ⟨s₂, g1, g2, g3⟩ := ih (fun l hl => ht l (List.mem_cons_of_mem _ hl)) s₁
    refine ⟨s₂, ?_, g2.trans h2, fun x hx => ?_⟩
    · rw [processLines, h1]; exact g1
    · rw [g3 x (fun v => fun ⟨e, he, hv⟩ => hx v ⟨e, List.mem_cons_of_mem _ he, hv⟩),
        h3 x (fun hxx => hx _ ⟨_, List.mem_cons_self .., hxx.1, hxx.2, rfl⟩)]

theorem name_pass {dir : Dir} {ucd : Str} {name : String} {es : List Entry} (h : TidyFile dir (ucd ++ '/' :: name.toList) es) (s : State) :
    ∃ s', processProperties dir ucd name onName s = .ok s' ∧ s'.props = s.props ∧ ∀ x, (∀ v, ¬ Assigns es x v) → s'.names x = s.names x := by
  obtain ⟨text, h1, h2, h3⟩ := h
  unfold processProperties
  rw [h1]
  show ∃ s', processLines onName (cutLines [] text) s = _ ∧ _
  rw [processLines_cut]
  exact name_lines h2 h3 s

end Verif.Load
