import Verif.Lemmas.TgUcd
/-!
# Lemmas: functions with lists in them, declarations, and the beginning of the files
-/

namespace Verif.Tg
open Verif.Spec.Cxx

/-! ## Braces -/

theorem inside_of {ts : List Tok} (h : ∀ k ∈ ts, k ≠ .punct '{' ∧ k ≠ .punct '}') : Inside ts := by
  intro d u
  induction ts with
  | nil => cases hc : Spec.Cxx.cut (d + 1) u <;> simp [hc]
  | cons k ts ih =>
    have hk := h k (by simp)
    have ih := ih fun x hx => h x (by simp [hx])
    rw [List.cons_append, cut_cons (d + 1) k _ hk.1 hk.2 (.inr (by omega)), ih, Option.map_map]
    rfl

def openB (ts : List Tok) : Bool := ts.all fun k => decide (k ≠ .punct '{') && decide (k ≠ .punct '}')

theorem inside_ofB {ts : List Tok} (h : openB ts = true) : Inside ts :=
  inside_of fun k hk => by
    have := List.all_eq_true.1 h k hk
    obtain ⟨h1, h2⟩ := Bool.and_eq_true_iff.1 this
    exact ⟨of_decide_eq_true h1, of_decide_eq_true h2⟩

theorem inside_flatMap {α : Type} (f : α → List Tok) (l : List α) (h : ∀ a ∈ l, Inside (f a)) : Inside (l.flatMap f) := by
  induction l with
  | nil => exact inside_ofB rfl
  | cons a l ih => rw [List.flatMap_cons]; exact (h a (by simp)).append (ih fun x hx => h x (by simp [hx]))

theorem cut_block {pre a : List Tok} (hp : Flat pre) (ha : Inside a) :
    cut 0 (pre ++ (p '{' :: (a ++ [p '}']))) = some (pre ++ (p '{' :: (a ++ [p '}'])), []) := by
  rw [hp.cut]
  show Option.map _ (Spec.Cxx.cut 0 (.punct '{' :: (a ++ [p '}']))) = _
  rw [cut_open, ha 0]
  show Option.map _ (Option.map _ (Option.map _ (Spec.Cxx.cut 1 [.punct '}']))) = _
  rw [cut_last]
  rfl

/-! ## The two `contains` -/

def containsPre (enum x : Str) : List Tok :=
  [.word "bool".toList, .word "contains".toList, p '(', .word enum, .word x, p ',', .word "char32_t".toList, .word "codepoint".toList, p ')',
   .word "noexcept".toList]

def containsInner (enum x : Str) (names : List Str) (more : List Tok) : List Tok :=
  [.word "switch".toList, p '(', .word x, p ')'] ++ ((p '{' :: (names.flatMap (caseToks enum) ++ more) ++ [p '}']) ++
    [.word "return".toList, .word "false".toList, p ';'])

theorem caseToks_inside (enum m : Str) : Inside (caseToks enum m) := inside_ofB rfl

theorem contains_inside (enum x : Str) (names : List Str) (more : List Tok) (hm : Inside more) : Inside (containsInner enum x names more) :=
  Inside.append (inside_ofB rfl) (((inside_flatMap _ _ fun m _ => caseToks_inside enum m).append hm).braces.append (inside_ofB rfl))

theorem contains_shape (enum x : Str) (names : List Str) (more : List Tok) :
    containsHead enum x ++ switchToks enum x names (more ++ p '}' :: lastFalse) =
      containsPre enum x ++ (p '{' :: (containsInner enum x names more ++ [p '}'])) := by
  simp only [containsHead, switchToks, containsPre, containsInner, lastFalse, List.cons_append, List.nil_append, List.append_assoc]

def containsSig (enum : Str) : Sig := ⟨[], "contains".toList, [[.word enum], [.word "char32_t".toList]], [.word "bool".toList], true⟩

theorem readSig_contains (s : List Str) (e x : Str) (b : List Tok) : readSig s (containsHead e x ++ b) = some { containsSig e with scope := s } := by
  kernel_rfl

theorem uses_cases (e : Str) (he : ∀ m rest, uses (caseToks e m ++ rest) = m :: uses rest) (names : List Str) (rest : List Tok) :
    uses (names.flatMap (caseToks e) ++ rest) = names ++ uses rest := by
  induction names with
  | nil => rfl
  | cons m l ih => rw [List.flatMap_cons, List.append_assoc, he, ih]; rfl

theorem core_text {names : List Str} (h : ∀ m ∈ names, Word m) : FnText (codeCore names) (containsSig "Core_Property".toList) (coreFn names) names := by
  refine ⟨_, core_line h, ⟨?_, ?_⟩, ?_, fun s => readSig_contains s _ _ _,
    contains_read "prop".toList "Core_Property".toList names (p '}' :: lastFalse) [] (ends_brace _) (fun n => rfl) (by decide), ?_⟩
  · have := contains_shape "Core_Property".toList "prop".toList names []
    rw [List.nil_append] at this
    rw [this]
    exact cut_block (flat_of (by decide)) (contains_inside _ _ _ _ (inside_ofB rfl))
  · exact ⟨_, _, _, _, rfl, by decide, .inr (.inr (by decide))⟩
  · have := contains_shape "Core_Property".toList "prop".toList names []
    rw [List.nil_append] at this
    rw [this, ← List.cons_append, ← List.append_assoc, List.getLast?_append]
    rfl
  · have e : uses (containsHead "Core_Property".toList "prop".toList ++ switchToks "Core_Property".toList "prop".toList names (p '}' :: lastFalse)) =
        uses (names.flatMap (caseToks "Core_Property".toList) ++ p '}' :: lastFalse) := by kernel_rfl
    rw [e, uses_cases _ (fun m rest => by kernel_rfl), show uses (p '}' :: lastFalse) = [] from by kernel_rfl, List.append_nil]

theorem gcContains_text {names : List Str} (h : ∀ m ∈ names, Word m) :
    FnText (codeGcContains names) (containsSig "General_Category".toList) (gcContainsFn names) names := by
  have hs := contains_shape "General_Category".toList "generalCategory".toList names (gcContainsTail.take 9)
  have ht : gcContainsTail.take 9 ++ p '}' :: lastFalse = gcContainsTail := rfl
  rw [ht] at hs
  refine ⟨_, gcContains_line h, ⟨?_, ?_⟩, ?_, fun s => readSig_contains s _ _ _,
    contains_read "generalCategory".toList "General_Category".toList names gcContainsTail
    [(["General_Category".toList, "Unspecified".toList], [.ret (.name ["false".toList])])] (ends_case _) (fun n => by kernel_rfl) (by decide), ?_⟩
  · rw [hs]
    exact cut_block (flat_of (by decide)) (contains_inside _ _ _ _ (inside_ofB rfl))
  · exact ⟨_, _, _, _, rfl, by decide, .inr (.inr (by decide))⟩
  · rw [hs, ← List.cons_append, ← List.append_assoc, List.getLast?_append]
    rfl
  · have e : uses (containsHead "General_Category".toList "generalCategory".toList ++
        switchToks "General_Category".toList "generalCategory".toList names gcContainsTail) =
        uses (names.flatMap (caseToks "General_Category".toList) ++ gcContainsTail) := by kernel_rfl
    rw [e, uses_cases _ (fun m rest => by kernel_rfl), show uses gcContainsTail = [] from by kernel_rfl, List.append_nil]

/-! ## `make_age` -/

def ageSig : Sig := ⟨[], "make_age".toList, [[.word "std".toList, p ':', p ':', .word "string_view".toList]],
  [.word "std".toList, p ':', p ':', .word "optional".toList, p '<', .word "Age".toList, p '>'], true⟩

theorem readSig_age (s : List Str) (b : List Tok) : readSig s (ageHead ++ b) = some { ageSig with scope := s } := by kernel_rfl

def ageInner (l : List (Str × Str)) : List Tok :=
  ([.word "using".toList, .word "namespace".toList, .word "std".toList, p ':', p ':', .word "string_view_literals".toList, p ';',
      .word "static".toList, .word "constexpr".toList, .word "auto".toList, .word "mappings".toList, p '=',
      .word "std".toList, p ':', p ':', .word "array".toList, p '<'] ++ ageArgs (dec l.length) ++ [p '>']) ++
    ((p '{' :: l.flatMap ageToks ++ [p '}']) ++ (p ';' :: ageTail.take 29))

theorem ageToks_inside (e : Str × Str) : Inside (ageToks e) := by
  have h := Inside.append (a := [.word "std".toList, p ':', p ':', .word "pair".toList]) (inside_ofB rfl)
    (Inside.append (Inside.braces (a := [.str e.1, .word "sv".toList, p ',', .word "Age".toList, p ':', p ':', .word e.2]) (inside_ofB rfl))
      (inside_ofB (ts := [p ',']) rfl))
  exact h

theorem age_inside (l : List (Str × Str)) : Inside (ageInner l) :=
  Inside.append (inside_ofB rfl) ((inside_flatMap _ _ fun e _ => ageToks_inside e).braces.append (inside_ofB (by decide)))

theorem age_shape (l : List (Str × Str)) : ageHead ++ ageBodyToks l = ageHead.dropLast ++ (p '{' :: (ageInner l ++ [p '}'])) := by
  have e1 : ageHead = ageHead.dropLast ++ [p '{'] := by decide
  have e2 : ageTail = ageTail.take 29 ++ [p '}'] := by decide
  have e3 : ageBodyToks l = ageInner l ++ [p '}'] := by
    unfold ageBodyToks ageTableToks ageInner
    generalize hz : ageTail.take 29 = z at e2
    rw [e2]
    simp only [List.cons_append, List.nil_append, List.append_assoc]
  rw [e3]
  conv_lhs => rw [e1]
  simp only [List.append_assoc, List.cons_append, List.nil_append]

theorem uses_ages (l : List (Str × Str)) (rest : List Tok) : uses (l.flatMap ageToks ++ rest) = uses rest := by
  induction l with
  | nil => rfl
  | cons e l ih =>
    have : ∀ rest, uses (ageToks e ++ rest) = uses rest := fun rest => by kernel_rfl
    rw [List.flatMap_cons, List.append_assoc, this, ih]

theorem age_text (al : List (Str × Str)) (hk : ∀ e ∈ al, Plainly' e.1) (hv : ∀ e ∈ al, Word e.2) :
    FnText (codeAge al) ageSig (ageFn (al.filter fun e => decide (e.2 ≠ "Unassigned".toList))) [] := by
  refine ⟨_, age_line al hk hv, ⟨?_, ?_⟩, ?_, fun s => readSig_age s _, age_read _, ?_⟩
  all_goals generalize al.filter (fun e => decide (e.2 ≠ "Unassigned".toList)) = l
  · rw [age_shape]
    exact cut_block (flat_of (by decide)) (age_inside _)
  · exact ⟨_, _, _, _, rfl, by decide, .inr (.inr (by decide))⟩
  · rw [age_shape, ← List.cons_append, ← List.append_assoc, List.getLast?_append]
    rfl
  · have e : uses (ageHead ++ ageBodyToks l) = uses (l.flatMap ageToks ++ p '}' :: p ';' :: ageTail) := by kernel_rfl
    rw [e, uses_ages]
    show _ = _
    kernel_rfl

/-! ## Declarations -/

theorem protoText_lit {text : Str} {g : Sig} (n : Nat) (h : lexFn n text = some (toksOf n text) ∧ endsOpen text = true)
    (hc : cut 0 (toksOf n text) = some (toksOf n text, []))
    (hh : ∃ k a b t, toksOf n text = k :: a :: b :: t ∧ k ≠ .punct ';' ∧ ((b ≠ .punct '{' ∧ b ≠ .punct ':') ∨ a = .punct ':' ∨ k ≠ .word "namespace".toList))
    (hl : (toksOf n text).getLast? = some (.punct ';')) (hs : ∀ s, readSig s (toksOf n text) = some { g with scope := s }) : ProtoText text g :=
  ⟨_, line_lit n h, ⟨hc, hh⟩, hl, hs⟩

theorem plane_proto : ProtoText (protoCp [] "Plane".toList "plane".toList "codepoint".toList "\n".toList) (cpSig [.word "Plane".toList] "plane".toList) :=
  protoText_lit 100 (by decide +kernel) (by decide +kernel) (headB (by decide +kernel)) (by decide +kernel) (fun s => by kernel_rfl)

theorem core_proto : ProtoText "bool contains(Core_Property prop, char32_t codepoint) noexcept;\n\n".toList (containsSig "Core_Property".toList) :=
  protoText_lit 100 (by decide +kernel) (by decide +kernel) (headB (by decide +kernel)) (by decide +kernel) (fun s => by kernel_rfl)

theorem gcContains_proto : ProtoText "bool contains(General_Category generalCategory, char32_t codepoint) noexcept;\n\n".toList (containsSig "General_Category".toList) :=
  protoText_lit 100 (by decide +kernel) (by decide +kernel) (headB (by decide +kernel)) (by decide +kernel) (fun s => by kernel_rfl)

theorem gc_proto : ProtoText (protoCp "    ".toList "General_Category".toList "get".toList "value".toList "\n".toList)
    (cpSig [.word "General_Category".toList] "get".toList) :=
  protoText_lit 100 (by decide +kernel) (by decide +kernel) (headB (by decide +kernel)) (by decide +kernel) (fun s => by kernel_rfl)

theorem script_proto : ProtoText (protoCp [] "Script".toList "script".toList "codepoint".toList "\n".toList) (cpSig [.word "Script".toList] "script".toList) :=
  protoText_lit 100 (by decide +kernel) (by decide +kernel) (headB (by decide +kernel)) (by decide +kernel) (fun s => by kernel_rfl)

theorem sce_proto : ProtoText (protoCp [] "std::optional<std::span<Script const>>".toList "script_extensions".toList "codepoint".toList "\n".toList)
    (cpSig sceFn.result "script_extensions".toList) :=
  protoText_lit 100 (by decide +kernel) (by decide +kernel) (headB (by decide +kernel)) (by decide +kernel) (fun s => by kernel_rfl)

theorem block_proto : ProtoText (protoCp [] "Block".toList "block".toList "codepoint".toList "\n".toList) (cpSig [.word "Block".toList] "block".toList) :=
  protoText_lit 100 (by decide +kernel) (by decide +kernel) (headB (by decide +kernel)) (by decide +kernel) (fun s => by kernel_rfl)

theorem eaw_proto : ProtoText (protoCp [] "EastAsianWidth".toList "east_asian_width".toList "codepoint".toList "\n".toList)
    (cpSig [.word "EastAsianWidth".toList] "east_asian_width".toList) :=
  protoText_lit 100 (by decide +kernel) (by decide +kernel) (headB (by decide +kernel)) (by decide +kernel) (fun s => by kernel_rfl)

theorem mirrored_proto : ProtoText (protoCp "[[nodiscard]] ".toList "bool".toList "is_mirrored".toList "codepoint".toList "\n".toList)
    (cpSig [.word "bool".toList] "is_mirrored".toList) :=
  protoText_lit 100 (by decide +kernel) (by decide +kernel) (headB (by decide +kernel)) (by decide +kernel) (fun s => by kernel_rfl)

theorem glyph_proto : ProtoText (protoCp "[[nodiscard]] ".toList "char32_t".toList "bidi_mirroring_glyph".toList "codepoint".toList "\n".toList)
    (cpSig [.word "char32_t".toList] "bidi_mirroring_glyph".toList) :=
  protoText_lit 100 (by decide +kernel) (by decide +kernel) (headB (by decide +kernel)) (by decide +kernel) (fun s => by kernel_rfl)

theorem age_proto : ProtoText "[[nodiscard]] std::optional<Age> make_age(std::string_view value) noexcept;\n\n".toList ageSig :=
  protoText_lit 100 (by decide +kernel) (by decide +kernel) (headB (by decide +kernel)) (by decide +kernel) (fun s => by kernel_rfl)

def protoToks (result name : Str) : List Tok :=
  [.word result, .word name, p '(', .word "char32_t".toList, .word "codepoint".toList, p ')', .word "noexcept".toList, p ';']

theorem proto_line {result name : Str} (hr : Word result) (hn : Word name) : Line (protoCp [] result name "codepoint".toList []) (protoToks result name) := by
  have k1 := Clean.word (a := "(char32_t ".toList) (ts := [p '(', .word "char32_t".toList]) (clean_lit 30 (by decide)) (w := "codepoint".toList) ⟨by decide, by decide⟩
    (clean_lit (t := ") noexcept;\n".toList) (ts := [p ')', .word "noexcept".toList, p ';']) 30 (by decide)) (by decide) (by decide)
  have k2 := Clean.word (a := " ".toList) (ts := []) (clean_lit 10 (by decide)) hn k1 (by decide) (by simp)
  unfold protoCp
  rw [List.append_nil, List.nil_append]
  exact ⟨lexes_append hr.lexes k2.1 (apart_start k2.2.1), endsOpen_append k2.2.2 fun e => absurd e (by simp)⟩

theorem break_proto {name : Str} (h : Word name) (hi : name ≠ "inline".toList) :
    ProtoText (protoCp [] name (tolower name) "codepoint".toList []) (cpSig [.word name] (tolower name)) := by
  refine ⟨_, proto_line h (lower_word' h), ⟨by kernel_rfl, _, _, _, _, rfl, fun e => (by cases e), .inl ⟨by simp [p], by simp [p]⟩⟩, rfl, fun s => ?_⟩
  have e : bare (protoToks name (tolower name)) = protoToks name (tolower name) := if_neg hi
  unfold readSig
  rw [e]
  show _ = _
  kernel_rfl

theorem emoji_proto {name : Str} (h : Word name) :
    ProtoText (protoCp [] "bool".toList ("is_".toList ++ tolower name) "codepoint".toList []) (cpSig [.word "bool".toList] ("is_".toList ++ tolower name)) :=
  ⟨_, proto_line ⟨by decide, by decide⟩ (is_word h.2), ⟨by kernel_rfl, _, _, _, _, rfl, by decide, .inr (.inr (by decide))⟩, rfl, fun s => by kernel_rfl⟩

/-! ## The beginning -/

def calm : Str → Bool
  | [] => true
  | c :: t => (decide (c ≠ '*') || decide (t.head? ≠ some '/')) && calm t

theorem afterComment_line (w r : Str) (h : calm w = true ∧ w.getLast? = some '\n') : afterComment (w ++ r) = afterComment r := by
  obtain ⟨h, hl⟩ := h
  induction w with
  | nil => simp at hl
  | cons c w ih =>
    obtain ⟨h1, h2⟩ := Bool.and_eq_true_iff.1 h
    rw [List.cons_append, afterComment]
    · cases w with
      | nil => rfl
      | cons d w => exact ih h2 (by rw [List.getLast?_cons_cons] at hl; exact hl)
    · rintro t rfl heq
      cases w with
      | nil => simp at hl
      | cons d w =>
        rcases Bool.or_eq_true_iff.1 h1 with h1 | h1
        · exact of_decide_eq_true h1 rfl
        · refine of_decide_eq_true h1 ?_
          simp only [List.cons_append, List.cons.injEq] at heq
          simp [heq.1]

theorem licence_behind (r : Str) : behindLicence (licenseHeader ++ r) = some ('\n' :: r) := by
  unfold licenseHeader
  simp only [List.append_assoc]
  have e1 : ∀ t, behindLicence ("/**\n".toList ++ t) = afterComment ("*\n".toList ++ t) := fun t => rfl
  have e2 : ∀ t, afterComment ("*/\n".toList ++ t) = some ('\n' :: t) := fun t => rfl
  rw [e1]
  repeat rw [afterComment_line _ _ (by decide +kernel)]
  exact e2 r

theorem licence_plain : ∀ c ∈ licenseHeader, c ≠ '\\' := by
  have app : ∀ a b : Str, (a.all fun c => decide (c ≠ '\\')) = true → (∀ c ∈ b, c ≠ '\\') → ∀ c ∈ a ++ b, c ≠ '\\' := by
    intro a b ha hb c hc
    rcases List.mem_append.1 hc with h | h
    · exact of_decide_eq_true (List.all_eq_true.1 ha c h)
    · exact hb c h
  unfold licenseHeader
  repeat refine app _ _ (by decide +kernel) ?_
  decide

theorem header_directives (t : Str) : dropDirectives true false (headerIncludes ++ t) = "\n\n\n\n\n\n\n\n\n\n".toList ++ dropDirectives true false t := by kernel_rfl

theorem source_directives (t : Str) : dropDirectives true false (sourceIncludes ++ t) = "\n\n\n\n\n\n\n\n\n".toList ++ dropDirectives true false t := by kernel_rfl

theorem reads_file {includes blank text : Str} {ts : List Tok} (hi : ∀ c ∈ includes, c ≠ '\\') (hb : Clean blank [])
    (hd : ∀ t, dropDirectives true false (includes ++ t) = blank ++ dropDirectives true false t) (h : Line text ts) :
    ReadsFile (licenseHeader ++ (includes ++ text)) ts := by
  refine ⟨'\n' :: (includes ++ text), ?_, ?_⟩
  · rw [splice_append _ _ licence_plain, splice_append _ _ hi, lexes_splice h.1, licence_behind]
  · rw [drop_newline, hd, lexes_drop h.1]
    have := (clean_newline.append hb).line.append h
    exact this.1

theorem consists_of {includes blank : Str} {texts : List Str} {parts : List (Part × List Str)} (hi : ∀ c ∈ includes, c ≠ '\\') (hb : Clean blank [])
    (hd : ∀ t, dropDirectives true false (includes ++ t) = blank ++ dropDirectives true false t) (h : Runs [] texts [] parts) :
    ∃ ps, Consists (licenseHeader ++ (includes ++ texts.flatten)) ps ∧ List.Forall₂ LMeans ps parts := by
  obtain ⟨ts, ps, hl, hw, hf⟩ := h
  exact ⟨ps, ⟨ts, reads_file hi hb hd hl, hw.pieces⟩, hf⟩

end Verif.Tg
