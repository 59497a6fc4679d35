import Verif.Props.Inspect3
import Verif.Model.Query

/-!
# C60: what `unicode-query` prints

`unicode-query` is the library's other command line tool: `properties U+XXXX` or `properties TEXT`, `gc TEXT`, `runs TEXT`.
-/

namespace Verif.Props.Query
open Verif.Query Verif.Tools Verif.Utf8 Verif.Ucd Verif.Grapheme Verif.Spec Verif.Spec.Escape Verif.Convert Verif.Props.Tools

/-! ## The notations -/

theorem lower_ok (v : Nat) (h : v < 16) : HexLower (lowerDigit v) v := by
  rw [lowerDigit]
  split
  · exact .dec ‹_›
  · have := HexLower.alpha (v := v) (by omega) h
    rwa [show 0x61 + (v - 10) = 0x57 + v by omega] at this

theorem hexLower_number (n : Nat) : HexNumber (hexLower n) n := by
  induction n using Nat.strongRecOn with
  | _ n ih =>
    rw [hexLower]
    split
    · exact .one (.inr (lower_ok n ‹_›))
    · have := HexNumber.snoc (ih (n / 16) (by omega)) (.inr (lower_ok (n % 16) (Nat.mod_lt n (by omega))))
      rwa [show n / 16 * 16 + n % 16 = n by omega] at this

theorem hexEscape_ok (Raw : Nat → Prop) (b : Nat) (hb : b < 256) : HexPiece Raw (hexEscape b) b := by
  by_cases h : b < 16
  · have e : hexEscape b = [0x5C, 0x78, 0x20, lowerDigit b] := by
      rw [hexEscape, hexLower, if_pos h]; rfl
    rw [e]
    exact .short (lower_ok b h)
  · have e : hexEscape b = [0x5C, 0x78, lowerDigit (b / 16), lowerDigit (b % 16)] := by
      rw [hexEscape, hexLower, if_neg h, hexLower, if_pos (by omega)]; rfl
    rw [e]
    have := HexPiece.long (Raw := Raw) (lower_ok (b / 16) (by omega)) (lower_ok (b % 16) (Nat.mod_lt b (by omega))) (by omega)
    rwa [show b / 16 * 16 + b % 16 = b by omega] at this

/-- The bytes `-e` shows as they are: printable ones other than the quote. -/
def Quoted (b : Nat) : Prop := 0x20 ≤ b ∧ b ≠ 0x7F ∧ b ≠ 0x22

/-- The bytes shown as they are without `-e`. -/
def Plain (signedChar : Bool) (b : Nat) : Prop := 0x20 ≤ b ∧ (signedChar = true → b < 0x80)

/-- **C60, notation.** With `-e`, each byte of the text is shown as itself if it is printable and not a quote (bytes
outside ASCII as the locale has it), otherwise as `\x` and its hexadecimal value. -/
theorem C60_escaped {isprint : Nat → Bool} (hp : PrintsAscii isprint) (s : List Nat) (hb : ∀ b ∈ s, b < 256) :
    HexText Quoted (escaped isprint s) s := by
  induction s with
  | nil => exact .nil
  | cons b s ih =>
    rw [escaped, List.flatMap_cons]
    refine .cons ?_ (ih fun c h => hb c (by simp [h]))
    rw [escapedByte]
    split
    · rename_i h
      refine .plain ⟨?_, ?_, h.2⟩
      · by_cases hc : b < 0x80
        · exact ((hp b hc).1 h.1).1
        · omega
      · intro e
        have := ((hp b (by omega)).1 h.1).2
        omega
    · exact hexEscape_ok _ b (hb b (by simp))

/-- **C60, notation.** With `-e` in the C locale the output is printable ASCII. -/
theorem C60_escaped_printable {isprint : Nat → Bool} (hp : PrintsAscii isprint) (hc : ∀ b, 0x80 ≤ b → isprint b = false)
    (s : List Nat) (hb : ∀ b ∈ s, b < 256) : ∀ x ∈ escaped isprint s, 0x20 ≤ x ∧ x ≤ 0x7E ∧ x ≠ 0x22 := by
  intro x hx
  obtain ⟨b, hb1, hx⟩ := List.mem_flatMap.1 hx
  rw [escapedByte] at hx
  split at hx
  · rename_i h
    simp only [List.mem_singleton] at hx
    subst hx
    by_cases h8 : x < 0x80
    · exact ⟨((hp x h8).1 h.1).1, ((hp x h8).1 h.1).2, h.2⟩
    · rw [hc x (by omega)] at h; simp at h
  · have := hexEscape_ok (fun _ => False) b (hb b hb1)
    have key : ∀ d v, HexLower d v → 0x30 ≤ d ∧ d ≤ 0x7E := by intro d v h; cases h <;> omega
    generalize hexEscape b = q at this hx
    cases this with
    | plain h => exact h.elim
    | short h =>
      have := key _ _ h
      simp only [List.mem_cons, List.not_mem_nil, or_false] at hx
      rcases hx with rfl | rfl | rfl | rfl <;> omega
    | long h h' =>
      have := key _ _ h
      have := key _ _ h'
      simp only [List.mem_cons, List.not_mem_nil, or_false] at hx
      rcases hx with rfl | rfl | rfl | rfl <;> omega

/-- **C60, notation.** Without `-e`, bytes below 0x20 – and on platforms where `char` is signed all bytes outside ASCII – are
shown as `\x` and their hexadecimal value, all others as they are. -/
theorem C60_plain (sc : Bool) (s : List Nat) (hb : ∀ b ∈ s, b < 256) : HexText (Plain sc) (escapeControlCodes sc s) s := by
  induction s with
  | nil => exact .nil
  | cons b s ih =>
    rw [escapeControlCodes, List.flatMap_cons]
    refine .cons ?_ (ih fun c h => hb c (by simp [h]))
    rw [controlByte]
    split
    · exact hexEscape_ok _ b (hb b (by simp))
    · rename_i h
      exact .plain ⟨Nat.le_of_not_lt fun hl => h (.inl hl), fun e => Nat.lt_of_not_le fun hl => h (.inr ⟨e, hl⟩)⟩

theorem hexLower_fun {d x y : Nat} (h : HexLower d x) (h' : HexLower d y) : x = y := by
  generalize hd : d = e at h'
  cases h <;> cases h' <;> omega

theorem hexLower_ge {d x : Nat} (h : HexLower d x) : 0x30 ≤ d := by cases h <;> omega

theorem hexPiece_prefix {Raw : Nat → Prop} (hr : ¬ Raw 0x5C) {p q x y : List Nat} {b c : Nat} (hp : HexPiece Raw p b)
    (hq : HexPiece Raw q c) (h : p ++ x = q ++ y) : b = c ∧ x = y := by
  cases hp with
  | plain h1 =>
    cases hq with
    | plain h2 => simpa using h
    | short _ => simp only [List.cons_append, List.nil_append, List.cons.injEq] at h; rw [h.1] at h1; exact (hr h1).elim
    | long _ _ _ => simp only [List.cons_append, List.nil_append, List.cons.injEq] at h; rw [h.1] at h1; exact (hr h1).elim
  | short h1 =>
    cases hq with
    | plain h2 => simp only [List.cons_append, List.nil_append, List.cons.injEq] at h; rw [← h.1] at h2; exact (hr h2).elim
    | short h2 =>
      simp only [List.cons_append, List.nil_append, List.cons.injEq, true_and] at h
      obtain ⟨e, h⟩ := h
      rw [e] at h1
      exact ⟨hexLower_fun h1 h2, h⟩
    | long h2 _ _ =>
      simp only [List.cons_append, List.nil_append, List.cons.injEq, true_and] at h
      have := hexLower_ge h2
      omega
  | long h1 h1' h1'' =>
    cases hq with
    | plain h2 => simp only [List.cons_append, List.nil_append, List.cons.injEq] at h; rw [← h.1] at h2; exact (hr h2).elim
    | short h2 =>
      simp only [List.cons_append, List.nil_append, List.cons.injEq, true_and] at h
      have := hexLower_ge h1
      omega
    | long h2 h2' _ =>
      simp only [List.cons_append, List.nil_append, List.cons.injEq, true_and] at h
      obtain ⟨e, e', h⟩ := h
      rw [e] at h1; rw [e'] at h1'
      exact ⟨by rw [hexLower_fun h1 h2, hexLower_fun h1' h2'], h⟩

theorem hexPiece_ne_nil {Raw : Nat → Prop} {p : List Nat} {b : Nat} (h : HexPiece Raw p b) : p ≠ [] := by
  cases h <;> simp

/-- The notation is unambiguous as long as the backslash is not shown raw. -/
theorem C60_notation_unique {Raw : Nat → Prop} (hr : ¬ Raw 0x5C) {x s t : List Nat} (hs : HexText Raw x s) (ht : HexText Raw x t) :
    s = t := by
  induction hs generalizing t with
  | nil =>
    generalize hx : ([] : List Nat) = e at ht
    cases ht with
    | nil => rfl
    | cons hp _ => exact (hexPiece_ne_nil hp (List.append_eq_nil_iff.1 hx.symm).1).elim
  | @cons p b rest bs hp _ ih =>
    generalize hx : p ++ rest = e at ht
    cases ht with
    | nil => exact (hexPiece_ne_nil hp (List.append_eq_nil_iff.1 hx).1).elim
    | cons hq h2 =>
      obtain ⟨rfl, rfl⟩ := hexPiece_prefix hr hp hq hx
      rw [ih h2]

theorem HexText.strengthen {Raw : Nat → Prop} {x s : List Nat} (h : HexText Raw x s) (P : Nat → Prop) (hP : ∀ b ∈ s, P b) :
    HexText (fun b => Raw b ∧ P b) x s := by
  induction h with
  | nil => exact .nil
  | @cons p b rest bs hp _ ih =>
    refine .cons ?_ (ih fun c h => hP c (by simp [h]))
    cases hp with
    | plain h => exact .plain ⟨h, hP b (by simp)⟩
    | short h => exact .short h
    | long h h' h'' => exact .long h h' h''

/-- The full claim: with `-e`, different texts are shown differently. -/
def C60_EscapedInjective : Prop :=
  ∀ isprint : Nat → Bool, PrintsAscii isprint → ∀ s t : List Nat, (∀ b ∈ s, b < 256) → (∀ b ∈ t, b < 256) →
    escaped isprint s = escaped isprint t → s = t

/-- Proved part of `C60_EscapedInjective`: texts without backslashes. -/
theorem C60_escaped_injective_partial {isprint : Nat → Bool} (hp : PrintsAscii isprint) (s t : List Nat)
    (hs : ∀ b ∈ s, b < 256 ∧ b ≠ 0x5C) (ht : ∀ b ∈ t, b < 256 ∧ b ≠ 0x5C) (h : escaped isprint s = escaped isprint t) : s = t := by
  have h1 := HexText.strengthen (C60_escaped hp s fun b h => (hs b h).1) (· ≠ 0x5C) fun b h => (hs b h).2
  have h2 := HexText.strengthen (C60_escaped hp t fun b h => (ht b h).1) (· ≠ 0x5C) fun b h => (ht b h).2
  rw [← h] at h2
  exact C60_notation_unique (by simp) h1 h2

/-- The full claim is false: a newline is shown like the four characters `\x a`. -/
theorem C60_fails_escaped : ¬ C60_EscapedInjective := by
  intro h
  have := h cLocale cLocale_ok [0x0A] [0x5C, 0x78, 0x20, 0x61] (by decide) (by decide) (by decide +kernel)
  simp at this

example : escaped cLocale [0x41, 0x22, 0x0A, 0xC3, 0xA9] = lit "A\\x22\\x a\\xc3\\xa9" := by decide +kernel

/-- **C60, terminal safety.** No byte below 0x20 reaches the terminal from the text, with or without `-e`. -/
theorem C60_no_controls {E : Query.Env} (hp : PrintsAscii E.isprint) (e : Bool) (s : List Nat) (hb : ∀ b ∈ s, b < 256) :
    ∀ x ∈ shownText E e s, 0x20 ≤ x := by
  have key : ∀ {Raw : Nat → Prop} {x s : List Nat}, HexText Raw x s → (∀ b, Raw b → 0x20 ≤ b) → ∀ c ∈ x, 0x20 ≤ c := by
    intro Raw x s h hR
    induction h with
    | nil => simp
    | @cons p b rest bs hp _ ih =>
      intro c hc
      rcases List.mem_append.1 hc with hc | hc
      · cases hp with
        | plain h => simp only [List.mem_singleton] at hc; rw [hc]; exact hR _ h
        | short h =>
          have := hexLower_ge h
          simp only [List.mem_cons, List.not_mem_nil, or_false] at hc
          rcases hc with rfl | rfl | rfl | rfl <;> omega
        | long h h' _ =>
          have := hexLower_ge h
          have := hexLower_ge h'
          simp only [List.mem_cons, List.not_mem_nil, or_false] at hc
          rcases hc with rfl | rfl | rfl | rfl <;> omega
      · exact ih c hc
  cases e with
  | true => exact key (C60_escaped hp s hb) fun b h => h.1
  | false => exact key (C60_plain E.signedChar s hb) fun b h => h.1

/-- The full claim: without `-e`, a text without control characters is shown as it is. -/
def C60_ShownUnchanged : Prop :=
  ∀ (sc : Bool) (s : List Nat), (∀ b ∈ s, 0x20 ≤ b ∧ b < 256) → escapeControlCodes sc s = s

/-- Proved part of `C60_ShownUnchanged`: ASCII text, and every text where `char` is unsigned. -/
theorem C60_shown_unchanged_partial (sc : Bool) (s : List Nat) (h : ∀ b ∈ s, 0x20 ≤ b ∧ (sc = true → b < 0x80)) :
    escapeControlCodes sc s = s := by
  induction s with
  | nil => rfl
  | cons b s ih =>
    have hb := h b (by simp)
    rw [escapeControlCodes, List.flatMap_cons, controlByte, if_neg (show ¬ (b < 0x20 ∨ sc = true ∧ 0x80 ≤ b) from by
      rintro (h | ⟨h, h'⟩)
      · omega
      · have := hb.2 h; omega)]
    exact congrArg (b :: ·) (ih fun c hc => h c (by simp [hc]))

/-- The full claim is false where `char` is signed (x86, Apple): `é` is shown as `\xc3\xa9`. -/
theorem C60_fails_unchanged : ¬ C60_ShownUnchanged := by
  intro h
  have := h true [0xC3, 0xA9] (by decide)
  revert this
  decide +kernel

/-! ## Naming codepoints -/

theorem digitValue_iff (d v : Nat) : digitValue d = some v ↔ HexDigit d v := by
  constructor
  · intro h
    unfold digitValue at h
    split at h
    · have := HexUpper.dec (v := v) (by simp at h; omega)
      rw [show 0x30 + v = d by simp at h; omega] at this
      exact .inl this
    · split at h
      · have := HexUpper.alpha (v := v) (by simp at h; omega) (by simp at h; omega)
        rw [show 0x41 + (v - 10) = d by simp at h; omega] at this
        exact .inl this
      · split at h
        · have := HexLower.alpha (v := v) (by simp at h; omega) (by simp at h; omega)
          rw [show 0x61 + (v - 10) = d by simp at h; omega] at this
          exact .inr this
        · simp at h
  · rintro (h | h) <;> cases h <;> unfold digitValue
    · rw [if_pos (by omega)]; congr 1; omega
    · rw [if_neg (by omega), if_pos (by omega)]; congr 1; omega
    · rw [if_pos (by omega)]; congr 1; omega
    · rw [if_neg (by omega), if_neg (by omega), if_pos (by omega)]; congr 1; omega

theorem digits_snoc {ds : List Nat} {d v : Nat} (h : (digits ds).2 = []) (hd : digitValue d = some v) :
    digits (ds ++ [d]) = ((digits ds).1 ++ [v], []) := by
  induction ds with
  | nil => simp [digits, hd]
  | cons a ds ih =>
    rw [digits] at h
    cases ha : digitValue a with
    | none => simp [ha] at h
    | some w =>
      simp only [ha] at h
      simp only [List.cons_append, digits, ha, ih h]

theorem digits_number {ds : List Nat} {n : Nat} (h : HexNumber ds n) :
    (digits ds).2 = [] ∧ (digits ds).1 ≠ [] ∧ (digits ds).1.foldl (fun a v => a * 16 + v) 0 = n := by
  induction h with
  | one h => simp [digits, (digitValue_iff _ _).2 h]
  | snoc _ h ih =>
    rw [digits_snoc ih.1 ((digitValue_iff _ _).2 h)]
    simp [ih.2.2]

theorem number_digits (ds : List Nat) (hne : ds ≠ []) (h : (digits ds).2 = []) : ∃ n, HexNumber ds n := by
  induction ds using List.reverseRecOn with
  | nil => exact (hne rfl).elim
  | append_singleton ds d ih =>
    have split : ∀ ds : List Nat, (digits (ds ++ [d])).2 = [] → (digits ds).2 = [] ∧ ∃ v, digitValue d = some v := by
      intro ds
      induction ds with
      | nil =>
        intro h
        simp only [List.nil_append, digits] at h
        cases hd : digitValue d with
        | none => simp [hd] at h
        | some v => exact ⟨rfl, v, rfl⟩
      | cons a ds ih =>
        intro h
        simp only [List.cons_append, digits] at h ⊢
        cases ha : digitValue a with
        | none => simp [ha] at h
        | some w => simp only [ha] at h ⊢; exact ih h
    obtain ⟨h1, v, hv⟩ := split ds h
    by_cases hds : ds = []
    · subst hds
      exact ⟨v, .one ((digitValue_iff _ _).1 hv)⟩
    · obtain ⟨n, hn⟩ := ih hds h1
      exact ⟨_, .snoc hn ((digitValue_iff _ _).1 hv)⟩

theorem digits_fst_nil (ds : List Nat) (h : (digits ds).1 = []) : (digits ds).2 = ds := by
  cases ds with
  | nil => rfl
  | cons a ds =>
    rw [digits] at h ⊢
    cases ha : digitValue a with
    | none => rfl
    | some w => simp [ha] at h

/-- A further `U+` is skipped, if something follows it. -/
def strip : List Nat → List Nat
  | 0x55 :: 0x2B :: d :: ds => d :: ds
  | ds => ds

theorem hasPrefix_iff (ds : List Nat) : hasPrefix ds = true ↔ ∃ d r, ds = 0x55 :: 0x2B :: d :: r := by
  constructor
  · intro hp
    obtain ⟨h1, h2⟩ := of_decide_eq_true hp
    match ds with
    | [] => simp at h1
    | [_] => simp at h1
    | [_, _] => simp at h1
    | a :: b :: c :: r =>
      simp only [List.take_succ_cons, List.take_zero, List.cons.injEq, and_true] at h2
      exact ⟨c, r, by rw [h2.1, h2.2]⟩
  · rintro ⟨d, r, rfl⟩
    exact decide_eq_true ⟨by simp, rfl⟩

theorem strip_eq (ds : List Nat) : (if hasPrefix ds then ds.drop 2 else ds) = strip ds := by
  by_cases h : hasPrefix ds = true
  · obtain ⟨d, r, rfl⟩ := (hasPrefix_iff ds).1 h
    rw [if_pos h]; rfl
  · rw [if_neg h, strip.eq_def]
    split
    · exact (h ((hasPrefix_iff _).2 ⟨_, _, rfl⟩)).elim
    · rfl

theorem strip_ne (ds : List Nat) (h : ds ≠ []) : strip ds ≠ [] := by
  unfold strip
  split
  · simp
  · exact h

theorem parseChar_eq (ds : List Nat) :
    parseChar ds = if (fromChars16 (strip ds)).2 = [] then some (fromChars16 (strip ds)).1 else none := by
  rw [parseChar, strip_eq]

theorem hasPrefix_cons (ds : List Nat) (h : ds ≠ []) : hasPrefix (0x55 :: 0x2B :: ds) = true := by
  refine decide_eq_true ⟨?_, rfl⟩
  have := List.length_pos_iff.2 h
  simp only [List.length_cons]; omega

theorem parseChars_prefix (k : Nat) (ds : List Nat) (h : ds ≠ []) :
    parseChars k (0x55 :: 0x2B :: ds) = (match parseChar ds with | some c => [c] | none => []) := by
  rw [parseChars, if_pos (hasPrefix_cons ds h)]
  rfl

/-- **C60, naming codepoints.** `U+` and a hexadecimal number (digits of either case; a second `U+` is skipped) names that
number, or 0 if it has more than 32 bits; `U+` and anything else names nothing. -/
theorem C60_parse_exact (k : Nat) (ds : List Nat) (h : ds ≠ []) :
    (∃ n, HexNumber (strip ds) n ∧ parseChars k (0x55 :: 0x2B :: ds) = [if n < 2^32 then n else 0]) ∨
    ((¬ ∃ n, HexNumber (strip ds) n) ∧ parseChars k (0x55 :: 0x2B :: ds) = []) := by
  rw [parseChars_prefix k ds h, parseChar_eq]
  by_cases hd : (digits (strip ds)).2 = []
  · left
    obtain ⟨n, hn⟩ := number_digits _ (strip_ne ds h) hd
    obtain ⟨h1, h2, h3⟩ := digits_number hn
    refine ⟨n, hn, ?_⟩
    rw [fromChars16, if_neg h2, h3, h1]
    by_cases hlt : n < 2^32
    · simp only [if_pos hlt, if_pos]
    · simp only [if_neg hlt, if_pos]
  · right
    refine ⟨fun ⟨n, hn⟩ => hd (digits_number hn).1, ?_⟩
    have : (fromChars16 (strip ds)).2 ≠ [] := by
      rw [fromChars16]
      split
      · exact strip_ne ds h
      · split <;> exact hd
    rw [if_neg this]

theorem strip_number {ds : List Nat} {n : Nat} (h : HexNumber ds n) : strip ds = ds := by
  unfold strip
  split
  · have hd := (digits_number h).1
    simp [digits, digitValue] at hd
  · rfl

/-- The full claim: `U+` and a hexadecimal number names that number, or is refused. -/
def C60_NamesCodepoint : Prop :=
  ∀ (k : Nat) (ds : List Nat) (n : Nat), HexNumber ds n → parseChars k (0x55 :: 0x2B :: ds) = [n] ∨ parseChars k (0x55 :: 0x2B :: ds) = []

theorem hexNumber_ne {ds : List Nat} {n : Nat} (h : HexNumber ds n) : ds ≠ [] := by cases h <;> simp

/-- Proved part of `C60_NamesCodepoint`: numbers of at most 32 bits. -/
theorem C60_names_codepoint_partial (k : Nat) {ds : List Nat} {n : Nat} (h : HexNumber ds n) (hn : n < 2^32) :
    parseChars k (0x55 :: 0x2B :: ds) = [n] := by
  rcases C60_parse_exact k ds (hexNumber_ne h) with ⟨m, h1, h2⟩ | ⟨h1, _⟩
  · rw [strip_number h] at h1
    rw [h2, hexNumber_fun h1 h, if_pos hn]
  · rw [strip_number h] at h1
    exact (h1 ⟨n, h⟩).elim

/-- The full claim is false: `U+100000000` is reported as U+0000. -/
theorem C60_fails_overflow : ¬ C60_NamesCodepoint := by
  intro h
  have d : ∀ v < 10, HexDigit (0x30 + v) v := fun v hv => .inl (.dec hv)
  have hn : HexNumber (lit "100000000") 0x100000000 :=
    .snoc (.snoc (.snoc (.snoc (.snoc (.snoc (.snoc (.snoc (.one (d 1 (by omega))) (d 0 (by omega))) (d 0 (by omega))) (d 0 (by omega)))
      (d 0 (by omega))) (d 0 (by omega))) (d 0 (by omega))) (d 0 (by omega))) (d 0 (by omega))
  rcases C60_parse_exact 0 _ (hexNumber_ne hn) with ⟨m, h1, h2⟩ | ⟨h1, _⟩
  · rw [strip_number hn] at h1
    rw [hexNumber_fun h1 hn, if_neg (by decide)] at h2
    rcases h 0 _ _ hn with h3 | h3 <;> rw [h2] at h3 <;> simp at h3
  · rw [strip_number hn] at h1
    exact h1 ⟨_, hn⟩

example : parseChars 128 (lit "U+1F600") = [0x1F600] ∧ parseChars 128 (lit "U+xyz") = [] ∧ parseChars 128 (lit "U+U+41") = [0x41] := by
  decide +kernel

/-- **C60, naming codepoints.** Every other argument names the codepoints of its text. -/
theorem C60_parse_text (k : Nat) (cs : List Nat) (hc : ∀ c ∈ cs, c ≤ 0x1FFFFF) (hn : ∀ ds, ds ≠ [] → toUtf8Str cs ≠ 0x55 :: 0x2B :: ds) :
    parseChars k (toUtf8Str cs) = cs := by
  rw [parseChars, if_neg, C02_utf8_string_roundtrip k cs hc]
  intro h
  obtain ⟨h1, h2⟩ := of_decide_eq_true h
  match hm : toUtf8Str cs with
  | [] => rw [hm] at h1; simp at h1
  | [_] => rw [hm] at h1; simp at h1
  | [_, _] => rw [hm] at h1; simp at h1
  | a :: b :: c :: ds =>
    rw [hm] at h2
    simp only [List.take_succ_cons, List.take_zero, List.cons.injEq, and_true] at h2
    exact hn (c :: ds) (by simp) (by rw [hm, h2.1, h2.2])

example : parseChars 128 (toUtf8Str [0x41, 0x1F600]) = [0x41, 0x1F600] := by decide +kernel

end Verif.Props.Query
