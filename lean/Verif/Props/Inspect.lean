import Verif.Spec.Escape
import Verif.Model.Inspect
import Verif.Props.Utf8
import Verif.Props.Grapheme

/-!
# C59: the command line tool `uc-inspect`: the listing of codepoints
-/

namespace Verif.Props.Tools
open Verif.Tools Verif.Utf8 Verif.Ucd Verif.Grapheme Verif.Spec Verif.Spec.Escape Verif.Spec.GB

/-! ## The notation of bytes -/

theorem escape_foldl (isprint : Nat → Bool) (s acc : List Nat) :
    s.foldl (fun a ch => a ++ escapeByte isprint ch) acc = acc ++ s.flatMap (escapeByte isprint) := by
  induction s generalizing acc with
  | nil => simp
  | cons b s ih => simp [ih]

theorem escape_eq (isprint : Nat → Bool) (s : List Nat) : escape isprint s = s.flatMap (escapeByte isprint) := by
  rw [escape, escape_foldl]; simp

theorem upper_ok (v : Nat) (h : v < 16) : HexUpper (upperDigit v) v := by
  unfold upperDigit
  split
  · exact .dec ‹_›
  · have := HexUpper.alpha (v := v) (by omega) h
    rwa [show 0x41 + (v - 10) = 0x37 + v by omega] at this

theorem escapeByte_ok {isprint : Nat → Bool} (hp : PrintsAscii isprint) (b : Nat) (hb : b < 256) :
    LiteralPiece (escapeByte isprint b) b := by
  unfold escapeByte
  repeat' split
  · subst_vars; exact .backslash
  · subst_vars; exact .escape
  · subst_vars; exact .tab
  · subst_vars; exact .carriageReturn
  · subst_vars; exact .newline
  · subst_vars; exact .quote
  · rename_i h5 _ _ _ _ h2 h
    by_cases h8 : b < 0x80
    · have := (hp b h8).1 h
      exact .plain this.1 (by omega) h5 h2
    · exact .plain (by omega) (by omega) h5 h2
  · have := LiteralPiece.hex (upper_ok (b / 16) (by omega)) (upper_ok (b % 16) (by omega))
    rwa [show b / 16 * 16 + b % 16 = b by omega] at this

/-- **C59, notation.** What `uc-inspect` prints for a byte string is that byte string in the notation of string literals,
whatever the byte string and the locale are. -/
theorem C59_escape_literal {isprint : Nat → Bool} (hp : PrintsAscii isprint) (s : List Nat) (hb : ∀ b ∈ s, b < 256) :
    Literal (escape isprint s) s := by
  rw [escape_eq]
  induction s with
  | nil => exact .nil
  | cons b s ih =>
    rw [List.flatMap_cons]
    exact .cons (escapeByte_ok hp b (hb b (by simp))) (ih fun c h => hb c (by simp [h]))

theorem hexUpper_fun {d x y : Nat} (h : HexUpper d x) (h' : HexUpper d y) : x = y := by
  generalize hd : d = e at h'
  cases h <;> cases h' <;> omega

theorem hexUpper_range {d x : Nat} (h : HexUpper d x) : x < 16 ∧ (0x30 ≤ d ∧ d ≤ 0x39 ∨ 0x41 ≤ d ∧ d ≤ 0x46) := by
  cases h <;> omega

theorem piece_prefix {p q x y : List Nat} {b c : Nat} (hp : LiteralPiece p b) (hq : LiteralPiece q c) (h : p ++ x = q ++ y) :
    b = c ∧ x = y := by
  cases hp with
  | hex ha hb =>
    cases hq with
    | hex hc hd =>
      simp only [List.cons_append, List.nil_append, List.cons.injEq, true_and] at h
      obtain ⟨h1, h2, h3⟩ := h
      subst h1; subst h2
      exact ⟨by rw [hexUpper_fun ha hc, hexUpper_fun hb hd], h3⟩
    | _ =>
      simp only [List.cons_append, List.nil_append, List.cons.injEq, false_and, true_and, Nat.reduceEqDiff] at h
      try omega
  | _ =>
    cases hq <;>
      simp only [List.cons_append, List.nil_append, List.cons.injEq, false_and, true_and, Nat.reduceEqDiff] at h ⊢
    all_goals first
      | exact h
      | (exfalso; omega)

/-- **C59, notation.** The notation is unambiguous: a printed text denotes one byte string only. -/
theorem C59_literal_unique {x s t : List Nat} (hs : Literal x s) (ht : Literal x t) : s = t := by
  induction hs generalizing t with
  | nil =>
    generalize hx : ([] : List Nat) = e at ht
    cases ht with
    | nil => rfl
    | cons hp _ => cases hp <;> simp at hx
  | cons hp _ ih =>
    rename_i p b rest bs _
    generalize hx : p ++ rest = e at ht
    cases ht with
    | nil => cases hp <;> simp at hx
    | cons hq h2 =>
      obtain ⟨rfl, rfl⟩ := piece_prefix hp hq hx
      rw [ih h2]

/-- **C59, notation.** Different byte strings are shown differently. -/
theorem C59_escape_injective {isprint : Nat → Bool} (hp : PrintsAscii isprint) (s t : List Nat) (hs : ∀ b ∈ s, b < 256)
    (ht : ∀ b ∈ t, b < 256) (h : escape isprint s = escape isprint t) : s = t :=
  C59_literal_unique (C59_escape_literal hp s hs) (h ▸ C59_escape_literal hp t ht)

/-- **C59, notation.** Where no byte above 0x7F is printable (the C locale), the shown text is printable ASCII: no
control character of the input reaches the terminal. -/
theorem C59_escape_printable {isprint : Nat → Bool} (hp : PrintsAscii isprint) (hc : ∀ b, 0x80 ≤ b → isprint b = false)
    (s : List Nat) (hb : ∀ b ∈ s, b < 256) : ∀ x ∈ escape isprint s, 0x20 ≤ x ∧ x ≤ 0x7E := by
  rw [escape_eq]
  intro x hx
  obtain ⟨b, hbs, hx⟩ := List.mem_flatMap.1 hx
  have h256 := hb b hbs
  unfold escapeByte at hx
  repeat' split at hx
  all_goals try (simp only [List.mem_cons, List.not_mem_nil, or_false] at hx; omega)
  · rename_i h
    simp only [List.mem_cons, List.not_mem_nil, or_false] at hx
    subst hx
    by_cases h8 : x < 0x80
    · exact (hp x h8).1 h
    · rw [hc x (by omega)] at h; simp at h
  · have h1 := hexUpper_range (upper_ok (b / 16) (by omega))
    have h2 := hexUpper_range (upper_ok (b % 16) (by omega))
    simp only [List.mem_cons, List.not_mem_nil, or_false] at hx
    omega

/-- `isprint` of the C locale. -/
def cLocale (b : Nat) : Bool := decide (0x20 ≤ b ∧ b ≤ 0x7E)

theorem cLocale_ok : PrintsAscii cLocale := fun b _ => by simp [cLocale]

example : escape cLocale [0x41, 0x1B, 0x5C, 0xC3, 0xA9, 0x0A, 0x22, 0x7F] = lit "A\\033\\\\\\xC3\\xA9\\n\\\"\\x7F" := by decide

/-! ## Numbers -/

theorem decimal_ok (n : Nat) : DecNumber (decimal n) n := by
  induction n using Nat.strongRecOn with
  | _ n ih =>
    rw [decimal]
    split
    · exact .one ‹_›
    · have := DecNumber.snoc (ih (n / 10) (by omega)) (Nat.mod_lt n (show 0 < 10 by omega))
      rwa [show n / 10 * 10 + n % 10 = n by omega] at this

theorem hex8_ok (n : Nat) (h : n < 2^32) : HexNumber (hex8 n) n ∧ (hex8 n).length = 8 := by
  refine ⟨?_, rfl⟩
  have d : ∀ v, HexDigit (upperDigit (v % 16)) (v % 16) := fun v => .inl (upper_ok _ (Nat.mod_lt _ (by omega)))
  have h0 := HexNumber.one (d (n / 268435456))
  have h1 := h0.snoc (d (n / 16777216))
  have h2 := h1.snoc (d (n / 1048576))
  have h3 := h2.snoc (d (n / 65536))
  have h4 := h3.snoc (d (n / 4096))
  have h5 := h4.snoc (d (n / 256))
  have h6 := h5.snoc (d (n / 16))
  have h7 := h6.snoc (d n)
  have e1 : n / 268435456 % 16 * 16 + n / 16777216 % 16 = n / 16777216 := by omega
  have e2 : n / 16777216 * 16 + n / 1048576 % 16 = n / 1048576 := by omega
  have e3 : n / 1048576 * 16 + n / 65536 % 16 = n / 65536 := by omega
  have e4 : n / 65536 * 16 + n / 4096 % 16 = n / 4096 := by omega
  have e5 : n / 4096 * 16 + n / 256 % 16 = n / 256 := by omega
  have e6 : n / 256 * 16 + n / 16 % 16 = n / 16 := by omega
  have e7 : n / 16 * 16 + n % 16 = n := by omega
  rw [e1, e2, e3, e4, e5, e6, e7] at h7
  exact h7

theorem decNumber_digits {ds : List Nat} {n : Nat} (h : DecNumber ds n) : ∀ d ∈ ds, 0x30 ≤ d ∧ d ≤ 0x39 := by
  induction h with
  | one h => intro d hd; simp at hd; omega
  | snoc _ h ih =>
    intro d hd
    rcases List.mem_append.1 hd with hd | hd
    · exact ih d hd
    · simp at hd; omega

/-! ## The listing -/

/-- A line of the listing, read off the documentation of the format: right-aligned byte offset, the codepoint in eight
hexadecimal digits, its presentation, script, whether a break is allowed before it, its width, and its UTF-8 form as
a string literal. -/
def ListingLine (E : Env) (line : List Nat) (offset c : Nat) (breakable : Bool) (utf8 : List Nat) : Prop :=
  ∃ blanks d h sc w u, line = blanks ++ d ++ lit ": U+" ++ h ++ lit " [" ++
      (if E.isEmoji c = true ∧ E.isEmojiComponent c = false then lit "EMOJI" else lit "TEXT ") ++ lit "] [" ++
      sc ++ lit "] " ++ (if breakable then lit "[breakable  ]" else lit "[unbreakable]") ++ lit " width:" ++
      w ++ lit " UTF8:" ++ u ++ lit "\n" ∧
    (∀ x ∈ blanks, x = 0x20) ∧ (blanks ++ d).length = max 3 d.length ∧ DecNumber d offset ∧
    HexNumber h c ∧ h.length = 8 ∧ (∃ k, sc = E.scriptName (E.D.script c) ++ List.replicate k 0x20 ∧
      sc.length = max 10 (E.scriptName (E.D.script c)).length) ∧ DecNumber w (E.U c).charWidth ∧ Literal u utf8

theorem line_ok (E : Env) (hp : PrintsAscii E.isprint) (off c : Nat) (hc : c ≤ 0x1FFFFF) (br : Bool) :
    ListingLine E (codepointLine E off c br) off c br (toUtf8 c) := by
  refine ⟨List.replicate (3 - (decimal off).length) 0x20, decimal off, hex8 c, padRight 10 (E.scriptName (E.D.script c)),
    decimal (E.U c).charWidth, escape E.isprint (toUtf8 c), ?_, ?_, ?_, decimal_ok off, (hex8_ok c (by omega)).1, rfl,
    ⟨_, rfl, ?_⟩, decimal_ok _, C59_escape_literal hp _ (toUtf8_lt256 c)⟩
  · have he : isEmojiText E c = decide (E.isEmoji c = true ∧ E.isEmojiComponent c = false) := by
      unfold isEmojiText
      cases E.isEmoji c <;> cases E.isEmojiComponent c <;> rfl
    have hn : lit "\n" = [0x0A] := rfl
    simp only [codepointLine, padLeft, he, decide_eq_true_eq, hn, Width.width1, List.append_assoc]
  · intro x hx; exact List.eq_of_mem_replicate hx
  · simp only [List.length_append, List.length_replicate]; omega
  · simp only [padRight, List.length_append, List.length_replicate]; omega

/-- The verdicts of the tool on a sequence of codepoints. -/
def flagsFrom (U : Table) : Nat → GState → List Nat → List Bool
  | _, _, [] => []
  | last, gs, c :: cs => (breakStep U last c gs).2 :: flagsFrom U c (breakStep U last c gs).1 cs

theorem flagsFrom_length (U : Table) (last : Nat) (gs : GState) (cs : List Nat) : (flagsFrom U last gs cs).length = cs.length := by
  induction cs generalizing last gs with
  | nil => rfl
  | cons c cs ih => simp [flagsFrom, ih]

/-- the lines for a text, from a given offset -/
def linesFrom (E : Env) : Nat → List Nat → List Bool → List (List Nat)
  | off, c :: cs, f :: fs => codepointLine E off c f :: linesFrom E (off + (toUtf8 c).length) cs fs
  | _, _, _ => []

theorem loop_one (E : Env) (s : CpState) (xs rest : List Nat) (n c : Nat)
    (h : (feed s.dec xs).2 = List.replicate n .incomplete ++ [.success c]) :
    codepointsLoop E s (xs ++ rest) = codepointLine E s.lastOffset c (breakStep E.U s.lastWc c s.gs).2 ++
      codepointsLoop E ⟨s.totalOffset + xs.length, s.totalOffset + xs.length, (feed s.dec xs).1, c,
        (breakStep E.U s.lastWc c s.gs).1⟩ rest := by
  induction n generalizing s xs with
  | zero =>
    match xs with
    | [] => simp [feed] at h
    | b :: bs =>
      simp only [feed, List.replicate_zero, List.nil_append, List.cons.injEq] at h ⊢
      have hbs : bs = [] := by
        cases bs with
        | nil => rfl
        | cons _ _ => simp [feed] at h
      subst hbs
      rw [List.cons_append, codepointsLoop]
      split
      · rename_i d wc heq
        rw [heq] at h
        have := h.1
        simp only [Result.success.injEq] at this
        subst this
        simp [feed, heq]
      · rename_i d heq; rw [heq] at h; exact absurd h.1 (by simp)
      · rename_i d heq; rw [heq] at h; exact absurd h.1 (by simp)
  | succ n ih =>
    match xs with
    | [] => simp [feed] at h
    | b :: bs =>
      simp only [feed, List.replicate_succ, List.cons_append, List.cons.injEq] at h ⊢
      rw [codepointsLoop]
      split
      · rename_i d wc heq; rw [heq] at h; exact absurd h.1 (by simp)
      · rename_i d heq; rw [heq] at h; exact absurd h.1 (by simp)
      · rename_i d heq
        rw [heq] at h
        have := ih { s with totalOffset := s.totalOffset + 1, dec := d } bs h.2
        rw [this]
        simp only [heq, List.length_cons, Nat.add_assoc, Nat.add_comm 1]

theorem loop_text (E : Env) (cs : List Nat) (hc : ∀ c ∈ cs, c ≤ 0x1FFFFF) (s : CpState) (hs : s.dec.expectedLength = 0)
    (ho : s.totalOffset = s.lastOffset) :
    codepointsLoop E s (cs.flatMap toUtf8) = (linesFrom E s.lastOffset cs (flagsFrom E.U s.lastWc s.gs cs)).flatten := by
  induction cs generalizing s with
  | nil => simp [codepointsLoop, linesFrom]
  | cons c cs ih =>
    obtain ⟨h1, h2, _⟩ := feed_toUtf8 s.dec hs c (hc c (by simp))
    rw [List.flatMap_cons, loop_one E s _ _ _ c h1, flagsFrom, linesFrom, List.flatten_cons, ih (fun d h => hc d (by simp [h])) _ h2 rfl]
    simp [ho]

theorem codepoints_text (E : Env) (cs : List Nat) (hc : ∀ c ∈ cs, c ≤ 0x1FFFFF) :
    codepoints E (toUtf8Str cs) = (linesFrom E 0 cs (flagsFrom E.U 0 (GState.default E.U) cs)).flatten := by
  rw [toUtf8Str_eq]; exact loop_text E cs hc _ rfl rfl

theorem linesFrom_length (E : Env) (off : Nat) (cs : List Nat) (fs : List Bool) (h : fs.length = cs.length) :
    (linesFrom E off cs fs).length = cs.length := by
  induction cs generalizing off fs with
  | nil => simp [linesFrom]
  | cons c cs ih =>
    cases fs with
    | nil => simp at h
    | cons f fs => simp [linesFrom, ih _ fs (by simpa using h)]

theorem linesFrom_get (E : Env) (off : Nat) (l : List Nat) (c : Nat) (post : List Nat) (fs : List Bool)
    (h : fs.length = (l ++ c :: post).length) :
    ∃ f, fs[l.length]? = some f ∧ (linesFrom E off (l ++ c :: post) fs)[l.length]? =
      some (codepointLine E (off + (toUtf8Str l).length) c f) := by
  induction l generalizing off fs with
  | nil =>
    cases fs with
    | nil => simp at h
    | cons f fs => exact ⟨f, by simp, by simp [linesFrom, toUtf8Str]⟩
  | cons x l ih =>
    cases fs with
    | nil => simp at h
    | cons f fs =>
      obtain ⟨f', h1, h2⟩ := ih (off + (toUtf8 x).length) fs (by simpa using h)
      refine ⟨f', by simpa using h1, ?_⟩
      simp only [List.cons_append, linesFrom, List.length_cons, List.getElem?_cons_succ, h2]
      simp [toUtf8Str_eq, Nat.add_assoc]

/-! ### Where breaks are shown -/

theorem flags_skip (U : Table) (q rest : List Nat) (last : Nat) (gs : GState) :
    ∃ X gs', flagsFrom U last gs (q ++ rest) = X ++ flagsFrom U (q.getLastD last) gs' rest ∧ X.length = q.length := by
  induction q generalizing last gs with
  | nil => exact ⟨[], gs, rfl, rfl⟩
  | cons c q ih =>
    obtain ⟨X, gs', h1, h2⟩ := ih c (breakStep U last c gs).1
    refine ⟨(breakStep U last c gs).2 :: X, gs', ?_, by simp [h2]⟩
    simp only [List.cons_append, flagsFrom, h1]
    rw [List.getLastD_cons]

theorem flags_piece (U : Table) (a : Nat) (ha : a ≠ 0) (gs : GState) (w : List Nat) (hw : 0 ∉ w) (b : Nat) (post : List Nat) :
    (flagsFrom U a gs (w ++ b :: post))[w.length]? = (incrementalFrom U gs (w ++ [b]))[w.length]? := by
  induction w generalizing a gs with
  | nil => simp [flagsFrom, breakStep, ha, incrementalFrom]
  | cons c w ih =>
    simp only [List.mem_cons, not_or] at hw
    simp only [List.cons_append, flagsFrom, incrementalFrom, List.length_cons, List.getElem?_cons_succ, breakStep, if_neg ha]
    exact ih c (fun h => hw.1 h.symm) _ hw.2

theorem flags_exact {U : Table} (D : DataOk U) (gs : GState) (q piece : List Nat) (b : Nat) (post : List Nat) (hp : 0 ∉ piece)
    (hq : q = [] ∨ ∃ q', q = q' ++ [0]) :
    (flagsFrom U 0 gs (q ++ piece ++ b :: post))[(q ++ piece).length]? = some true ↔ piece = [] ∨ BoundaryInc U piece b := by
  have hl : q.getLastD 0 = 0 := by
    rcases hq with rfl | ⟨q', rfl⟩
    · rfl
    · simp
  obtain ⟨X, gs', h1, h2⟩ := flags_skip U q (piece ++ b :: post) 0 gs
  rw [List.append_assoc, h1, hl, List.length_append, ← h2, List.getElem?_append_right (by omega), Nat.add_sub_cancel_left]
  cases piece with
  | nil => simp [flagsFrom, breakStep]
  | cons c w =>
    simp only [List.mem_cons, not_or] at hp
    have := (C16_incremental_exact D (c :: w) b [] (by simp)).2
    simp only [List.cons_append, incremental, List.length_cons, Nat.add_sub_cancel] at this
    simp only [List.cons_append, flagsFrom, List.length_cons, List.getElem?_cons_succ, breakStep, if_true, reduceCtorEq, false_or]
    rw [flags_piece U c (fun h => hp.1 h.symm) _ w hp.2, this]

/-- **C59, the listing.** For every text, `uc-inspect codepoints` prints one line per codepoint, in order, with the byte
offset of its UTF-8 form, its codepoint, presentation, script, width and UTF-8 form; and the break column is exactly that
of the incremental API restarted after every U+0000. -/
theorem C59_listing {E : Env} (hp : PrintsAscii E.isprint) (D : DataOk E.U) (cs : List Nat) (hc : ∀ c ∈ cs, c ≤ 0x1FFFFF) :
    ∃ (lines : List (List Nat)) (flags : List Bool), codepoints E (toUtf8Str cs) = lines.flatten ∧
      lines.length = cs.length ∧ flags.length = cs.length ∧
      (∀ l c post, cs = l ++ c :: post → ∃ line f, lines[l.length]? = some line ∧ flags[l.length]? = some f ∧
        ListingLine E line (toUtf8Str l).length c f (toUtf8 c)) ∧
      (∀ q piece b post, cs = q ++ piece ++ b :: post → 0 ∉ piece → (q = [] ∨ ∃ q', q = q' ++ [0]) →
        (flags[(q ++ piece).length]? = some true ↔ piece = [] ∨ BoundaryInc E.U piece b)) := by
  have hfl := flagsFrom_length E.U 0 (GState.default E.U) cs
  refine ⟨_, _, codepoints_text E cs hc, linesFrom_length E 0 cs _ hfl, hfl, ?_, ?_⟩
  · rintro l c post rfl
    obtain ⟨f, h1, h2⟩ := linesFrom_get E 0 l c post _ hfl
    refine ⟨_, f, h2, h1, ?_⟩
    rw [Nat.zero_add]
    exact line_ok E hp _ c (hc c (by simp)) f
  · rintro q piece b post rfl h0 hq
    exact flags_exact D _ q piece b post h0 hq

end Verif.Props.Tools
