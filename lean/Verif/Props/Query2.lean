import Verif.Props.Query

/-!
# C60, continued: reports, grapheme clusters, runs, arguments
-/

namespace Verif.Props.Query
open Verif.Query Verif.Tools Verif.Utf8 Verif.Ucd Verif.Grapheme Verif.Spec Verif.Spec.Escape Verif.Convert Verif.Props.Tools

/-! ## Reports -/

/-- The version an age stands for: `V`, major, `_`, minor is shown as major, `.`, minor. -/
theorem C60_age (major minor : List Nat) (h : 0x5F ∉ major) (h' : 0x5F ∉ minor) :
    prettyAge (lit "V" ++ major ++ lit "_" ++ minor) = major ++ lit "." ++ minor := by
  have key : ∀ l : List Nat, 0x5F ∉ l → (l.map fun b => if b = 0x5F then 0x2E else b) = l := by
    intro l hl
    induction l with
    | nil => rfl
    | cons a l ih =>
      simp only [List.mem_cons, not_or] at hl
      rw [List.map_cons, ih hl.2, if_neg (Ne.symm hl.1)]
  have e1 : lit "V" = [0x56] := by decide
  have e2 : lit "_" = [0x5F] := by decide
  have e3 : lit "." = [0x2E] := by decide
  rw [e1, e2, e3, prettyAge]
  simp only [List.cons_append, List.nil_append, List.append_assoc, List.drop_succ_cons, List.drop_zero, List.map_append, List.map_cons]
  rw [key _ h, key _ h']
  rfl

/-- Observation: the age of an unassigned codepoint is shown as `nassigned` (and fails an assertion in debug builds). -/
theorem C60_fails_unassigned_age : prettyAge (lit "Unassigned") = lit "nassigned" := by decide

/-- The report on a codepoint, with the library's answers for it: its name, its version, its number in hexadecimal,
its UTF-8 form in quotes, itself unless it is a control character, … -/
def Report (E : Query.Env) (c : Nat) (out : List Nat) : Prop :=
  ∃ hex u8 width display, HexNumber hex c ∧ HexText Quoted u8 (toUtf8 c) ∧ HexNumber width (E.U c).charWidth ∧
    (display = if E.isControl c then [] else lit "Display                     : " ++ toUtf8 c ++ lit "\n") ∧
    out =
      lit "Name                        : " ++ E.name c ++ lit "\n" ++
      lit "Unicode Version             : " ++ prettyAge (E.ageName c) ++ lit "\n" ++
      lit "Codepoint                   : U+" ++ hex ++ lit "\n" ++
      lit "UTF-8                       : \"" ++ u8 ++ lit "\"\n" ++
      display ++
      lit "Plane                       : " ++ E.planeName c ++ lit "\n" ++
      lit "Block                       : " ++ E.blockName c ++ lit "\n" ++
      lit "Script                      : " ++ E.scriptName (E.D.script c) ++ lit "\n" ++
      lit "General Category            : " ++ E.categoryName c ++ lit "\n" ++
      lit "East Asian Width            : " ++ E.eastAsianWidthName c ++ lit "\n" ++
      lit "Character width             : " ++ width ++ lit "\n" ++
      lit "Emoji Segmentation Category : " ++ E.emojiCategoryName c ++ lit "\n" ++
      lit "Emoji Presentation          : " ++ (if (E.U c).isEmojiPresentation then lit "emoji" else lit "text") ++ lit "\n" ++
      lit "Grapheme Cluster Break      : " ++ E.graphemeBreakName c ++ lit "\n\n"

theorem quote_line (x rest : List Nat) : lit "UTF-8                       : " ++ ((0x22 :: x ++ [0x22]) ++ (lit "\n" ++ rest)) =
    lit "UTF-8                       : \"" ++ (x ++ (lit "\"\n" ++ rest)) := by
  have e1 : lit "UTF-8                       : \"" = lit "UTF-8                       : " ++ [0x22] := by decide
  have e2 : lit "\"\n" = [0x22] ++ lit "\n" := by decide
  rw [e1, e2]
  generalize lit "UTF-8                       : " = a
  generalize lit "\n" = b
  simp only [List.append_assoc, List.cons_append, List.nil_append]

section
attribute [local irreducible] lit

theorem report_ok {E : Query.Env} (hp : PrintsAscii E.isprint) (c : Nat) : Report E c (report E c) := by
  unfold Report report quotedAndEscaped Width.width1
  rw [encode8_eq]
  refine Exists.intro (hexLower c) (Exists.intro (escaped E.isprint (toUtf8 c)) (Exists.intro (hexLower (E.U c).charWidth) (Exists.intro _
    ⟨hexLower_number c, C60_escaped hp _ (toUtf8_lt256 c), hexLower_number _, rfl, ?_⟩)))
  simp only [List.append_assoc]
  rw [← quote_line]
  simp only [List.append_assoc]

end

/-- **C60, `properties`.** The reports on the codepoints the arguments name are printed in order; each argument that names
none is complained about on the standard error; the tool succeeds in any case. -/
theorem C60_properties {E : Query.Env} (hp : PrintsAscii E.isprint) (args : List (List Nat)) :
    ∃ reports : List (List Nat),
      query E (lit "properties" :: args) =
        .ok ⟨reports.flatten, (args.filter fun a => parseChars E.simd a = []).flatMap (fun a =>
          lit "Failed to parse codepoint " ++ a ++ lit "\n"), 0⟩ ∧
      reports.length = (args.flatMap (parseChars E.simd)).length ∧
      ∀ (i c : Nat), (args.flatMap (parseChars E.simd))[i]? = some c → ∃ r, reports[i]? = some r ∧ Report E c r := by
  have hq : query E (lit "properties" :: args) = .ok (showProperties E args) := by
    rw [query, if_neg (by decide), if_neg (by decide), if_neg (by decide), if_pos rfl]
  refine ⟨(args.flatMap (parseChars E.simd)).map (report E), ?_, by simp, ?_⟩
  · rw [hq]
    congr 1
    induction args with
    | nil => rfl
    | cons a args ih =>
      have ih := ih (by rw [query, if_neg (by decide), if_neg (by decide), if_neg (by decide), if_pos rfl])
      rw [showProperties]
      by_cases h : parseChars E.simd a = []
      · rw [if_pos h, ih]
        simp only [List.flatMap_cons, h, List.nil_append, List.filter_cons, decide_true, if_true]
      · rw [if_neg h, ih]
        simp only [List.flatMap_cons, List.filter_cons, h, decide_false, List.map_append, List.flatten_append]
        rw [List.flatMap_def (f := report E)]
        rfl
  · intro i c h
    exact ⟨report E c, by rw [List.getElem?_map, h]; rfl, report_ok hp c⟩

/-- A concrete environment. -/
def toyQuery : Query.Env where
  toEnv := toyEnv
  signedChar := true
  isTTY := false
  name := fun _ => lit "name"
  ageName := fun _ => lit "V1_1"
  planeName := fun _ => lit "plane"
  blockName := fun _ => lit "block"
  categoryName := fun _ => lit "category"
  eastAsianWidthName := fun _ => lit "width"
  emojiCategoryName := fun _ => lit "emoji"
  graphemeBreakName := fun _ => lit "break"
  isControl := fun c => decide (c < 0x20)

example : query toyQuery [lit "properties", lit "U+xx"] = .ok ⟨[], lit "Failed to parse codepoint U+xx\n", 0⟩ := by decide +kernel

/-- **C60, `properties`** may be left out, unless the first argument is the name of another command. -/
theorem C60_default (E : Query.Env) (arg : List Nat) (args : List (List Nat)) (h : arg ≠ lit "help") (h' : arg ≠ lit "runs")
    (h'' : arg ≠ lit "gc") (h3 : arg ≠ lit "properties") : query E (arg :: args) = query E (lit "properties" :: arg :: args) := by
  conv_rhs => rw [query, if_neg (by decide), if_neg (by decide), if_neg (by decide), if_pos rfl]
  rw [query, if_neg h, if_neg h', if_neg h'', if_neg h3]

/-- **C60, usage.** Without arguments and for `help` the usage is printed; only the former is an error. -/
theorem C60_help (E : Query.Env) (args : List (List Nat)) :
    query E [] = .ok (usage 1) ∧ query E (lit "help" :: args) = .ok (usage 0) := by
  refine ⟨rfl, ?_⟩
  rw [query, if_pos rfl]

/-- The lines of the usage text: unicode-query.cpp:73-79. -/
def usageLines : List String :=
  ["unicode-query [properties] U+XXXX [...]", "              gc [-e] [--] \"Text string\"",
    "              runs [-e] [--] \"Text string\""]

/-- **C60, usage.** The usage names the three commands, is printed to standard output, and the tool ends with the given code. -/
theorem C60_usage (code : Nat) : usage code = ⟨usageLines.flatMap fun l => lit l ++ [0x0A], [], code⟩ := by
  have h : lit "unicode-query [properties] U+XXXX [...]\n" ++ lit "              gc [-e] [--] \"Text string\"\n" ++
      lit "              runs [-e] [--] \"Text string\"\n" = usageLines.flatMap fun l => lit l ++ [0x0A] := by decide +kernel
  rw [usage, h]

/-! ## Options -/

/-- The arguments of `gc` and `runs`: any number of `-e`, then texts, of which the first must not look like an option; or
`--`, then any texts. -/
inductive Options : Bool → List (List Nat) → List (List Nat) → Prop
  | none : Options false [] []
  | texts {t ts} : (∀ r, t ≠ 0x2D :: r) → Options false (t :: ts) (t :: ts)
  | sep {ts} : Options false (lit "--" :: ts) ts
  | flag {e args ts} : Options e args ts → Options true (lit "-e" :: args) ts

theorem head_dash (t : List Nat) : t.head? = some 0x2D ↔ ∃ r, t = 0x2D :: r := by
  cases t with
  | nil => simp
  | cons a t => simp

theorem lit_e : lit "-e" = [0x2D, 0x65] := by decide
theorem lit_dd : lit "--" = [0x2D, 0x2D] := by decide

theorem options_some {e : Bool} {args ts : List (List Nat)} (h : Options e args ts) (e0 : Bool) :
    options e0 args = some (e0 || e, ts) := by
  induction h generalizing e0 with
  | none => simp [options]
  | @texts t ts h =>
    have h1 : t ≠ lit "-e" := by rw [lit_e]; exact h _
    have h2 : t ≠ lit "--" := by rw [lit_dd]; exact h _
    rw [options, if_neg h1, if_neg h2, if_neg (fun h' => by obtain ⟨r, hr⟩ := (head_dash t).1 h'; exact h r hr), Bool.or_false]
  | sep => rw [options, if_neg (by decide), if_pos rfl, Bool.or_false]
  | flag h ih => rw [options, if_pos rfl, ih]; simp

theorem options_cases (args : List (List Nat)) (e0 : Bool) : (∃ e ts, Options e args ts) ∨ options e0 args = none := by
  induction args generalizing e0 with
  | nil => exact .inl ⟨_, _, .none⟩
  | cons a args ih =>
    by_cases h1 : a = lit "-e"
    · subst h1
      rcases ih true with ⟨e, ts, h⟩ | h
      · exact .inl ⟨_, _, .flag h⟩
      · right; rw [options, if_pos rfl, h]
    · by_cases h2 : a = lit "--"
      · subst h2; exact .inl ⟨_, _, .sep⟩
      · by_cases h3 : a.head? = some 0x2D
        · right; rw [options, if_neg h1, if_neg h2, if_pos h3]
        · exact .inl ⟨_, _, .texts fun r hr => h3 ((head_dash a).2 ⟨r, hr⟩)⟩

/-- The options determine the texts. -/
theorem C60_options_unique {e e' : Bool} {args ts ts' : List (List Nat)} (h : Options e args ts) (h' : Options e' args ts') :
    e = e' ∧ ts = ts' := by
  have := options_some h false
  rw [options_some h' false] at this
  simp only [Bool.false_or, Option.some.injEq, Prod.mk.injEq] at this
  exact ⟨this.1.symm, this.2.symm⟩

/-- **C60, usage.** `gc` and `runs` print the usage and fail exactly if their arguments are not of that form. -/
theorem C60_bad_options (E : Query.Env) (args : List (List Nat)) (h : ¬ ∃ e ts, Options e args ts) :
    query E (lit "gc" :: args) = .ok (usage 1) ∧ query E (lit "runs" :: args) = .ok (usage 1) := by
  have ho : options false args = none := (options_cases args false).resolve_left h
  constructor
  · rw [query, if_neg (by decide), if_neg (by decide), if_pos rfl, showClusters, ho]
  · rw [query, if_neg (by decide), if_pos rfl, showRuns, ho]

example : Options true [lit "-e", lit "--", lit "-x"] [lit "-x"] := .flag .sep
example : ¬ ∃ e ts, Options e [lit "-x"] ts := by
  rintro ⟨e, ts, h⟩
  have := options_some h false
  rw [options, if_neg (by decide), if_neg (by decide), if_pos (by decide)] at this
  simp at this

/-! ## Grapheme clusters -/

/-- How the bytes of a text are shown. -/
def Shows (E : Query.Env) (e : Bool) (out bytes : List Nat) : Prop :=
  (e = true → HexText Quoted out bytes) ∧ (e = false → HexText (Plain E.signedChar) out bytes) ∧ ∀ x ∈ out, 0x20 ≤ x

theorem toUtf8Str_lt (cs : List Nat) : ∀ b ∈ toUtf8Str cs, b < 256 := by
  rw [toUtf8Str_eq]
  intro b hb
  obtain ⟨c, _, hc⟩ := List.mem_flatMap.1 hb
  exact toUtf8_lt256 c b hc

theorem shows_ok {E : Query.Env} (hp : PrintsAscii E.isprint) (e : Bool) (cs : List Nat) :
    Shows E e (shownText E e (toUtf8Str cs)) (toUtf8Str cs) := by
  refine ⟨?_, ?_, C60_no_controls hp e _ (toUtf8Str_lt cs)⟩
  · rintro rfl; exact C60_escaped hp _ (toUtf8Str_lt cs)
  · rintro rfl; exact C60_plain _ _ (toUtf8Str_lt cs)

/-- **C60, `gc`.** For texts in UTF-8, one line per grapheme cluster is printed, in order, each showing the UTF-8 form of
the cluster (and no newline but the one that ends it); the tool succeeds. -/
theorem C60_clusters {E : Query.Env} (hp : PrintsAscii E.isprint) (e : Bool) (args texts : List (List Nat))
    (ho : Options e args (texts.map toUtf8Str)) (hc : ∀ t ∈ texts, ∀ c ∈ t, c ≤ 0x1FFFFF) :
    ∃ lines : List (List Nat),
      query E (lit "gc" :: args) = .ok ⟨lines.flatMap (· ++ [0x0A]), [], 0⟩ ∧
      lines.length = (texts.flatMap (clusters E.U)).length ∧
      ∀ (i : Nat) (gc : List Nat), (texts.flatMap (clusters E.U))[i]? = some gc →
        ∃ l, lines[i]? = some l ∧ Shows E e l (toUtf8Str gc) := by
  refine ⟨(texts.flatMap (clusters E.U)).map fun gc => shownText E e (toUtf8Str gc), ?_, by simp, ?_⟩
  · rw [query, if_neg (by decide), if_neg (by decide), if_pos rfl, showClusters, options_some ho]
    simp only [Bool.false_or]
    congr 2
    rw [List.flatMap_map, List.flatMap_map, List.flatMap_assoc]
    have key : ∀ t ∈ texts, clusterLines E e (Utf8Grapheme.segment E.U (toUtf8Str t)) =
        (clusters E.U t).flatMap fun gc => shownText E e (toUtf8Str gc) ++ [0x0A] := by
      intro t ht
      rw [C17_utf8_clusters E.U t (hc t ht), clusterLines]
      have hl : lit "\n" = [0x0A] := by decide
      simp only [hl, toUtf8Str_eq]
      rfl
    rw [List.flatMap_congr key]
  · intro i gc h
    exact ⟨_, by rw [List.getElem?_map, h]; rfl, shows_ok hp e gc⟩

example : query toyQuery [lit "gc", toUtf8Str [0x1F600, 0x200D, 0x1F600, 0x0A, 0x61]] =
    .ok ⟨lit "\\xf0\\x9f\\x98\\x80\\xe2\\x80\\x8d\\xf0\\x9f\\x98\\x80\n\\x a\na\n", [], 0⟩ := by decide +kernel

/-! ## Runs -/

/-- What `runs` prints for one text: for each range of the common refinement of scripts and emoji presentation, its first and
last index, length, script and presentation, and its text in quotes (green on a terminal). -/
def RunsOf (E : Query.Env) (e : Bool) (cs out : List Nat) : Prop :=
  ∃ (rs : List (Verif.Run.Range Verif.Script.Script Bool)) (texts blocks : List (List Nat)) (shown : List Nat → List Nat),
    Verif.Props.Run.CommonRefinement cs.length (Verif.Script.runs E.D cs) (Verif.Emoji.runs (cs.map E.cat)) rs ∧
    out = blocks.flatten ∧ texts.flatten = cs ∧ texts.length = rs.length ∧ blocks.length = rs.length ∧
    (∀ t, Shows E e (shown (toUtf8Str t)) (toUtf8Str t)) ∧
    ∀ (i : Nat) (r : Verif.Run.Range Verif.Script.Script Bool), rs[i]? = some r → ∃ t blk, texts[i]? = some t ∧ blocks[i]? = some blk ∧
      t.length = r.stop - r.start ∧ RunBlock E.toEnv (fun u8 => lit "\"" ++ (if E.isTTY then [0x1B] ++ lit "[32m" else []) ++ shown u8 ++
        (if E.isTTY then [0x1B] ++ lit "[m" else []) ++ lit "\"\n\n") r t blk

theorem runsOf_ok {E : Query.Env} (hp : PrintsAscii E.isprint) (hD : Verif.Props.Script.StrongOk E.D) (e : Bool) (bytes cs : List Nat)
    (hb : fromUtf8Str E.simd bytes = cs) (hl : cs.length < 2^64) :
    ∃ out, showRunsOf E e bytes = .ok out ∧ RunsOf E e cs out := by
  obtain ⟨rs, texts, blocks, h1, h2, h3, h4, h5, h6⟩ := runs_shown (E := E.toEnv) hD (runShown E e) cs hl
  refine ⟨_, by rw [showRunsOf, hb, h2], rs, texts, blocks, shownText E e, h1, rfl, h3, h4, h5, fun t => shows_ok hp e t, ?_⟩
  intro i r hr
  obtain ⟨t, blk, a, b, c, d⟩ := h6 i r hr
  exact ⟨t, blk, a, b, c, d⟩

theorem showRunsAll_ok (E : Query.Env) (e : Bool) (P : List Nat → List Nat → Prop) (ts : List (List Nat))
    (h : ∀ t ∈ ts, ∃ out, showRunsOf E e t = .ok out ∧ P t out) :
    ∃ outs : List (List Nat), showRunsAll E e ts = .ok outs.flatten ∧ outs.length = ts.length ∧
      ∀ (i : Nat) t, ts[i]? = some t → ∃ o, outs[i]? = some o ∧ P t o := by
  induction ts with
  | nil => exact ⟨[], rfl, rfl, by simp⟩
  | cons t ts ih =>
    obtain ⟨o, h1, h2⟩ := h t (by simp)
    obtain ⟨outs, e1, e2, e3⟩ := ih fun t ht => h t (by simp [ht])
    refine ⟨o :: outs, ?_, by simp [e2], ?_⟩
    · simp only [showRunsAll, h1, e1, List.flatten_cons]
    · intro i u hu
      cases i with
      | zero => simp only [List.getElem?_cons_zero, Option.some.injEq] at hu; subst hu; exact ⟨o, rfl, h2⟩
      | succ i => simp only [List.getElem?_cons_succ] at hu ⊢; exact e3 i u hu

theorem query_runs (E : Query.Env) (args : List (List Nat)) : query E (lit "runs" :: args) = showRuns E args := by
  rw [query, if_neg (by decide), if_pos rfl]

/-- **C60, `runs`.** For texts in UTF-8, the runs of each text are printed, in order; the tool succeeds. -/
theorem C60_runs {E : Query.Env} (hp : PrintsAscii E.isprint) (hD : Verif.Props.Script.StrongOk E.D) (e : Bool)
    (args texts : List (List Nat)) (ho : Options e args (texts.map toUtf8Str))
    (hc : ∀ t ∈ texts, t.length < 2^64 ∧ ∀ c ∈ t, c ≤ 0x1FFFFF) :
    ∃ outs : List (List Nat), query E (lit "runs" :: args) = .ok ⟨outs.flatten, [], 0⟩ ∧ outs.length = texts.length ∧
      ∀ (i : Nat) (cs : List Nat), texts[i]? = some cs → ∃ o, outs[i]? = some o ∧ RunsOf E e cs o := by
  obtain ⟨outs, h1, h2, h3⟩ := showRunsAll_ok E e (fun t o => ∀ cs, t = toUtf8Str cs → cs ∈ texts → RunsOf E e cs o) (texts.map toUtf8Str) (by
    intro t ht
    obtain ⟨cs, hcs, rfl⟩ := List.mem_map.1 ht
    obtain ⟨out, h1, h2⟩ := runsOf_ok hp hD e (toUtf8Str cs) cs (C02_utf8_string_roundtrip _ cs (hc cs hcs).2) (hc cs hcs).1
    refine ⟨out, h1, fun cs' he hm => ?_⟩
    have := congrArg (fromUtf8Str 0) he
    rw [C02_utf8_string_roundtrip _ cs (hc cs hcs).2, C02_utf8_string_roundtrip _ cs' (hc cs' hm).2] at this
    rwa [← this])
  refine ⟨outs, ?_, by simpa using h2, ?_⟩
  · rw [query_runs, showRuns, options_some ho]
    simp only [Bool.false_or, h1]
  · intro i cs hi
    obtain ⟨o, ho, hP⟩ := h3 i (toUtf8Str cs) (by rw [List.getElem?_map, hi]; rfl)
    exact ⟨o, ho, hP cs rfl (List.mem_of_getElem? hi)⟩

example : query toyQuery [lit "runs", lit "-e", toUtf8Str [0x41, 0x22]] =
    .ok ⟨lit "0-1 (2): Latin Text\n\"A\\x22\"\n\n", [], 0⟩ := by decide +kernel

/-- **C60, totality and memory safety.** On every argument vector the tool ends, reads only its arguments, and exits with 0 or 1. -/
theorem C60_safe {E : Query.Env} (hp : PrintsAscii E.isprint) (hD : Verif.Props.Script.StrongOk E.D) (args : List (List Nat))
    (hl : ∀ a ∈ args, a.length < 2^64) : ∃ o, query E args = .ok o ∧ o.code ≤ 1 := by
  cases args with
  | nil => exact ⟨_, rfl, by decide⟩
  | cons a args =>
    by_cases hr : a = lit "runs"
    · subst hr
      rw [query_runs]
      rcases options_cases args false with ⟨e, ts, h⟩ | h
      · obtain ⟨outs, h1, _⟩ := showRunsAll_ok E e (fun _ _ => True) ts (by
          intro t ht
          have hm : t ∈ args := by
            clear hl
            induction h with
            | none => simp at ht
            | texts _ => exact ht
            | sep => exact List.mem_cons_of_mem _ ht
            | flag _ ih => exact List.mem_cons_of_mem _ (ih ht)
          have hlen := hl t (List.mem_cons_of_mem _ hm)
          have := fromUtf8Str_length_le E.simd t
          obtain ⟨out, h1, _⟩ := runsOf_ok hp hD e t _ rfl (by omega)
          exact ⟨out, h1, trivial⟩)
        refine ⟨⟨outs.flatten, [], 0⟩, ?_, by simp⟩
        rw [showRuns, options_some h]
        simp only [Bool.false_or, h1]
      · refine ⟨usage 1, ?_, by decide⟩
        rw [showRuns, h]
    · have hcode : ∀ args, (showProperties E args).code = 0 := by
        intro args
        induction args with
        | nil => rfl
        | cons a args ih => rw [showProperties]; split <;> exact ih
      rw [query, if_neg hr]
      split
      · exact ⟨_, rfl, by decide⟩
      · split
        · refine ⟨_, rfl, ?_⟩
          rw [showClusters]
          split
          · decide
          · simp
        · split
          · exact ⟨_, rfl, by rw [hcode]; omega⟩
          · exact ⟨_, rfl, by rw [hcode]; omega⟩

end Verif.Props.Query
