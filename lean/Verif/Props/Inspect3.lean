import Verif.Props.Inspect2
import Verif.Props.Run

/-!
# C59: `uc-inspect scripts`, `uc-inspect runs`, its arguments
-/

namespace Verif.Props.Tools
open Verif.Tools Verif.Utf8 Verif.Ucd Verif.Grapheme Verif.Spec Verif.Spec.Escape Verif.Convert

/-! ## `scripts` -/

/-- The names of a list of scripts, separated by commas. -/
inductive NameList (E : Env) : List Verif.Script.Script → List Nat → Prop
  | nil : NameList E [] []
  | one {s} : NameList E [s] (E.scriptName s)
  | cons {s t rest x} : NameList E (t :: rest) x → NameList E (s :: t :: rest) (E.scriptName s ++ lit ", " ++ x)

/-- The scripts shown in parentheses: the extensions, or the script if there are none. -/
def shownScripts (E : Env) (c : Nat) : List Verif.Script.Script := (E.D.exts c).getD [E.D.script c]

/-- A row of the table: index, codepoint, the character itself, its width, script and script extensions. -/
def TableRow (E : Env) (row : List Nat) (i c : Nat) : Prop :=
  ∃ blanks d h w sc x, row = lit "    " ++ blanks ++ d ++ lit ":    U+" ++ h ++ lit "   " ++ toUtf8 c ++ lit "\t" ++ toUtf8 0x2206 ++
      lit " " ++ w ++ lit "\t" ++ sc ++ lit "\t(" ++ x ++ lit ")\n" ∧
    (∀ b ∈ blanks, b = 0x20) ∧ DecNumber d i ∧ HexNumber h c ∧ h.length = 8 ∧ DecNumber w (E.U c).charWidth ∧
    (∃ k, sc = E.scriptName (E.D.script c) ++ List.replicate k 0x20) ∧ NameList E (shownScripts E c) x

/-- The rows for consecutive codepoints, the first with index `i`. -/
inductive TableRows (E : Env) : Nat → List Nat → List Nat → Prop
  | nil {i} : TableRows E i [] []
  | cons {i c cs row rows} : TableRow E row i c → TableRows E (i + 1) cs rows → TableRows E i (c :: cs) (row ++ rows)

/-- The table for labelled segments, the first of which begins at offset `b`: for each a line with first and last
index and the label, and the rows of its codepoints. -/
inductive ScriptTable (E : Env) : Nat → List (Verif.Script.Script × List Nat) → List Nat → Prop
  | nil {b} : ScriptTable E b [] []
  | cons {b l s segs x y rows out} : DecNumber x b → DecNumber y (b + s.length - 1) → TableRows E b s rows →
      ScriptTable E (b + s.length) segs out →
      ScriptTable E b ((l, s) :: segs) (x ++ lit "-" ++ y ++ lit ": " ++ E.scriptName l ++ lit "\n" ++ rows ++ out)

theorem joinNames_ok (E : Env) (l : List Verif.Script.Script) : NameList E l (joinNames E l) := by
  induction l with
  | nil => exact .nil
  | cons s l ih =>
    cases l with
    | nil => exact .one
    | cons t l => rw [joinNames, ← List.append_assoc]; exact .cons ih

theorem scriptRow_ok (E : Env) (i c : Nat) (hc : c < 2^32) : TableRow E (scriptRow E i c) i c := by
  refine ⟨List.replicate (4 - (decimal i).length) 0x20, decimal i, hex8 c, decimal (E.U c).charWidth,
    padRight 12 (E.scriptName (E.D.script c)), scriptExtensionsString E c, ?_, fun b hb => List.eq_of_mem_replicate hb, decimal_ok i,
    (hex8_ok c hc).1, rfl, decimal_ok _, ⟨_, rfl⟩, ?_⟩
  · have l1 : [0x09, 0xE2, 0x88, 0x86, 0x20] = lit "\t" ++ (toUtf8 0x2206 ++ lit " ") := by decide
    have l2 : [0x09] = lit "\t" := by decide
    have l3 : lit "\t(" = lit "\t" ++ lit "(" := by decide
    simp only [scriptRow, padLeft, Verif.Width.width1, l1, l2, l3, List.append_assoc, encode8_eq]
  · unfold scriptExtensionsString shownScripts
    split
    · rename_i h; rw [h]; exact .one
    · rename_i l h; rw [h]; exact joinNames_ok E l

theorem scriptRows_ok (E : Env) (pre s post : List Nat) (hc : ∀ c ∈ s, c < 2^32) :
    ∃ rows, scriptRows E (pre ++ s ++ post) pre.length s.length = .ok rows ∧ TableRows E pre.length s rows := by
  induction s generalizing pre with
  | nil => exact ⟨[], rfl, .nil⟩
  | cons c s ih =>
    obtain ⟨rows, h1, h2⟩ := ih (pre ++ [c]) (fun d h => hc d (by simp [h]))
    refine ⟨scriptRow E pre.length c ++ rows, ?_, ?_⟩
    · have h0 : (pre ++ c :: s ++ post)[pre.length]? = some c := by simp
      simp only [List.append_assoc, List.cons_append, List.nil_append, List.length_append, List.length_cons, List.length_nil,
        Nat.zero_add] at h1
      simp only [List.length_cons, scriptRows, h0]
      simp only [List.append_assoc, List.cons_append, h1]
    · simp only [List.length_append, List.length_cons, List.length_nil, Nat.zero_add] at h2
      exact .cons (scriptRow_ok E _ c (hc c (by simp))) h2

theorem pred64_eq (n : Nat) (h : 0 < n) (h' : n < 2^64) : pred64 n = n - 1 := by
  unfold pred64; omega

theorem scriptsLoop_ok (E : Env) (pre : List Nat) (segs : List (Verif.Script.Script × List Nat))
    (hc : ∀ x ∈ segs, ∀ c ∈ x.2, c < 2^32) (hne : ∀ x ∈ segs, x.2 ≠ [])
    (hlen : (pre ++ (segs.map Prod.snd).flatten).length < 2^64) :
    ∃ out, scriptsLoop E (pre ++ (segs.map Prod.snd).flatten) pre.length (endsOf pre.length segs) = .ok out ∧
      ScriptTable E pre.length segs out := by
  induction segs generalizing pre with
  | nil => exact ⟨[], rfl, .nil⟩
  | cons x segs ih =>
    obtain ⟨l, s⟩ := x
    have hs : s ≠ [] := hne (l, s) (by simp)
    have hpos : 0 < s.length := List.length_pos_iff.2 hs
    obtain ⟨rows, h1, h2⟩ := scriptRows_ok E pre s (segs.map Prod.snd).flatten (hc (l, s) (by simp))
    have hl' : (pre ++ s ++ (segs.map Prod.snd).flatten).length < 2^64 := by simpa using hlen
    obtain ⟨out, h3, h4⟩ := ih (pre ++ s) (fun y h => hc y (by simp [h])) (fun y h => hne y (by simp [h])) hl'
    refine ⟨decimal pre.length ++ lit "-" ++ decimal (pre.length + s.length - 1) ++ lit ": " ++ E.scriptName l ++ lit "\n" ++ rows ++ out,
      ?_, ?_⟩
    · simp only [List.length_append] at h3 hl'
      simp only [List.map_cons, List.flatten_cons, endsOf, scriptsLoop, Nat.add_sub_cancel_left]
      rw [← List.append_assoc, h1]
      simp only [h3]
      rw [pred64_eq _ (by omega) (by omega)]
    · rw [List.length_append] at h4
      exact .cons (decimal_ok _) (decimal_ok _) h2 h4

/-- **C59, `scripts`.** For every text the command prints the heading and then the segments of the script segmenter, each
with its first and last index, its label and one row for each of its codepoints, so that every codepoint is listed
exactly once, under its index, below a script it has. -/
theorem C59_scripts {E : Env} (hD : Verif.Props.Script.StrongOk E.D) (cs : List Nat) (hc : ∀ c ∈ cs, c ≤ 0x1FFFFF) (hl : cs.length < 2^64) :
    ∃ (segs : List (Verif.Script.Script × List Nat)) (out : List Nat), scripts E (toUtf8Str cs) = .ok (scriptsHeading ++ out) ∧
      ScriptTable E 0 segs out ∧ Partition (segs.map Prod.snd) cs ∧
      ∀ x ∈ segs, ∀ c ∈ x.2, Verif.Props.Script.Strong E.D c → Verif.Props.Script.HasScript E.D c x.1 := by
  obtain ⟨segs, h1, h2, h3⟩ := Verif.Props.Script.C22_partition_labels hD cs
  have hcs : ([] : List Nat) ++ (segs.map Prod.snd).flatten = cs := by rw [List.nil_append, h2.concat]
  obtain ⟨out, h4, h5⟩ := scriptsLoop_ok E [] segs
    (fun x hx c hcx => by
      have := hc c (by rw [← h2.concat]; exact List.mem_flatten.2 ⟨x.2, List.mem_map.2 ⟨x, hx, rfl⟩, hcx⟩)
      omega)
    (fun x hx => h2.nonempty _ (List.mem_map.2 ⟨x, hx, rfl⟩)) (by rw [hcs]; exact hl)
  refine ⟨segs, out, ?_, h5, h2, h3⟩
  rw [hcs] at h4
  unfold scripts
  rw [C02_utf8_string_roundtrip _ cs hc, h1]
  exact congrArg (fun m : Mem (List Nat) => match m with | .oob => Mem.oob | .ok r => .ok (scriptsHeading ++ r)) h4

theorem fromUtf8Str_length_le (k : Nat) (bytes : List Nat) : (fromUtf8Str k bytes).length ≤ bytes.length := by
  rw [fromUtf8Str_eq]
  generalize ({} : DecState) = s
  induction bytes generalizing s with
  | nil => simp [scalarLoop]
  | cons b bs ih =>
    rw [scalarLoop]
    split
    · rename_i s' c h
      have := ih s'
      simp [encode32]; omega
    · rename_i s' h
      have := ih s'
      simp; omega

theorem scriptRows_safe (E : Env) (cps : List Nat) (i n : Nat) (h : i + n ≤ cps.length) : ∃ r, scriptRows E cps i n = .ok r := by
  induction n generalizing i with
  | zero => exact ⟨[], rfl⟩
  | succ n ih =>
    obtain ⟨r, hr⟩ := ih (i + 1) (by omega)
    have h0 : cps[i]? = some (cps[i]'(by omega)) := List.getElem?_eq_getElem _
    exact ⟨scriptRow E i (cps[i]'(by omega)) ++ r, by rw [scriptRows]; simp only [h0, hr]⟩

theorem scriptsLoop_safe (E : Env) (cps : List Nat) (front : Nat) (segs : List (Verif.Script.Script × Nat))
    (h : ∀ x ∈ segs, x.2 ≤ cps.length) : ∃ r, scriptsLoop E cps front segs = .ok r := by
  induction segs generalizing front with
  | nil => exact ⟨[], rfl⟩
  | cons x segs ih =>
    obtain ⟨s, next⟩ := x
    have hn : next ≤ cps.length := h (s, next) (by simp)
    have hr : ∃ r, scriptRows E cps front (next - front) = .ok r := by
      by_cases hf : front ≤ next
      · exact scriptRows_safe E cps front (next - front) (by omega)
      · exact ⟨[], by rw [show next - front = 0 by omega]; rfl⟩
    obtain ⟨r1, h1⟩ := hr
    obtain ⟨r2, h2⟩ := ih next (fun x hx => h x (by simp [hx]))
    refine ⟨decimal front ++ lit "-" ++ decimal (pred64 next) ++ lit ": " ++ E.scriptName s ++ lit "\n" ++ r1 ++ r2, ?_⟩
    rw [scriptsLoop]; simp only [h1, h2]

theorem le_getLast (l : List Nat) (hne : l ≠ []) (h : l.Pairwise (· < ·)) : ∀ e ∈ l, e ≤ l.getLast hne := by
  induction l with
  | nil => exact absurd rfl hne
  | cons a l ih =>
    intro e hm
    cases l with
    | nil => simp at hm ⊢; omega
    | cons b l =>
      rw [List.getLast_cons (by simp)]
      rcases List.mem_cons.1 hm with rfl | hm
      · have := List.rel_of_pairwise_cons h (List.getLast_mem (l := b :: l) (by simp))
        omega
      · exact ih (by simp) h.of_cons e hm

theorem covers_le {ends : List Nat} {n : Nat} (h : Covers ends n) : ∀ e ∈ ends, e ≤ n := by
  intro e he
  rw [← h.complete]
  exact le_getLast _ (by simp) h.increasing e (by simp [he])

/-- **C59, memory safety.** On every byte string, `scripts` reads only codepoints of the text. -/
theorem C59_scripts_safe {E : Env} (hD : Verif.Props.Script.StrongOk E.D) (bytes : List Nat) : ∃ out, scripts E bytes = .ok out := by
  obtain ⟨r, hr⟩ := scriptsLoop_safe E (fromUtf8Str E.simd bytes) 0 (Verif.Script.runs E.D (fromUtf8Str E.simd bytes))
    (fun x hx => covers_le (Verif.Props.Script.C22_covers hD _) _ (List.mem_map.2 ⟨x, hx, rfl⟩))
  exact ⟨scriptsHeading ++ r, by unfold scripts; rw [hr]⟩

/-! ## Replacing the escape character -/

/-- What `replaceAll` does to escape characters: in a row of them only the first, third, fifth, … is replaced. -/
def everySecond (what : Nat) (repl : List Nat) : Bool → List Nat → List Nat
  | _, [] => []
  | true, b :: bs => b :: everySecond what repl false bs
  | false, b :: bs => if b = what then repl ++ everySecond what repl true bs else b :: everySecond what repl false bs

theorem find1_none {what : Nat} {l : List Nat} (h : find1 what l = none) (repl : List Nat) : everySecond what repl false l = l := by
  induction l with
  | nil => rfl
  | cons b l ih =>
    rw [find1] at h
    split at h
    · cases h
    · rename_i hb
      rw [everySecond, if_neg hb, ih (by simpa using h)]

theorem find1_some {what : Nat} {l : List Nat} {k : Nat} (h : find1 what l = some k) (repl : List Nat) :
    everySecond what repl false l = l.take k ++ repl ++ everySecond what repl true (l.drop (k + 1)) := by
  induction l generalizing k with
  | nil => cases h
  | cons b l ih =>
    rw [find1] at h
    split at h
    · rename_i hb
      cases h
      rw [everySecond, if_pos hb]; simp
    · rename_i hb
      obtain ⟨j, hj, rfl⟩ := Option.map_eq_some_iff.1 h
      rw [everySecond, if_neg hb, ih hj]; simp

theorem replaceLoop_eq (what : Nat) (repl : List Nat) (fuel : Nat) (text : List Nat) (h : text.length < fuel) :
    replaceLoop what repl fuel text (find1 what text) = everySecond what repl false text ∧
    replaceLoop what repl fuel text ((find1 what (text.drop 1)).map (· + 1)) = everySecond what repl true text := by
  induction fuel generalizing text with
  | zero => omega
  | succ fuel ih =>
    constructor
    · cases hf : find1 what text with
      | none => rw [replaceLoop, find1_none hf]
      | some k =>
        rw [replaceLoop, find1_some hf, (ih _ (by
          cases text with
          | nil => cases hf
          | cons x t => simp at h ⊢; omega)).2]
    · cases text with
      | nil => rfl
      | cons x t =>
        simp only [List.drop_succ_cons, List.drop_zero, everySecond]
        cases hf : find1 what t with
        | none => rw [Option.map_none, replaceLoop, find1_none hf]
        | some k =>
          rw [Option.map_some, replaceLoop, find1_some hf, (ih _ (by simp at h ⊢; omega)).2]
          simp

/-- **C59, exactly what `replaceAll` does.** -/
theorem C59_replace_exact (what : Nat) (repl text : List Nat) : replaceAll what repl text = everySecond what repl false text :=
  (replaceLoop_eq what repl _ text (by omega)).1

/-- **C59, escape characters (full claim).** The text of a run is shown with every escape character replaced. -/
def C59_ReplacesAll : Prop :=
  ∀ (what : Nat) (repl text : List Nat), replaceAll what repl text = text.flatMap fun b => if b = what then repl else [b]

/-- The full claim is false: of two escape characters in a row the second reaches the terminal. -/
theorem C59_fails_replace : ¬ C59_ReplacesAll := by
  intro h
  have := h 0x1B (lit "\\033") [0x1B, 0x1B, 0x63]
  revert this
  decide

/-- **C59, escape characters (partial).** It is if no two occurrences are adjacent.  Missing: adjacent occurrences. -/
theorem C59_replace_partial (what : Nat) (repl text : List Nat) (h : ∀ p q, text ≠ p ++ what :: what :: q) :
    replaceAll what repl text = text.flatMap fun b => if b = what then repl else [b] := by
  rw [C59_replace_exact]
  have key : ∀ (text : List Nat), (∀ p q, text ≠ p ++ what :: what :: q) →
      everySecond what repl false text = (text.flatMap fun b => if b = what then repl else [b]) ∧
      (text.head? ≠ some what → everySecond what repl true text = text.flatMap fun b => if b = what then repl else [b]) := by
    intro text
    induction text with
    | nil => intro _; exact ⟨rfl, fun _ => rfl⟩
    | cons b t ih =>
      intro h
      have ih := ih (fun p q e => h (b :: p) q (by rw [e]; rfl))
      constructor
      · rw [everySecond, List.flatMap_cons]
        split
        · rename_i hb
          rw [ih.2]
          intro hh
          obtain ⟨x, t', rfl⟩ : ∃ x t', t = x :: t' := by
            cases t with
            | nil => simp at hh
            | cons x t' => exact ⟨x, t', rfl⟩
          simp at hh
          exact h [] t' (by rw [hb, hh]; rfl)
        · rw [ih.1]; rfl
      · intro hh
        have hb : b ≠ what := by simpa using hh
        rw [everySecond, List.flatMap_cons, if_neg hb, ih.1]; rfl
  exact (key text h).1

example : replaceAll 0x1B (lit "\\033") (0x1B :: lit "[1m" ++ [0x1B, 0x63]) = lit "\\033[1m\\033c" := by decide

/-! ## `runs` -/

/-- What is printed for one run: first and last index, number of codepoints, script, presentation, and the text as
`shown`. -/
def RunBlock (E : Env) (shown : List Nat → List Nat) (r : Verif.Run.Range Verif.Script.Script Bool) (text block : List Nat) : Prop :=
  ∃ a b n, block = a ++ lit "-" ++ b ++ lit " (" ++ n ++ lit "): " ++ E.scriptName r.props.1 ++ lit " " ++ E.styleName r.props.2 ++
      lit "\n" ++ shown (toUtf8Str text) ∧
    DecNumber a r.start ∧ DecNumber b (r.stop - 1) ∧ DecNumber n text.length

theorem convertTo8_eq (cs : List Nat) : convertTo8From32 cs = .ok (toUtf8Str cs) := by
  rw [convertTo8From32, convert32_any, toUtf8Str_eq]; rfl

/-- consecutive ranges from `b` to `n` -/
def Chain : Nat → Nat → List (Verif.Run.Range Verif.Script.Script Bool) → Prop
  | b, n, [] => b = n
  | b, n, r :: rs => r.start = b ∧ b < r.stop ∧ r.stop ≤ n ∧ Chain r.stop n rs

theorem chain_of_refinement {n : Nat} {rs : List (Verif.Run.Range Verif.Script.Script Bool)} (b : Nat)
    (hinc : (b :: rs.map (·.stop)).Pairwise (· < ·)) (hlast : (b :: rs.map (·.stop)).getLast (by simp) = n)
    (hst : rs.map (·.start) = (b :: rs.map (·.stop)).dropLast) : Chain b n rs := by
  induction rs generalizing b with
  | nil => simpa [Chain] using hlast
  | cons r rs ih =>
    simp only [List.map_cons, List.dropLast_cons_cons, List.cons.injEq] at hst
    have h1 := (List.pairwise_cons.1 hinc).1 r.stop (by simp)
    have hl : (r.stop :: rs.map (·.stop)).getLast (by simp) = n := by
      simpa using hlast
    have hc := ih r.stop (List.pairwise_cons.1 hinc).2 hl hst.2
    refine ⟨hst.1, h1, ?_, hc⟩
    have : ∀ (b : Nat) (rs : List (Verif.Run.Range Verif.Script.Script Bool)), Chain b n rs → b ≤ n := by
      intro b rs
      induction rs generalizing b with
      | nil => intro h; simp [Chain] at h; omega
      | cons r rs ih => intro h; obtain ⟨_, h1, h2, h3⟩ := h; omega
    exact this _ _ hc

theorem runsLoop_ok (E : Env) (shown : List Nat → List Nat) (cps : List Nat) (hl : cps.length < 2^64) (b : Nat)
    (rs : List (Verif.Run.Range Verif.Script.Script Bool)) (h : Chain b cps.length rs) :
    ∃ texts blocks : List (List Nat), Verif.Tools.runsLoop E shown cps rs = .ok blocks.flatten ∧ texts.flatten = cps.drop b ∧
      texts.length = rs.length ∧ blocks.length = rs.length ∧
      ∀ (i : Nat) (r : Verif.Run.Range Verif.Script.Script Bool), rs[i]? = some r → ∃ t blk, texts[i]? = some t ∧ blocks[i]? = some blk ∧ t = (cps.drop r.start).take (r.stop - r.start) ∧
        t.length = r.stop - r.start ∧ RunBlock E shown r t blk := by
  induction rs generalizing b with
  | nil =>
    simp only [Chain] at h
    exact ⟨[], [], rfl, by simp [h], rfl, rfl, by simp⟩
  | cons r rs ih =>
    obtain ⟨h1, h2, h3, h4⟩ := h
    obtain ⟨texts, blocks, e1, e2, e3, e4, e5⟩ := ih r.stop h4
    refine ⟨(cps.drop r.start).take (r.stop - r.start) :: texts,
      (runHeading E r ++ shown (toUtf8Str ((cps.drop r.start).take (r.stop - r.start)))) :: blocks, ?_, ?_, by simp [e3], by simp [e4], ?_⟩
    · rw [Verif.Tools.runsLoop]
      simp only [slice, if_pos (show r.start ≤ r.stop ∧ r.stop ≤ cps.length from ⟨by omega, h3⟩), convertTo8_eq, e1, List.flatten_cons]
    · rw [List.flatten_cons, e2, h1]
      have : cps.drop r.stop = (cps.drop b).drop (r.stop - b) := by rw [List.drop_drop]; congr 1; omega
      rw [this, List.take_append_drop]
    · intro i r' hr
      cases i with
      | zero =>
        simp only [List.getElem?_cons_zero, Option.some.injEq] at hr
        subst hr
        have hlen : ((cps.drop r.start).take (r.stop - r.start)).length = r.stop - r.start := by
          rw [List.length_take, List.length_drop]; omega
        refine ⟨_, _, rfl, rfl, rfl, hlen, decimal r.start, decimal (r.stop - 1), decimal (r.stop - r.start), ?_, decimal_ok _, decimal_ok _,
          by rw [hlen]; exact decimal_ok _⟩
        rw [runHeading, pred64_eq _ (by omega) (by omega)]
      | succ i =>
        simp only [List.getElem?_cons_succ] at hr ⊢
        exact e5 i r' hr

/-- The runs of a text as the command prints them, for any way of showing their text. -/
theorem runs_shown {E : Env} (hD : Verif.Props.Script.StrongOk E.D) (shown : List Nat → List Nat) (cps : List Nat) (hl : cps.length < 2^64) :
    ∃ (rs : List (Verif.Run.Range Verif.Script.Script Bool)) (texts blocks : List (List Nat)),
      Verif.Props.Run.CommonRefinement cps.length (Verif.Script.runs E.D cps) (Verif.Emoji.runs (cps.map E.cat)) rs ∧
      Verif.Tools.runsLoop E shown cps (Verif.Run.textRuns E.D E.cat cps) = .ok blocks.flatten ∧ texts.flatten = cps ∧
      texts.length = rs.length ∧ blocks.length = rs.length ∧
      ∀ (i : Nat) (r : Verif.Run.Range Verif.Script.Script Bool), rs[i]? = some r → ∃ t blk, texts[i]? = some t ∧ blocks[i]? = some blk ∧
        t.length = r.stop - r.start ∧ RunBlock E shown r t blk := by
  have hr := Verif.Props.Run.C25_run_segmenter hD E.cat cps
  have hch := chain_of_refinement (n := cps.length) 0 hr.covers.increasing hr.covers.complete hr.starts
  obtain ⟨texts, blocks, e1, e2, e3, e4, e5⟩ := runsLoop_ok E shown cps hl 0 _ hch
  refine ⟨_, texts, blocks, hr, e1, by simpa using e2, e3, e4, fun i r h => ?_⟩
  obtain ⟨t, blk, a1, a2, _, a3, a4⟩ := e5 i r h
  exact ⟨t, blk, a1, a2, a3, a4⟩

/-- **C59, `runs`.** For every text the command prints, for each range of the common refinement of scripts and emoji
presentation, its first and last index, length, script and presentation and its text; the texts together are the
input, and nothing outside it is read. -/
theorem C59_runs {E : Env} (hD : Verif.Props.Script.StrongOk E.D) (cs : List Nat) (hc : ∀ c ∈ cs, c ≤ 0x1FFFFF) (hl : cs.length < 2^64) :
    ∃ (rs : List (Verif.Run.Range Verif.Script.Script Bool)) (texts blocks : List (List Nat)),
      Verif.Props.Run.CommonRefinement cs.length (Verif.Script.runs E.D cs) (Verif.Emoji.runs (cs.map E.cat)) rs ∧
      Verif.Tools.runs E (toUtf8Str cs) = .ok blocks.flatten ∧ texts.flatten = cs ∧ texts.length = rs.length ∧ blocks.length = rs.length ∧
      ∀ (i : Nat) (r : Verif.Run.Range Verif.Script.Script Bool), rs[i]? = some r → ∃ t blk, texts[i]? = some t ∧ blocks[i]? = some blk ∧
        t.length = r.stop - r.start ∧ RunBlock E (fun u8 => lit "\"" ++ [0x1B] ++ lit "[32m" ++
          everySecond 0x1B (lit "\\033") false u8 ++ [0x1B] ++ lit "[m\"\n\n") r t blk := by
  have h := runs_shown hD inspectShown cs hl
  have hs : inspectShown = fun u8 => lit "\"" ++ [0x1B] ++ lit "[32m" ++ everySecond 0x1B (lit "\\033") false u8 ++ [0x1B] ++ lit "[m\"\n\n" := by
    funext u8
    have l1 : lit "[m\"\n\n" = lit "[m" ++ lit "\"\n\n" := by decide
    simp only [inspectShown, C59_replace_exact, l1, List.append_assoc, List.cons_append, List.nil_append]
  rw [hs] at h
  unfold Verif.Tools.runs
  rw [C02_utf8_string_roundtrip _ cs hc, hs]
  exact h

/-- **C59, memory safety.** On every byte string (of fewer than 2^64 bytes), `runs` reads only codepoints of the text. -/
theorem C59_runs_safe {E : Env} (hD : Verif.Props.Script.StrongOk E.D) (bytes : List Nat) (hl : bytes.length < 2^64) :
    ∃ out, Verif.Tools.runs E bytes = .ok out := by
  have := fromUtf8Str_length_le E.simd bytes
  obtain ⟨_, _, blocks, _, h, _⟩ := runs_shown hD inspectShown (fromUtf8Str E.simd bytes) (by omega)
  exact ⟨_, h⟩

example : Verif.Props.Script.StrongOk toyEnv.D := Verif.Props.Script.toyScripts_ok

example : Verif.Tools.runs toyEnv (toUtf8Str [0x41, 0x1B, 0x42]) =
    .ok (lit "0-2 (3): Latin Text\n\"" ++ [0x1B] ++ lit "[32mA\\033B" ++ [0x1B] ++ lit "[m\"\n\n") := by decide +kernel

example : scripts toyEnv (toUtf8Str [0x41]) =
    .ok (scriptsHeading ++ lit "0-0: Latin\n       0:    U+00000041   A\t" ++ [0xE2, 0x88, 0x86] ++ lit " 1\tLatin       \t(Latin)\n") := by
  decide +kernel

/-! ## Arguments -/

/-- **C59, arguments.** With exactly two arguments the second names the file and the first the command: `runs` and `scripts`
are recognised, everything else lists codepoints.  With any other number of arguments the codepoints of the standard
input are listed. -/
theorem C59_arguments (args : List (List Nat)) :
    (∀ a f, args = [a, f] → (parseArgs args).2 = .file f ∧ ((parseArgs args).1 = .runs ↔ a = lit "runs") ∧
      ((parseArgs args).1 = .scripts ↔ a = lit "scripts")) ∧
    (args.length ≠ 2 → parseArgs args = (.codepoints, .stdin)) := by
  constructor
  · rintro a f rfl
    have hm : parseArgs [a, f] = (((mappings.find? (fun m => m.1 = a)).map Prod.snd).getD .codepoints, .file f) := by
      show (match mappings.find? (fun m => m.1 = a) with | some m => (m.2, Source.file f) | none => (.codepoints, .file f)) = _
      cases mappings.find? (fun m => m.1 = a) <;> rfl
    have hfind : ((mappings.find? (fun m => m.1 = a)).map Prod.snd).getD Cmd.codepoints =
        if a = lit "runs" then .runs else if a = lit "scripts" then .scripts else .codepoints := by
      simp only [mappings, List.find?_cons, List.find?_nil]
      by_cases h1 : lit "codepoints" = a
      · subst h1; decide
      by_cases h2 : lit "cp" = a
      · subst h2; decide
      by_cases h3 : lit "runs" = a
      · subst h3; decide
      by_cases h4 : lit "scripts" = a
      · subst h4; decide
      simp only [h1, h2, h3, h4, decide_false, Ne.symm h3, Ne.symm h4, if_false, Option.map_none, Option.getD_none]
    rw [hm, hfind]
    refine ⟨rfl, ?_, ?_⟩
    · show (if a = lit "runs" then Cmd.runs else if a = lit "scripts" then .scripts else .codepoints) = .runs ↔ _
      by_cases h1 : a = lit "runs"
      · rw [if_pos h1]; exact ⟨fun _ => h1, fun _ => rfl⟩
      · rw [if_neg h1]
        refine ⟨fun h => ?_, fun h => absurd h h1⟩
        split at h <;> cases h
    · show (if a = lit "runs" then Cmd.runs else if a = lit "scripts" then .scripts else .codepoints) = .scripts ↔ _
      by_cases h1 : a = lit "scripts"
      · subst h1; exact ⟨fun _ => rfl, fun _ => by decide⟩
      · rw [if_neg h1]
        refine ⟨fun h => ?_, fun h => absurd h h1⟩
        split at h <;> cases h
  · intro h
    match args with
    | [] => rfl
    | [_] => rfl
    | [_, _] => exact absurd rfl h
    | _ :: _ :: _ :: _ => rfl

/-- Observation: a file given as the only argument is not opened; the tool waits for standard input. -/
theorem C59_single_argument_ignored (E : Env) (read : Source → List Nat) (file : List Nat) :
    inspect E read [file] = .ok (codepoints E (read .stdin)) := rfl

/-- **C59, commands.** `uc-inspect CMD FILE` lists the runs of the file for `runs`, the scripts of the file for `scripts`, its
codepoints for everything else; with any other number of arguments the codepoints of the standard input are listed.  (What
each listing is: `C59_runs`, `C59_scripts`, `C59_listing`.) -/
theorem C59_commands (E : Env) (read : Source → List Nat) :
    (∀ f, inspect E read [lit "runs", f] = runs E (read (.file f))) ∧
    (∀ f, inspect E read [lit "scripts", f] = scripts E (read (.file f))) ∧
    (∀ a f, a ≠ lit "runs" → a ≠ lit "scripts" → inspect E read [a, f] = .ok (codepoints E (read (.file f)))) ∧
    (∀ args, args.length ≠ 2 → inspect E read args = .ok (codepoints E (read .stdin))) := by
  refine ⟨fun f => ?_, fun f => ?_, fun a f h h' => ?_, fun args h => ?_⟩
  · obtain ⟨h1, h2, -⟩ := (C59_arguments [lit "runs", f]).1 _ _ rfl
    rw [inspect, h2.2 rfl, h1]
  · obtain ⟨h1, -, h3⟩ := (C59_arguments [lit "scripts", f]).1 _ _ rfl
    rw [inspect, h3.2 rfl, h1]
  · obtain ⟨h1, h2, h3⟩ := (C59_arguments [a, f]).1 _ _ rfl
    rw [inspect, h1]
    cases hc : (parseArgs [a, f]).1 with
    | codepoints => rfl
    | runs => exact absurd (h2.1 hc) h
    | scripts => exact absurd (h3.1 hc) h'
  · rw [inspect, (C59_arguments args).2 h]

end Verif.Props.Tools
