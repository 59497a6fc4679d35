import Verif.Lemmas.TgUcd2
import Verif.Model.TgFiles
import Verif.Props.TgHeader
/-!
# Lemmas: stretches of the other generated files
-/

namespace Verif.Spec.Cxx

/-! ## Structures and enumerations are single declarations -/

theorem cut_closed {a : List Tok} (ha : Inside a) : cut 0 (p '{' :: a ++ [p '}', p ';']) = some (p '{' :: a ++ [p '}', p ';'], []) := by
  have := cut_init ha
  have e : p '{' :: a ++ [p '}'] ++ [p ';'] = p '{' :: a ++ [p '}', p ';'] := by simp
  rw [e] at this
  exact this

theorem members_inside {ts : List Tok} {ms : List (Str × Str × Option Nat)} (h : Members ts ms) : Inside ts := by
  induction h with
  | nil => exact Verif.Tg.inside_ofB rfl
  | @scalar type name ts ms _ _ _ ih => exact Inside.append (a := [.word type, .word name, p ';']) (Verif.Tg.inside_ofB rfl) ih
  | @array type name lit n ts ms _ _ _ _ ih => exact Inside.append (a := [.word type, .word name, p '[', .word lit, p ']', p ';']) (Verif.Tg.inside_ofB rfl) ih

theorem enumerators_inside {ts : List Tok} {es : List (Str × Nat)} (h : Enumerators ts es) : Inside ts := by
  induction h with
  | nil => exact Verif.Tg.inside_ofB rfl
  | @cons w lit n ts es _ _ _ ih => exact Inside.append (a := [.word w, p '=', .word lit, p ',']) (Verif.Tg.inside_ofB rfl) ih

theorem struct_single {name : Str} {ts : List Tok} {ms : List (Str × Str × Option Nat)} (h : Members ts ms) :
    Single ([.word "struct".toList, .word name, p '{'] ++ ts ++ [p '}', p ';']) := by
  refine ⟨?_, _, _, _, _, rfl, by decide, .inr (.inr (by decide))⟩
  have hf : Flat [.word "struct".toList, .word name] := flat_append (a := [.word "struct".toList]) (flat_of (by decide)) (flat_word name)
  have := hf.cut 0 (p '{' :: ts ++ [p '}', p ';'])
  rw [cut_closed (members_inside h)] at this
  simpa using this

theorem enum_single {ts : List Tok} {name type : Str} {es : List (Str × Nat)} (h : DeclaresEnum ts name type es) : Single ts := by
  cases h with
  | @mk _ _ ts _ _ _ h =>
    refine ⟨?_, _, _, _, _, rfl, by decide, .inr (.inr (by decide))⟩
    have hf : Flat [.word "enum".toList, .word "class".toList, .word name, p ':', .word type] :=
      flat_append (a := [.word "enum".toList, .word "class".toList]) (flat_of (by decide)) (flat_append (a := [.word name]) (flat_word name)
        (flat_append (a := [p ':']) (flat_of (by decide)) (flat_word type)))
    have := hf.cut 0 (p '{' :: ts ++ [p '}', p ';'])
    rw [cut_closed (enumerators_inside h)] at this
    simpa using this

theorem walk_unit {ts : List Tok} {items : List Item} (h : Unit ts items) (ns : List (List Str)) :
    ∃ ps, Walk ns ts ns ps ∧ List.Forall₂ Means ps (items.map (.item ns.reverse.flatten)) := by
  induction h with
  | nil => exact ⟨[], .nil ns, .nil⟩
  | @struct name ts ms us items h1 h2 _ ih =>
    obtain ⟨ps, w, f⟩ := ih
    refine ⟨_, (Walk.one (struct_single h2) ns).append w, .cons ⟨rfl, ?_⟩ f⟩
    have := Unit.struct h1 h2 .nil
    simpa using this
  | @table ts type elem name vs us items h1 h2 h3 _ ih =>
    obtain ⟨ps, w, f⟩ := ih
    refine ⟨_, (Walk.one (declares_single h2 h3) ns).append w, .cons ⟨rfl, ?_⟩ f⟩
    have := Unit.table h1 h2 h3 .nil
    simpa using this
  | @enum ts name type es us items h1 _ ih =>
    obtain ⟨ps, w, f⟩ := ih
    refine ⟨_, (Walk.one (enum_single h1) ns).append w, .cons ⟨rfl, ?_⟩ f⟩
    have := Unit.enum h1 .nil
    simpa using this

theorem extern_single {type : List Tok} {n name : Str} (ht : TypeName type) :
    Single (.word "extern".toList :: arrayType type n ++ [.word "const".toList, .word name, p ';']) := by
  refine ⟨?_, _, _, _, _, rfl, by decide, .inr (.inr (by decide))⟩
  have he := bracketed_flat type 0 ht.1
  have harr : Flat (arrayType type n) := flat_append (flat_append (flat_of (by decide)) he)
    (flat_append (a := [p ',', .word n]) (flat_append (a := [p ',']) (flat_of (by decide)) (flat_word n)) (flat_of (by decide)))
  have hf : Flat (.word "extern".toList :: arrayType type n ++ [.word "const".toList, .word name]) :=
    flat_append (flat_append (a := [.word "extern".toList]) (flat_of (by decide)) harr) (flat_append (a := [.word "const".toList]) (flat_of (by decide)) (flat_word name))
  have := hf.cut 0 [p ';']
  rw [show cut 0 [p ';'] = some ([p ';'], []) from cut_semi []] at this
  simpa using this

theorem walk_externs {ts : List Tok} {es : List Extern} (h : Externs ts es) (ns : List (List Str)) :
    ∃ ps, Walk ns ts ns ps ∧ List.Forall₂ Means ps (es.map (.extern ns.reverse.flatten)) := by
  induction h with
  | nil => exact ⟨[], .nil ns, .nil⟩
  | @cons type n len name us es h1 h2 h3 _ ih =>
    obtain ⟨ps, w, f⟩ := ih
    refine ⟨_, (Walk.one (extern_single h1) ns).append w, .cons ⟨rfl, ?_⟩ f⟩
    have := Externs.cons h1 h2 h3 .nil
    simpa using this

theorem path_word (path : List Str) : Flat (pathToks path) := by
  induction path with
  | nil => intro k hk; cases hk
  | cons x t ih =>
    cases t with
    | nil => exact flat_word x
    | cons y t => exact flat_append (a := [.word x, p ':', p ':']) (flat_append (flat_word x) (flat_of (by decide))) ih

theorem using_single {path : List Str} (h : path ≠ []) : Single (usingToks path) := by
  have hf : Flat (.word "using".toList :: .word "namespace".toList :: pathToks path) :=
    flat_append (a := [.word "using".toList, .word "namespace".toList]) (flat_of (by decide)) (path_word path)
  have := hf.cut 0 [p ';']
  rw [show cut 0 [p ';'] = some ([p ';'], []) from cut_semi []] at this
  refine ⟨this, ?_⟩
  cases path with
  | nil => exact absurd rfl h
  | cons x t => cases t <;> exact ⟨_, _, _, _, rfl, by decide, .inr (.inr (by decide))⟩

end Verif.Spec.Cxx

namespace Verif.Tg
open Verif.Spec.Cxx
open Verif.Props.Tg (AnnouncesL)

/-- The text, read with the namespaces `ns` open, has these parts, and then `ns'` are open. -/
def Stretch (ns : List (List Str)) (text : Str) (ns' : List (List Str)) (parts : List Part) : Prop :=
  ∃ ts ps, Line text ts ∧ Walk ns ts ns' ps ∧ List.Forall₂ Means ps parts

theorem Stretch.append {ns ns' ns'' : List (List Str)} {a b : Str} {xs ys : List Part} (ha : Stretch ns a ns' xs) (hb : Stretch ns' b ns'' ys) :
    Stretch ns (a ++ b) ns'' (xs ++ ys) := by
  obtain ⟨t1, p1, l1, w1, f1⟩ := ha
  obtain ⟨t2, p2, l2, w2, f2⟩ := hb
  exact ⟨t1 ++ t2, p1 ++ p2, l1.append l2, w1.append w2, List.rel_append f1 f2⟩

theorem Stretch.nil (ns : List (List Str)) : Stretch ns [] ns [] := ⟨[], [], Clean.nil.line, .nil ns, .nil⟩

theorem Stretch.blank {text : Str} (ns : List (List Str)) (h : Line text []) : Stretch ns text ns [] := ⟨[], [], h, .nil ns, .nil⟩

theorem Stretch.enter {text : Str} (ns : List (List Str)) {path : List Str} (hp : path ≠ []) (h : Line text (.word "namespace".toList :: nsToks path)) :
    Stretch ns text (path :: ns) [] := ⟨_, [], h, .enter ns hp, .nil⟩

theorem Stretch.leave {text : Str} (ns : List (List Str)) (x : List Str) (h : Line text [.punct '}']) : Stretch (x :: ns) text ns [] :=
  ⟨_, [], h, .leave ns x, .nil⟩

theorem Stretch.items {text : Str} {items : List Item} (ns : List (List Str)) (h : SaysL text items) :
    Stretch ns text ns (items.map (.item ns.reverse.flatten)) := by
  obtain ⟨ts, h1, h2⟩ := h
  obtain ⟨ps, w, f⟩ := walk_unit h2 ns
  exact ⟨ts, ps, h1, w, f⟩

theorem Stretch.externs {text : Str} {es : List Extern} (ns : List (List Str)) (h : AnnouncesL text es) :
    Stretch ns text ns (es.map (.extern ns.reverse.flatten)) := by
  obtain ⟨ts, h1, h2⟩ := h
  obtain ⟨ps, w, f⟩ := walk_externs h2 ns
  exact ⟨ts, ps, h1, w, f⟩

theorem Stretch.usingNs {text : Str} (ns : List (List Str)) {path : List Str} (hp : path ≠ []) (h : Line text (usingToks path)) :
    Stretch ns text ns [.usingNs ns.reverse.flatten path] :=
  ⟨_, _, h, .one (using_single hp) ns, .cons ⟨rfl, rfl⟩ .nil⟩

theorem Stretch.fn {text : Str} {g : Sig} {ts : List Tok} (ns : List (List Str)) (h1 : Line text ts) (h2 : Single ts) (h3 : ts.getLast? = some (.punct '}'))
    (h4 : ∀ s, readSig s ts = some { g with scope := s }) : Stretch ns text ns [.defined (At ns g) text] := by
  refine ⟨ts, _, h1, .one h2 ns, .cons ⟨?_, h1.reads⟩ .nil⟩
  unfold Piece.defines
  rw [if_pos h3]
  exact h4 _

theorem Stretch.formatter {text enum : Str} {ts : List Tok} (ns : List (List Str)) (h1 : Line text ts) (h2 : Single ts) (h3 : ∃ f, DefinesFormatter text enum f) :
    Stretch ns text ns [.formatter ns.reverse.flatten enum text] :=
  ⟨ts, _, h1, .one h2 ns, .cons ⟨rfl, h1.reads, h3⟩ .nil⟩

theorem Stretch.flat {α : Type} (ns : List (List Str)) (f : α → Str) (g : α → Part) (l : List α) (h : ∀ a ∈ l, Stretch ns (f a) ns [g a]) :
    Stretch ns (l.flatMap f) ns (l.map g) := by
  induction l with
  | nil => exact Stretch.nil ns
  | cons a l ih => rw [List.flatMap_cons]; exact Stretch.append (xs := [g a]) (h a (by simp)) (ih fun x hx => h x (by simp [hx]))

/-- the same for a list of texts -/
def Stretches (ns : List (List Str)) (texts : List Str) (ns' : List (List Str)) (parts : List Part) : Prop := Stretch ns texts.flatten ns' parts

theorem Stretches.nil (ns : List (List Str)) : Stretches ns [] ns [] := Stretch.nil ns

theorem Stretches.cons {ns ns' ns'' : List (List Str)} {a : Str} {b : List Str} {xs ys : List Part} (ha : Stretch ns a ns' xs) (hb : Stretches ns' b ns'' ys) :
    Stretches ns (a :: b) ns'' (xs ++ ys) := by
  unfold Stretches
  rw [List.flatten_cons]
  exact Stretch.append ha hb

/-! ## The functions of the enumerations -/

def streamPre (e : Str) : List Tok := (streamHead e).dropLast

/-- `std::ostream& operator<<(std::ostream&, enum) noexcept` -/
def streamSig (enum : Str) : Sig :=
  ⟨[], "operator<<".toList, [[.word "std".toList, p ':', p ':', .word "ostream".toList, p '&'], [.word enum]],
   [.word "std".toList, p ':', p ':', .word "ostream".toList, p '&'], true⟩

theorem readSig_stream (s : List Str) (e : Str) (b : List Tok) : readSig s (streamHead e ++ b) = some { streamSig e with scope := s } := by kernel_rfl

def streamInner (d : EnumDef) : List Tok :=
  [.word "switch".toList, p '(', .word "value".toList, p ')'] ++ ((p '{' :: d.members.flatMap (fun m => streamToks d.name (sanitize m) m) ++ [p '}']) ++ streamTail.dropLast)

theorem stream_shape (d : EnumDef) : streamHead d.name ++ (.word "switch".toList :: p '(' :: .word "value".toList :: p ')' :: p '{' ::
      (d.members.flatMap (fun m => streamToks d.name (sanitize m) m) ++ (p '}' :: streamTail))) =
    streamPre d.name ++ (p '{' :: (streamInner d ++ [p '}'])) := by
  have e1 : streamHead d.name = streamPre d.name ++ [p '{'] := rfl
  have e2 : streamTail = streamTail.dropLast ++ [p '}'] := by decide
  unfold streamInner
  rw [e1]
  conv_lhs => rw [e2]
  simp only [List.cons_append, List.nil_append, List.append_assoc]

theorem stream_inside (d : EnumDef) : Inside (streamInner d) :=
  Inside.append (inside_ofB rfl) ((inside_flatMap _ _ fun _ _ => inside_ofB rfl).braces.append (inside_ofB (by decide)))

theorem stream_stretch {d : EnumDef} (ns : List (List Str)) (hn : Word d.name) (hi : ∀ m ∈ d.members, Word (sanitize m)) (hm : ∀ m ∈ d.members, Plainly' m) :
    Stretch ns (codeStream d) ns [.defined (At ns (streamSig d.name)) (codeStream d)] := by
  refine Stretch.fn ns (stream_line hn hi hm) ⟨?_, ?_⟩ ?_ fun s => readSig_stream s _ _
  · rw [stream_shape]
    have hp : Flat (streamPre d.name) := flat_of rfl
    exact cut_block hp (stream_inside d)
  · exact ⟨_, _, _, _, rfl, by decide, .inr (.inr (by decide))⟩
  · rw [stream_shape, ← List.cons_append, ← List.append_assoc, List.getLast?_append]
    rfl

def formatterPre (e : Str) : List Tok :=
  [.word "template".toList, p '<', p '>', .word "struct".toList, .word "std".toList, p ':', p ':', .word "formatter".toList, p '<',
    .word "unicode".toList, p ':', p ':', .word e, p '>', p ':', .word "std".toList, p ':', p ':', .word "formatter".toList, p '<',
    .word "std".toList, p ':', p ':', .word "string_view".toList, p '>']

theorem formatter_line {d : EnumDef} (hw : Word d.name) (hi : ∀ m ∈ d.members, Word (sanitize m)) (hm : ∀ m ∈ d.members, Plainly' m) :
    Line (codeFormatter d) (formatterPre d.name ++ (p '{' :: (formatHead d.name ++ formatBodyToks d) ++ [p '}', p ';'])) := by
  have k1 := (format_lexes hw hi hm).append (clean_lit (t := "};\n\n".toList) (ts := [p '}', p ';']) 20 (by decide +kernel))
  have k2 := (clean_lit (t := ">: std::formatter<std::string_view>\n{\n".toList)
    (ts := [p '>', p ':', .word "std".toList, p ':', p ':', .word "formatter".toList, p '<',
      .word "std".toList, p ':', p ':', .word "string_view".toList, p '>', p '{']) 60 (by decide +kernel)).append k1
  have k3 := Line.mid (a := "template <>\nstruct std::formatter<unicode::".toList) (ts := [.word "template".toList, p '<', p '>', .word "struct".toList,
    .word "std".toList, p ':', p ':', .word "formatter".toList, p '<', .word "unicode".toList, p ':', p ':'])
    (line_lit 80 (by decide +kernel)) hw.lexes k2 (by
      intro h
      have := congrArg List.length h
      rw [List.length_append] at this
      exact absurd this (by rw [show (">: std::formatter<std::string_view>\n{\n".toList).length = 38 from rfl]; show ¬ 38 + _ = 0; omega))
  unfold codeFormatter formatterPre
  refine cast (congrArg (Line _) ?_) k3
  simp only [List.cons_append, List.nil_append, List.append_assoc]

def formatInner (d : EnumDef) : List Tok :=
  [.word "std".toList, p ':', p ':', .word "string_view".toList, .word "name".toList, p ';',
    .word "switch".toList, p '(', .word "value".toList, p ')'] ++
  ((p '{' :: d.members.flatMap (fun m => formatToks d.name (sanitize m) m) ++ [p '}']) ++ formatTail.dropLast)

theorem format_shape (d : EnumDef) : formatHead d.name ++ formatBodyToks d = (formatHead d.name).dropLast ++ (p '{' :: formatInner d ++ [p '}']) := by
  have e1 : formatHead d.name = (formatHead d.name).dropLast ++ [p '{'] := rfl
  have e2 : formatTail = formatTail.dropLast ++ [p '}'] := by decide
  unfold formatBodyToks formatInner
  conv_lhs => rw [e1, e2]
  simp only [List.cons_append, List.nil_append, List.append_assoc]

theorem format_inside (d : EnumDef) : Inside (formatHead d.name ++ formatBodyToks d) := by
  rw [format_shape]
  refine Inside.append (inside_ofB rfl) (Inside.braces ?_)
  exact Inside.append (inside_ofB rfl) ((inside_flatMap _ _ fun _ _ => inside_ofB rfl).braces.append (inside_ofB (by decide)))

theorem formatter_stretch {d : EnumDef} (ns : List (List Str)) (hn : Word d.name) (hi : ∀ m ∈ d.members, Word (sanitize m)) (hm : ∀ m ∈ d.members, Plainly' m) :
    Stretch ns (codeFormatter d) ns [.formatter ns.reverse.flatten d.name (codeFormatter d)] := by
  refine Stretch.formatter ns (formatter_line hn hi hm) ⟨?_, _, _, _, _, rfl, by decide, .inr (.inr (by decide))⟩
    ⟨formatFn d, formatHead d.name ++ formatBodyToks d, ?_, format_read d⟩
  · have hp : Flat (formatterPre d.name) := flat_of rfl
    rw [hp.cut, cut_closed (format_inside d)]
    rfl
  · refine cast (congrArg (Reads _) ?_) (formatter_line hn hi hm).reads
    unfold formatterPre
    simp only [List.cons_append, List.nil_append, List.append_assoc]

/-! ## Whole files -/

/-- A file with the licence. -/
theorem file_licence {includes blank : Str} {texts : List Str} {parts : List Part} (hi : ∀ c ∈ includes, c ≠ '\\') (hb : Clean blank [])
    (hd : ∀ t, dropDirectives true false (includes ++ t) = blank ++ dropDirectives true false t) (h : Stretches [] texts [] parts) :
    ∃ ps, Consists (licenseHeader ++ (includes ++ texts.flatten)) ps ∧ List.Forall₂ Means ps parts := by
  obtain ⟨ts, ps, hl, hw, hf⟩ := h
  exact ⟨ps, ⟨ts, reads_file hi hb hd hl, hw.pieces⟩, hf⟩

theorem disclaimer_behind (t : Str) : behindLicence (disclaimer ++ t) = some (disclaimer ++ t) := rfl

theorem disclaimer_clean : Clean disclaimer [] := clean_lit 60 (by decide +kernel)

theorem disclaimer_drop (t : Str) : dropDirectives true false (disclaimer ++ t) = disclaimer ++ dropDirectives true false t := by
  have e : ∀ t, dropDirectives true false (disclaimer ++ t) = '/' :: dropDirectives false false ("/ This file was auto-generated by unicode_tablegen.".toList ++ ('\n' :: t)) :=
    fun t => by kernel_rfl
  rw [e, drop_line _ _ (by decide +kernel), drop_newline]
  rfl

/-- A file with the disclaimer. -/
theorem file_disclaimer {includes blank : Str} {texts : List Str} {parts : List Part} (hi : ∀ c ∈ includes, c ≠ '\\') (hb : Clean blank [])
    (hd : ∀ t, dropDirectives true false (includes ++ t) = blank ++ dropDirectives true false t) (h : Stretches [] texts [] parts) :
    ∃ ps, Consists (disclaimer ++ (includes ++ texts.flatten)) ps ∧ List.Forall₂ Means ps parts := by
  obtain ⟨ts, ps, hl, hw, hf⟩ := h
  refine ⟨ps, ⟨ts, ⟨disclaimer ++ (includes ++ texts.flatten), ?_, ?_⟩, hw.pieces⟩, hf⟩
  · rw [splice_append _ _ (by decide +kernel), splice_append _ _ hi, lexes_splice hl.1, disclaimer_behind]
  · rw [disclaimer_drop, hd, lexes_drop hl.1]
    exact (disclaimer_clean.line.append (hb.line.append hl)).1

/-! ## Namespaces with a given name -/

theorem joinPath_line {path : List Str} (hp : path ≠ []) (hw : ∀ x ∈ path, Word x) {rest : Str} (hr : Clean rest [.punct '{']) (hne : rest ≠ []) :
    Line (joinPath path ++ rest) (nsToks path) := by
  induction path with
  | nil => exact absurd rfl hp
  | cons x t ih =>
    have hx := hw x (by simp)
    cases t with
    | nil =>
      have := Line.mid (a := []) Clean.nil.line hx.lexes hr hne
      exact this
    | cons y t =>
      have ih := ih (by simp) fun z hz => hw z (by simp [hz])
      have k := (clean_lit (t := "::".toList) (ts := [p ':', p ':']) 10 (by decide))
      have l2 : Line ("::".toList ++ (joinPath (y :: t) ++ rest)) ([p ':', p ':'] ++ nsToks (y :: t)) := k.line.append ih
      have e : joinPath (x :: y :: t) ++ rest = x ++ ("::".toList ++ (joinPath (y :: t) ++ rest)) := by
        show (x ++ ("::".toList ++ joinPath (y :: t))) ++ rest = _
        simp only [List.append_assoc]
      rw [e]
      refine ⟨lexes_append hx.lexes l2.1 (apart_start rfl), endsOpen_append l2.2 fun h => absurd h (by simp)⟩

theorem enterNamed_line {path : List Str} (hp : path ≠ []) (hw : ∀ x ∈ path, Word x) :
    Line (enterNamed (joinPath path)) (.word "namespace".toList :: nsToks path) := by
  have := joinPath_line hp hw (rest := "\n{\n\n".toList) (clean_lit 10 (by decide)) (by decide)
  have k := line_lit (t := "namespace ".toList) (ts := [.word "namespace".toList]) 20 (by decide)
  exact k.append this

theorem joinPath_comment {path : List Str} (hw : ∀ x ∈ path, Word x) : ∀ c ∈ joinPath path, c ≠ '\n' ∧ c ≠ '\\' := by
  induction path with
  | nil => intro c hc; cases hc
  | cons x t ih =>
    have hx : ∀ c ∈ x, c ≠ '\n' ∧ c ≠ '\\' := fun c hc => word_plain ((hw x (by simp)).2 c hc)
    cases t with
    | nil => exact hx
    | cons y t =>
      intro c hc
      rcases List.mem_append.1 hc with h | h
      · exact hx c h
      · rcases List.mem_append.1 h with h | h
        · exact (by decide : ∀ c ∈ "::".toList, c ≠ '\n' ∧ c ≠ '\\') c h
        · exact ih (fun z hz => hw z (by simp [hz])) c h

theorem leaveNamed_line {path : List Str} (hw : ∀ x ∈ path, Word x) : Line (leaveNamed (joinPath path)) [.punct '}'] := by
  have k := line_lit (t := "}".toList) (ts := [.punct '}']) 10 (by decide)
  have := clean_remark (c := "end namespace ".toList ++ joinPath path) (commentOk_of (plain_append (by decide) (joinPath_comment hw)))
  exact k.append this.line

end Verif.Tg
