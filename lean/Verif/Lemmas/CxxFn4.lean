import Verif.Lemmas.CxxFn3
/-!
# Reading `operator<<`, the formatter, `to_string` and `make_age`
-/

namespace Verif.Tg
open Verif.Utf8 (Mem)
open Verif.Spec.Cxx

/-- a string that needs no escapes -/
def Plainly' (s : Str) : Prop := ∀ c ∈ s, c ≠ '"' ∧ c ≠ '\\' ∧ c ≠ '\n'

/-! ## `operator<<` -/

def streamToks (e id m : Str) : List Tok :=
  [.word "case".toList, .word e, p ':', p ':', .word id, p ':', .word "return".toList, .word "os".toList, p '<', p '<', .str m, p ';']

def streamExpr (m : Str) : Expr := .bin "<<".toList (.name ["os".toList]) (.str m)

theorem simple_stream (n : Nat) (m : Str) (rest : List Tok) :
    readSimple (n + 1) (.word "return".toList :: .word "os".toList :: p '<' :: p '<' :: .str m :: p ';' :: rest) =
      (readSimple n rest).map fun x => (.ret (streamExpr m) :: x.1, x.2) := by
  kernel_rfl

theorem streamToks_ok (e id m : Str) : CaseToks (streamToks e id m) [e, id] [.ret (streamExpr m)] where
  read := fun n rest h => by
    show readCases (n + 4 + 1) (.word "case".toList :: .word e :: p ':' :: p ':' :: .word id :: p ':' :: .word "return".toList ::
      .word "os".toList :: p '<' :: p '<' :: .str m :: p ';' :: rest) = _
    rw [case_head (n + 4) e id, simple_stream (n + 3) m rest, h (n + 2)]
    rfl
  head := fun rest => ends_case _
  ne := by simp [streamToks]

theorem caseStream_clean {enum m : Str} (he : Word enum) (hn : Word (sanitize m)) (hm : Plainly' m) : Clean (caseStream enum m) (streamToks enum (sanitize m) m) := by
  have k0 := (clean_str hm).append (clean_lit (t := ";\n".toList) (ts := [p ';']) 10 (by decide))
  have k1 := (clean_lit (t := ": return os << ".toList) (ts := [p ':', .word "return".toList, .word "os".toList, p '<', p '<']) 40 (by decide +kernel)).append k0
  have k2 := Clean.word (a := "::".toList) (ts := [p ':', p ':']) (clean_lit 10 (by decide)) hn k1 (by decide) (by simp)
  exact Clean.word (a := "    case ".toList) (ts := [.word "case".toList]) (clean_lit 30 (by decide +kernel)) he k2 (by decide) (by simp)

def streamLast : Expr :=
  .bin "<<".toList (.bin "<<".toList (.bin "<<".toList (.name ["os".toList]) (.str "(".toList))
    (.cast ["static_cast".toList] [.word "unsigned".toList] [.name ["value".toList]])) (.str ")".toList)

def streamFn (d : EnumDef) : Fn :=
  ⟨[.word "inline".toList, .word "std".toList, p ':', p ':', .word "ostream".toList, p '&'], "operator<<".toList,
   [([.word "std".toList, p ':', p ':', .word "ostream".toList, p '&'], "os".toList), ([.word d.name], "value".toList)],
   [.switch "value".toList (d.members.map fun m => ([d.name, sanitize m], [.ret (streamExpr m)])), .ret streamLast]⟩

def streamHead (e : Str) : List Tok :=
  [.word "inline".toList, .word "std".toList, p ':', p ':', .word "ostream".toList, p '&', .word "operator".toList, p '<', p '<', p '(',
   .word "std".toList, p ':', p ':', .word "ostream".toList, p '&', .word "os".toList, p ',', .word e, .word "value".toList, p ')',
   .word "noexcept".toList, p '{']

theorem readFn_stream (e : Str) (b : List Tok) : readFn (streamHead e ++ b) = (readBody (b.length + 1) b).map fun body =>
    ⟨[.word "inline".toList, .word "std".toList, p ':', p ':', .word "ostream".toList, p '&'], "operator<<".toList,
     [([.word "std".toList, p ':', p ':', .word "ostream".toList, p '&'], "os".toList), ([.word e], "value".toList)], body⟩ := by
  kernel_rfl

def streamTail : List Tok :=
  [.word "return".toList, .word "os".toList, p '<', p '<', .str "(".toList, p '<', p '<', .word "static_cast".toList, p '<', .word "unsigned".toList, p '>',
   p '(', .word "value".toList, p ')', p '<', p '<', .str ")".toList, p ';', p '}']

theorem streamTail_read (n : Nat) : readBody (n + 2) streamTail = some [.ret streamLast] := by kernel_rfl

theorem stream_read (d : EnumDef) :
    readFn (streamHead d.name ++ (.word "switch".toList :: p '(' :: .word "value".toList :: p ')' :: p '{' ::
      (d.members.flatMap (fun m => streamToks d.name (sanitize m) m) ++ (p '}' :: streamTail)))) = some (streamFn d) := by
  rw [readFn_stream]
  rw [body_step, switch_read "value".toList (fun m => streamToks d.name (sanitize m) m) (fun m => [d.name, sanitize m]) (fun m => [.ret (streamExpr m)])
    d.members (p '}' :: streamTail) streamTail [] (fun m _ => streamToks_ok _ _ m) (ends_brace _) (fun n => rfl) (by decide)]
  simp only [List.append_nil, List.length_cons, List.length_append]
  have := streamTail_read ((d.members.flatMap fun m => streamToks d.name (sanitize m) m).length + (streamTail.length + 1) + 1 + 1 + 1)
  show Option.map _ (Option.map _ (readBody _ streamTail)) = _
  rw [this]
  rfl

theorem stream_line {d : EnumDef} (hn : Word d.name) (hi : ∀ m ∈ d.members, Word (sanitize m)) (hm : ∀ m ∈ d.members, Plainly' m) :
    Line (codeStream d) (streamHead d.name ++ (.word "switch".toList :: p '(' :: .word "value".toList :: p ')' :: p '{' ::
      (d.members.flatMap (fun m => streamToks d.name (sanitize m) m) ++ (p '}' :: streamTail)))) := by
  have k1 := flat_clean (caseStream d.name) (fun m => streamToks d.name (sanitize m) m) d.members fun m h => caseStream_clean hn (hi m h) (hm m h)
  have k2 := k1.append (clean_lit (t := "    }\n    // clang-format on\n    return os << \"(\" << static_cast<unsigned>(value) << \")\";\n}\n\n".toList)
    (ts := p '}' :: streamTail) 200 (by decide +kernel))
  have k3 := (clean_lit (t := " value) noexcept\n{\n    // clang-format off\n    switch (value)\n    {\n".toList)
    (ts := [.word "value".toList, p ')', .word "noexcept".toList, p '{', .word "switch".toList, p '(', .word "value".toList, p ')', p '{']) 200 (by decide +kernel)).append k2
  have k4 := Line.mid (line_lit (t := "inline std::ostream& operator<<(std::ostream& os, ".toList)
    (ts := [.word "inline".toList, .word "std".toList, p ':', p ':', .word "ostream".toList, p '&', .word "operator".toList, p '<', p '<', p '(',
      .word "std".toList, p ':', p ':', .word "ostream".toList, p '&', .word "os".toList, p ',']) 200 (by decide +kernel)) hn.lexes k3 (by simp)
  exact k4

theorem stream_defines {d : EnumDef} (hn : Word d.name) (hi : ∀ m ∈ d.members, Word (sanitize m)) (hm : ∀ m ∈ d.members, Plainly' m) :
    DefinesFn (codeStream d) (streamFn d) := ⟨_, (stream_line hn hi hm).reads, stream_read d⟩

/-! ## The formatter -/

def formatToks (e id m : Str) : List Tok :=
  [.word "case".toList, .word "unicode".toList, p ':', p ':', .word e, p ':', p ':', .word id, p ':', .word "name".toList, p '=', .str m, p ';',
   .word "break".toList, p ';']

theorem simple_format (n : Nat) (m : Str) (rest : List Tok) :
    readSimple (n + 2) (.word "name".toList :: p '=' :: .str m :: p ';' :: .word "break".toList :: p ';' :: rest) =
      (readSimple n rest).map fun x => (.assign "name".toList (.str m) :: .brk :: x.1, x.2) := by
  have h1 : readSimple (n + 2) (.word "name".toList :: p '=' :: .str m :: p ';' :: .word "break".toList :: p ';' :: rest) =
      (readSimple (n + 1) (.word "break".toList :: p ';' :: rest)).map fun x => (.assign "name".toList (.str m) :: x.1, x.2) := by kernel_rfl
  have h2 : readSimple (n + 1) (.word "break".toList :: p ';' :: rest) = (readSimple n rest).map fun x => (.brk :: x.1, x.2) := by kernel_rfl
  rw [h1, h2]
  cases readSimple n rest <;> rfl

theorem case_head3 (n : Nat) (u e m w : Str) (rest : List Tok) :
    readCases (n + 1) (.word "case".toList :: .word u :: p ':' :: p ':' :: .word e :: p ':' :: p ':' :: .word m :: p ':' :: .word w :: rest) =
      match readSimple n (.word w :: rest) with
      | some (b, r) => (readCases n r).map fun x => (([u, e, m], b) :: x.1, x.2)
      | none => none := by
  kernel_rfl

theorem formatToks_ok (e id m : Str) :
    CaseToks (formatToks e id m) ["unicode".toList, e, id] [.assign "name".toList (.str m), .brk] where
  read := fun n rest h => by
    show readCases (n + 4 + 1) (.word "case".toList :: .word "unicode".toList :: p ':' :: p ':' :: .word e :: p ':' :: p ':' :: .word id :: p ':' ::
      .word "name".toList :: p '=' :: .str m :: p ';' :: .word "break".toList :: p ';' :: rest) = _
    rw [case_head3 (n + 4) _ e id, simple_format (n + 2) m rest, h (n + 1)]
    rfl
  head := fun rest => ends_case _
  ne := by simp [formatToks]

theorem caseFormat_clean {enum m : Str} (he : Word enum) (hn : Word (sanitize m)) (hm : Plainly' m) : Clean (caseFormat enum m) (formatToks enum (sanitize m) m) := by
  have k0 := (clean_str hm).append (clean_lit (t := "; break;\n".toList) (ts := [p ';', .word "break".toList, p ';']) 20 (by decide))
  have k1 := (clean_lit (t := ": name = ".toList) (ts := [p ':', .word "name".toList, p '=']) 40 (by decide +kernel)).append k0
  have k2 := Clean.word (a := "::".toList) (ts := [p ':', p ':']) (clean_lit 10 (by decide)) hn k1 (by decide) (by simp)
  exact Clean.word (a := "            case unicode::".toList) (ts := [.word "case".toList, .word "unicode".toList, p ':', p ':']) (clean_lit 50 (by decide +kernel)) he k2
    (by decide) (by simp)

def formatLast : Expr := .cast ["formatter".toList, "format".toList] [.word "string_view".toList] [.name ["name".toList], .name ["ctx".toList]]

def formatFn (d : EnumDef) : Fn :=
  ⟨[.word "auto".toList], "format".toList,
   [([.word "unicode".toList, p ':', p ':', .word d.name], "value".toList), ([.word "auto".toList, p '&'], "ctx".toList)],
   [.declare ["std".toList, "string_view".toList] "name".toList,
    .switch "value".toList (d.members.map fun m => (["unicode".toList, d.name, sanitize m], [.assign "name".toList (.str m), .brk])), .ret formatLast]⟩

def formatHead (e : Str) : List Tok :=
  [.word "auto".toList, .word "format".toList, p '(', .word "unicode".toList, p ':', p ':', .word e, .word "value".toList, p ',', .word "auto".toList, p '&',
   .word "ctx".toList, p ')', .word "const".toList, p '{']

theorem readFn_format (e : Str) (b : List Tok) : readFn (formatHead e ++ b) = (readBody (b.length + 1) b).map fun body =>
    ⟨[.word "auto".toList], "format".toList,
     [([.word "unicode".toList, p ':', p ':', .word e], "value".toList), ([.word "auto".toList, p '&'], "ctx".toList)], body⟩ := by
  kernel_rfl

def formatTail : List Tok :=
  [.word "return".toList, .word "formatter".toList, p '<', .word "string_view".toList, p '>', p ':', p ':', .word "format".toList, p '(', .word "name".toList, p ',',
   .word "ctx".toList, p ')', p ';', p '}']

theorem formatTail_read (n : Nat) : readBody (n + 2) formatTail = some [.ret formatLast] := by kernel_rfl

theorem readStmt_declare (r : List Tok) : readStmt (.word "std".toList :: p ':' :: p ':' :: .word "string_view".toList :: .word "name".toList :: p ';' :: r) =
    some (.declare ["std".toList, "string_view".toList] "name".toList, r) := by kernel_rfl

def formatBodyToks (d : EnumDef) : List Tok :=
  .word "std".toList :: p ':' :: p ':' :: .word "string_view".toList :: .word "name".toList :: p ';' ::
    .word "switch".toList :: p '(' :: .word "value".toList :: p ')' :: p '{' ::
      (d.members.flatMap (fun m => formatToks d.name (sanitize m) m) ++ (p '}' :: formatTail))

theorem format_read (d : EnumDef) : readFn (formatHead d.name ++ formatBodyToks d) = some (formatFn d) := by
  rw [readFn_format]
  unfold formatBodyToks
  rw [body_step, readStmt_declare]
  simp only [List.length_cons, List.length_append]
  rw [body_step, switch_read "value".toList (fun m => formatToks d.name (sanitize m) m) (fun m => ["unicode".toList, d.name, sanitize m])
    (fun m => [.assign "name".toList (.str m), .brk])
    d.members (p '}' :: formatTail) formatTail [] (fun m _ => formatToks_ok _ _ m) (ends_brace _) (fun n => rfl) (by decide)]
  simp only [List.append_nil]
  rw [formatTail_read]
  rfl

theorem format_lexes {d : EnumDef} (hn : Word d.name) (hi : ∀ m ∈ d.members, Word (sanitize m)) (hm : ∀ m ∈ d.members, Plainly' m) :
    Clean (codeFormat d) (formatHead d.name ++ formatBodyToks d) := by
  have k1 := flat_clean (caseFormat d.name) (fun m => formatToks d.name (sanitize m) m) d.members fun m h => caseFormat_clean hn (hi m h) (hm m h)
  have k2 := k1.append (clean_lit
    (t := "            // clang-format off\n        }\n        return formatter<string_view>::format(name, ctx);\n    }\n".toList)
    (ts := p '}' :: formatTail) 200 (by decide +kernel))
  have k3 := (clean_lit (t := " value, auto& ctx) const\n    {\n        std::string_view name;\n        switch (value)\n        {\n            // clang-format off\n".toList)
    (ts := [.word "value".toList, p ',', .word "auto".toList, p '&', .word "ctx".toList, p ')', .word "const".toList, p '{',
      .word "std".toList, p ':', p ':', .word "string_view".toList, .word "name".toList, p ';',
      .word "switch".toList, p '(', .word "value".toList, p ')', p '{']) 200 (by decide +kernel)).append k2
  exact Clean.word (a := "    auto format(unicode::".toList)
    (ts := [.word "auto".toList, .word "format".toList, p '(', .word "unicode".toList, p ':', p ':']) (clean_lit 200 (by decide +kernel)) hn k3 (by decide) (by simp)

theorem format_defines {d : EnumDef} (hn : Word d.name) (hi : ∀ m ∈ d.members, Word (sanitize m)) (hm : ∀ m ∈ d.members, Plainly' m) :
    DefinesFn (codeFormat d) (formatFn d) := ⟨_, (format_lexes hn hi hm).reads, format_read d⟩

/-! ## `to_string` -/

def widthStringFn : Fn :=
  ⟨[.word "inline".toList, .word "std".toList, p ':', p ':', .word "string".toList], "to_string".toList, [([.word "EastAsianWidth".toList], "value".toList)],
   [.switch "value".toList (widthEnum.members.map fun m => (["EastAsianWidth".toList, m], [.ret (.str m)])), .ret (.str "Unknown".toList)]⟩

theorem widthString_defines : DefinesFn codeWidthString widthStringFn :=
  defines_lit (ts := toksOf 800 codeWidthString) 800 (by decide +kernel) (by kernel_rfl)

end Verif.Tg
