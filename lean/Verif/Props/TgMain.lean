import Verif.Model.TgMain
import Verif.Props.TgFiles
/-!
# C69: the program `unicode_tablegen`
-/

namespace Verif.Props.Tg
open Verif.Tg

/-- The files the build expects in the directory: CMakeLists.txt:15-25. -/
def expected : List Str :=
  ["ucd.cpp".toList, "ucd.h".toList, "ucd_enums.h".toList, "ucd_fmt.h".toList, "ucd_ostream.h".toList, "case_normalization_data.h".toList,
   "codepoint_properties_data.h".toList, "codepoint_properties_data.cpp".toList, "codepoint_properties_names.cpp".toList]

/-- `dir/name` -/
def inDir (dir name : Str) : Str := dir ++ ('/' :: name)

/-- What each file should contain. -/
def content (i : GenInput) (enums : List EnumDef) (D : UcdData) (ns : Str) (name : Str) : Option Str :=
  if name = "ucd.cpp".toList then some (ucdSource D)
  else if name = "ucd.h".toList then some (ucdHeader D)
  else if name = "ucd_enums.h".toList then some (enumsFile enums)
  else if name = "ucd_fmt.h".toList then some (fmtFile enums)
  else if name = "ucd_ostream.h".toList then some (ostreamFile enums)
  else if name = "case_normalization_data.h".toList then some (caseNormFile i.ud i.folds i.special i.qc i.comp)
  else if name = "codepoint_properties_data.h".toList then some (propsHeader ns i.stage1 i.stage2 i.rows i.names1 i.names2 i.names)
  else if name = "codepoint_properties_data.cpp".toList then some (propsSource ns i.stage1 i.stage2 i.rows)
  else if name = "codepoint_properties_names.cpp".toList then some (namesSource ns i.names1 i.names2 i.names)
  else none

/-- Everything can be opened, and there is room for everything. -/
def Willing (env : Os) : Prop := (∀ x, env.opens x = true) ∧ ∀ x, env.room x = none

/-- **The property**: if the program reports success, the nine files the build expects are there, with their whole contents. -/
def C69_Success : Prop := ∀ (parse : Str → Option GenInput) (env : Os) (args : List Str) (disk : Disk),
  (tablegenMain parse env args disk).1 = 0 → ∃ ucdDir dir i enums D, args[1]? = some ucdDir ∧ args[2]? = some dir ∧ parse ucdDir = some i ∧ i.enums = some enums ∧
    i.api = .ok D ∧ ∀ name ∈ expected, (tablegenMain parse env args disk).2 (inDir dir name) = content i enums D (namespaceArg args) name

/-! ## The proofs -/

theorem perform_append (env : Os) (as bs : List Act) (disk : Disk) :
    perform env disk (as ++ bs) = if (perform env disk as).2 then perform env (perform env disk as).1 bs else ((perform env disk as).1, false) := by
  induction as generalizing disk with
  | nil => rfl
  | cons a as ih =>
    cases a with
    | throw => rfl
    | file path text => exact ih _

/-- The paths in a list of acts. -/
def paths (as : List Act) : List Str := as.filterMap fun | .file path _ => some path | .throw => none

theorem perform_other (env : Os) (as : List Act) (disk : Disk) (x : Str) (h : x ∉ paths as) : (perform env disk as).1 x = disk x := by
  induction as generalizing disk with
  | nil => rfl
  | cons a as ih =>
    cases a with
    | throw => rfl
    | file path text =>
      have h' : x ≠ path ∧ x ∉ paths as := by
        have : paths (.file path text :: as) = path :: paths as := rfl
        rw [this] at h
        exact ⟨fun e => h (by simp [e]), fun e => h (by simp [e])⟩
      show (perform env (writeFile env disk path text) as).1 x = disk x
      rw [ih _ h'.2]
      unfold writeFile
      split
      · exact if_neg h'.1
      · rfl

theorem perform_ok (env : Os) (as : List Act) (disk : Disk) : (perform env disk as).2 = true ↔ .throw ∉ as := by
  induction as generalizing disk with
  | nil => simp [perform]
  | cons a as ih =>
    cases a with
    | throw => simp [perform]
    | file path text =>
      show (perform env _ as).2 = true ↔ _
      rw [ih]
      simp

theorem perform_file (env : Os) (hw : Willing env) (as : List Act) (disk : Disk) (h : .throw ∉ as) (hn : (paths as).Nodup) (path text : Str)
    (hm : .file path text ∈ as) : (perform env disk as).1 path = some text := by
  induction as generalizing disk with
  | nil => cases hm
  | cons a as ih =>
    cases a with
    | throw => exact absurd (List.mem_cons_self ..) h
    | file path' text' =>
      have e : paths (.file path' text' :: as) = path' :: paths as := rfl
      rw [e] at hn
      obtain ⟨n1, n2⟩ := List.nodup_cons.1 hn
      show (perform env (writeFile env disk path' text') as).1 path = some text
      rcases List.mem_cons.1 hm with hm | hm
      · injection hm with e1 e2
        subst e1 e2
        rw [perform_other _ _ _ _ n1]
        unfold writeFile
        unfold Os.fit
        rw [hw.1, if_pos rfl, if_pos rfl, hw.2]
      · exact ih _ (fun h' => h (by simp [h'])) n2 hm

/-- everything `main` does -/
def allActs (dir ns : Str) (i : GenInput) : List Act := enumActs dir i.enums ++ apiActs dir i.api ++ caseActs dir i ++ multistageActs dir ns i

theorem main_eq (parse : Str → Option GenInput) (env : Os) (a0 ucdDir dir : Str) (rest : List Str) (disk : Disk) (i : GenInput) (hp : parse ucdDir = some i) :
    tablegenMain parse env (a0 :: ucdDir :: dir :: rest) disk =
      (if (perform env disk (allActs dir (namespaceArg (a0 :: ucdDir :: dir :: rest)) i)).2 then 0 else 1,
       (perform env disk (allActs dir (namespaceArg (a0 :: ucdDir :: dir :: rest)) i)).1) := by
  show (match parse ucdDir with | none => (1, disk) | some i => _) = _
  rw [hp]
  rfl

theorem throw_iff (dir ns : Str) (i : GenInput) : .throw ∉ allActs dir ns i ↔ (∃ enums, i.enums = some enums) ∧ ∃ D, i.api = .ok D := by
  unfold allActs
  have h1 : Act.throw ∉ caseActs dir i := by unfold caseActs; simp
  have h2 : Act.throw ∉ multistageActs dir ns i := by unfold multistageActs; simp
  have h3 : Act.throw ∉ enumActs dir i.enums ↔ ∃ enums, i.enums = some enums := by
    cases i.enums <;> simp [enumActs]
  have h4 : Act.throw ∉ apiActs dir i.api ↔ ∃ D, i.api = .ok D := by
    cases i.api <;> simp [apiActs]
  rw [← h3, ← h4]
  simp only [List.mem_append, not_or, h1, h2, not_false_iff, and_true]

theorem paths_dir (dir ns : Str) (i : GenInput) : ∀ x ∈ paths (allActs dir ns i), ∃ name ∈ expected, x = inDir dir name := by
  intro x hx
  obtain ⟨a, ha, e⟩ := List.mem_filterMap.1 hx
  cases a with
  | throw => cases e
  | file path text =>
    obtain rfl := Option.some.inj e
    have key : ∀ n : Str, n ∈ expected → ∃ name ∈ expected, dir ++ ('/' :: n) = inDir dir name := fun n hn => ⟨n, hn, rfl⟩
    unfold allActs at ha
    simp only [List.mem_append] at ha
    rcases ha with ((ha | ha) | ha) | ha
    · cases hi : i.enums with
      | none => rw [hi] at ha; simp [enumActs] at ha
      | some enums =>
        rw [hi] at ha
        unfold enumActs at ha
        simp only [List.mem_cons, List.not_mem_nil, or_false, Act.file.injEq] at ha
        rcases ha with ⟨rfl, -⟩ | ⟨rfl, -⟩ | ⟨rfl, -⟩
        · exact key "ucd_enums.h".toList (by decide)
        · exact key "ucd_ostream.h".toList (by decide)
        · exact key "ucd_fmt.h".toList (by decide)
    · cases hi : i.api with
      | error e =>
        rw [hi] at ha
        unfold apiActs at ha
        simp only [List.mem_cons, List.not_mem_nil, or_false, Act.file.injEq, reduceCtorEq] at ha
        rcases ha with ⟨rfl, -⟩ | ⟨rfl, -⟩
        · exact key "ucd.h".toList (by decide)
        · exact key "ucd.cpp".toList (by decide)
      | ok D =>
        rw [hi] at ha
        unfold apiActs at ha
        simp only [List.mem_cons, List.not_mem_nil, or_false, Act.file.injEq] at ha
        rcases ha with ⟨rfl, -⟩ | ⟨rfl, -⟩
        · exact key "ucd.h".toList (by decide)
        · exact key "ucd.cpp".toList (by decide)
    · unfold caseActs at ha
      simp only [List.mem_cons, List.not_mem_nil, or_false, Act.file.injEq] at ha
      obtain ⟨rfl, -⟩ := ha
      exact key "case_normalization_data.h".toList (by decide)
    · unfold multistageActs at ha
      simp only [List.mem_cons, List.not_mem_nil, or_false, Act.file.injEq] at ha
      rcases ha with ⟨rfl, -⟩ | ⟨rfl, -⟩ | ⟨rfl, -⟩
      · exact key "codepoint_properties_data.h".toList (by decide)
      · exact key "codepoint_properties_data.cpp".toList (by decide)
      · exact key "codepoint_properties_names.cpp".toList (by decide)

/-! ## The theorems -/

/-- Fewer than two arguments: failure, and no file is touched. -/
theorem C69_usage (parse : Str → Option GenInput) (env : Os) (args : List Str) (disk : Disk) (h : args.length < 3) :
    tablegenMain parse env args disk = (1, disk) := by
  match args, h with
  | [], _ => rfl
  | [_], _ => rfl
  | [_, _], _ => rfl
  | _ :: _ :: _ :: _, h => exact absurd h (by simp)

/-- If the database cannot be read, no file is touched. -/
theorem C69_unreadable (parse : Str → Option GenInput) (env : Os) (args : List Str) (disk : Disk) (ucdDir : Str) (h : args[1]? = some ucdDir)
    (hp : parse ucdDir = none) : tablegenMain parse env args disk = (1, disk) := by
  match args, h with
  | [_, _], _ => rfl
  | _ :: _ :: _ :: _, h =>
    obtain rfl := Option.some.inj h
    show (match parse _ with | none => (1, disk) | some i => _) = _
    rw [hp]

/-- Success is reported exactly if there are enough arguments and nothing throws — whatever can be written. -/
theorem C69_exit (parse : Str → Option GenInput) (env : Os) (args : List Str) (disk : Disk) :
    (tablegenMain parse env args disk).1 = 0 ↔
      3 ≤ args.length ∧ ∃ ucdDir i enums D, args[1]? = some ucdDir ∧ parse ucdDir = some i ∧ i.enums = some enums ∧ i.api = .ok D := by
  match args with
  | [] => simp [tablegenMain]
  | [_] => simp [tablegenMain]
  | [_, _] => simp [tablegenMain]
  | a0 :: ucdDir :: dir :: rest =>
    cases hp : parse ucdDir with
    | none =>
      rw [C69_unreadable parse env _ disk ucdDir rfl hp]
      constructor
      · intro h; cases h
      · rintro ⟨-, u, i, _, _, e, hi, -⟩
        obtain rfl := Option.some.inj e
        rw [hp] at hi
        cases hi
    | some i =>
      rw [main_eq parse env a0 ucdDir dir rest disk i hp]
      have h1 : (if (perform env disk (allActs dir (namespaceArg (a0 :: ucdDir :: dir :: rest)) i)).2 then 0 else 1) = 0 ↔
          (perform env disk (allActs dir (namespaceArg (a0 :: ucdDir :: dir :: rest)) i)).2 = true := by
        split <;> simp_all
      show (if _ then 0 else 1) = 0 ↔ _
      rw [h1, perform_ok, throw_iff]
      constructor
      · rintro ⟨⟨enums, h2⟩, D, h3⟩
        exact ⟨by simp, ucdDir, i, enums, D, rfl, hp, h2, h3⟩
      · rintro ⟨-, u, j, enums, D, e, hj, h2, h3⟩
        obtain rfl := Option.some.inj e
        rw [hp] at hj
        obtain rfl := Option.some.inj hj
        exact ⟨⟨enums, h2⟩, D, h3⟩

/-- Whatever happens, only the nine files in the output directory are touched. -/
theorem C69_only (parse : Str → Option GenInput) (env : Os) (args : List Str) (disk : Disk) (x : Str)
    (h : ∀ dir, args[2]? = some dir → ∀ name ∈ expected, x ≠ inDir dir name) : (tablegenMain parse env args disk).2 x = disk x := by
  match args, h with
  | [], _ => rfl
  | [_], _ => rfl
  | [_, _], _ => rfl
  | a0 :: ucdDir :: dir :: rest, h =>
    cases hp : parse ucdDir with
    | none => rw [C69_unreadable parse env _ disk ucdDir rfl hp]
    | some i =>
      rw [main_eq parse env a0 ucdDir dir rest disk i hp]
      refine perform_other _ _ _ _ fun hx => ?_
      obtain ⟨name, hn, e⟩ := paths_dir _ _ _ x hx
      exact h dir rfl name hn e

theorem acts_nodup (dir ns : Str) (i : GenInput) (enums : List EnumDef) (D : UcdData) (h1 : i.enums = some enums) (h2 : i.api = .ok D) :
    (paths (allActs dir ns i)).Nodup := by
  have e : paths (allActs dir ns i) = (["/ucd_enums.h".toList, "/ucd_ostream.h".toList, "/ucd_fmt.h".toList, "/ucd.h".toList, "/ucd.cpp".toList,
      "/case_normalization_data.h".toList, "/codepoint_properties_data.h".toList, "/codepoint_properties_data.cpp".toList,
      "/codepoint_properties_names.cpp".toList] : List Str).map (dir ++ ·) := by
    unfold allActs
    rw [h1, h2]
    rfl
  rw [e]
  exact (by decide : List.Nodup _).map fun a b e => List.append_cancel_left e

/-- The part of the property that holds: if the operating system lets the program write, success means that all nine files are there with their whole
contents.  Missing: a failure to open or write a file is not noticed, see `C69_fails_unwritable`. -/
theorem C69_success_partial (parse : Str → Option GenInput) (env : Os) (hw : Willing env) (args : List Str) (disk : Disk)
    (h : (tablegenMain parse env args disk).1 = 0) : ∃ ucdDir dir i enums D, args[1]? = some ucdDir ∧ args[2]? = some dir ∧ parse ucdDir = some i ∧
      i.enums = some enums ∧ i.api = .ok D ∧
      ∀ name ∈ expected, (tablegenMain parse env args disk).2 (inDir dir name) = content i enums D (namespaceArg args) name := by
  obtain ⟨hl, ucdDir, i, enums, D, h1, h2, h3, h4⟩ := (C69_exit parse env args disk).1 h
  match args, hl, h1 with
  | a0 :: _ :: dir :: rest, _, h1 =>
    obtain rfl := Option.some.inj h1
    refine ⟨_, dir, i, enums, D, rfl, rfl, h2, h3, h4, ?_⟩
    rw [main_eq parse env a0 _ dir rest disk i h2]
    generalize namespaceArg _ = ns
    have hok : .throw ∉ allActs dir ns i := (throw_iff dir ns i).2 ⟨⟨enums, h3⟩, D, h4⟩
    have hf := perform_file env hw _ disk hok (acts_nodup dir ns i enums D h3 h4)
    have e : allActs dir ns i = enumActs dir (some enums) ++ apiActs dir (.ok D) ++ caseActs dir i ++ multistageActs dir ns i := by
      unfold allActs
      rw [h3, h4]
    have hin : ∀ (n : Str) (t : Str), Act.file (inDir dir n) t ∈ enumActs dir (some enums) ++ apiActs dir (.ok D) ++ caseActs dir i ++ multistageActs dir ns i →
        (perform env disk (allActs dir ns i)).1 (inDir dir n) = some t := fun n t hm => hf _ _ (e ▸ hm)
    have inE : ∀ {a : Act}, a ∈ enumActs dir (some enums) → a ∈ enumActs dir (some enums) ++ apiActs dir (.ok D) ++ caseActs dir i ++ multistageActs dir ns i :=
      fun h => List.mem_append.2 (.inl (List.mem_append.2 (.inl (List.mem_append.2 (.inl h)))))
    have inA : ∀ {a : Act}, a ∈ apiActs dir (.ok D) → a ∈ enumActs dir (some enums) ++ apiActs dir (.ok D) ++ caseActs dir i ++ multistageActs dir ns i :=
      fun h => List.mem_append.2 (.inl (List.mem_append.2 (.inl (List.mem_append.2 (.inr h)))))
    have inC : ∀ {a : Act}, a ∈ caseActs dir i → a ∈ enumActs dir (some enums) ++ apiActs dir (.ok D) ++ caseActs dir i ++ multistageActs dir ns i :=
      fun h => List.mem_append.2 (.inl (List.mem_append.2 (.inr h)))
    have inM : ∀ {a : Act}, a ∈ multistageActs dir ns i → a ∈ enumActs dir (some enums) ++ apiActs dir (.ok D) ++ caseActs dir i ++ multistageActs dir ns i :=
      fun h => List.mem_append.2 (.inr h)
    intro name hn
    have cases' : ∀ (Q : Str → Prop), Q "ucd.cpp".toList → Q "ucd.h".toList → Q "ucd_enums.h".toList → Q "ucd_fmt.h".toList → Q "ucd_ostream.h".toList →
        Q "case_normalization_data.h".toList → Q "codepoint_properties_data.h".toList → Q "codepoint_properties_data.cpp".toList →
        Q "codepoint_properties_names.cpp".toList → ∀ name ∈ expected, Q name := by
      intro Q q1 q2 q3 q4 q5 q6 q7 q8 q9
      unfold expected
      exact List.forall_mem_cons.2 ⟨q1, List.forall_mem_cons.2 ⟨q2, List.forall_mem_cons.2 ⟨q3, List.forall_mem_cons.2 ⟨q4, List.forall_mem_cons.2 ⟨q5,
        List.forall_mem_cons.2 ⟨q6, List.forall_mem_cons.2 ⟨q7, List.forall_mem_cons.2 ⟨q8, List.forall_mem_cons.2 ⟨q9, fun _ h => nomatch h⟩⟩⟩⟩⟩⟩⟩⟩⟩
    refine cases' (fun name => (perform env disk (allActs dir ns i)).1 (inDir dir name) = content i enums D ns name) ?_ ?_ ?_ ?_ ?_ ?_ ?_ ?_ ?_ name hn
    · exact hin _ _ (inA (.tail _ (.head _)))
    · exact hin _ _ (inA (.head _))
    · exact hin _ _ (inE (.head _))
    · exact hin _ _ (inE (.tail _ (.tail _ (.head _))))
    · exact hin _ _ (inE (.tail _ (.head _)))
    · exact hin _ _ (inC (.head _))
    · exact hin _ _ (inM (.head _))
    · exact hin _ _ (inM (.tail _ (.head _)))
    · exact hin _ _ (inM (.tail _ (.tail _ (.head _))))

/-- The data of the database can be written as C++ (the hypotheses of C67 and C68). -/
structure GenOk (i : GenInput) (enums : List EnumDef) (D : UcdData) : Prop where
  enums : EnumsOk enums
  ucd : UcdOk D
  simple : ∀ m ∈ [i.ud.upper, i.ud.lower, i.ud.title, i.folds.simple], ∀ e ∈ m, e.1 ≠ 0x5C
  full : ∀ m ∈ [i.special.upper, i.special.lower, i.special.title, i.folds.full], ∀ e ∈ m, e.2.length ≤ 3
  rows : ∀ e ∈ i.rows, EmittedOk e
  names : ∀ s ∈ i.names, ∀ c ∈ s, c ≠ '"' ∧ c ≠ '\\' ∧ c ≠ '\n'

/-- With such data every file that is written can be read as C++ from its first character to its last (what it means is said by C67 and C68). -/
theorem C69_readable (i : GenInput) (enums : List EnumDef) (D : UcdData) (h : GenOk i enums D) (path : List Str) (hp : PathOk path) :
    ∀ name ∈ expected, ∃ text ps, content i enums D (Spec.Cxx.joinPath path) name = some text ∧ Spec.Cxx.Consists text ps := by
  have pick : ∀ {α : Type} {P : α → Prop} {Q : α → Prop}, (∃ a, P a ∧ Q a) → ∃ a, P a := fun ⟨a, h, _⟩ => ⟨a, h⟩
  unfold expected
  refine List.forall_mem_cons.2 ⟨?_, List.forall_mem_cons.2 ⟨?_, List.forall_mem_cons.2 ⟨?_, List.forall_mem_cons.2 ⟨?_, List.forall_mem_cons.2 ⟨?_,
        List.forall_mem_cons.2 ⟨?_, List.forall_mem_cons.2 ⟨?_, List.forall_mem_cons.2 ⟨?_, List.forall_mem_cons.2 ⟨?_, fun _ h => nomatch h⟩⟩⟩⟩⟩⟩⟩⟩⟩
  · obtain ⟨ps, h⟩ := pick (C67_source D h.ucd); exact ⟨_, ps, rfl, h⟩
  · obtain ⟨ps, h⟩ := pick (C67_header D h.ucd); exact ⟨_, ps, rfl, h⟩
  · obtain ⟨ps, h⟩ := pick (enums_consists enums h.enums); exact ⟨_, ps, rfl, h⟩
  · obtain ⟨ps, h⟩ := pick (C68_formatters enums h.enums); exact ⟨_, ps, rfl, h⟩
  · obtain ⟨ps, h⟩ := pick (C68_ostream enums h.enums); exact ⟨_, ps, rfl, h⟩
  · obtain ⟨_, _, -, -, hh⟩ := C68_case_tables_partial i.ud i.folds i.special i.qc i.comp h.simple h.full
    obtain ⟨ps, h⟩ := pick hh; exact ⟨_, ps, rfl, h⟩
  · obtain ⟨ps, h⟩ := pick (header_externs_consists hp i.stage1 i.stage2 i.rows i.names1 i.names2 i.names); exact ⟨_, ps, rfl, h⟩
  · obtain ⟨ps, h⟩ := pick (source_items_consists hp i.stage1 i.stage2 i.rows h.rows); exact ⟨_, ps, rfl, h⟩
  · obtain ⟨ps, h⟩ := pick (name_items_consists hp i.names1 i.names2 i.names h.names); exact ⟨_, ps, rfl, h⟩

/-- Without a third argument the tables are written for `unicode::precompiled`, the namespace codepoint_properties.cpp uses; with one, for that. -/
theorem C69_namespace (a0 ucdDir dir : Str) :
    namespaceArg [a0, ucdDir, dir] = Spec.Cxx.joinPath precompiled ∧ ∀ ns rest, namespaceArg (a0 :: ucdDir :: dir :: ns :: rest) = ns := by
  refine ⟨?_, fun ns rest => rfl⟩
  show "unicode::precompiled".toList = _
  decide

def emptyInput : GenInput := ⟨some [planeEnum, widthEnum], .ok sampleUcd, emitUd, sampleFolds, sampleSpecial, {}, [], [0], [0], [sampleEmitted], [0], [0], [[]]⟩

theorem perform_none (env : Os) (h : ∀ x, env.opens x = false) (as : List Act) (disk : Disk) : (perform env disk as).1 = disk := by
  induction as generalizing disk with
  | nil => rfl
  | cons a as ih =>
    cases a with
    | throw => rfl
    | file path text =>
      show (perform env (writeFile env disk path text) as).1 = disk
      rw [ih]
      unfold writeFile
      rw [h]
      rfl

/-- If no file can be opened, nothing is written. -/
theorem main_none (parse : Str → Option GenInput) (env : Os) (h : ∀ x, env.opens x = false) (args : List Str) (disk : Disk) :
    (tablegenMain parse env args disk).2 = disk := by
  match args with
  | [] => rfl
  | [_] => rfl
  | [_, _] => rfl
  | a0 :: ucdDir :: dir :: rest =>
    cases hp : parse ucdDir with
    | none => rw [C69_unreadable parse env _ disk ucdDir rfl hp]
    | some i => rw [main_eq parse env a0 ucdDir dir rest disk i hp]; exact perform_none env h _ _

/-- **C69 fails.** In a directory where no file can be opened, the program writes nothing and reports success: for every database, and so for every
release of Unicode. -/
theorem C69_fails_unwritable : ¬ C69_Success := by
  intro h
  have h0 : (tablegenMain (fun _ => some emptyInput) ⟨fun _ => false, fun _ => none⟩ ["unicode_tablegen".toList, "ucd".toList, "out".toList] fun _ => none).1 = 0 :=
    (C69_exit _ _ _ _).2 ⟨by decide, "ucd".toList, emptyInput, _, _, rfl, rfl, rfl, rfl⟩
  obtain ⟨_, dir, i, enums, D, -, hd, -, -, -, hc⟩ := h _ _ _ _ h0
  have := hc "ucd.h".toList (by decide)
  rw [main_none _ _ (fun _ => rfl)] at this
  unfold content at this
  rw [if_neg (by decide), if_pos rfl] at this
  cases this

/-- The same for any input: the exit code does not depend on what could be written. -/
theorem C69_fails_silently (parse : Str → Option GenInput) (env env' : Os) (args : List Str) (disk : Disk)
    (h : (tablegenMain parse env args disk).1 = 0) (hc : ∀ x, env'.opens x = false) :
    tablegenMain parse env' args disk = (0, disk) :=
  Prod.ext ((C69_exit parse env' args disk).2 ((C69_exit parse env args disk).1 h)) (main_none parse env' hc args disk)

example : GenOk emptyInput [planeEnum, widthEnum] sampleUcd :=
  ⟨sampleEnums_ok, sampleUcd_ok, by decide, by decide, by intro e he; rw [List.mem_singleton.1 he]; exact sampleEmitted_ok, by decide⟩

/-- A run that succeeds. -/
example : ∃ disk, tablegenMain (fun _ => some emptyInput) ⟨fun _ => true, fun _ => none⟩ ["unicode_tablegen".toList, "ucd".toList, "out".toList] (fun _ => none) = (0, disk) :=
  ⟨_, Prod.ext ((C69_exit _ _ _ _).2 ⟨by decide, "ucd".toList, emptyInput, _, _, rfl, rfl, rfl, rfl⟩) rfl⟩

/-- A run that leaves six files although it fails: the section of scripts is missing. -/
example : (tablegenMain (fun _ => some { emptyInput with api := .error ([], []) }) ⟨fun _ => true, fun _ => none⟩
    ["unicode_tablegen".toList, "ucd".toList, "out".toList] (fun _ => none)).1 ≠ 0 := by
  intro h
  obtain ⟨-, _, i, _, _, -, hi, -, ha⟩ := (C69_exit _ _ _ _).1 h
  obtain rfl := Option.some.inj hi
  cases ha

end Verif.Props.Tg
