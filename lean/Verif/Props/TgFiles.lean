import Verif.Lemmas.TgFiles
import Verif.Props.TgUcd
/-!
# C68: the other seven generated files, as whole files

Read like `ucd.h` and `ucd.cpp` in C67: a comment, include lines, namespaces, and the declarations and definitions in them (Spec/CxxFile).
-/

namespace Verif.Props.Tg
open Verif.Tg
open Verif.Spec.Cxx (Val Item Says Reads Ident Tok Sig Part Piece Means Consists p Extern Agree DefinesFn DefinesFormatter Agrees dropDirectives joinPath Visible Includes usingToks behindLicence splice)

/-! ## ucd_enums.h, ucd_ostream.h, ucd_fmt.h -/

/-- Names are identifiers, and the names that are printed are written without escapes. -/
def EnumsOk (enums : List EnumDef) : Prop :=
  ∀ d ∈ enums, Ident d.name ∧ (∀ m ∈ d.members, Ident (sanitize m)) ∧ ∀ m ∈ d.members, ∀ c ∈ m, c ≠ '"' ∧ c ≠ '\\' ∧ c ≠ '\n'

theorem enter_unicode : Stretch [] enterUnicode [["unicode".toList]] [] :=
  Stretch.enter [] (by decide) (line_lit (ts := [.word "namespace".toList, .word "unicode".toList, p '{']) 40 (by decide +kernel))

theorem leave_unicode : Stretch [["unicode".toList]] leaveUnicode [] [] :=
  Stretch.leave [] _ (line_lit (ts := [p '}']) 40 (by decide +kernel))

theorem enums_directives (t : Str) : dropDirectives true false (enumsIncludes ++ t) = "\n\n\n\n".toList ++ dropDirectives true false t := by kernel_rfl

theorem ostream_directives (t : Str) : dropDirectives true false (ostreamIncludes ++ t) = "\n\n\n\n\n\n".toList ++ dropDirectives true false t := by kernel_rfl

theorem fmt_directives (t : Str) : dropDirectives true false (fmtIncludes ++ t) = "\n\n\n\n\n\n".toList ++ dropDirectives true false t := by kernel_rfl

/-- What `ucd_enums.h` declares, with a type for each enumeration. -/
def enumParts (type : EnumDef → Str) (enums : List EnumDef) : List Part :=
  enums.map fun d => .item inUnicode (.enum d.name (type d) d.identifiers.zipIdx)

/-- `inline std::ostream& operator<<(std::ostream&, enum) noexcept`, in `namespace unicode` -/
def shiftOf (enum : Str) : Sig :=
  ⟨inUnicode, "operator<<".toList, [[.word "std".toList, p ':', p ':', .word "ostream".toList, p '&'], [.word enum]],
   [.word "std".toList, p ':', p ':', .word "ostream".toList, p '&'], true⟩

theorem enums_consists (enums : List EnumDef) (h : EnumsOk enums) :
    ∃ ps, Consists (enumsFile enums) ps ∧ List.Forall₂ Means ps (enumParts (fun d => minimalUintText d.members.length) enums) := by
  have hs : Stretches [] [enterUnicode, enumsBody enums, leaveUnicode] [] ([] ++ (_ ++ ([] ++ []))) :=
    Stretches.cons enter_unicode (Stretches.cons (Stretch.items _ (enumsBody_ok enums fun d hd => ⟨(h d hd).1, (h d hd).2.1⟩))
      (Stretches.cons leave_unicode (Stretches.nil [])))
  obtain ⟨ps, h1, h2⟩ := file_licence (blank := "\n\n\n\n".toList) (by decide +kernel) (clean_lit 20 (by decide)) enums_directives hs
  refine ⟨ps, h1, ?_⟩
  rw [List.nil_append, List.append_nil, List.append_nil, List.map_map] at h2
  exact h2

/-- `ucd_enums.h` consists of the enumerations, in `namespace unicode`, each with its members in order, numbered from 0, in a type that holds every
number. -/
theorem C68_enums (enums : List EnumDef) (h : EnumsOk enums) (hl : ∀ d ∈ enums, d.members.length < 2 ^ 64) :
    ∃ type : EnumDef → Str, (∀ d ∈ enums, Fits (type d) (List.range d.members.length)) ∧
      ∃ ps, Consists (enumsFile enums) ps ∧ List.Forall₂ Means ps (enumParts type enums) := by
  refine ⟨fun d => minimalUintText d.members.length, ?_, enums_consists enums h⟩
  intro d hd
  exact minimalUint_fits _ (hl d hd)

/-- `ucd_ostream.h` consists of the operators `<<` of the enumerations, in the namespace of the enumerations. -/
theorem C68_ostream (enums : List EnumDef) (h : EnumsOk enums) :
    ∃ ps, Consists (ostreamFile enums) ps ∧ List.Forall₂ Means ps (enums.map fun d => .defined (shiftOf d.name) (codeStream d)) := by
  have hb : Stretch [["unicode".toList]] (enums.flatMap codeStream) [["unicode".toList]] (enums.map fun d => .defined (shiftOf d.name) (codeStream d)) :=
    Stretch.flat _ _ _ _ fun d hd => stream_stretch _ (ident_word' (h d hd).1) (fun m hm => ident_word' ((h d hd).2.1 m hm)) (h d hd).2.2
  have hs : Stretches [] [enterUnicode, enums.flatMap codeStream, leaveUnicode] [] ([] ++ (_ ++ ([] ++ []))) :=
    Stretches.cons enter_unicode (Stretches.cons hb (Stretches.cons leave_unicode (Stretches.nil [])))
  obtain ⟨ps, h1, h2⟩ := file_licence (blank := "\n\n\n\n\n\n".toList) (by decide +kernel) (clean_lit 20 (by decide)) ostream_directives hs
  refine ⟨ps, h1, ?_⟩
  rwa [List.nil_append, List.append_nil, List.append_nil] at h2

/-- `ucd_fmt.h` consists of the specialisations of `std::formatter` for the enumerations, outside every namespace. -/
theorem C68_formatters (enums : List EnumDef) (h : EnumsOk enums) :
    ∃ ps, Consists (fmtFile enums) ps ∧ List.Forall₂ Means ps (enums.map fun d => .formatter [] d.name (codeFormatter d)) := by
  have hb : Stretch [] (enums.flatMap codeFormatter) [] (enums.map fun d => .formatter [] d.name (codeFormatter d)) :=
    Stretch.flat _ _ _ _ fun d hd => formatter_stretch _ (ident_word' (h d hd).1) (fun m hm => ident_word' ((h d hd).2.1 m hm)) (h d hd).2.2
  have hs : Stretches [] [enums.flatMap codeFormatter] [] (_ ++ []) := Stretches.cons hb (Stretches.nil [])
  obtain ⟨ps, h1, h2⟩ := file_licence (blank := "\n\n\n\n\n\n".toList) (by decide +kernel) (clean_lit 20 (by decide)) fmt_directives hs
  refine ⟨ps, h1, ?_⟩
  rwa [List.append_nil] at h2

/-- The pieces of a file are determined by its text (C67), so this holds of every reading. -/
theorem parts_of {text : Str} {ps : List Piece} {parts : List Part} (h : ∃ ps, Consists text ps ∧ List.Forall₂ Means ps parts) (hp : Consists text ps) :
    List.Forall₂ Means ps parts := by
  obtain ⟨ps', h1, h2⟩ := h
  obtain rfl := C67_unambiguous _ _ _ h1 hp
  exact h2

/-- The three files go together: for every enumeration of `ucd_enums.h` the corresponding piece of `ucd_ostream.h` is the operator that
writes its values, in the same namespace (where it is found by the type of its argument), and the corresponding piece of `ucd_fmt.h` is its formatter;
there are no others. -/
theorem C68_printed (enums : List EnumDef) (h : EnumsOk enums) (E O P : List Piece) (hE : Consists (enumsFile enums) E)
    (hO : Consists (ostreamFile enums) O) (hP : Consists (fmtFile enums) P) :
    E.length = O.length ∧ E.length = P.length ∧
    ∀ (i : Nat) (q : Piece), E[i]? = some q → ∃ name type members text text', Means q (.item inUnicode (.enum name type members)) ∧
      (∃ o, O[i]? = some o ∧ Means o (.defined (shiftOf name) text)) ∧ (∃ f, P[i]? = some f ∧ Means f (.formatter [] name text')) := by
  have hE := parts_of (enums_consists enums h) hE
  have hO := parts_of (C68_ostream enums h) hO
  have hP := parts_of (C68_formatters enums h) hP
  refine ⟨?_, ?_, ?_⟩
  · rw [hE.length_eq, hO.length_eq]; unfold enumParts; rw [List.length_map, List.length_map]
  · rw [hE.length_eq, hP.length_eq]; unfold enumParts; rw [List.length_map, List.length_map]
  · intro i q hq
    obtain ⟨d, hd⟩ : ∃ d, enums[i]? = some d := by
      have hi : i < E.length := (List.getElem?_eq_some_iff.1 hq).1
      rw [hE.length_eq] at hi
      unfold enumParts at hi
      rw [List.length_map] at hi
      exact ⟨_, List.getElem?_eq_getElem hi⟩
    have at' : ∀ {ps : List Piece} {f : EnumDef → Part}, List.Forall₂ Means ps (enums.map f) → ∃ o, ps[i]? = some o ∧ Means o (f d) := fun hf =>
      means_at hf (by rw [List.getElem?_map, hd]; rfl)
    obtain ⟨q', h1, h2⟩ := at' hE
    rw [hq] at h1
    obtain rfl := Option.some.inj h1
    exact ⟨_, _, _, _, _, h2, at' hO, at' hP⟩

theorem readSig_scope {s : List Str} {ts : List Tok} {g : Sig} (h : Spec.Cxx.readSig s ts = some g) : g.scope = s := by
  unfold Spec.Cxx.readSig at h
  split at h
  · split at h
    · split at h
      · obtain rfl := Option.some.inj h; rfl
      · cases h
    · split at h
      · obtain rfl := Option.some.inj h; rfl
      · cases h
    · cases h
  · cases h

/-- What the operator and the formatter do is said by C64; here: for every enumeration they are in the files. -/
theorem C68_prints (enums : List EnumDef) (h : EnumsOk enums) (hu : ∀ d ∈ enums, d.name ≠ "unicode".toList) (O P : List Piece)
    (hO : Consists (ostreamFile enums) O) (hP : Consists (fmtFile enums) P) : ∀ d ∈ enums,
      (∃ o ∈ O, o.scope = inUnicode ∧ ∃ text f, Reads text o.toks ∧ DefinesFn text f ∧
        ∀ W, Agrees W (writeEnumClass d) → ∀ s k, f.call W [.stream s, .num k] = .val (.stream (s ++ d.stream k))) ∧
      (∃ o ∈ P, o.scope = [] ∧ ∃ text f, Reads text o.toks ∧ DefinesFormatter text d.name f ∧
        ∀ W, Agrees W (writeEnumClass d) → ∀ k ctx, f.call W [.num k, ctx] = .val (.text (d.format k))) := by
  have hO := parts_of (C68_ostream enums h) hO
  have hP := parts_of (C68_formatters enums h) hP
  intro d hd
  obtain ⟨i, hi⟩ := List.mem_iff_getElem?.1 hd
  obtain ⟨o, o1, o2⟩ := means_at hO (i := i) (by rw [List.getElem?_map, hi]; rfl)
  obtain ⟨q, q1, q2⟩ := means_at hP (i := i) (by rw [List.getElem?_map, hi]; rfl)
  obtain ⟨f, f1, -, f2⟩ := C64_stream d (h d hd).1 (h d hd).2.1 (h d hd).2.2 (hu d hd)
  obtain ⟨g, g1, -, g2⟩ := C64_format d (h d hd).1 (h d hd).2.1 (h d hd).2.2
  refine ⟨⟨o, List.mem_of_getElem? o1, ?_, _, f, o2.2, f1, f2⟩, ⟨q, List.mem_of_getElem? q1, q2.1, _, g, q2.2.1, g1, g2⟩⟩
  have := o2.1
  unfold Piece.defines at this
  split at this
  · exact (readSig_scope this).symm
  · cases this

theorem formatter_names {q : Piece} {s : List Str} {e text : Str} (h : Means q (.formatter s e text)) : q.toks[12]? = some (.word e) := by
  obtain ⟨-, h1, f, ts, h2, -⟩ := h
  rw [Spec.Cxx.lexes_unique h1 h2]
  rfl

/-- If the enumerations have different names (C55), no operator and no formatter is defined twice. -/
theorem C68_once (enums : List EnumDef) (h : EnumsOk enums) (hn : (enums.map EnumDef.name).Nodup) (O P : List Piece)
    (hO : Consists (ostreamFile enums) O) (hP : Consists (fmtFile enums) P) :
    (∀ (i j : Nat) (q q' : Piece) g g', O[i]? = some q → O[j]? = some q' → q.defines = some g → q'.defines = some g' → key g = key g' → i = j) ∧
    (∀ (i j : Nat) (q q' : Piece) e text text', P[i]? = some q → P[j]? = some q' → Means q (.formatter [] e text) → Means q' (.formatter [] e text') → i = j) := by
  have hO := parts_of (C68_ostream enums h) hO
  have hP := parts_of (C68_formatters enums h) hP
  have inj : ∀ (i j : Nat) (d d' : EnumDef), enums[i]? = some d → enums[j]? = some d' → d.name = d'.name → i = j := by
    intro i j d d' hi hj e
    have hi' := (List.getElem?_eq_some_iff.1 hi).1
    refine (List.getElem?_inj (l := enums.map EnumDef.name) (by rw [List.length_map]; exact hi') hn).1 ?_
    rw [List.getElem?_map, List.getElem?_map, hi, hj]
    exact congrArg some e
  have back : ∀ {ps : List Piece} {f : EnumDef → Part}, List.Forall₂ Means ps (enums.map f) → ∀ (i : Nat) (q : Piece), ps[i]? = some q →
      ∃ d, enums[i]? = some d ∧ Means q (f d) := by
    intro ps f hf i q hq
    have hi := (List.getElem?_eq_some_iff.1 hq).1
    rw [hf.length_eq, List.length_map] at hi
    obtain ⟨q', h1, h2⟩ := means_at hf (i := i) (x := f enums[i]) (by rw [List.getElem?_map, List.getElem?_eq_getElem hi]; rfl)
    rw [hq] at h1
    obtain rfl := Option.some.inj h1
    exact ⟨_, List.getElem?_eq_getElem hi, h2⟩
  refine ⟨fun i j q q' g g' hi hj hg hg' hk => ?_, fun i j q q' e text text' hi hj hm hm' => ?_⟩
  · obtain ⟨d, d1, d2⟩ := back hO i q hi
    obtain ⟨d', d1', d2'⟩ := back hO j q' hj
    refine inj i j d d' d1 d1' ?_
    have e1 : g = shiftOf d.name := Option.some.inj (hg.symm.trans d2.1)
    have e2 : g' = shiftOf d'.name := Option.some.inj (hg'.symm.trans d2'.1)
    rw [e1, e2] at hk
    have := congrArg (fun x => x.2.2) hk
    simpa [key, shiftOf] using this
  · obtain ⟨d, d1, d2⟩ := back hP i q hi
    obtain ⟨d', d1', d2'⟩ := back hP j q' hj
    refine inj i j d d' d1 d1' ?_
    have e1 := (formatter_names d2).symm.trans (formatter_names hm)
    have e2 := (formatter_names d2').symm.trans (formatter_names hm')
    injection e1 with e1
    injection e2 with e2
    injection e1 with e1
    injection e2 with e2
    exact e1.trans e2.symm

/-! ## case_normalization_data.h -/

/-- inside `namespace unicode::detail` -/
def inDetail : List Str := ["unicode".toList, "detail".toList]

/-- The declarations of `case_normalization_data.h`, in order; `w` and `w'` are the lengths of the arrays of targets. -/
def caseItems (u : Ud) (f : Folds) (s : Special) (q : Qc) (comp : List Tables.Comp) (w w' : Nat) : List Item :=
  [simpleItem "uppercase" u.upper, simpleItem "lowercase" u.lower, simpleItem "titlecase" u.title, simpleItem "casefold" f.simple] ++
  fullItems "uppercase" s.upper ++ fullItems "lowercase" s.lower ++ fullItems "titlecase" s.title ++ fullItems "casefold" f.full ++
  [.table "std::pair<char32_t, uint8_t>".toList "ccc_table".toList (u.ccc.map pairVal),
   .struct "canonical_decomposition_entry".toList (mapMembers w),
   .table "canonical_decomposition_entry".toList "canonical_decomposition_table".toList ((writeDecomps true u.decomps).map (mapVal w)),
   .struct "compatibility_decomposition_entry".toList (mapMembers w' ++ [("uint8_t".toList, "decomp_type".toList, none)]),
   .table "compatibility_decomposition_entry".toList "compatibility_decomposition_table".toList
    ((u.decomps.filter fun e => isCanonical e.2 = false).map (typedVal w')),
   .struct "composition_pair".toList [("char32_t".toList, "first".toList, none), ("char32_t".toList, "second".toList, none),
    ("char32_t".toList, "composed".toList, none)],
   .table "composition_pair".toList "composition_table".toList (comp.map fun c => .list [.num c.first, .num c.second, .num c.composed]),
   setItem "nfc_qc_no" q.nfcNo, setItem "nfc_qc_maybe" q.nfcMaybe, setItem "nfkc_qc_no" q.nfkcNo, setItem "nfkc_qc_maybe" q.nfkcMaybe,
   setItem "nfd_qc_no" q.nfdNo, setItem "nfkd_qc_no" q.nfkdNo, setItem "composition_exclusions" q.excl]

theorem case_directives (t : Str) : dropDirectives true false (caseIncludes ++ t) = "\n\n\n\n\n\n\n".toList ++ dropDirectives true false t := by kernel_rfl

/-- `case_normalization_data.h` consists of the tables of case mapping and normalisation, in `namespace unicode::detail`.  (Hypotheses as in
`C61_case_tables_partial`.) -/
theorem C68_case_tables_partial (u : Ud) (f : Folds) (s : Special) (q : Qc) (comp : List Tables.Comp)
    (hsimple : ∀ m ∈ [u.upper, u.lower, u.title, f.simple], ∀ e ∈ m, e.1 ≠ 0x5C)
    (hfull : ∀ m ∈ [s.upper, s.lower, s.title, f.full], ∀ e ∈ m, e.2.length ≤ 3) :
    ∃ w w', (∀ e ∈ writeDecomps true u.decomps, e.2.length ≤ w) ∧ (∀ e ∈ u.decomps, isCanonical e.2 = false → e.2.targets.length ≤ w') ∧
      ∃ ps, Consists (caseNormFile u f s q comp) ps ∧ List.Forall₂ Means ps ((caseItems u f s q comp w w').map (.item inDetail)) := by
  obtain ⟨w, w', h1, h2, h3⟩ := case_tables_line u f s q comp hsimple hfull
  refine ⟨w, w', h1, h2, ?_⟩
  have he : Stretch [] "namespace unicode::detail\n{\n\n// clang-format off\n\n".toList [inDetail] [] :=
    Stretch.enter [] (by decide) (line_lit (ts := [.word "namespace".toList, .word "unicode".toList, p ':', p ':', .word "detail".toList, p '{']) 90 (by decide +kernel))
  have hl : Stretch [inDetail] "// clang-format on\n\n} // namespace unicode::detail\n".toList [] [] :=
    Stretch.leave [] _ (line_lit (ts := [p '}']) 90 (by decide +kernel))
  have hs := Stretches.cons he (Stretches.cons (Stretch.items [inDetail] h3) (Stretches.cons hl (Stretches.nil [])))
  obtain ⟨ps, p1, p2⟩ := file_licence (blank := "\n\n\n\n\n\n\n".toList) (by decide +kernel) (clean_lit 20 (by decide)) case_directives hs
  refine ⟨ps, p1, ?_⟩
  rw [List.nil_append, List.append_nil, List.append_nil] at p2
  exact p2

/-! ## codepoint_properties_data.h, codepoint_properties_data.cpp, codepoint_properties_names.cpp -/

/-- A namespace that can be given to the generator: `x::y::…`. -/
def PathOk (path : List Str) : Prop := path ≠ [] ∧ ∀ x ∈ path, Ident x

theorem header_line (stage1 stage2 : List Nat) (rows : List Emitted) (names1 names2 : List Nat) (names : List Str) :
    AnnouncesL (headerBody stage1 stage2 rows names1 names2 names) (headerExterns stage1 stage2 rows.length names1 names2 names.length) :=
  (externTable_ok stage1 "stage1".toList (ident_of (by decide))).append
    ((externTable_ok stage2 "stage2".toList (ident_of (by decide))).append
    ((externProperties_ok rows.length).append ((externTable_ok names1 "names_stage1".toList (ident_of (by decide))).append
    ((externTable_ok names2 "names_stage2".toList (ident_of (by decide))).append (externNames_ok names.length)))))

theorem enter_named {path : List Str} (h : PathOk path) : Stretch [] (enterNamed (joinPath path)) [path] [] :=
  Stretch.enter [] h.1 (enterNamed_line h.1 fun x hx => ident_word' (h.2 x hx))

theorem leave_named {path : List Str} (h : PathOk path) : Stretch [path] (leaveNamed (joinPath path)) [] [] :=
  Stretch.leave [] _ (leaveNamed_line fun x hx => ident_word' (h.2 x hx))

theorem scope_one (path : List Str) : [path].reverse.flatten = path := by simp

theorem propsHeader_directives (t : Str) :
    dropDirectives true false (propsHeaderIncludes ++ t) = "\n\n\n\n\n\n\n".toList ++ dropDirectives true false t := by kernel_rfl

theorem propsSource_directives (t : Str) :
    dropDirectives true false (propsSourceIncludes ++ t) = "\n\n\n\n\n\n\n\n\n".toList ++ dropDirectives true false t := by kernel_rfl

theorem namesSource_directives (t : Str) :
    dropDirectives true false (namesIncludes ++ t) = "\n\n\n\n\n\n".toList ++ dropDirectives true false t := by kernel_rfl

theorem header_externs_consists {path : List Str} (hp : PathOk path) (stage1 stage2 : List Nat) (rows : List Emitted) (names1 names2 : List Nat)
    (names : List Str) :
    ∃ ps, Consists (propsHeader (joinPath path) stage1 stage2 rows names1 names2 names) ps ∧
      List.Forall₂ Means ps ((headerExterns stage1 stage2 rows.length names1 names2 names.length).map (.extern path)) := by
  have hs := Stretches.cons (enter_named hp) (Stretches.cons (Stretch.externs [path] (header_line stage1 stage2 rows names1 names2 names))
    (Stretches.cons (Stretch.blank [path] (line_lit (t := "\n".toList) (ts := []) 10 (by decide))) (Stretches.cons (leave_named hp) (Stretches.nil []))))
  obtain ⟨ps, p1, p2⟩ := file_disclaimer (blank := "\n\n\n\n\n\n\n".toList) (by decide +kernel) (clean_lit 20 (by decide)) propsHeader_directives hs
  refine ⟨ps, p1, ?_⟩
  rw [List.nil_append, List.append_nil, List.append_nil, List.append_nil, scope_one] at p2
  exact p2

/-- `codepoint_properties_data.h` consists of the declarations of six arrays, in the given namespace, with types that hold their elements. -/
theorem C68_properties_header (path : List Str) (hp : PathOk path) (stage1 stage2 : List Nat) (rows : List Emitted) (names1 names2 : List Nat)
    (names : List Str) (h1 : ∀ l ∈ [stage1, stage2, names1, names2], ∀ v ∈ l, v < 2 ^ 64) :
    ∃ t1 t2 t3 t4, Fits t1 stage1 ∧ Fits t2 stage2 ∧ Fits t3 names1 ∧ Fits t4 names2 ∧
      ∃ ps, Consists (propsHeader (joinPath path) stage1 stage2 rows names1 names2 names) ps ∧
        List.Forall₂ Means ps (
          [⟨[.word t1], "stage1".toList, stage1.length⟩, ⟨[.word t2], "stage2".toList, stage2.length⟩,
           ⟨[.word "codepoint_properties".toList], "properties".toList, rows.length⟩,
           ⟨[.word t3], "names_stage1".toList, names1.length⟩, ⟨[.word t4], "names_stage2".toList, names2.length⟩,
           ⟨[.word "std".toList, p ':', p ':', .word "string_view".toList], "names_stage3".toList, names.length⟩].map (.extern path)) := by
  have hf := fun l (hl : l ∈ [stage1, stage2, names1, names2]) => minimum_fits l (h1 l hl)
  exact ⟨_, _, _, _, hf stage1 (by simp), hf stage2 (by simp), hf names1 (by simp), hf names2 (by simp), header_externs_consists hp ..⟩

/-- the values of a row -/
def rowVal (e : Emitted) : Val :=
  .list [.num e.width, .num e.flags, .num e.flags2, .name ["Script".toList, e.script], .name ["Grapheme_Cluster_Break".toList, e.gcb],
    .name ["East_Asian_Width".toList, e.eaw], .name ["General_Category".toList, e.gc], .name ["EmojiSegmentationCategory".toList, e.esc],
    .name ["Age".toList, e.age], .name ["Indic_Conjunct_Break".toList, e.incb], .name ["Word_Break".toList, e.wb]]

theorem using_unicode : Stretch [] "using namespace unicode;\n\n".toList [] [.usingNs [] inUnicode] :=
  Stretch.usingNs [] (path := inUnicode) (by decide)
    (line_lit (ts := [.word "using".toList, .word "namespace".toList, .word "unicode".toList, p ';']) 60 (by decide +kernel))

theorem using_unicode' : Stretch [] "using namespace unicode;\n".toList [] [.usingNs [] inUnicode] :=
  Stretch.usingNs [] (path := inUnicode) (by decide)
    (line_lit (ts := [.word "using".toList, .word "namespace".toList, .word "unicode".toList, p ';']) 60 (by decide +kernel))

/-- `std::string_view_literals` -/
def inLiterals : List Str := ["std".toList, "string_view_literals".toList]

theorem using_literals : Stretch [] "using namespace std::string_view_literals;\n\n".toList [] [.usingNs [] inLiterals] :=
  Stretch.usingNs [] (path := inLiterals) (by decide)
    (line_lit (ts := [.word "using".toList, .word "namespace".toList, .word "std".toList, p ':', p ':', .word "string_view_literals".toList, p ';']) 80 (by decide +kernel))

def sourceItems (stage1 stage2 : List Nat) (rows : List Emitted) : List Item :=
  [.table (minimumUintType stage1) "stage1".toList (stage1.map .num), .table (minimumUintType stage2) "stage2".toList (stage2.map .num),
   .table "codepoint_properties".toList "properties".toList (rows.map rowVal)]

def nameItems (stage1 stage2 : List Nat) (names : List Str) : List Item :=
  [.table (minimumUintType stage1) "names_stage1".toList (stage1.map .num), .table (minimumUintType stage2) "names_stage2".toList (stage2.map .num),
   .table "std::string_view".toList "names_stage3".toList (names.map .str)]

theorem source_items_consists {path : List Str} (hp : PathOk path) (stage1 stage2 : List Nat) (rows : List Emitted) (hr : ∀ e ∈ rows, EmittedOk e) :
    ∃ ps, Consists (propsSource (joinPath path) stage1 stage2 rows) ps ∧
      List.Forall₂ Means ps (.usingNs [] inUnicode :: (sourceItems stage1 stage2 rows).map (.item path)) := by
  have hb : SaysL (propertiesBody stage1 stage2 rows) (sourceItems stage1 stage2 rows) :=
    (cxxTable_ok stage1 "stage1".toList false (ident_of (by decide))).append
      ((cxxTable_ok stage2 "stage2".toList true (ident_of (by decide))).append (properties_ok rows hr))
  have hs := Stretches.cons using_unicode (Stretches.cons (enter_named hp) (Stretches.cons (Stretch.items [path] hb)
    (Stretches.cons (leave_named hp) (Stretches.nil []))))
  obtain ⟨ps, p1, p2⟩ := file_disclaimer (blank := "\n\n\n\n\n\n\n\n\n".toList) (by decide +kernel) (clean_lit 20 (by decide)) propsSource_directives hs
  refine ⟨ps, p1, ?_⟩
  rw [List.nil_append, List.append_nil, List.append_nil, scope_one] at p2
  exact p2

theorem name_items_consists {path : List Str} (hp : PathOk path) (stage1 stage2 : List Nat) (names : List Str)
    (hn : ∀ s ∈ names, ∀ c ∈ s, c ≠ '"' ∧ c ≠ '\\' ∧ c ≠ '\n') :
    ∃ ps, Consists (namesSource (joinPath path) stage1 stage2 names) ps ∧
      List.Forall₂ Means ps (.usingNs [] inUnicode :: .usingNs [] inLiterals :: (nameItems stage1 stage2 names).map (.item path)) := by
  have hb : SaysL (namesBody stage1 stage2 names) (nameItems stage1 stage2 names) :=
    (cxxTable_ok stage1 "names_stage1".toList false (ident_of (by decide))).append
      ((cxxTable_ok stage2 "names_stage2".toList true (ident_of (by decide))).append (names_ok names hn))
  have hs := Stretches.cons using_unicode' (Stretches.cons using_literals (Stretches.cons (enter_named hp) (Stretches.cons (Stretch.items [path] hb)
    (Stretches.cons (leave_named hp) (Stretches.nil [])))))
  obtain ⟨ps, p1, p2⟩ := file_disclaimer (blank := "\n\n\n\n\n\n".toList) (by decide +kernel) (clean_lit 20 (by decide)) namesSource_directives hs
  refine ⟨ps, p1, ?_⟩
  rw [List.nil_append, List.append_nil, List.append_nil, scope_one] at p2
  exact p2

/-- `codepoint_properties_data.cpp` consists of `using namespace unicode;` and, in the given namespace, the two stages and the rows. -/
theorem C68_properties_source (path : List Str) (hp : PathOk path) (stage1 stage2 : List Nat) (rows : List Emitted)
    (h1 : ∀ v ∈ stage1, v < 2 ^ 64) (h2 : ∀ v ∈ stage2, v < 2 ^ 64) (hr : ∀ e ∈ rows, EmittedOk e) :
    ∃ t1 t2, Fits t1 stage1 ∧ Fits t2 stage2 ∧ ∃ ps, Consists (propsSource (joinPath path) stage1 stage2 rows) ps ∧
      List.Forall₂ Means ps [.usingNs [] inUnicode,
        .item path (.table t1 "stage1".toList (stage1.map .num)), .item path (.table t2 "stage2".toList (stage2.map .num)),
        .item path (.table "codepoint_properties".toList "properties".toList (rows.map rowVal))] :=
  ⟨_, _, minimum_fits _ h1, minimum_fits _ h2, source_items_consists hp stage1 stage2 rows hr⟩

/-- `codepoint_properties_names.cpp` consists of two `using namespace` and, in the given namespace, two stages and the names. -/
theorem C68_names_source (path : List Str) (hp : PathOk path) (stage1 stage2 : List Nat) (names : List Str)
    (h1 : ∀ v ∈ stage1, v < 2 ^ 64) (h2 : ∀ v ∈ stage2, v < 2 ^ 64) (hn : ∀ s ∈ names, ∀ c ∈ s, c ≠ '"' ∧ c ≠ '\\' ∧ c ≠ '\n') :
    ∃ t1 t2, Fits t1 stage1 ∧ Fits t2 stage2 ∧ ∃ ps, Consists (namesSource (joinPath path) stage1 stage2 names) ps ∧
      List.Forall₂ Means ps [.usingNs [] inUnicode, .usingNs [] inLiterals,
        .item path (.table t1 "names_stage1".toList (stage1.map .num)), .item path (.table t2 "names_stage2".toList (stage2.map .num)),
        .item path (.table "std::string_view".toList "names_stage3".toList (names.map .str))] :=
  ⟨_, _, minimum_fits _ h1, minimum_fits _ h2, name_items_consists hp stage1 stage2 names hn⟩

/-! ### Declared and defined -/

theorem agree_table (t : List Nat) (nm : Str) : Agree (.table (minimumUintType t) nm (t.map .num)) ⟨[.word (minimumUintType t)], nm, t.length⟩ := by
  have := Agree.table (name := nm) (vs := t.map .num) (ident_word (minimum_ident t)).lexes.reads
  rwa [List.length_map] at this

theorem agree_all (stage1 stage2 : List Nat) (rows : List Emitted) (names1 names2 : List Nat) (names : List Str) :
    List.Forall₂ (fun e item => Agree item e) (headerExterns stage1 stage2 rows.length names1 names2 names.length)
      (sourceItems stage1 stage2 rows ++ nameItems names1 names2 names) := by
  refine .cons (agree_table _ _) (.cons (agree_table _ _) (.cons ?_ (.cons (agree_table _ _) (.cons (agree_table _ _) (.cons ?_ .nil)))))
  · have := Agree.table (text := "codepoint_properties".toList) (type := [.word "codepoint_properties".toList]) (name := "properties".toList)
      (vs := rows.map rowVal) (ident_word (ident_of (by decide))).lexes.reads
    rwa [List.length_map] at this
  · have := Agree.table (text := "std::string_view".toList) (type := svToks) (name := "names_stage3".toList) (vs := names.map .str)
      (Spec.Cxx.lexFn_ok (n := 30) (by decide)).reads
    rwa [List.length_map] at this

theorem agree_pieces {path : List Str} {es : List Extern} {items : List Item} (hA : List.Forall₂ (fun e item => Agree item e) es items) {H D : List Piece}
    (hH : List.Forall₂ Means H (es.map (.extern path))) (hD : List.Forall₂ Means D (items.map (.item path))) :
    List.Forall₂ (fun q q' => ∃ e item, Means q (.extern path e) ∧ Means q' (.item path item) ∧ Agree item e) H D := by
  induction hA generalizing H D with
  | nil => cases hH; cases hD; exact .nil
  | cons ha _ ih =>
    cases hH with | cons h1 h2 =>
    cases hD with | cons d1 d2 => exact .cons ⟨_, _, h1, d1, ha⟩ (ih h2 d2)

theorem spliced_includes {includes : Str} (hi : ∀ c ∈ includes, c ≠ '\\') (r : Str) :
    behindLicence (splice (disclaimer ++ (includes ++ r))) = some (disclaimer ++ (includes ++ splice r)) := by
  rw [Spec.Cxx.splice_append _ _ (by decide +kernel), Spec.Cxx.splice_append _ _ hi, disclaimer_behind]

theorem source_line (r : Str) : disclaimer ++ (propsSourceIncludes ++ r) =
    "// This file was auto-generated by unicode_tablegen.\n#include <libunicode/codepoint_properties.h>".toList ++
      ('\n' :: ("#include <".toList ++ ("libunicode/codepoint_properties_data.h".toList ++ ('>' :: '\n' :: (propsSourceIncludes.drop 95 ++ r))))) := by kernel_rfl

theorem names_line (r : Str) : disclaimer ++ (namesIncludes ++ r) =
    "// This file was auto-generated by unicode_tablegen.".toList ++
      ('\n' :: ("#include <".toList ++ ("libunicode/codepoint_properties_data.h".toList ++ ('>' :: '\n' :: (namesIncludes.drop 50 ++ r))))) := by kernel_rfl

/-- The arrays the header declares are the arrays the two sources define, in the same namespace, in the same order, with the same types, names and
lengths; and both sources include the header, so that the definitions have external linkage (a constant that was not declared before has none). -/
theorem C68_externs_defined (path : List Str) (hp : PathOk path) (stage1 stage2 : List Nat) (rows : List Emitted) (names1 names2 : List Nat)
    (names : List Str) (hr : ∀ e ∈ rows, EmittedOk e) (hn : ∀ s ∈ names, ∀ c ∈ s, c ≠ '"' ∧ c ≠ '\\' ∧ c ≠ '\n') (H S N : List Piece)
    (hH : Consists (propsHeader (joinPath path) stage1 stage2 rows names1 names2 names) H)
    (hS : Consists (propsSource (joinPath path) stage1 stage2 rows) S) (hN : Consists (namesSource (joinPath path) names1 names2 names) N) :
    List.Forall₂ (fun q q' => ∃ e item, Means q (.extern path e) ∧ Means q' (.item path item) ∧ Agree item e) H (S.drop 1 ++ N.drop 2) ∧
    Includes (propsSource (joinPath path) stage1 stage2 rows) "libunicode/codepoint_properties_data.h".toList ∧
    Includes (namesSource (joinPath path) names1 names2 names) "libunicode/codepoint_properties_data.h".toList := by
  have hH := parts_of (header_externs_consists hp ..) hH
  have hS := parts_of (source_items_consists hp stage1 stage2 rows hr) hS
  have hN := parts_of (name_items_consists hp names1 names2 names hn) hN
  refine ⟨?_, ?_, ?_⟩
  · have hS' : List.Forall₂ Means (S.drop 1) ((sourceItems stage1 stage2 rows).map (.item path)) := by
      cases hS with | cons _ h => exact h
    have hN' : List.Forall₂ Means (N.drop 2) ((nameItems names1 names2 names).map (.item path)) := by
      cases hN with | cons _ h => cases h with | cons _ h => exact h
    have hD : List.Forall₂ Means (S.drop 1 ++ N.drop 2) ((sourceItems stage1 stage2 rows).map (.item path) ++ (nameItems names1 names2 names).map (.item path)) :=
      List.rel_append hS' hN'
    rw [← List.map_append] at hD
    exact agree_pieces (agree_all stage1 stage2 rows names1 names2 names) hH hD
  · refine ⟨_, "// This file was auto-generated by unicode_tablegen.\n#include <libunicode/codepoint_properties.h>".toList, _,
      spliced_includes (by decide +kernel) _, source_line _⟩
  · refine ⟨_, "// This file was auto-generated by unicode_tablegen.".toList, _, spliced_includes (by decide +kernel) _, names_line _⟩

/-! ### Names that are used without qualification -/

/-- The piece contains this name. -/
def Mentions (q : Piece) (name : Str) : Prop := .word name ∈ q.toks

/-- `codepoint_properties` is a type in `namespace unicode` (codepoint_properties.h:23, 26).  The header that is generated for a namespace can
name it exactly if that namespace is `unicode` or in it. -/
theorem C68_visible_iff (path : List Str) (hp : PathOk path) (stage1 stage2 : List Nat) (rows : List Emitted) (names1 names2 : List Nat)
    (names : List Str) (H : List Piece) (hH : Consists (propsHeader (joinPath path) stage1 stage2 rows names1 names2 names) H) :
    (∀ (i : Nat) (q : Piece), H[i]? = some q → Mentions q "codepoint_properties".toList → Visible H i inUnicode) ↔ inUnicode <+: path := by
  have hH := parts_of (header_externs_consists hp ..) hH
  have back : ∀ (i : Nat) (q : Piece), H[i]? = some q → q.scope = path ∧ ∃ e, Spec.Cxx.Externs q.toks [e] := by
    intro i q hq
    have hm : q ∈ H := List.mem_of_getElem? hq
    have : ∀ (es : List Extern) (ps : List Piece), List.Forall₂ Means ps (es.map (.extern path)) → ∀ q ∈ ps, q.scope = path ∧ ∃ e, Spec.Cxx.Externs q.toks [e] := by
      intro es
      induction es with
      | nil => intro ps h q hq; cases h; cases hq
      | cons e es ih =>
        intro ps h q hq
        cases h with | cons h1 h2 =>
        rcases List.mem_cons.1 hq with rfl | hq
        · exact ⟨h1.1, e, h1.2⟩
        · exact ih _ h2 q hq
    exact this _ _ hH q hm
  constructor
  · intro h
    obtain ⟨q, q1, q2⟩ := means_at hH (i := 2) rfl
    have hm : Mentions q "codepoint_properties".toList := by
      have := q2.2
      unfold Mentions
      generalize q.toks = ts at this
      generalize hx : [(⟨[.word "codepoint_properties".toList], "properties".toList, rows.length⟩ : Extern)] = es at this
      cases this with
      | nil => cases hx
      | cons h1 h2 h3 h4 =>
        simp only [List.cons.injEq, Extern.mk.injEq] at hx
        obtain ⟨⟨rfl, -, -⟩, -⟩ := hx
        simp [Spec.Cxx.arrayType]
    obtain ⟨r, r1, r2⟩ := h 2 q q1 hm
    rw [q1] at r1
    obtain rfl := Option.some.inj r1
    rcases r2 with r2 | ⟨j, -, r2⟩
    · rw [q2.1] at r2; exact r2
    · exact absurd (back j _ r2).1.symm hp.1
  · intro h i q hq _
    exact ⟨q, hq, .inl ((back i q hq).1 ▸ h)⟩

/-- **C68 fails** for a namespace outside `unicode`, which the generator accepts as its third argument: the header does not compile. -/
theorem C68_fails_namespace (stage1 stage2 : List Nat) (rows : List Emitted) (names1 names2 : List Nat) (names : List Str) (H : List Piece)
    (hH : Consists (propsHeader "tables".toList stage1 stage2 rows names1 names2 names) H) :
    ∃ (i : Nat) (q : Piece), H[i]? = some q ∧ Mentions q "codepoint_properties".toList ∧ ¬ Visible H i inUnicode := by
  by_contra hc
  have := (C68_visible_iff ["tables".toList] ⟨by decide, fun x hx => by rw [List.mem_singleton.1 hx]; exact ident_of (by decide)⟩
    stage1 stage2 rows names1 names2 names H hH).1 (fun i q hq hm => by
      by_contra hv
      exact hc ⟨i, q, hq, hm, hv⟩)
  exact absurd this (by decide)

/-- In the two sources, `unicode` is visible in every definition, whatever the namespace; in the file of names also the suffix `sv`. -/
theorem C68_visible_sources (path : List Str) (hp : PathOk path) (stage1 stage2 : List Nat) (rows : List Emitted) (names1 names2 : List Nat)
    (names : List Str) (hr : ∀ e ∈ rows, EmittedOk e) (hn : ∀ s ∈ names, ∀ c ∈ s, c ≠ '"' ∧ c ≠ '\\' ∧ c ≠ '\n') (S N : List Piece)
    (hS : Consists (propsSource (joinPath path) stage1 stage2 rows) S) (hN : Consists (namesSource (joinPath path) names1 names2 names) N) :
    (∀ (i : Nat) (q : Piece), S[i]? = some q → q.scope ≠ [] → Visible S i inUnicode) ∧
    (∀ (i : Nat) (q : Piece), N[i]? = some q → q.scope ≠ [] → Visible N i inUnicode ∧ Visible N i inLiterals) := by
  have hS := parts_of (source_items_consists hp stage1 stage2 rows hr) hS
  have hN := parts_of (name_items_consists hp names1 names2 names hn) hN
  have same : ∀ {q : Piece} {path : List Str}, Means q (.usingNs [] path) → q = ⟨[], usingToks path⟩ := by
    rintro ⟨s, t⟩ path ⟨h1, h2⟩
    simp only at h1 h2
    rw [h1, h2]
  constructor
  · intro i q hq hs
    obtain ⟨u, u1, u2⟩ := means_at hS (i := 0) rfl
    obtain rfl := same u2
    refine ⟨q, hq, .inr ⟨0, ?_, u1⟩⟩
    rcases Nat.eq_zero_or_pos i with rfl | h
    · rw [u1] at hq
      obtain rfl := Option.some.inj hq
      exact absurd rfl hs
    · exact h
  · intro i q hq hs
    obtain ⟨u, u1, u2⟩ := means_at hN (i := 0) rfl
    obtain ⟨v, v1, v2⟩ := means_at hN (i := 1) rfl
    obtain rfl := same u2
    obtain rfl := same v2
    have hi : 1 < i := by
      match i with
      | 0 => rw [u1] at hq; obtain rfl := Option.some.inj hq; exact absurd rfl hs
      | 1 => rw [v1] at hq; obtain rfl := Option.some.inj hq; exact absurd rfl hs
      | i + 2 => omega
    exact ⟨⟨q, hq, .inr ⟨0, by omega, u1⟩⟩, ⟨q, hq, .inr ⟨1, hi, v1⟩⟩⟩

/-! ### The hypotheses are met -/

theorem sampleEnums_ok : EnumsOk [planeEnum, widthEnum] := by
  have hi : ∀ d ∈ [planeEnum, widthEnum], identB d.name = true ∧ (∀ m ∈ d.members, identB (sanitize m) = true) ∧
      ∀ m ∈ d.members, ∀ c ∈ m, c ≠ '"' ∧ c ≠ '\\' ∧ c ≠ '\n' := by decide +kernel
  exact fun d hd => ⟨ident_of (hi d hd).1, fun m hm => ident_of ((hi d hd).2.1 m hm), (hi d hd).2.2⟩

example : ∃ E O P : List Piece, Consists (enumsFile [planeEnum, widthEnum]) E ∧ Consists (ostreamFile [planeEnum, widthEnum]) O ∧
    Consists (fmtFile [planeEnum, widthEnum]) P ∧ E.length = 2 ∧ O.length = 2 ∧ P.length = 2 := by
  obtain ⟨_, -, E, e1, e2⟩ := C68_enums _ sampleEnums_ok (by decide +kernel)
  obtain ⟨O, o1, o2⟩ := C68_ostream _ sampleEnums_ok
  obtain ⟨P, p1, p2⟩ := C68_formatters _ sampleEnums_ok
  exact ⟨E, O, P, e1, o1, p1, e2.length_eq, o2.length_eq, p2.length_eq⟩

example := fun O P h1 h2 => C68_prints [planeEnum, widthEnum] sampleEnums_ok (by decide +kernel) O P h1 h2
example := fun O P h1 h2 => C68_once [planeEnum, widthEnum] sampleEnums_ok (by decide +kernel) O P h1 h2

example : ∃ ps : List Piece, Consists (caseNormFile emitUd sampleFolds sampleSpecial { nfcNo := [0x340, 0x341] } [⟨0x41, 0x300, 0xC0⟩]) ps ∧ ps.length = 26 := by
  obtain ⟨w, w', -, -, ps, h1, h2⟩ := C68_case_tables_partial emitUd sampleFolds sampleSpecial { nfcNo := [0x340, 0x341] } [⟨0x41, 0x300, 0xC0⟩] (by decide) (by decide)
  exact ⟨ps, h1, h2.length_eq⟩

/-- `unicode::precompiled`, the namespace the library is built with -/
def precompiled : List Str := ["unicode".toList, "precompiled".toList]

theorem precompiled_ok : PathOk precompiled := by
  have h : ∀ x ∈ precompiled, identB x = true := by decide +kernel
  exact ⟨by decide, fun x hx => ident_of (h x hx)⟩

example : ∃ H S N : List Piece, Consists (propsHeader "unicode::precompiled".toList [0, 1, 300] [0, 1, 1, 70000] [sampleEmitted, sampleEmitted] [0, 1] [0, 2] ["".toList, "<control>".toList]) H ∧
    Consists (propsSource "unicode::precompiled".toList [0, 1, 300] [0, 1, 1, 70000] [sampleEmitted, sampleEmitted]) S ∧
    Consists (namesSource "unicode::precompiled".toList [0, 1] [0, 2] ["".toList, "<control>".toList]) N ∧
    H.length = 6 ∧ S.length = 4 ∧ N.length = 5 ∧ ∀ i < 6, Visible H i inUnicode := by
  have hr : ∀ e ∈ [sampleEmitted, sampleEmitted], EmittedOk e := by
    intro e he; simp only [List.mem_cons, List.not_mem_nil, or_false, or_self] at he; rw [he]; exact sampleEmitted_ok
  obtain ⟨_, _, _, _, -, -, -, -, H, h1, h2⟩ := C68_properties_header precompiled precompiled_ok [0, 1, 300] [0, 1, 1, 70000] [sampleEmitted, sampleEmitted] [0, 1] [0, 2]
    ["".toList, "<control>".toList] (by decide)
  obtain ⟨_, _, -, -, S, s1, s2⟩ := C68_properties_source precompiled precompiled_ok [0, 1, 300] [0, 1, 1, 70000] [sampleEmitted, sampleEmitted] (by decide) (by decide) hr
  obtain ⟨_, _, -, -, N, n1, n2⟩ := C68_names_source precompiled precompiled_ok [0, 1] [0, 2] ["".toList, "<control>".toList] (by decide) (by decide) (by decide +kernel)
  refine ⟨H, S, N, h1, s1, n1, h2.length_eq, s2.length_eq, n2.length_eq, fun i hi => ?_⟩
  have hl : H.length = 6 := h2.length_eq
  obtain ⟨q, hq⟩ : ∃ q, H[i]? = some q := ⟨_, List.getElem?_eq_getElem (by omega)⟩
  refine ⟨q, hq, .inl ?_⟩
  have : q.scope = precompiled := by
    have hall : ∀ (es : List Extern) (ps : List Piece), List.Forall₂ Means ps (es.map (.extern precompiled)) → ∀ q ∈ ps, q.scope = precompiled := by
      intro es
      induction es with
      | nil => intro ps h q hq; cases h; cases hq
      | cons e es ih =>
        intro ps h q hq
        cases h with | cons h1 h2 =>
        rcases List.mem_cons.1 hq with rfl | hq
        · exact h1.1
        · exact ih _ h2 q hq
    exact hall _ _ h2 q (List.mem_of_getElem? hq)
  rw [this]
  decide

end Verif.Props.Tg
