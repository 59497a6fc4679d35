import Verif.Lemmas.CxxRun2
import Verif.Props.TgEmit
import Verif.Props.TgEnums2
/-!
# C64: the generated functions do what the model of the generator's output says

C53 and C55 are about the functions the generator writes, as functions; C61 is about the tables it writes, as text.  Here is the
text of the functions: for each of them, the text defines a C++ function (Spec/CxxFn) with the right signature, and if the
names in it stand for what the generated tables and enumerations declare (`Agrees`), calling it gives what C53 and C55 speak about.
-/

namespace Verif.Props.Tg

open Verif Verif.Tg
open Verif.Utf8 (Mem)
open Verif.Spec.Cxx (Val Item Says SameItem Ident isWord World Value Res Fn DefinesFn DefinesFormatter Signature Agrees Reads p)

/-! ## A text defines one function, names have one meaning -/

/-- No text defines two different functions. -/
theorem C64_unambiguous {text : Str} {f g : Fn} (h : DefinesFn text f) (h' : DefinesFn text g) : f = g := by
  obtain ⟨ts, h1, h2⟩ := h
  obtain ⟨us, h3, h4⟩ := h'
  have : ts = us := Spec.Cxx.lexes_unique h1 h3
  subst this
  rw [h2] at h4
  injection h4

theorem has_same {W : World} {i j : Item} (h : SameItem i j) (hi : W.Has i) : W.Has j := by
  cases h with
  | struct => trivial
  | table _ _ => exact hi
  | enum => exact hi

/-- It suffices to look at one reading of a text. -/
theorem agrees_of {W : World} {text : Str} {items : List Item} (h : Says text items) (hi : ∀ i ∈ items, W.Has i) : Agrees W text := by
  intro items' h' j hj
  have := C61_unambiguous h h'
  clear h h'
  induction this with
  | nil => cases hj
  | cons hs _ ih =>
    cases hj with
    | head => exact has_same hs (hi _ List.mem_cons_self)
    | tail _ hj => exact ih (fun i hi' => hi i (List.mem_cons_of_mem _ hi')) hj

theorem agrees_table {W : World} {text type name : Str} {vs : List Val} (hA : Agrees W text) (h : Says text [.table type name vs]) : W.table name = some vs :=
  hA _ h _ List.mem_cons_self

theorem agrees_enum {W : World} {d : EnumDef} (hA : Agrees W (writeEnumClass d)) (hn : Ident d.name) (hm : ∀ m ∈ d.members, Ident (sanitize m)) : EnumHas W d := by
  have h1 := (enum_ok d hn hm).says
  rw [numbered_eq] at h1
  exact hA _ h1 _ List.mem_cons_self

/-! ## Look-ups -/

theorem path_eq (e : Str) : ∀ w : Str, Spec.Cxx.canon (["unicode".toList, e] ++ [w]) = [e, w] := fun _ => rfl

/-- `Plane plane(char32_t)` -/
theorem C64_plane : ∃ f, DefinesFn codePlane f ∧ Signature f "Plane" "plane".toList ["char32_t".toList] ∧
    ∀ (W : World) (rows : List (PRange × Nat × Str)), rows.map (·.1) = planes → (∀ r ∈ rows, OneLine r.2.2) → Agrees W (writePlanes rows) →
      ∀ c, f.call W [.num c] = Res.ofMem (fun v => .enumerator ["Plane".toList, v]) (apiPlane c) := by
  refine ⟨_, plane_defines, ⟨Spec.Cxx.lexFn_ok (n := 9) (by decide), rfl, .cons (Spec.Cxx.lexFn_ok (n := 9) (by decide)) .nil⟩, fun W rows hr hc hA c => ?_⟩
  exact lookup_call W c _ (agrees_table hA (C61_plane rows hr hc)) (path_eq _) (name_enum W _ ⟨by decide, by decide, by decide⟩) (by decide)

/-- `General_Category general_category::get(char32_t)` -/
theorem C64_general_category : ∃ f, DefinesFn codeGc f ∧ Signature f "General_Category" "get".toList ["char32_t".toList] ∧
    ∀ (W : World) (D : Db) (rows : List (PRange × Str)), rows.map (·.1) = D.gcats → (∀ r ∈ rows, Ident r.1.property) → (∀ r ∈ rows, OneLine r.2) →
      Agrees W (writeGcTable rows) →
      ∀ c, f.call W [.num c] = Res.ofMem (fun v => .enumerator ["General_Category".toList, v]) (apiGc D c) := by
  refine ⟨_, gc_defines, ⟨Spec.Cxx.lexFn_ok (n := 9) (by decide), rfl, .cons (Spec.Cxx.lexFn_ok (n := 9) (by decide)) .nil⟩, fun W D rows hr hv hc hA c => ?_⟩
  have := C61_general_category rows hv hc
  rw [hr] at this
  exact lookup_call W c _ (agrees_table hA this) (path_eq _) (name_enum W _ ⟨by decide, by decide, by decide⟩) (by decide)

/-- `Script script(char32_t)` -/
theorem C64_script : ∃ f, DefinesFn codeScript f ∧ Signature f "Script" "script".toList ["char32_t".toList] ∧
    ∀ (W : World) (D : Db) (rows : List (PRange × Str)), rows.map (·.1) = D.scripts → (∀ r ∈ rows, Ident r.1.property) → (∀ r ∈ rows, OneLine r.2) →
      Agrees W (writeScripts rows) →
      ∀ c, f.call W [.num c] = Res.ofMem (fun v => .enumerator ["Script".toList, v]) (apiScript D c) := by
  refine ⟨_, script_defines, ⟨Spec.Cxx.lexFn_ok (n := 9) (by decide), rfl, .cons (Spec.Cxx.lexFn_ok (n := 9) (by decide)) .nil⟩, fun W D rows hr hv hc hA c => ?_⟩
  have := C61_script rows hv hc
  rw [hr] at this
  exact lookup_call W c _ (agrees_table hA this) (path_eq _) (name_enum W _ ⟨by decide, by decide, by decide⟩) (by decide)

/-- `Block block(char32_t)` -/
theorem C64_block : ∃ f, DefinesFn codeBlock f ∧ Signature f "Block" "block".toList ["char32_t".toList] ∧
    ∀ (W : World) (D : Db), (∀ r ∈ D.blocks, Ident (sanitize r.property)) → Agrees W (writeBlocks D.blocks) →
      ∀ c, f.call W [.num c] = Res.ofMem (fun v => .enumerator ["Block".toList, v]) (apiBlock D c) := by
  refine ⟨_, block_defines, ⟨Spec.Cxx.lexFn_ok (n := 9) (by decide), rfl, .cons (Spec.Cxx.lexFn_ok (n := 9) (by decide)) .nil⟩, fun W D hv hA c => ?_⟩
  exact lookup_call W c _ (agrees_table hA (C61_block D.blocks hv)) (path_eq _) rfl (by decide)

/-- `EastAsianWidth east_asian_width(char32_t)` -/
theorem C64_east_asian_width : ∃ f, DefinesFn codeEaw f ∧ Signature f "EastAsianWidth" "east_asian_width".toList ["char32_t".toList] ∧
    ∀ (W : World) (D : Db) (rows : List (PRange × Str)), rows.map (·.1) = D.eaw → (∀ r ∈ rows, OneLine r.2) → Agrees W (writeEaw rows) →
      ∀ c, f.call W [.num c] = Res.ofMem (fun v => .enumerator ["EastAsianWidth".toList, v]) (apiEaw D c) := by
  refine ⟨_, eaw_defines, ⟨Spec.Cxx.lexFn_ok (n := 9) (by decide), rfl, .cons (Spec.Cxx.lexFn_ok (n := 9) (by decide)) .nil⟩, fun W D rows hr hc hA c => ?_⟩
  have := C61_east_asian_width rows hc
  rw [hr] at this
  exact lookup_call W c _ (agrees_table hA this) (path_eq _) (name_enum W _ ⟨by decide, by decide, by decide⟩) (by decide)

/-- lower case, as in the C locale -/
def lower (s : Str) : Str := s.map Char.toLower

theorem lower_eq (s : Str) : tolower s = lower s := by
  unfold tolower lower
  refine List.map_congr_left fun c _ => ?_
  unfold Char.toLower
  by_cases h : 'A' ≤ c ∧ c ≤ 'Z'
  · have h1 : (65 : Nat) ≤ c.toNat := h.1
    have h2 : c.toNat ≤ 90 := h.2
    rw [if_pos h]
    split
    · rename_i h'
      apply char_ext
      have hv : (Char.ofNat (c.toNat + 32)).toNat = c.toNat + 32 := by
        have : (c.toNat + 32).isValidChar := by left; omega
        unfold Char.ofNat
        rw [dif_pos this]
        rfl
      rw [hv]
      show _ = (c.val + 32).toNat
      rw [UInt32.toNat_add]
      show c.toNat + 32 = (c.toNat + 32) % _
      omega
    · rename_i h'
      exact absurd ⟨h.1, h.2⟩ h'
  · rw [if_neg h]
    split
    · rename_i h'
      exact absurd ⟨h'.1, h'.2⟩ h
    · rfl

/-- A name that the code uses for nothing else. -/
def Unreserved (s : Str) : Prop := s ≠ "tables".toList ∧ s ≠ "std".toList ∧ s ≠ "unicode".toList ∧ s ≠ "optional".toList

theorem ident_word' {s : Str} (h : Ident s) : Word s := ⟨h.1, h.2.1⟩
theorem ident_reads {s : Str} (h : Ident s) : Reads s [.word s] := (ident_word' h).lexes.reads

/-- For every group of the file, `Group group(char32_t)`. -/
theorem C64_break (group : String) (hg : Ident group.toList) (hu : Unreserved group.toList) :
    ∃ f, DefinesFn (codeBreak group.toList) f ∧ Signature f group (lower group.toList) ["char32_t".toList] ∧
    ∀ (W : World) (D : Db) (rows : List (PRange × Str)), amFind D.gcb group.toList = some (rows.map (·.1)) → (∀ r ∈ rows, Ident r.1.property) →
      (∀ r ∈ rows, OneLine r.2) → Agrees W (writeBreaks group.toList rows) →
      ∀ c, ∃ r, apiBreak D group.toList c = some r ∧ f.call W [.num c] = Res.ofMem (fun v => .enumerator [group.toList, v]) r := by
  refine ⟨_, break_defines (ident_word' hg), ⟨ident_reads hg, lower_eq _, .cons (Spec.Cxx.lexFn_ok (n := 9) (by decide)) .nil⟩, fun W D rows hr hv hc hA c => ?_⟩
  have hb : apiBreak D group.toList c = some (valueOr (propTable (rows.map (·.1))) "Undefined".toList c) := by unfold apiBreak; rw [hr]; rfl
  refine ⟨_, hb, ?_⟩
  exact lookup_call W c _ (agrees_table hA (C61_breaks group rows hg hv hc)) (path_eq _) (name_enum W _ ⟨hu.1, hu.2.1, hu.2.2.1⟩) hu.2.2.2

/-! ## Sets -/

/-- the tokens of a type -/
theorem reads_lit {t : Str} (ts : List Spec.Cxx.Tok) (h : Spec.Cxx.lexFn 60 (Spec.Cxx.splice t) = some ts) : Reads t ts := Spec.Cxx.lexFn_ok h

theorem reads_bool : Reads "bool".toList [.word "bool".toList] := Spec.Cxx.lexFn_ok (n := 9) (by decide)
theorem reads_char : Reads "char32_t".toList [.word "char32_t".toList] := Spec.Cxx.lexFn_ok (n := 9) (by decide)

/-- For every emoji property, `bool is_…(char32_t)`. -/
theorem C64_emoji (name : Str) (hn : Ident name) :
    ∃ f, DefinesFn (codeEmoji name) f ∧ Signature f "bool" ("is_".toList ++ lower name) ["char32_t".toList] ∧
    ∀ (W : World) (D : Db) (rows : List (PRange × Str)), amFind D.emoji name = some (rows.map (·.1)) → (∀ r ∈ rows, OneLine r.2) →
      Agrees W (writeIntervals name rows) → ∀ c, ∃ r, apiEmoji D name c = some r ∧ f.call W [.num c] = Res.ofMem .bool r := by
  refine ⟨_, emoji_defines (ident_word' hn), ⟨reads_bool, congrArg ("is_".toList ++ ·) (lower_eq _),
    .cons (Spec.Cxx.lexFn_ok (n := 9) (by decide)) .nil⟩, fun W D rows hr hc hA c => ?_⟩
  have hb : apiEmoji D name c = some (Tables.contains (intervalTable (rows.map (·.1))) c) := by unfold apiEmoji; rw [hr]; rfl
  exact ⟨_, hb, contains_call W c _ (agrees_table hA (C61_intervals name rows hn hc))⟩

/-- `bool is_mirrored(char32_t)` -/
theorem C64_is_mirrored : ∃ f, DefinesFn codeMirrored f ∧ Signature f "bool" "is_mirrored".toList ["char32_t".toList] ∧
    ∀ (W : World) (D : Db), Agrees W (writeMirrored D.mirrored) → ∀ c, f.call W [.num c] = Res.ofMem .bool (apiMirrored D c) := by
  refine ⟨_, mirrored_defines, ⟨Spec.Cxx.lexFn_ok (n := 9) (by decide), rfl, .cons (Spec.Cxx.lexFn_ok (n := 9) (by decide)) .nil⟩, fun W D hA c => ?_⟩
  have := agrees_table hA (C61_mirrored D)
  have e : D.mirrored.map pairVal = (D.mirrored.map fun i => (⟨i.1, i.2, ()⟩ : Tables.Entry Unit)).map boundsVal := by rw [List.map_map]; rfl
  rw [e] at this
  exact contains_call W c _ this

theorem gcEnum_unspecified (D : Db) : "Unspecified".toList ∈ (gcEnum D).members := List.mem_cons_self

theorem fixed_of {m : Str} (h : Ident m) : Fixed m := by
  unfold Fixed
  apply sanitize_plain
  intro c hc
  have := h.2.1 c hc
  constructor <;> rintro rfl <;> revert this <;> decide

theorem amFind_mem' {V : Type} (m : List (Str × V)) (hn : (m.map (·.1)).Nodup) {k : Str} {v : V} (h : (k, v) ∈ m) : amFind m k = some v := by
  induction m with
  | nil => cases h
  | cons e m ih =>
    unfold amFind
    rw [List.find?_cons]
    rw [List.map_cons, List.nodup_cons] at hn
    by_cases he : e.1 = k
    · cases h with
      | head => simp
      | tail _ h =>
        exact absurd (List.mem_map.2 ⟨_, h, rfl⟩) (by rw [← he] at *; exact hn.1)
    · cases h with
      | head => exact absurd rfl he
      | tail _ h =>
        rw [decide_eq_false he]
        exact ih hn.2 h

theorem members_nodup {W : World} {d : EnumDef} (h : EnumHas W d) : d.members.Nodup := by
  have := h.nodup
  unfold EnumDef.identifiers at this
  exact this.of_map

/-- An enumeration and, for some of its enumerators, tables: the number of the enumerator is the place in the enumeration. -/
theorem number_at {W : World} {d : EnumDef} (h : EnumHas W d) {m : Str} (hm : m ∈ d.members) (hf : Fixed m) (k : Nat) :
    W.number [d.name, m] = some k ↔ d.members[k]? = some m := by
  have h1 := numOf_mem h hm
  unfold Fixed at hf
  rw [hf] at h1
  constructor
  · intro h2
    rw [h1.1] at h2
    injection h2 with h2
    rw [← h2]; exact h1.2
  · intro h2
    have := h.at h2
    rw [hf] at this
    exact this

theorem keys_eq {m : List (Str × List (PRange × Str))} {l : List (Str × List PRange)} (h : l = m.map fun e => (e.1, e.2.map (·.1))) :
    l.map (·.1) = m.map (·.1) := by
  rw [h, List.map_map]; rfl

/-- `bool contains(Core_Property, char32_t)`: the enumerators with a table, and the others. -/
theorem C64_core (core : List (Str × List (PRange × Str))) (hi : ∀ e ∈ core, Ident e.1) :
    ∃ f, DefinesFn (codeCore (core.map (·.1))) f ∧ Signature f "bool" "contains".toList ["Core_Property".toList, "char32_t".toList] ∧
    ∀ (W : World) (D : Db), D.core = core.map (fun e => (e.1, e.2.map (·.1))) → (∀ e ∈ core, ∀ r ∈ e.2, OneLine r.2) →
      Agrees W (writeEnumClass (coreEnum D)) → (∀ e ∈ core, Agrees W (writeIntervals e.1 e.2)) →
      (∀ p ∈ core.map (·.1), ∃ k, W.number ["Core_Property".toList, p] = some k ∧ ∀ c, f.call W [.num k, .num c] = Res.ofMem .bool (apiCore D p c)) ∧
      (∀ k, (∀ p ∈ core.map (·.1), W.number ["Core_Property".toList, p] ≠ some k) → ∀ c, f.call W [.num k, .num c] = .val (.bool false)) := by
  have hi' : ∀ m ∈ core.map (·.1), Ident m := fun m hm => by
    obtain ⟨e, he, rfl⟩ := List.mem_map.1 hm
    exact hi e he
  refine ⟨_, core_defines (fun m hm => ident_word' (hi' m hm)), ⟨reads_bool, rfl,
    .cons (Spec.Cxx.lexFn_ok (n := 9) (by decide)) (.cons reads_char .nil)⟩, fun W D hD hc hE hT => ?_⟩
  have hkeys := keys_eq hD
  have hE' : EnumHas W (coreEnum D) := agrees_enum hE (ident_of (w := "Core_Property".toList) (by decide)) (fun m hm => by
    have hm : m ∈ D.core.map (·.1) := hm
    rw [hkeys] at hm
    rw [fixed_of (hi' m hm)]
    exact hi' m hm)
  have hmem : ∀ m, m ∈ (coreEnum D).members ↔ m ∈ core.map (·.1) := fun m => by
    show m ∈ D.core.map (·.1) ↔ _
    rw [hkeys]
  have hnd : (D.core.map (·.1)).Nodup := members_nodup hE'
  have hall : ∀ m ∈ core.map (·.1), m ∈ (coreEnum D).members ∧ Fixed m := fun m hm => ⟨(hmem m).2 hm, fixed_of (hi' m hm)⟩
  have htab : ∀ m ∈ core.map (·.1), W.table m = some ((intervalTable ((amFind D.core m).getD [])).map boundsVal) := fun m hm => by
    obtain ⟨e, he, rfl⟩ := List.mem_map.1 hm
    rw [amFind_mem' D.core hnd (v := e.2.map (·.1)) (by rw [hD]; exact List.mem_map_of_mem he)]
    exact agrees_table (hT e he) (C61_intervals e.1 e.2 (hi e he) (hc e he))
  have hcall := fun k c => core_call hE' rfl (core.map (·.1)) hall (by rw [← hkeys]; exact hnd) (fun m => intervalTable ((amFind D.core m).getD [])) htab k c
  constructor
  · intro p hp
    have hp' := hall p hp
    obtain ⟨k, hk⟩ := List.mem_iff_getElem?.1 hp'.1
    refine ⟨k, (number_at hE' hp'.1 hp'.2 k).2 hk, fun c => ?_⟩
    rw [(hcall k c).1 p hp hk]
    obtain ⟨e, he, rfl⟩ := List.mem_map.1 hp
    have ha := amFind_mem' D.core hnd (k := e.1) (v := e.2.map (·.1)) (by rw [hD]; exact List.mem_map_of_mem he)
    unfold apiCore
    rw [ha]
    rfl
  · intro k hk c
    refine (hcall k c).2 fun m hm h => hk m hm ?_
    exact (number_at hE' (hall m hm).1 (hall m hm).2 k).2 h

/-- `bool contains(General_Category, char32_t)` -/
theorem C64_contains_category (cats : List (Str × List (PRange × Str))) (hi : ∀ e ∈ cats, Ident e.1) :
    ∃ f, DefinesFn (codeGcContains (cats.map (·.1))) f ∧ Signature f "bool" "contains".toList ["General_Category".toList, "char32_t".toList] ∧
    ∀ (W : World) (D : Db), D.gcMap = cats.map (fun e => (e.1, e.2.map (·.1))) → (∀ e ∈ cats, ∀ r ∈ e.2, OneLine r.2) →
      (∀ g ∈ cats.map (·.1), g ∈ (gcEnum D).members) → (cats.map (·.1)).Nodup → "Unspecified".toList ∉ cats.map (·.1) →
      (∀ g ∈ (gcEnum D).members, Ident g) →
      Agrees W (writeEnumClass (gcEnum D)) → (∀ e ∈ cats, Agrees W (writeIntervals e.1 e.2)) →
      (∀ g ∈ cats.map (·.1), ∃ k, W.number ["General_Category".toList, g] = some k ∧
        ∀ c, f.call W [.num k, .num c] = Res.ofMem .bool (apiGcContains D g c)) ∧
      (∀ k, (∀ g ∈ cats.map (·.1), W.number ["General_Category".toList, g] ≠ some k) → ∀ c, f.call W [.num k, .num c] = .val (.bool false)) := by
  have hi' : ∀ m ∈ cats.map (·.1), Ident m := fun m hm => by
    obtain ⟨e, he, rfl⟩ := List.mem_map.1 hm
    exact hi e he
  refine ⟨_, gcContains_defines (fun m hm => ident_word' (hi' m hm)), ⟨reads_bool, rfl,
    .cons (Spec.Cxx.lexFn_ok (n := 9) (by decide)) (.cons reads_char .nil)⟩, fun W D hD hc hsub hnd hun hgi hE hT => ?_⟩
  have hkeys := keys_eq hD
  have hE' : EnumHas W (gcEnum D) := agrees_enum hE (ident_of (w := "General_Category".toList) (by decide)) (fun m hm => by
    rw [fixed_of (hgi m hm)]
    exact hgi m hm)
  have hall : ∀ m ∈ cats.map (·.1), m ∈ (gcEnum D).members ∧ Fixed m := fun m hm => ⟨hsub m hm, fixed_of (hi' m hm)⟩
  have htab : ∀ m ∈ cats.map (·.1), W.table m = some ((intervalTable ((amFind D.gcMap m).getD [])).map boundsVal) := fun m hm => by
    obtain ⟨e, he, rfl⟩ := List.mem_map.1 hm
    rw [amFind_mem' D.gcMap (by rw [hkeys]; exact hnd) (v := e.2.map (·.1)) (by rw [hD]; exact List.mem_map_of_mem he)]
    exact agrees_table (hT e he) (C61_intervals e.1 e.2 (hi e he) (hc e he))
  have hcall := fun k c => gcContains_call hE' rfl (cats.map (·.1)) hall (gcEnum_unspecified D) hun hnd (fun m => intervalTable ((amFind D.gcMap m).getD [])) htab k c
  constructor
  · intro p hp
    have hp' := hall p hp
    obtain ⟨k, hk⟩ := List.mem_iff_getElem?.1 hp'.1
    refine ⟨k, (number_at hE' hp'.1 hp'.2 k).2 hk, fun c => ?_⟩
    rw [(hcall k c).1 p hp hk]
    obtain ⟨e, he, rfl⟩ := List.mem_map.1 hp
    have ha := amFind_mem' D.gcMap (by rw [hkeys]; exact hnd) (k := e.1) (v := e.2.map (·.1)) (by rw [hD]; exact List.mem_map_of_mem he)
    unfold apiGcContains
    rw [ha]
    rfl
  · intro k hk c
    refine (hcall k c).2 fun m hm h => hk m hm ?_
    exact (number_at hE' (hall m hm).1 (hall m hm).2 k).2 h

/-- For every category, `bool general_category::is_…(char32_t)`: it calls the function `contains(General_Category, char32_t)` with that
category. -/
theorem C64_is_category (name : Str) (hn : Ident name) :
    ∃ f, DefinesFn (codeGcIs name) f ∧ Signature f "inline bool" ("is_".toList ++ lower name) ["char32_t".toList] ∧
    ∀ (W : World) (g : Fn), (∀ k c, W.category k c = g.call W [.num k, .num c]) → ∀ k, W.number ["General_Category".toList, name] = some k →
      ∀ c, f.call W [.num c] = g.call W [.num k, .num c] := by
  refine ⟨_, gcIs_defines (ident_word' hn), ⟨reads_lit [.word "inline".toList, .word "bool".toList] (by decide),
    congrArg ("is_".toList ++ ·) (lower_eq _), .cons reads_char .nil⟩, fun W g hg k hk c => ?_⟩
  exact gcIs_call W hk c _ (hg k c)

/-! ## Script extensions, mirroring glyphs, ages -/

theorem sceArrays_some (al : List (Str × Str)) (rs : List MRange) (done : List (Str × List Str)) (r : MRange) (hr : r ∈ rs) :
    ∃ x, (sceArrays al rs done).find? (fun e => e.1 = sceKey r.props) = some x := by
  induction rs generalizing done with
  | nil => cases hr
  | cons q rs ih =>
    rw [sceArrays]
    split
    · rename_i hs
      rcases List.mem_cons.1 hr with rfl | hr
      · obtain ⟨x, hx⟩ := Option.isSome_iff_exists.1 hs
        exact ⟨x, sceArrays_keep al rs done _ x hx⟩
      · exact ih done hr
    · rename_i hs
      rcases List.mem_cons.1 hr with rfl | hr
      · have : done.find? (fun e => e.1 = sceKey r.props) = none := by
          cases hf : done.find? (fun e => e.1 = sceKey r.props) with
          | none => rfl
          | some x => rw [hf] at hs; exact absurd rfl hs
        refine ⟨(sceKey r.props, r.props.map (scriptName al)), sceArrays_keep al rs _ _ _ ?_⟩
        rw [List.find?_append, this]
        simp
      · exact ih _ hr

theorem sceKey_ne (ps : List Str) : sceKey ps ≠ "unicode".toList := by
  intro h
  have := congrArg List.head? h
  unfold sceKey at this
  revert this
  show some 's' = some 'u' → False
  decide

/-- the scripts of an array, as written -/
def scriptVal (s : Str) : Val := .name ["unicode".toList, "Script".toList, s]

/-- the result of `script_extensions`: the elements of the array the span covers -/
def extensions (r : Mem (Option (List Str))) : Res Value := Res.ofMem (fun o => .opt (o.map fun ss => .span (ss.map scriptVal))) r

/-- `std::optional<std::span<Script const>> script_extensions(char32_t)` -/
theorem C64_script_extensions : ∃ f, DefinesFn codeSce f ∧
    Signature f "std::optional<std::span<Script const>>" "script_extensions".toList ["char32_t".toList] ∧
    ∀ (W : World) (D : Db) (al : List (Str × Str)) (rows : List (MRange × Str)), rows.map (·.1) = D.sce → (∀ r ∈ rows, OneLine r.2) →
      (∀ a ∈ sceArrays al D.sce [], Ident a.1 ∧ ∀ s ∈ a.2, Ident s) → (∀ r ∈ D.sce, Ident (sceKey r.props)) →
      Agrees W (writeSceArrays al D.sce) → Agrees W (writeSce rows) →
      ∀ c, f.call W [.num c] = extensions (apiScriptExtensions D al c) := by
  refine ⟨_, sce_defines, ⟨Spec.Cxx.lexFn_ok (n := 60) (by decide), rfl, .cons reads_char .nil⟩, fun W D al rows hr hc ha hk hA hS c => ?_⟩
  have hk' : ∀ r ∈ rows, Ident (sceKey r.1.props) := fun r h => hk r.1 (by rw [← hr]; exact List.mem_map_of_mem h)
  have hW := agrees_table hS (C61_script_extensions rows hk' hc)
  have e1 : (rows.map fun r => Val.list [.list [.num r.1.first, .num r.1.last],
        .list [.name [sceKey r.1.props, "data".toList], .name [sceKey r.1.props, "size".toList]]]) =
      (D.sce.map fun r => (⟨r.first, r.last, sceKey r.props⟩ : Tables.Entry Str)).map sceEntryVal := by
    rw [← hr, List.map_map, List.map_map]; rfl
  rw [e1] at hW
  have harr : ∀ a ∈ sceArrays al D.sce [], W.table a.1 = some (a.2.map scriptVal) := fun a h =>
    hA _ (C61_script_extension_arrays al D.sce ha) (.table "unicode::Script".toList a.1 (a.2.map scriptVal))
      (List.mem_map_of_mem (f := fun a => Item.table "unicode::Script".toList a.1 (a.2.map scriptVal)) h)
  have hcall := sce_call (W := W) _ (fun k => ((((sceArrays al D.sce []).find? fun e => e.1 = k).elim [] (·.2)).map scriptVal)) hW (by
    intro e he
    obtain ⟨r, h, rfl⟩ := List.mem_map.1 he
    refine ⟨sceKey_ne _, ?_⟩
    obtain ⟨x, hx⟩ := sceArrays_some al D.sce [] r h
    have h1 := harr x (List.mem_of_find?_eq_some hx)
    have h2 : x.1 = sceKey r.props := by
      have := List.find?_some hx
      exact of_decide_eq_true this
    rw [h2] at h1
    show W.table (sceKey r.props) = _
    rw [hx]
    exact h1) c (fun k hs => by
      obtain ⟨e, h1, h2⟩ := search_mem _ c k hs
      exact ⟨e, h1, h2⟩)
  rw [hcall]
  unfold apiScriptExtensions
  cases Tables.search (D.sce.map fun r => (⟨r.first, r.last, sceKey r.props⟩ : Tables.Entry Str)) c with
  | oob => rfl
  | ok o => cases o with
    | none => rfl
    | some k => rfl

/-- `char32_t bidi_mirroring_glyph(char32_t)` -/
theorem C64_bidi_mirroring_glyph : ∃ f, DefinesFn codeGlyph f ∧ Signature f "char32_t" "bidi_mirroring_glyph".toList ["char32_t".toList] ∧
    ∀ (W : World) (D : Db), Agrees W (writeGlyphs D.glyphs) → ∀ c, f.call W [.num c] = Res.ofMem .num (apiGlyph D c) := by
  refine ⟨_, glyph_defines, ⟨reads_char, rfl, .cons reads_char .nil⟩, fun W D hA c => ?_⟩
  rw [glyph_call D.glyphs c (agrees_table hA (C61_glyphs D))]
  rfl

/-- `std::optional<Age> make_age(std::string_view)`: it needs nothing but its own text. -/
theorem C64_make_age (al : List (Str × Str)) (hk : ∀ e ∈ al, ∀ c ∈ e.1, c ≠ '"' ∧ c ≠ '\\' ∧ c ≠ '\n') (hv : ∀ e ∈ al, Ident e.2) :
    ∃ f, DefinesFn (codeAge al) f ∧ Signature f "std::optional<Age>" "make_age".toList ["std::string_view".toList] ∧
    ∀ (W : World) (s : Str), f.call W [.text s] = .val (.opt ((apiMakeAge al s).map fun a => .enumerator ["Age".toList, a])) := by
  refine ⟨_, age_defines al hk (fun e he => ident_word' (hv e he)), ⟨reads_lit [.word "std".toList, p ':', p ':', .word "optional".toList, p '<', .word "Age".toList, p '>'] (by decide), rfl,
    .cons (Spec.Cxx.lexFn_ok (n := 60) (by decide)) .nil⟩, fun W s => ?_⟩
  exact age_call W _ s

/-! ## Printing -/

/-- `std::ostream& operator<<(std::ostream&, Enum)` appends to the stream the name of the enumerator, or the number in parentheses. -/
theorem C64_stream (d : EnumDef) (hn : Ident d.name) (hi : ∀ m ∈ d.members, Ident (sanitize m))
    (hm : ∀ m ∈ d.members, ∀ c ∈ m, c ≠ '"' ∧ c ≠ '\\' ∧ c ≠ '\n') (hu : d.name ≠ "unicode".toList) :
    ∃ f, DefinesFn (codeStream d) f ∧ Signature f "inline std::ostream&" "operator<<".toList ["std::ostream&".toList, d.name] ∧
    ∀ W, Agrees W (writeEnumClass d) → ∀ s k, f.call W [.stream s, .num k] = .val (.stream (s ++ d.stream k)) := by
  refine ⟨_, stream_defines (ident_word' hn) (fun m h => ident_word' (hi m h)) hm,
    ⟨reads_lit [.word "inline".toList, .word "std".toList, p ':', p ':', .word "ostream".toList, p '&'] (by decide), rfl,
    .cons (Spec.Cxx.lexFn_ok (n := 60) (by decide)) (.cons (ident_reads hn) .nil)⟩, fun W hA s k => ?_⟩
  have hE := agrees_enum hA hn hi
  rw [stream_call hE hu]
  have hp := C55_print d hE.nodup
  cases hk : d.members[k]? with
  | some m => rw [(hp.1 k m hk).2.1]
  | none => rw [(hp.2.2 k (List.getElem?_eq_none_iff.1 hk)).1]

/-- `std::formatter<unicode::Enum>`: formats as the name of the enumerator; as nothing if there is none. -/
theorem C64_format (d : EnumDef) (hn : Ident d.name) (hi : ∀ m ∈ d.members, Ident (sanitize m))
    (hm : ∀ m ∈ d.members, ∀ c ∈ m, c ≠ '"' ∧ c ≠ '\\' ∧ c ≠ '\n') :
    ∃ f, DefinesFormatter (codeFormatter d) d.name f ∧ Signature f "auto" "format".toList ["unicode::".toList ++ d.name, "auto&".toList] ∧
    ∀ W, Agrees W (writeEnumClass d) → ∀ k ctx, f.call W [.num k, ctx] = .val (.text (d.format k)) := by
  have hw := ident_word' hn
  refine ⟨formatFn d, ⟨_, ?_, format_read d⟩,
    ⟨reads_lit [.word "auto".toList] (by decide), rfl, .cons ?_ (.cons (Spec.Cxx.lexFn_ok (n := 60) (by decide)) .nil)⟩, fun W hA k ctx => ?_⟩
  · have k1 := (format_lexes hw (fun m h => ident_word' (hi m h)) hm).append (clean_lit (t := "};\n\n".toList) (ts := [p '}', p ';']) 20 (by decide +kernel))
    have k2 := (clean_lit (t := ">: std::formatter<std::string_view>\n{\n".toList)
      (ts := [p '>', p ':', .word "std".toList, p ':', p ':', .word "formatter".toList, p '<',
        .word "std".toList, p ':', p ':', .word "string_view".toList, p '>', p '{']) 60 (by decide +kernel)).append k1
    have k3 := Line.mid (a := "template <>\nstruct std::formatter<unicode::".toList) (ts := [.word "template".toList, p '<', p '>', .word "struct".toList,
      .word "std".toList, p ':', p ':', .word "formatter".toList, p '<', .word "unicode".toList, p ':', p ':'])
      (line_lit 80 (by decide +kernel)) hw.lexes k2 (by
        intro h
        have := congrArg List.length h
        rw [List.length_append] at this
        exact absurd this (by rw [show (">: std::formatter<std::string_view>\n{\n".toList).length = 38 from rfl]; show ¬ 38 + _ = 0; omega))
    have := k3.reads
    unfold codeFormatter
    refine cast (congrArg (Reads _) ?_) this
    simp only [List.cons_append, List.nil_append, List.append_assoc]
  · have k1 := line_lit (t := "unicode::".toList) (ts := [.word "unicode".toList, p ':', p ':']) 80 (by decide +kernel)
    exact (Spec.Cxx.lexes_append k1.1 hw.lexes (apart_end k1.2)).reads
  · have hE := agrees_enum hA hn hi
    rw [format_call hE]
    have hp := C55_print d hE.nodup
    cases hk : d.members[k]? with
    | some m => rw [(hp.1 k m hk).2.2]; rfl
    | none => rw [(hp.2.2 k (List.getElem?_eq_none_iff.1 hk)).2]; rfl

/-- `std::string to_string(EastAsianWidth)` -/
theorem C64_width_string : ∃ f, DefinesFn codeWidthString f ∧ Signature f "inline std::string" "to_string".toList ["EastAsianWidth".toList] ∧
    ∀ W, Agrees W (writeEnumClass widthEnum) → ∀ k, f.call W [.num k] = .val (.text (widthEnum.members[k]?.getD "Unknown".toList)) := by
  refine ⟨_, widthString_defines, ⟨Spec.Cxx.lexFn_ok (n := 60) (by decide), rfl, .cons (Spec.Cxx.lexFn_ok (n := 60) (by decide)) .nil⟩, fun W hA k => ?_⟩
  exact widthString_call (agrees_enum hA (ident_of (by decide)) (fun m hm => ident_of (by revert m; decide))) k

end Verif.Props.Tg
