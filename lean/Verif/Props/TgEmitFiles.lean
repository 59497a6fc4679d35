import Verif.Props.TgEmitRows
import Verif.Props.TgRowSample
import Verif.Lemmas.TablesRange
/-!
# C61, C54: from the files of the Unicode Character Database to the text of `codepoint_properties_data.cpp`
-/

namespace Verif.Props.Tg

open Verif Verif.Tg
open Verif.Spec.Ucd
open Verif.Tables (Gen get generate propertiesShape)
open Verif.Spec.Cxx (Ident Says)

/-- The scripts and the long names of values are identifiers. -/
structure LongNames (U : Contents) (N : ValueNames) : Prop where
  scripts : ∀ e ∈ U.scripts, Ident e.2.2
  gc : ∀ p ∈ N.gc, Ident p.2
  eaw : ∀ p ∈ N.eaw, Ident p.2
  age : ∀ p ∈ N.age, Ident p.2
  gcb : ∀ p ∈ N.gcb, Ident p.2
  incb : ∀ p ∈ N.incb, Ident p.2
  wb : ∀ p ∈ N.wb, Ident p.2

theorem names_ident {l : List (Str × Str)} (h : ∀ p ∈ l, Ident p.2) {v f : Str} (hn : Names l v f) : Ident f := by
  rcases hn with hn | ⟨rfl, a, hn⟩
  · exact h _ hn
  · exact h _ hn

theorem named_ident {es : List Entry} {l : List (Str × Str)} {d : Str} (hd : Ident d) (h : ∀ p ∈ l, Ident p.2) {c : Nat} {f : Str}
    (hv : NamedValueOf es l d c f) : Ident f := by
  rcases hv with ⟨v, -, hn⟩ | ⟨-, rfl⟩
  · exact names_ident h hn
  · exact hd

theorem says_emittedOk {U N} (hn : LongNames U N) {c : Nat} {e : Emitted} (h1 : e.flags < 256) (h2 : e.flags2 < 256) (h3 : Ident e.esc)
    (h : Row.Says U N c (rowOf e)) : EmittedOk e where
  flags := h1
  flags2 := h2
  esc := h3
  script := by
    rcases h.script with ⟨x, hx, -, -, he⟩ | ⟨-, he⟩
    · have := hn.scripts x hx
      rw [he] at this
      exact this
    · show Ident (rowOf e).script
      rw [he]; exact ident_of (by decide)
  gcb := named_ident (ident_of (by decide)) hn.gcb h.gcb
  eaw := named_ident (ident_of (by decide)) hn.eaw h.eaw
  gc := by
    rcases h.gc with ⟨ab, -, hp⟩ | ⟨-, he⟩
    · exact hn.gc _ hp
    · show Ident (rowOf e).gc
      rw [he]; exact ident_of (by decide)
  age := named_ident (ident_of (by decide)) hn.age h.age
  incb := by
    rcases h.incb with ⟨v, -, hp⟩ | ⟨-, he⟩
    · exact names_ident hn.incb hp
    · show Ident (rowOf e).incb
      rw [he]; exact ident_of (by decide)
  wb := named_ident (ident_of (by decide)) hn.wb h.wb

/-- **C61 with C54.** From the files of the character database to the text of the generated source: if the files have the documented
formats and are complete (`Describes`, `Complete`), and the names in them are identifiers, then the text declares three tables, the
numbers in the first two fit the element types they are declared with, the constants in the third are the rows `rows`, and looking
up any codepoint in those three tables gives the row that the files say it has. -/
theorem C61_from_files {F D U N} (hl : Loads F D) (hd : Describes F U) (hc : Complete U N) (hn : LongNames U N)
    (blocks : List (List Row)) (hb : blocks.length ≤ 256) (hcover : ∀ j < 0x1100, ∃ b ∈ blocks, BlockSays U N (j * 256) b)
    (values : List Row) (hv : values.length ≤ 65536) (hvc : ∀ c ≤ 0x10FFFF, ∃ r ∈ values, Row.Says U N c r)
    (hash : List Rec → Nat) :
    ∃ X ages R g, Built (inputOf D) X ages R ∧ generate propertiesShape hash ((List.range 0x110000).map R) = .ok g ∧
      ∃ rows t1 t2, Fits t1 g.stage1 ∧ Fits t2 g.stage2 ∧
      Says (propertiesBody g.stage1 g.stage2 (g.stage3.map (emit X (inputOf D) ages)))
        [.table t1 "stage1".toList (g.stage1.map .num), .table t2 "stage2".toList (g.stage2.map .num),
         .table "codepoint_properties".toList "properties".toList (rows.map fun e =>
          .list [.num e.width, .num e.flags, .num e.flags2, .name ["Script".toList, e.script], .name ["Grapheme_Cluster_Break".toList, e.gcb],
            .name ["East_Asian_Width".toList, e.eaw], .name ["General_Category".toList, e.gc], .name ["EmojiSegmentationCategory".toList, e.esc],
            .name ["Age".toList, e.age], .name ["Indic_Conjunct_Break".toList, e.incb], .name ["Word_Break".toList, e.wb]])] ∧
      ∀ c, ∃ e, get propertiesShape ({ stage1 := g.stage1, stage2 := g.stage2, stage3 := rows } : Gen Emitted) c = .ok e ∧
        Row.Says U N (if c ≤ 0x10FFFF then c else 0) (rowOf e) := by
  obtain ⟨X, ages, R, g, h1, h2, h3⟩ := C54_lookup hl hd hc blocks hb hcover values hv hvc hash
  refine ⟨X, ages, R, g, h1, h2, g.stage3.map (emit X (inputOf D) ages), ?_⟩
  have hr := Verif.Tables.generate_range propertiesShape (by decide) (by decide) hash _ g h2
  obtain ⟨X', ages', R', h1', hsay⟩ := C54_row hl hd hc
  have eX : X' = X := by have := h1'.indices; rw [h1.indices] at this; injection this with this; exact this.symm
  have ea : ages' = ages := by have := h1'.ages; rw [h1.ages] at this; injection this with this; exact this.symm
  subst eX ea
  have eR : R' = R := by have := h1'.build; rw [h1.build] at this; injection this with this; exact this.symm
  subst eR
  have hok : ∀ e ∈ g.stage3.map (emit X' (inputOf D) ages'), EmittedOk e := by
    intro e he
    obtain ⟨r, hr3, rfl⟩ := List.mem_map.1 he
    obtain ⟨c, hc', rfl⟩ := List.mem_map.1 (hr.three r hr3)
    rw [List.mem_range] at hc'
    have hs := buildRecords_small X' (inputOf D) R' h1.build c
    exact says_emittedOk hn hs.1 hs.2 (escName_ident _) (hsay c (by omega))
  have hlt1 : ∀ v ∈ g.stage1, v < 2 ^ 64 := fun v hv => Nat.lt_trans (hr.one v hv) (by decide)
  have hlt2 : ∀ v ∈ g.stage2, v < 2 ^ 64 := fun v hv => Nat.lt_trans (hr.two v hv) (by decide)
  obtain ⟨t1, t2, f1, f2, hs⟩ := C61_properties g.stage1 g.stage2 _ hlt1 hlt2 hok
  exact ⟨t1, t2, f1, f2, hs, h3⟩

theorem rU_longNames : LongNames rU rN where
  scripts := fun e he => idents_of (l := rU.scripts.map (·.2.2)) (by decide +kernel) _ (List.mem_map.2 ⟨e, he, rfl⟩)
  gc := fun e he => idents_of (l := rN.gc.map (·.2)) (by decide +kernel) _ (List.mem_map.2 ⟨e, he, rfl⟩)
  eaw := fun e he => idents_of (l := rN.eaw.map (·.2)) (by decide +kernel) _ (List.mem_map.2 ⟨e, he, rfl⟩)
  age := fun e he => idents_of (l := rN.age.map (·.2)) (by decide +kernel) _ (List.mem_map.2 ⟨e, he, rfl⟩)
  gcb := fun e he => idents_of (l := rN.gcb.map (·.2)) (by decide +kernel) _ (List.mem_map.2 ⟨e, he, rfl⟩)
  incb := fun e he => idents_of (l := rN.incb.map (·.2)) (by decide +kernel) _ (List.mem_map.2 ⟨e, he, rfl⟩)
  wb := fun e he => idents_of (l := rN.wb.map (·.2)) (by decide +kernel) _ (List.mem_map.2 ⟨e, he, rfl⟩)

/-- The small database of C54 meets the conditions of `C61_from_files`: the text written for it says, for instance, that `A` is Latin. -/
example {D : Db} (hl : Loads (filesOf rU) D) (hash : List Rec → Nat) :
    ∃ X ages R g, Built (inputOf D) X ages R ∧ generate propertiesShape hash ((List.range 0x110000).map R) = .ok g ∧
      ∃ (rows : List Emitted) (t1 t2 : Str) (v : List Verif.Spec.Cxx.Val),
      Says (propertiesBody g.stage1 g.stage2 (g.stage3.map (emit X (inputOf D) ages)))
        [.table t1 "stage1".toList (g.stage1.map .num), .table t2 "stage2".toList (g.stage2.map .num),
         .table "codepoint_properties".toList "properties".toList v] ∧
      ∃ e, get propertiesShape ({ stage1 := g.stage1, stage2 := g.stage2, stage3 := rows } : Gen Emitted) 0x41 = .ok e ∧
        e.script = "Latin".toList := by
  obtain ⟨blocks, values, h1, h2, h3, h4⟩ := rU_cover hl
  obtain ⟨X, ages, R, g, h5, h6, rows, t1, t2, -, -, h7, h8⟩ := C61_from_files hl rU_describes rU_complete rU_longNames blocks h1 h2 values h3 h4 hash
  refine ⟨X, ages, R, g, h5, h6, rows, t1, t2, _, h7, ?_⟩
  obtain ⟨e, he, hs⟩ := h8 0x41
  rw [if_pos (by decide)] at hs
  exact ⟨e, he, value_unique rU_complete.scriptsOne hs.script (Or.inl (by decide +kernel))⟩

end Verif.Props.Tg
