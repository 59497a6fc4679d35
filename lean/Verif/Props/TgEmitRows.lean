import Verif.Props.TgEmit
import Verif.Lemmas.TgPopulate
import Verif.Props.TgCompose
/-!
# C61: the rows the generator builds can be written

Whatever the parsed data, if the names in them are identifiers then every row is one that `C61_properties` covers.
-/

namespace Verif.Props.Tg

open Verif Verif.Tg
open Verif.Utf8 (Mem)
open Verif.Spec.Cxx (Ident Says)

/-! ## Flags are bytes -/

def Small (r : Rec) : Prop := r.flags < 256 ∧ r.flags2 < 256

theorem update_inv {P : Rec → Prop} {f : Rec → Rec} (hf : ∀ r, P r → P (f r)) {R R' : Records} {c : Nat} (hR : ∀ c, P (R c))
    (h : update f R c = .ok R') : ∀ c, P (R' c) := by
  unfold update at h
  by_cases hc : c < count
  · rw [if_pos hc] at h
    cases h
    intro d
    show P (if d = c then f (R d) else R d)
    by_cases hd : d = c
    · rw [if_pos hd]; exact hf _ (hR d)
    · rw [if_neg hd]; exact hR d
  · rw [if_neg hc] at h; cases h

theorem fillLoop_inv {P : Rec → Prop} {f : Rec → Rec} (hf : ∀ r, P r → P (f r)) (n : Nat) {R R' : Records} {c : Nat} (hR : ∀ c, P (R c))
    (h : fillLoop f n c R = .ok R') : ∀ c, P (R' c) := by
  induction n generalizing c R with
  | zero => cases h; exact hR
  | succ n ih =>
    unfold fillLoop at h
    cases hu : update f R c with
    | oob => rw [hu] at h; cases h
    | ok R1 => rw [hu] at h; exact ih (update_inv hf hR hu) h

theorem fillAll_inv {P : Rec → Prop} {f : PRange → Option (Rec → Rec)} (hf : ∀ r g, f r = some g → ∀ x, P x → P (g x)) (rs : List PRange)
    {R R' : Records} (hR : ∀ c, P (R c)) (h : fillAll f rs R = .ok R') : ∀ c, P (R' c) := by
  induction rs generalizing R with
  | nil => cases h; exact hR
  | cons r rs ih =>
    unfold fillAll at h
    cases hg : f r with
    | none => rw [hg] at h; exact ih hR h
    | some g =>
      rw [hg] at h
      cases hu : fillRange g r R with
      | oob => simp only [hu] at h; cases h
      | ok R1 => simp only [hu] at h; exact ih (fillLoop_inv (hf r g hg) _ hR hu) h

theorem fillGroups_inv {P : Rec → Prop} {f : Str → PRange → Option (Rec → Rec)} (hf : ∀ n r g, f n r = some g → ∀ x, P x → P (g x))
    (gs : List (Str × List PRange)) {R R' : Records} (hR : ∀ c, P (R c)) (h : fillGroups f gs R = .ok R') : ∀ c, P (R' c) := by
  induction gs generalizing R with
  | nil => cases h; exact hR
  | cons g gs ih =>
    obtain ⟨n, rs⟩ := g
    unfold fillGroups at h
    cases hu : fillAll (f n) rs R with
    | oob => simp only [hu] at h; cases h
    | ok R1 => simp only [hu] at h; exact ih (fillAll_inv (hf n) rs hR hu) h

theorem setBases_inv {P : Rec → Prop} (hf : ∀ r : Rec, P r → P { r with flags2 := r.flags2 ||| 0x01 }) (cps : List Nat)
    {R R' : Records} (hR : ∀ c, P (R c)) (h : setBases cps R = .ok R') : ∀ c, P (R' c) := by
  induction cps generalizing R with
  | nil => cases h; exact hR
  | cons c cps ih =>
    unfold setBases at h
    by_cases hc : c < count
    · rw [if_pos hc] at h
      cases hu : update (fun r => { r with flags2 := r.flags2 ||| 0x01 }) R c with
      | oob => simp only [hu] at h; cases h
      | ok R1 => simp only [hu] at h; exact ih (update_inv hf hR hu) h
    · rw [if_neg hc] at h; exact ih hR h

theorem seqMem_ok {α β : Type} {x : Mem α} {f : α → Mem β} {b : β} (h : seqMem x f = .ok b) : ∃ a, x = .ok a ∧ f a = .ok b := by
  cases x with
  | oob => cases h
  | ok a => exact ⟨a, rfl, h⟩

theorem or_small {a b : Nat} (ha : a < 256) (hb : b < 256) : a ||| b < 256 := Nat.or_lt_two_pow (n := 8) ha hb

theorem map_some {α : Type} {o : Option α} {f : α → Rec → Rec} {g : Rec → Rec} (h : o.map f = some g) : ∃ i, g = f i := by
  cases o with
  | none => cases h
  | some i => exact ⟨i, by cases h; rfl⟩

theorem opt_ite {P : Nat → Prop} {c : Prop} [Decidable c] {k : Nat} {o : Option Nat} (hk : P k) (ho : ∀ f, o = some f → P f) :
    ∀ f, (if c then some k else o) = some f → P f := by
  intro f h
  by_cases hc : c
  · rw [if_pos hc] at h; cases h; exact hk
  · rw [if_neg hc] at h; exact ho f h

theorem buildRecords_small (X : Indices) (I : Input) (R : Records) (h : buildRecords X I = .ok R) : ∀ c, Small (R c) := by
  unfold buildRecords at h
  obtain ⟨R1, h1, h⟩ := seqMem_ok h
  obtain ⟨R2, h2, h3⟩ := seqMem_ok h
  unfold populate at h1
  obtain ⟨A1, a1, h1⟩ := seqMem_ok h1
  obtain ⟨A2, a2, h1⟩ := seqMem_ok h1
  obtain ⟨A3, a3, h1⟩ := seqMem_ok h1
  obtain ⟨A4, a4, h1⟩ := seqMem_ok h1
  obtain ⟨A5, a5, h1⟩ := seqMem_ok h1
  obtain ⟨A6, a6, h1⟩ := seqMem_ok h1
  obtain ⟨A7, a7, h1⟩ := seqMem_ok h1
  obtain ⟨A8, a8, h1⟩ := seqMem_ok h1
  obtain ⟨A9, a9, h1⟩ := seqMem_ok h1
  obtain ⟨A10, a10, a11⟩ := seqMem_ok h1
  have b0 : ∀ c : Nat, Small ((fun _ => defaults X) c) := fun _ => ⟨show 0 < 256 by decide, show 0 < 256 by decide⟩
  have b1 := fillAll_inv (P := Small) (fun r g hg x hx => by obtain ⟨i, rfl⟩ := map_some hg; exact hx) _ b0 a1
  have b2 := fillGroups_inv (P := Small) (fun n r g hg x hx => by
    unfold setCore at hg
    by_cases hn : n = "Grapheme_Extend".toList
    · rw [if_pos hn] at hg; cases hg; exact ⟨or_small hx.1 (by decide), hx.2⟩
    · rw [if_neg hn] at hg; cases hg) _ b1 a2
  have b3 := fillAll_inv (P := Small) (fun r g hg x hx => by
    unfold setVirama at hg
    by_cases hn : r.property = "Virama".toList ∨ r.property = "Invisible_Stacker".toList
    · rw [if_pos hn] at hg; cases hg; exact ⟨or_small hx.1 (by decide), hx.2⟩
    · rw [if_neg hn] at hg; cases hg) _ b2 a3
  have b4 := setBases_inv (P := Small) (fun r hr => ⟨hr.1, or_small hr.2 (by decide)⟩) _ b3 a4
  have b5 := fillAll_inv (P := Small) (fun r g hg x hx => by
    unfold setAge at hg
    by_cases hn : ageName I.pvaAge r.property = []
    · rw [if_pos hn] at hg; cases hg
    · rw [if_neg hn] at hg; obtain ⟨i, rfl⟩ := map_some hg; exact hx) _ b4 a5
  have b6 := fillAll_inv (P := Small) (fun r g hg x hx => by obtain ⟨i, rfl⟩ := map_some hg; exact hx) _ b5 a6
  have b7 := fillGroups_inv (P := Small) (fun n r g hg x hx => by obtain ⟨i, rfl⟩ := map_some hg; exact hx) _ b6 a7
  have b8 := fillGroups_inv (P := Small) (fun n r g hg x hx => by obtain ⟨i, rfl⟩ := map_some hg; exact hx) _ b7 a8
  have b9 := fillGroups_inv (P := Small) (fun n r g hg x hx => by obtain ⟨i, rfl⟩ := map_some hg; exact hx) _ b8 a9
  have b10 := fillAll_inv (P := Small) (fun r g hg x hx => by obtain ⟨i, rfl⟩ := map_some hg; exact hx) _ b9 a10
  have hflag : ∀ n f, emojiFlag n = some f → f < 256 := fun n =>
    opt_ite (by decide) (opt_ite (by decide) (opt_ite (by decide) (opt_ite (by decide) (opt_ite (by decide) (opt_ite (by decide) fun _ h => nomatch h)))))
  have b11 := fillGroups_inv (P := Small) (fun n r g hg x hx => by
    unfold setEmoji at hg
    cases he : emojiFlag n with
    | none => rw [he] at hg; cases hg
    | some f => rw [he] at hg; cases hg; exact ⟨or_small hx.1 (hflag n f he), hx.2⟩) _ b10 a11
  have c1 : ∀ c, Small (widenPrepend X I.gcbs (derive X R1) c) := by
    intro c
    unfold widenPrepend
    cases mapFind X.gc "Format".toList with
    | none => exact b11 c
    | some f =>
      show Small (if _ then _ else _)
      split
      · exact b11 c
      · exact b11 c
  have c2 := update_inv (P := Small) (f := fun r => { r with width := 1 }) (fun r hr => hr) c1 h2
  exact fillAll_inv (P := Small) (fun r g hg x hx => by
    unfold setHangul at hg
    by_cases hn : r.property = "V".toList ∨ r.property = "T".toList
    · rw [if_pos hn] at hg; cases hg; exact hx
    · rw [if_neg hn] at hg; cases hg) _ c2 h3

/-! ## Names are names -/

def KeysAre (m : Map) : Prop := ∀ e ∈ m, Ident e.1

theorem keysAre_nil : KeysAre [] := by
  intro e he
  cases he

theorem mapSet_keys {m : Map} (h : KeysAre m) {k : Str} (hk : Ident k) (v : Nat) : KeysAre (mapSet k v m) := by
  induction m with
  | nil => intro e he; rw [mapSet] at he; rw [List.mem_singleton.1 he]; exact hk
  | cons x m ih =>
    obtain ⟨k', v'⟩ := x
    have hm : KeysAre m := fun e he => h e (List.mem_cons_of_mem _ he)
    have hx : Ident k' := h (k', v') (List.mem_cons_self ..)
    rw [mapSet]
    split
    · intro e he
      rcases List.mem_cons.1 he with rfl | he
      · exact hk
      · exact hm e he
    · split
      · intro e he
        rcases List.mem_cons.1 he with rfl | he
        · exact hk
        · exact h e he
      · intro e he
        rcases List.mem_cons.1 he with rfl | he
        · exact hx
        · exact ih hm e he

theorem pvaAdd_keys (vs : List Str) (hv : ∀ v ∈ vs, Ident v) (i : Nat) {m : Map} (h : KeysAre m) : KeysAre (pvaAdd vs i m) := by
  induction vs generalizing i m with
  | nil => exact h
  | cons v vs ih =>
    rw [pvaAdd]
    have hv' : ∀ x ∈ vs, Ident x := fun x hx => hv x (List.mem_cons_of_mem _ hx)
    split
    · exact ih hv' _ (mapSet_keys h (hv v (List.mem_cons_self ..)) _)
    · exact ih hv' _ h

theorem addAbbrevs_keys (al : List (Str × Str)) (ha : ∀ e ∈ al, Ident e.1) {m : Map} (h : KeysAre m) : KeysAre (addAbbrevs al m) := by
  induction al generalizing m with
  | nil => exact h
  | cons e al ih =>
    obtain ⟨ab, full⟩ := e
    rw [addAbbrevs]
    refine ih (fun x hx => ha x (List.mem_cons_of_mem _ hx)) ?_
    cases mapFind m full with
    | none => exact h
    | some i => exact mapSet_keys h (ha (ab, full) (List.mem_cons_self ..)) _

/-- both columns of a list of aliases are identifiers -/
def AliasesAre (al : List (Str × Str)) : Prop := ∀ e ∈ al, Ident e.1 ∧ Ident e.2

theorem pvaIndex_keys {al : List (Str × Str)} (ha : AliasesAre al) (first : Option Str) (hf : ∀ f, first = some f → Ident f) : KeysAre (pvaIndex al first) := by
  have hs : ∀ v ∈ sortStrs (al.map (·.2)), Ident v := by
    intro v hv
    rw [mem_sortStrs] at hv
    obtain ⟨e, he, rfl⟩ := List.mem_map.1 hv
    exact (ha e he).2
  unfold pvaIndex
  refine addAbbrevs_keys al (fun e he => (ha e he).1) ?_
  cases first with
  | none => exact pvaAdd_keys _ hs _ keysAre_nil
  | some f => exact pvaAdd_keys _ hs _ (mapSet_keys keysAre_nil (hf f rfl) _)

theorem reverseLookup_ident {m : Map} (h : KeysAre m) (v : Nat) {d : Str} (hd : Ident d) : Ident (reverseLookup m v d) := by
  have key : ∀ (l : Map) best, (best = [] ∨ Ident best) → (∀ e ∈ l, Ident e.1) →
      let b := l.foldl (fun best e => if e.2 = v ∧ e.1.length > best.length then e.1 else best) best
      b = [] ∨ Ident b := by
    intro l
    induction l with
    | nil => intro best hb _; exact hb
    | cons e l ih =>
      intro best hb hl
      rw [List.foldl_cons]
      refine ih _ ?_ fun x hx => hl x (List.mem_cons_of_mem _ hx)
      split
      · exact .inr (hl e (List.mem_cons_self ..))
      · exact hb
  unfold reverseLookup
  show Ident (if _ then _ else _)
  split
  · exact hd
  · rename_i hne
    exact (key m [] (.inl rfl) h).resolve_left hne

theorem getD_ident {l : List Str} (h : ∀ s ∈ l, Ident s) (i : Nat) {d : Str} (hd : Ident d) : Ident (l.getD i d) := by
  rw [List.getD_eq_getElem?_getD]
  cases hi : l[i]? with
  | none => exact hd
  | some s => exact h s (List.mem_of_getElem? hi)

theorem escName_ident (i : Int) : Ident (escName i) := by
  have ite : ∀ {c : Prop} [Decidable c] {a b : Str}, Ident a → Ident b → Ident (if c then a else b) := by
    intro c _ a b ha hb
    by_cases hc : c
    · rw [if_pos hc]; exact ha
    · rw [if_neg hc]; exact hb
  unfold escName
  repeat' refine ite (ident_of (by decide)) ?_
  exact ident_of (by decide)

/-- The names in the parsed data are identifiers (true of every Unicode version: letters, digits and underscores). -/
structure NamesOk (I : Input) (ages : List Str) : Prop where
  scripts : ∀ r ∈ I.scripts, Ident r.property
  gcats : ∀ r ∈ I.gcats, Ident r.property
  eaw : AliasesAre I.pvaEaw
  gcb : AliasesAre I.pvaGcb
  incb : AliasesAre I.pvaIncb
  wb : AliasesAre I.pvaWb
  ages : ∀ s ∈ ages, Ident s

/-- Every row the generator builds from such data can be written. -/
theorem rows_emittedOk {I : Input} {X : Indices} {ages : List Str} (hn : NamesOk I ages) (hX : indices I = some X) {R : Records}
    (hR : buildRecords X I = .ok R) (c : Nat) : EmittedOk (emit X I ages (R c)) := by
  unfold indices at hX
  cases hm : ageMembers I.pvaAge with
  | none => rw [hm] at hX; cases hX
  | some ms =>
    have hs := buildRecords_small X I R hR c
    rw [hm] at hX
    simp only [Option.map_some, Option.some.injEq] at hX
    subst hX
    have nf : ∀ f : Str, (none : Option Str) = some f → Ident f := by intro f h; cases h
    have uf : ∀ f : Str, some "Undefined".toList = some f → Ident f := by intro f h; cases h; exact ident_of (by decide)
    have hscr : ∀ s ∈ scriptNames (I.scripts.map (·.property)), Ident s := by
      intro s hs
      unfold scriptNames at hs
      rcases List.mem_cons.1 hs with rfl | hs
      · exact ident_of (by decide)
      rcases List.mem_cons.1 hs with rfl | hs
      · exact ident_of (by decide)
      rcases List.mem_cons.1 hs with rfl | hs
      · exact ident_of (by decide)
      have := (List.mem_filter.1 hs).1
      rw [mem_mkSet] at this
      obtain ⟨r, hr, rfl⟩ := List.mem_map.1 this
      exact hn.scripts r hr
    have hgc : ∀ s ∈ gcNames (I.gcats.map (·.property)), Ident s := by
      intro s hs
      unfold gcNames at hs
      rcases List.mem_cons.1 hs with rfl | hs
      · exact ident_of (by decide)
      rw [mem_mkSet] at hs
      obtain ⟨r, hr, rfl⟩ := List.mem_map.1 hs
      exact hn.gcats r hr
    have i1 := getD_ident hscr (R c).script (d := "Unknown".toList) (ident_of (by decide))
    have i2 := reverseLookup_ident (pvaIndex_keys hn.gcb _ uf) (R c).gcb (d := "Other".toList) (ident_of (by decide))
    have i3 := reverseLookup_ident (pvaIndex_keys hn.eaw _ nf) (R c).eaw (d := "Narrow".toList) (ident_of (by decide))
    have i4 := getD_ident hgc (R c).gc (d := "Unspecified".toList) (ident_of (by decide))
    have i5 := getD_ident hn.ages (R c).age (d := "Unassigned".toList) (ident_of (by decide))
    have i6 := reverseLookup_ident (pvaIndex_keys hn.incb _ nf) (R c).incb (d := "None".toList) (ident_of (by decide))
    have i7 := reverseLookup_ident (pvaIndex_keys hn.wb _ nf) (R c).wb (d := "Other".toList) (ident_of (by decide))
    exact { flags := hs.1, flags2 := hs.2, script := i1, gcb := i2, eaw := i3, gc := i4, esc := escName_ident _, age := i5, incb := i6, wb := i7 }

theorem idents_of {l : List Str} (h : l.all identB = true) : ∀ s ∈ l, Ident s := fun s hs => ident_of (List.all_eq_true.1 h s hs)

theorem pairs_of {l : List (Str × Str)} (h : l.all (fun e => identB e.1 && identB e.2) = true) : AliasesAre l := fun e he =>
  have := Bool.and_eq_true_iff.1 (List.all_eq_true.1 h e he)
  ⟨ident_of this.1, ident_of this.2⟩

/-- The whole path from the parsed data to the text: the file with the properties declares, as its third table, the rows of the
distinct records, and the two stages that lead to them. -/
theorem C61_generated {I : Input} {X : Indices} {ages : List Str} (hn : NamesOk I ages) (hX : indices I = some X) {R : Records}
    (hR : buildRecords X I = .ok R) (stage1 stage2 : List Nat) (h1 : ∀ v ∈ stage1, v < 2 ^ 64) (h2 : ∀ v ∈ stage2, v < 2 ^ 64) (cps : List Nat) :
    ∃ t1 t2, Fits t1 stage1 ∧ Fits t2 stage2 ∧
    Says (propertiesBody stage1 stage2 (cps.map fun c => emit X I ages (R c)))
      [.table t1 "stage1".toList (stage1.map .num), .table t2 "stage2".toList (stage2.map .num),
       .table "codepoint_properties".toList "properties".toList (cps.map fun c => propertyVal (emit X I ages (R c)))] := by
  obtain ⟨t1, t2, f1, f2, h⟩ := C61_properties stage1 stage2 (cps.map fun c => emit X I ages (R c)) h1 h2
    (by intro e he; obtain ⟨c, _, rfl⟩ := List.mem_map.1 he; exact rows_emittedOk hn hX hR c)
  refine ⟨t1, t2, f1, f2, ?_⟩
  rw [List.map_map] at h
  exact h

/-- The names of the small database of C49 are identifiers. -/
example : NamesOk sample ["Unassigned".toList, "V1_1".toList, "V10_0".toList] where
  scripts := fun r hr => idents_of (l := sample.scripts.map (·.property)) (by decide) _ (List.mem_map.2 ⟨r, hr, rfl⟩)
  gcats := fun r hr => idents_of (l := sample.gcats.map (·.property)) (by decide) _ (List.mem_map.2 ⟨r, hr, rfl⟩)
  eaw := pairs_of (by decide)
  gcb := pairs_of (by decide)
  incb := pairs_of (by decide)
  wb := pairs_of (by decide)
  ages := idents_of (by decide)

end Verif.Props.Tg
