import Verif.Lemmas.TgFill
/-!
# The record builder, codepoint by codepoint
-/

namespace Verif.Tg
open Verif.Utf8 (Mem)
open Verif.Spec.Ucd

/-- Key a grouped file by the value column / by the group name. -/
def byValue (_ : Str) (r : PRange) : Str := r.property
def byGroup (n : Str) (_ : PRange) : Str := n

def orFlags (m : Nat) (rec : Rec) : Rec := { rec with flags := rec.flags ||| m }

def coreIdx (v : Str) : Option Nat := if v = "Grapheme_Extend".toList then some 0x40 else none
def viramaIdx (v : Str) : Option Nat := if v = "Virama".toList ∨ v = "Invisible_Stacker".toList then some 0x80 else none
def ageIdx (X : Indices) (al : List (Str × Str)) (v : Str) : Option Nat :=
  if ageName al v = [] then none else mapFind X.age (ageName al v)
def hangulIdx (v : Str) : Option Nat := if v = "V".toList ∨ v = "T".toList then some 0 else none

def pScript (X : Indices) (I : Input) := runE (mapFind X.script) (fun i rec => { rec with script := i }) (ents I.scripts)
def pCore (I : Input) := runE coreIdx orFlags (gents byGroup I.core)
def pVirama (I : Input) := runE viramaIdx orFlags (ents (I.isc.map clip))
def pBases (I : Input) :=
  runE (fun _ => some 1) (fun m rec => { rec with flags2 := rec.flags2 ||| m }) (I.bases.map fun b => (b, b, []))
def pAge (X : Indices) (I : Input) := runE (ageIdx X I.pvaAge) (fun i rec => { rec with age := i }) (ents I.ages)
def pGc (X : Indices) (I : Input) := runE (mapFind X.gc) (fun i rec => { rec with gc := i }) (ents I.gcats)
def pGcb (X : Indices) (I : Input) := runE (mapFind X.gcb) (fun i rec => { rec with gcb := i }) (gents byValue I.gcbs)
def pIncb (X : Indices) (I : Input) := runE (mapFind X.incb) (fun i rec => { rec with incb := i }) (gents byGroup I.incbs)
def pWb (X : Indices) (I : Input) := runE (mapFind X.wb) (fun i rec => { rec with wb := i }) (gents byValue I.wbs)
def pEaw (X : Indices) (I : Input) := runE (mapFind X.eaw) (fun i rec => { rec with eaw := i }) (ents I.eaws)
def pEmoji (I : Input) := runE emojiFlag orFlags (gents byGroup I.emoji)
def pHangul (I : Input) := runE hangulIdx (fun i rec => { rec with width := i }) (ents I.hst)

/-- All passes on the record of one codepoint. -/
def P (X : Indices) (I : Input) (c : Nat) (rec : Rec) : Rec :=
  pEmoji I c <| pEaw X I c <| pWb X I c <| pIncb X I c <| pGcb X I c <| pGc X I c <| pAge X I c <| pBases I c <|
    pVirama I c <| pCore I c <| pScript X I c rec

/-- All data is about Unicode codepoints (C48: every line the parser accepts is). -/
structure Bounded (I : Input) : Prop where
  scripts : InRange (ents I.scripts)
  core : InRange (gents byGroup I.core)
  ages : InRange (ents I.ages)
  gcats : InRange (ents I.gcats)
  gcbs : InRange (gents byValue I.gcbs)
  incbs : InRange (gents byGroup I.incbs)
  wbs : InRange (gents byValue I.wbs)
  eaws : InRange (ents I.eaws)
  emoji : InRange (gents byGroup I.emoji)
  hst : InRange (ents I.hst)

theorem inRange_ents {rs : List PRange} (h : InRange (ents rs)) : ∀ r ∈ rs, r.last < count := by
  intro r hr
  have : r.last ≤ 0x10FFFF := h (r.first, r.last, r.property) (List.mem_map.2 ⟨r, hr, rfl⟩)
  unfold count; omega

theorem inRange_gents {key : Str → PRange → Str} {gs : List (Str × List PRange)} (h : InRange (gents key gs)) :
    ∀ g ∈ gs, ∀ r ∈ g.2, r.last < count := by
  intro g hg r hr
  have : r.last ≤ 0x10FFFF := h (r.first, r.last, key g.1 r)
    (List.mem_flatMap.2 ⟨g, hg, List.mem_map.2 ⟨r, hr, rfl⟩⟩)
  unfold count; omega

theorem populate_ok (X : Indices) (I : Input) (h : Bounded I) (R0 : Records) :
    ∃ R, populate X I R0 = .ok R ∧ ∀ c < count, R c = P X I c (R0 c) := by
  unfold populate
  rw [fillAll_ok (setScript X) (·.property) (mapFind X.script) (fun i rec => { rec with script := i }) (fun r => rfl) _
    (inRange_ents h.scripts)]
  simp only [seqMem]
  rw [fillGroups_ok setCore byGroup coreIdx orFlags (fun n r => by
    unfold setCore coreIdx byGroup; split <;> rfl) _ (inRange_gents h.core)]
  simp only
  rw [fillAll_ok setVirama (·.property) viramaIdx orFlags (fun r => by
    unfold setVirama viramaIdx; split <;> rfl) _ (by
      intro r hr
      obtain ⟨q, -, rfl⟩ := List.mem_map.1 hr
      show min q.last (count - 1) < count
      unfold count; omega)]
  simp only
  obtain ⟨R1, h1, h2⟩ := setBases_ok I.bases (fun c => runE viramaIdx orFlags ((I.isc.map clip).map fun r => (r.first, r.last, r.property)) c
    (runE coreIdx orFlags (gents byGroup I.core) c
      (runE (mapFind X.script) (fun i rec => { rec with script := i }) (I.scripts.map fun r => (r.first, r.last, r.property)) c (R0 c))))
  rw [h1]
  simp only
  rw [fillAll_ok (setAge X I.pvaAge) (·.property) (ageIdx X I.pvaAge) (fun i rec => { rec with age := i }) (fun r => by
    unfold setAge ageIdx; split <;> rfl) _ (inRange_ents h.ages)]
  simp only
  rw [fillAll_ok (setGc X) (·.property) (mapFind X.gc) (fun i rec => { rec with gc := i }) (fun r => rfl) _ (inRange_ents h.gcats)]
  simp only
  rw [fillGroups_ok (setGcb X) byValue (mapFind X.gcb) (fun i rec => { rec with gcb := i }) (fun n r => rfl) _ (inRange_gents h.gcbs)]
  simp only
  rw [fillGroups_ok (setIncb X) byGroup (mapFind X.incb) (fun i rec => { rec with incb := i }) (fun n r => rfl) _ (inRange_gents h.incbs)]
  simp only
  rw [fillGroups_ok (setWb X) byValue (mapFind X.wb) (fun i rec => { rec with wb := i }) (fun n r => rfl) _ (inRange_gents h.wbs)]
  simp only
  rw [fillAll_ok (setEaw X) (·.property) (mapFind X.eaw) (fun i rec => { rec with eaw := i }) (fun r => rfl) _ (inRange_ents h.eaws)]
  simp only
  rw [fillGroups_ok setEmoji byGroup emojiFlag orFlags (fun n r => rfl) _ (inRange_gents h.emoji)]
  refine ⟨_, rfl, fun c hc => ?_⟩
  show pEmoji I c (pEaw X I c (pWb X I c (pIncb X I c (pGcb X I c (pGc X I c (pAge X I c (R1 c))))))) = _
  rw [h2 c hc]
  rfl

/-! ## Fields that a pass leaves alone -/

section Pres
variable (X : Indices) (I : Input) (c : Nat) (rec : Rec)

theorem P_script : ∃ rec', rec'.script = rec.script ∧ (P X I c rec).script = (pScript X I c rec').script := by
  refine ⟨rec, rfl, ?_⟩
  unfold P pEmoji pEaw pWb pIncb pGcb pGc pAge pBases pVirama pCore
  iterate 10 rw [runE_pres Rec.script _ _ (by intros; rfl)]

theorem P_age : ∃ rec', rec'.age = rec.age ∧ (P X I c rec).age = (pAge X I c rec').age := by
  refine ⟨pBases I c <| pVirama I c <| pCore I c <| pScript X I c rec, ?_, ?_⟩
  · unfold pBases pVirama pCore pScript
    iterate 4 rw [runE_pres Rec.age _ _ (by intros; rfl)]
  · unfold P pEmoji pEaw pWb pIncb pGcb pGc
    iterate 6 rw [runE_pres Rec.age _ _ (by intros; rfl)]

theorem P_gc : ∃ rec', rec'.gc = rec.gc ∧ (P X I c rec).gc = (pGc X I c rec').gc := by
  refine ⟨pAge X I c <| pBases I c <| pVirama I c <| pCore I c <| pScript X I c rec, ?_, ?_⟩
  · unfold pAge pBases pVirama pCore pScript
    iterate 5 rw [runE_pres Rec.gc _ _ (by intros; rfl)]
  · unfold P pEmoji pEaw pWb pIncb pGcb
    iterate 5 rw [runE_pres Rec.gc _ _ (by intros; rfl)]

theorem P_gcb : ∃ rec', rec'.gcb = rec.gcb ∧ (P X I c rec).gcb = (pGcb X I c rec').gcb := by
  refine ⟨pGc X I c <| pAge X I c <| pBases I c <| pVirama I c <| pCore I c <| pScript X I c rec, ?_, ?_⟩
  · unfold pGc pAge pBases pVirama pCore pScript
    iterate 6 rw [runE_pres Rec.gcb _ _ (by intros; rfl)]
  · unfold P pEmoji pEaw pWb pIncb
    iterate 4 rw [runE_pres Rec.gcb _ _ (by intros; rfl)]

theorem P_incb : ∃ rec', rec'.incb = rec.incb ∧ (P X I c rec).incb = (pIncb X I c rec').incb := by
  refine ⟨pGcb X I c <| pGc X I c <| pAge X I c <| pBases I c <| pVirama I c <| pCore I c <| pScript X I c rec, ?_, ?_⟩
  · unfold pGcb pGc pAge pBases pVirama pCore pScript
    iterate 7 rw [runE_pres Rec.incb _ _ (by intros; rfl)]
  · unfold P pEmoji pEaw pWb
    iterate 3 rw [runE_pres Rec.incb _ _ (by intros; rfl)]

theorem P_wb : ∃ rec', rec'.wb = rec.wb ∧ (P X I c rec).wb = (pWb X I c rec').wb := by
  refine ⟨pIncb X I c <| pGcb X I c <| pGc X I c <| pAge X I c <| pBases I c <| pVirama I c <| pCore I c <|
    pScript X I c rec, ?_, ?_⟩
  · unfold pIncb pGcb pGc pAge pBases pVirama pCore pScript
    iterate 8 rw [runE_pres Rec.wb _ _ (by intros; rfl)]
  · unfold P pEmoji pEaw
    iterate 2 rw [runE_pres Rec.wb _ _ (by intros; rfl)]

theorem P_eaw : ∃ rec', rec'.eaw = rec.eaw ∧ (P X I c rec).eaw = (pEaw X I c rec').eaw := by
  refine ⟨pWb X I c <| pIncb X I c <| pGcb X I c <| pGc X I c <| pAge X I c <| pBases I c <| pVirama I c <| pCore I c <|
    pScript X I c rec, ?_, ?_⟩
  · unfold pWb pIncb pGcb pGc pAge pBases pVirama pCore pScript
    iterate 9 rw [runE_pres Rec.eaw _ _ (by intros; rfl)]
  · unfold P pEmoji
    rw [runE_pres Rec.eaw _ _ (by intros; rfl)]

theorem P_flags2 : (P X I c rec).flags2 = (pBases I c { (P X I c rec) with flags2 := rec.flags2 }).flags2 := by
  have hb : ∀ r r' : Rec, r.flags2 = r'.flags2 → (pBases I c r).flags2 = (pBases I c r').flags2 := by
    unfold pBases
    generalize (I.bases.map fun b => ((b, b, []) : Entry)) = es
    induction es with
    | nil => intro r r' h; exact h
    | cons e es ih =>
      intro r r' h
      apply ih
      unfold stepE
      split
      · show r.flags2 ||| 1 = r'.flags2 ||| 1
        rw [h]
      · exact h
  have h1 : (P X I c rec).flags2 = (pBases I c <| pVirama I c <| pCore I c <| pScript X I c rec).flags2 := by
    unfold P pEmoji pEaw pWb pIncb pGcb pGc pAge
    iterate 7 rw [runE_pres Rec.flags2 _ _ (by intros; rfl)]
  rw [h1]
  apply hb
  unfold pVirama pCore pScript
  iterate 3 rw [runE_pres Rec.flags2 _ _ (by intros; rfl)]

theorem P_flags (b : Nat) : (P X I c rec).flags.testBit b = true ↔ rec.flags.testBit b = true ∨
    (∃ v m, Assigns (gents byGroup I.core) c v ∧ coreIdx v = some m ∧ m.testBit b = true) ∨
    (∃ v m, Assigns (ents (I.isc.map clip)) c v ∧ viramaIdx v = some m ∧ m.testBit b = true) ∨
    (∃ v m, Assigns (gents byGroup I.emoji) c v ∧ emojiFlag v = some m ∧ m.testBit b = true) := by
  unfold P pEmoji
  rw [runE_flags Rec.flags _ _ (by intros; rfl)]
  unfold pEaw pWb pIncb pGcb pGc pAge pBases
  iterate 7 rw [runE_pres Rec.flags _ _ (by intros; rfl)]
  unfold pVirama
  rw [runE_flags Rec.flags _ _ (by intros; rfl)]
  unfold pCore
  rw [runE_flags Rec.flags _ _ (by intros; rfl)]
  unfold pScript
  rw [runE_pres Rec.flags _ _ (by intros; rfl), or_assoc, or_assoc]

theorem P_width : (P X I c rec).width = rec.width := by
  unfold P pEmoji pEaw pWb pIncb pGcb pGc pAge pBases pVirama pCore pScript
  iterate 11 rw [runE_pres Rec.width _ _ (by intros; rfl)]

end Pres

/-! ## The whole construction -/

/-- The record of codepoint `c` when `buildRecords` is done. -/
def final (X : Indices) (I : Input) (c : Nat) : Rec :=
  pHangul I c
    (if c = 0xAD then { widenPrepend X I.gcbs (derive X fun c => P X I c (defaults X)) c with width := 1 }
     else widenPrepend X I.gcbs (derive X fun c => P X I c (defaults X)) c)

theorem derive_congr (X : Indices) (R R' : Records) (c : Nat) (h : R c = R' c) : derive X R c = derive X R' c := by
  unfold derive; rw [h]

theorem widenPrepend_congr (X : Indices) (gs : List (Str × List PRange)) (R R' : Records) (c : Nat) (h : R c = R' c) :
    widenPrepend X gs R c = widenPrepend X gs R' c := by
  unfold widenPrepend
  cases mapFind X.gc "Format".toList with
  | none => exact h
  | some f => simp only; rw [h]

theorem buildRecords_ok (X : Indices) (I : Input) (h : Bounded I) :
    ∃ R, buildRecords X I = .ok R ∧ ∀ c < count, R c = final X I c := by
  obtain ⟨R1, h1, h2⟩ := populate_ok X I h (fun _ => defaults X)
  unfold buildRecords
  rw [h1]
  simp only [seqMem]
  unfold update
  rw [if_pos (by decide)]
  simp only
  rw [fillAll_ok setHangul (·.property) hangulIdx (fun i rec => { rec with width := i }) (fun r => by
    unfold setHangul hangulIdx; split <;> rfl) _ (inRange_ents h.hst)]
  refine ⟨_, rfl, fun c hc => ?_⟩
  unfold final pHangul
  show runE _ _ (ents I.hst) c _ = _
  rw [widenPrepend_congr X I.gcbs _ _ c (derive_congr X R1 (fun c => P X I c (defaults X)) c (h2 c hc))]

end Verif.Tg
