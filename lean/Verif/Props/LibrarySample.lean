import Verif.Props.Library
import Verif.Props.TgEnumsSample
/-!
# C56: the small database is usable
-/

namespace Verif.Props.Tg
open Verif.Utf8 (Mem)
open Verif.Tg
open Verif.Ucd
open Verif.Spec Verif.Spec.Ucd Verif.Spec.UcdFile
open Verif.Tables (Gen get generate propertiesShape)

theorem named_cases {es : List Entry} {l : List (Str × Str)} {d f : Str} {c : Nat} (h : NamedValueOf es l d c f) :
    (∃ e ∈ es, (e.1 ≤ c ∧ c ≤ e.2.1) ∧ ∃ p ∈ l, f = p.2 ∧ (e.2.2 = p.1 ∨ e.2.2 = p.2)) ∨
      ((∀ e ∈ es, ¬ (e.1 ≤ c ∧ c ≤ e.2.1)) ∧ f = d) := by
  rcases h with ⟨v, ⟨e, he, h1, h2, rfl⟩, hn⟩ | ⟨h1, h2⟩
  · left
    refine ⟨e, he, ⟨h1, h2⟩, ?_⟩
    rcases hn with hn | ⟨hn, a, ha⟩
    · exact ⟨_, hn, rfl, Or.inl rfl⟩
    · exact ⟨_, ha, rfl, Or.inr hn⟩
  · exact Or.inr ⟨fun e he hc => h1 e.2.2 ⟨e, he, hc.1, hc.2, rfl⟩, h2⟩

/-- A check of all values of a property and the ranges they are assigned to. -/
def checkNamed (es : List Entry) (l : List (Str × Str)) (q : Entry → Str → Bool) : Bool :=
  es.all fun e => l.all fun p => (!(decide (e.2.2 = p.1) || decide (e.2.2 = p.2))) || q e p.2

theorem checkNamed_ok {es l q} (h : checkNamed es l q = true) {e : Entry} {p : Str × Str} (he : e ∈ es) (hp : p ∈ l)
    (hm : e.2.2 = p.1 ∨ e.2.2 = p.2) : q e p.2 = true := by
  have := List.all_eq_true.1 (List.all_eq_true.1 h e he) p hp
  simp only [Bool.or_eq_true, Bool.not_eq_true', Bool.or_eq_false_iff, decide_eq_false_iff_not] at this
  tauto

/-- No overlap. -/
def apart (e e' : Entry) : Bool := decide (e.2.1 < e'.1) || decide (e'.2.1 < e.1)

theorem apart_ok {e e' : Entry} {c : Nat} (h : apart e e' = true) (h1 : e.1 ≤ c ∧ c ≤ e.2.1) (h2 : e'.1 ≤ c ∧ c ≤ e'.2.1) : False := by
  simp only [apart, Bool.or_eq_true, decide_eq_true_eq] at h
  omega

def mem? (s : Str) (l : List String) : Bool := decide (s ∈ l.map String.toList)

theorem rU_pict {c : Nat} (h : Assigns rU.emoji c "Extended_Pictographic".toList) : 0x1F600 ≤ c ∧ c ≤ 0x1F64F := by
  obtain ⟨e, he, h1, h2, h3⟩ := h
  have key : ∀ e ∈ rU.emoji, e.2.2 = "Extended_Pictographic".toList → e.1 = 0x1F600 ∧ e.2.1 = 0x1F64F := by decide +kernel
  have := key e he h3
  omega

theorem known_of {α : Type} {name : α → String} {al : List (Str × Str)} {d : Str} (all : List α)
    (h : (d :: al.map (·.2)).all (fun f => all.any fun g => decide ((name g).toList = f)) = true) {es : List Entry} {c : Nat} {f : Str}
    (hv : NamedValueOf es al d c f) : ∃ g, (name g).toList = f := by
  have hm : f ∈ d :: al.map (·.2) := by
    rcases named_cases hv with ⟨e, -, -, p, hp, rfl, -⟩ | ⟨-, rfl⟩
    · exact List.mem_cons_of_mem _ (List.mem_map.2 ⟨p, hp, rfl⟩)
    · exact List.mem_cons_self
  obtain ⟨g, -, hg⟩ := List.any_eq_true.1 (List.all_eq_true.1 h f hm)
  exact ⟨g, of_decide_eq_true hg⟩

theorem rU_incb_named {c : Nat} {r : Row} (h : Row.Says rU rN c r) : NamedValueOf rIncb rN.incb "None".toList c r.incb := by
  rcases h.incb with ⟨v, h1, h2⟩ | ⟨h1, h2⟩
  · exact Or.inl ⟨v, (rU_incb c v).1 h1, h2⟩
  · exact Or.inr ⟨fun w hw => h1 w ((rU_incb c w).2 hw), h2⟩

theorem rU_gc_cases {c : Nat} {r : Row} (h : Row.Says rU rN c r) :
    (∃ e ∈ allOf rU.gc, (e.1 ≤ c ∧ c ≤ e.2.1) ∧ (e.2.2, r.gc) ∈ rN.gc) ∨ r.gc = "Unassigned".toList := by
  rcases h.gc with ⟨ab, ⟨e, he, h1, h2, rfl⟩, hg⟩ | ⟨-, h2⟩
  · exact Or.inl ⟨e, he, ⟨h1, h2⟩, hg⟩
  · exact Or.inr h2

theorem rU_usable : Usable rU rN := by
  intro c _ r h
  have hG := named_cases h.gcb
  have hI := named_cases (rU_incb_named h)
  have hW := named_cases h.wb
  have hE := named_cases h.eaw
  refine ⟨known_of gcbAll (by decide +kernel) h.gcb, known_of incbAll (by decide +kernel) (rU_incb_named h),
    known_of wbAll (by decide +kernel) h.wb, ?_, ?_, ?_, ?_, ?_, ?_, ?_, ?_⟩
  · have key : ∀ f ∈ "Unassigned".toList :: rN.gc.map (·.2), ∃ g ∈ gcAll, (gcName g).toList = f := by decide +kernel
    rcases rU_gc_cases h with ⟨e, -, -, hg⟩ | hg
    · obtain ⟨g, -, hg⟩ := key r.gc (List.mem_cons_of_mem _ (List.mem_map.2 ⟨_, hg, rfl⟩))
      exact ⟨g, hg⟩
    · obtain ⟨g, -, hg⟩ := key r.gc (by rw [hg]; exact List.mem_cons_self)
      exact ⟨g, hg⟩
  · intro hc
    refine ⟨?_, ?_, ?_⟩
    · rcases hG with ⟨e, he, h1, p, hp, h2, hm⟩ | ⟨-, h2⟩
      · rw [h2]
        have := checkNamed_ok (q := fun e f => decide (128 ≤ e.1) || mem? f ["Other", "CR", "LF", "Control"]) (by decide +kernel) he hp hm
        rw [Bool.or_eq_true] at this
        rcases this with h3 | h3
        · have := of_decide_eq_true h3; omega
        · exact of_decide_eq_true h3
      · rw [h2]; decide
    · rcases hI with ⟨e, he, h1, -⟩ | ⟨-, h2⟩
      · have key : ∀ e ∈ rIncb, 128 ≤ e.1 := by decide +kernel
        have := key e he
        omega
      · exact h2
    · rw [Bool.eq_false_iff]
      intro hp
      have := rU_pict (h.pictographic.1 hp)
      omega
  · intro h1 h2
    have hg : r.gcb = "Other".toList := by
      rcases hG with ⟨e, he, h3, -⟩ | ⟨-, h4⟩
      · have key : ∀ e ∈ allOf rU.gcb, 0x7F ≤ e.1 ∨ e.2.1 < 0x20 := by decide +kernel
        have := key e he
        omega
      · exact h4
    refine ⟨hg, ?_⟩
    have k1 : ∀ v, ¬ Assigns rU.hst c v := by
      rintro v ⟨e, he, h3, -⟩
      have key : ∀ e ∈ rU.hst, 0x7F ≤ e.1 := by decide +kernel
      have := key e he
      omega
    have k2 : ¬ Assigns rU.emoji c "Emoji_Presentation".toList := by
      rintro ⟨e, he, h3, -, h4⟩
      have key : ∀ e ∈ rU.emoji, e.2.2 = "Emoji_Presentation".toList → 0x7F ≤ e.1 := by decide +kernel
      have := key e he h4
      omega
    have k3 : r.gc ∉ zeroWidthCategories.map String.toList := by
      rcases rU_gc_cases h with ⟨e, he, h3, hg⟩ | hg
      · have key : ∀ e ∈ allOf rU.gc, (0x7F ≤ e.1 ∨ e.2.1 < 0x20) ∨ ∀ p ∈ rN.gc, p.1 = e.2.2 → p.2 ∉ zeroWidthCategories.map String.toList := by
          decide +kernel
        rcases key e he with h4 | h4
        · omega
        · exact h4 _ hg rfl
      · rw [hg]; decide
    have k4 : ¬ (r.gc = "Format".toList ∧ Assigns (allOf rU.gcb) c "Prepend".toList) := fun h => k3 (by rw [h.1]; decide)
    have k5 : ¬ (r.eaw = "Wide".toList ∨ r.eaw = "Fullwidth".toList) := by
      rcases hE with ⟨e, he, h3, p, hp, h5, hm⟩ | ⟨-, h4⟩
      · have := checkNamed_ok (es := rU.eaw) (l := rN.eaw)
          (q := fun e f => (decide (0x7F ≤ e.1) || decide (e.2.1 < 0x20)) || !(decide (f = "Wide".toList) || decide (f = "Fullwidth".toList)))
          (by decide +kernel) he hp hm
        simp only [Bool.or_eq_true, decide_eq_true_eq, Bool.not_eq_true', Bool.or_eq_false_iff, decide_eq_false_iff_not] at this
        rw [h5]
        rcases this with h6 | h6
        · omega
        · exact not_or.2 h6
      · rw [h4]; decide
    rw [h.width, if_neg (by rintro (h | h) <;> exact k1 _ h), if_neg (by omega), if_neg k4, if_neg k3, if_neg k2, if_neg k5]
  · intro hm
    rcases hG with ⟨e, he, h1, p, hp, h2, hm'⟩ | ⟨-, h2⟩
    · have := checkNamed_ok (es := allOf rU.gcb) (l := rN.gcb) (q := fun e f => decide (e.2.1 < 128) || !(mem? f ["CR", "LF"])) (by decide +kernel) he hp hm'
      rw [Bool.or_eq_true] at this
      rcases this with h3 | h3
      · have := of_decide_eq_true h3; omega
      · rw [h2] at hm
        rw [mem?, decide_eq_true hm] at h3
        exact absurd h3 (by decide)
    · rw [h2] at hm; exact absurd hm (by decide)
  · intro hm
    rcases hI with ⟨e, he, h1, p, hp, h2, hm'⟩ | ⟨-, h2⟩
    · have k := checkNamed_ok (es := rIncb) (l := rN.incb) (q := fun e f => !(mem? f ["Extend", "Linker"]) ||
          ((allOf rU.gcb).any (fun e' => decide (e'.1 ≤ e.1) && decide (e.2.1 ≤ e'.2.1)) &&
            checkNamed (allOf rU.gcb) rN.gcb fun e' f' => apart e e' || mem? f' ["Extend", "ZWJ", "SpacingMark"])) (by decide +kernel) he hp hm'
      rw [h2] at hm
      rw [mem?, decide_eq_true hm] at k
      rw [Bool.not_true, Bool.false_or, Bool.and_eq_true] at k
      obtain ⟨k1, k2⟩ := k
      obtain ⟨e', he', k3⟩ := List.any_eq_true.1 k1
      rw [Bool.and_eq_true, decide_eq_true_eq, decide_eq_true_eq] at k3
      rcases hG with ⟨e2, he2, h5, p2, hp2, h6, hm2⟩ | ⟨h5, -⟩
      · have := checkNamed_ok k2 he2 hp2 hm2
        rw [Bool.or_eq_true] at this
        rcases this with h7 | h7
        · exact (apart_ok h7 h1 h5).elim
        · rw [h6]; exact of_decide_eq_true h7
      · exact absurd ⟨by omega, by omega⟩ (h5 e' he')
    · rw [h2] at hm; exact absurd hm (by decide)
  · intro hm
    rcases hI with ⟨e, he, h1, p, hp, h2, hm'⟩ | ⟨-, h2⟩
    · have k := checkNamed_ok (es := rIncb) (l := rN.incb) (q := fun e f => !(decide (f = "Consonant".toList)) ||
            checkNamed (allOf rU.gcb) rN.gcb fun e' f' => apart e e' || !(mem? f' ["Control", "CR", "LF", "Regional_Indicator"])) (by decide +kernel) he hp hm'
      rw [h2] at hm
      rw [decide_eq_true hm, Bool.not_true, Bool.false_or] at k
      rcases hG with ⟨e2, he2, h5, p2, hp2, h6, hm2⟩ | ⟨-, h5⟩
      · have := checkNamed_ok k he2 hp2 hm2
        rw [Bool.or_eq_true] at this
        rcases this with h7 | h7
        · exact (apart_ok h7 h1 h5).elim
        · rw [h6]; exact of_decide_eq_false (by simpa [mem?] using h7)
      · rw [h5]; decide
    · rw [h2] at hm; exact absurd hm (by decide)
  · intro hp
    have hc := rU_pict (h.pictographic.1 hp)
    constructor
    · rcases hG with ⟨e, he, h3, -⟩ | ⟨-, h4⟩
      · have key : ∀ e ∈ allOf rU.gcb, e.2.1 < 0x1F600 := by decide +kernel
        have := key e he
        omega
      · exact h4
    · rcases hW with ⟨e, he, h3, -⟩ | ⟨-, h4⟩
      · have key : ∀ e ∈ allOf rU.wb, e.2.1 < 0x1F600 := by decide +kernel
        have := key e he
        omega
      · rw [h4]; decide
  · intro hc
    subst hc
    have k1 : ¬ Assigns (allOf rU.gcb) 0x200D "Prepend".toList := by decide +kernel
    have k2 : r.gc = "Format".toList := by
      rcases h.gc with ⟨ab, h4, h5⟩ | ⟨h4, -⟩
      · have : Assigns (allOf rU.gc) 0x200D "Cf".toList := by decide +kernel
        rw [rU_complete.gcOne _ _ _ h4 this] at h5
        exact rU_complete.gcOk _ _ _ h5 (show ("Cf".toList, "Format".toList) ∈ rN.gc by decide +kernel)
      · exact absurd (show Assigns (allOf rU.gc) 0x200D "Cf".toList by decide +kernel) (h4 _)
    rw [h.width]
    split
    · rfl
    · rw [if_neg (by decide), if_neg (fun h => k1 h.2), if_pos (by rw [k2]; decide)]

/-- C56 applies to the small database. -/
theorem sample_table {D : Db} (hl : Loads (filesOf rU) D) (hash : List Rec → Nat) :
    ∃ X ages R g, Built (inputOf D) X ages R ∧ generate propertiesShape hash ((List.range 0x110000).map R) = .ok g ∧
      Shows rU rN (compiledTable D { stage1 := g.stage1, stage2 := g.stage2, stage3 := g.stage3.map (emit X (inputOf D) ages) }) := by
  obtain ⟨X, ages, R, g, h1, h2, h3⟩ := sample_lookup hl hash
  refine ⟨X, ages, R, g, h1, h2, fun c => ?_⟩
  obtain ⟨e, he, hs⟩ := h3 c
  refine ⟨rowOf e, hs, ?_⟩
  unfold compiledTable
  rw [he]
  exact compile_shown hs (rU_usable _ (by split <;> omega) _ hs)

/-- What the files say about a codepoint, from any row. -/
theorem sample_row {T : Table} (h : Shows rU rN T) (c : Nat) (hc : c ≤ 0x10FFFF) {r : Row} (hr : Row.Says rU rN c r) : Row.Shown r (T c) := by
  obtain ⟨r', h1, h2⟩ := h c
  rw [if_pos hc] at h1
  rw [C54_unique rU_complete hr h1]
  exact h2

theorem sample_gcb {T : Table} (h : Shows rU rN T) (c : Nat) (hc : c ≤ 0x10FFFF) (g : GCB)
    (hg : NamedValueOf (allOf rU.gcb) rN.gcb "Other".toList c (gcbName g).toList) : (T c).gcb = g := by
  obtain ⟨r, h1, h2⟩ := h c
  rw [if_pos hc] at h1
  apply gcb_inj
  rw [h2.gcb]
  exact named_unique rU_complete.gcbOne rU_complete.gcbOk h1.gcb hg

/-- The library generated from the small database keeps `e` and U+0301 together, whatever follows. -/
example {T : Table} (h : Shows rU rN T) (post : List Nat) : ¬ SegBoundary (Grapheme.clusters T ([0x65] ++ 0x301 :: post)) [0x65] := by
  rw [(C56_graphemes rU_usable h [0x65] 0x301 post (by simp)).1]
  have h1 : (T 0x301).gcb = .Extend :=
    sample_gcb h 0x301 (by decide) .Extend (Or.inl ⟨"Extend".toList, by decide +kernel, by decide +kernel⟩)
  have h0 : (T 0x65).gcb = .Other := ((shows_ok rU_usable h).2.2.2 0x65 (by decide) (by decide)).1
  rintro ⟨p, a, hp, -, h3 | h3 | h3⟩
  · have ha : a = 0x65 := by
      have := congrArg List.getLast? hp
      simpa using this.symm
    unfold GB.gb4 at h3
    rw [ha, h0] at h3
    exact absurd h3 (by decide)
  · unfold GB.gb5 at h3; rw [h1] at h3; exact absurd h3 (by decide)
  · exact h3 (by unfold GB.gb9; tauto)

/-! ## Scripts -/

theorem eU_scripts : ScriptFiles eU scripts3 where
  plain := ⟨words_of (by decide +kernel), by decide +kernel, by decide, by decide⟩
  aliases := by decide +kernel
  functional := functional_of (by decide +kernel)
  words := eU_words
  separate := by decide +kernel
  some := by decide
  size := by decide
  proper := by
    rintro c n m - - ⟨v, ws, w, -, -, -, hm⟩
    have key : ∀ p ∈ scripts3, p.2 ∉ ["Common", "Inherited", "Invalid"].map String.toList := by
      decide +kernel
    exact key _ hm

/-- C56 applies: a run with a Devanagari letter is labelled Devanagari, since that letter has no extensions. -/
example {D : Db} (hl : Loads (filesOf eU) D) (text : List Nat) (h : 0x915 ∈ text) :
    ∃ m segs, Script.runs (compiledScripts D m) text = endsOf 0 segs ∧ ∃ x ∈ segs, 0x915 ∈ x.2 ∧
      x.1 = scriptOf (scriptEnum D) "Devanagari".toList := by
  obtain ⟨m, -, segs, h1, h2, h3⟩ := C56_scripts hl eU_describes eU_complete.titles eU_scripts text
  have hin : 0x915 ∈ (segs.map Prod.snd).flatten := by rw [h2.concat]; exact h
  obtain ⟨s, hs, hc⟩ := List.mem_flatten.1 hin
  obtain ⟨x, hx, rfl⟩ := List.mem_map.1 hs
  have hd : ScriptIs eU 0x915 "Devanagari".toList := Or.inl (by decide +kernel)
  obtain ⟨l, hl1, hl2⟩ := h3 x hx _ hc _ hd (by unfold Proper; decide)
  refine ⟨m, segs, h1, x, hx, hc, ?_⟩
  rcases hl2 with hl2 | ⟨v, ws, w, hv, -⟩
  · rw [hl1, value_unique eU_complete.scriptsOne hl2 hd]
  · obtain ⟨e, he, h4, h5, -⟩ := hv
    have key : ∀ e ∈ eU.sce, ¬ (e.1 ≤ 0x915 ∧ 0x915 ≤ e.2.1) := by decide +kernel
    exact absurd ⟨h4, h5⟩ (key e he)

end Verif.Props.Tg
