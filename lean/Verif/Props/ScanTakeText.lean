import Verif.Lemmas.ScanTakeText
/-!
# Property C45: what each call in a sequence of calls counts, exactly
-/

namespace Verif.Props.Scan
open Verif.Scan Verif.Ucd Verif.Utf8 Verif.Grapheme Verif.Width Verif.Toy Verif.Spec.GB Verif.Spec Verif.Scan.Take

/-- The machine from the beginning. -/
theorem ran_init {U : Table} (D : DataOk U) (W : WidthOk U) (A : AsciiOk U) (V : VariationOk U) (l : List Nat) (hl : l ≠ []) (hsc : Scannable l) :
    ∃ st P p k, mRun U (State.init U) (toUtf8Str l) = (st, k, []) ∧ Opened U st p ∧ splitText U l = P ++ [p] ∧
      ∀ es, splitText U (l ++ es) = P ++ scanSplit U st.g p es := by
  obtain ⟨c, cs, rfl⟩ := List.exists_cons_of_ne_nil hl
  obtain ⟨hlo, hdel, hhi⟩ := hsc c (by simp)
  have hsc' : Scannable cs := fun x hx => hsc x (by simp [hx])
  obtain ⟨st1, k0, r1, ho, hg⟩ : ∃ st1 k0, mRun U (State.init U) (toUtf8 c) = (st1, k0, []) ∧ Opened U st1 [c] ∧ st1.g = processInit U c := by
    by_cases hlt : c < 0x80
    · have hc1 : 0x20 ≤ c ∧ c < 0x7F := by omega
      exact ⟨_, _, (run_ascii U (State.init U) 0 rfl c hc1.1 hc1.2).1,
        ⟨rfl, by show c ≠ 0; omega, rfl, (push_ascii_width W A c hc1.1 hc1.2).symm⟩, rfl⟩
    · obtain ⟨u, k0, hu, r1, -, -⟩ := run_char U (State.init U) 0 rfl c (by omega) hhi
      have hbk : isBreakable U { State.init U with utf8 := u } c = (processInit U c, true) := rfl
      unfold mSuccess at r1
      rw [hbk, if_pos rfl] at r1
      exact ⟨_, _, r1, ⟨hu, by show c ≠ 0; omega, rfl, rfl⟩, rfl⟩
  obtain ⟨st, q, p, Y, Q, h⟩ := ran D W A V cs st1 0 st1.reported [c] ho rfl hsc'
  obtain ⟨k, hk⟩ := h.run
  refine ⟨st, Y, p, k0 + k, by rw [str_cons, mRun_append U _ _ _ _ _ r1, hk], h.opened, ?_, fun es => ?_⟩
  · show scanSplit U (processInit U c) [c] cs = _
    rw [← hg]; exact h.last
  · show scanSplit U (processInit U c) [c] (cs ++ es) = _
    rw [← hg]; exact h.more es

/-- **C45 (exact).**  A text without control characters has been scanned in any number of calls (cut anywhere); `l` is what was scanned so far and
`ds` the text of the next call.  `cls` are the characters of `l`, `cls'` those of `l ++ ds`, as the scanner sees them.  Then the characters of `l` but
the last one, `p`, are those of `l ++ ds`, `p` grows by some `q` at the beginning of `ds`, and characters `Q` follow.  The call reaches the
end of `ds` and counts the widths of `Q` plus what `p` grew by above the smallest width it had on the way: what an earlier call has counted is
not taken back. -/
theorem C45_resumed {U : Table} (D : DataOk U) (W : WidthOk U) (A : AsciiOk U) (V : VariationOk U) (v : Variant) (w : Nat)
    (chunks : List (List Nat)) (l ds : List Nat) (hl : l ≠ []) (hsc : Scannable (l ++ ds)) (hcut : chunks.flatten = toUtf8Str l)
    (n : Nat) (st : State) (h : Scanned U v w (State.init U) chunks n st)
    (pre : List Nat) (max : Nat) (hmax : 3 * (toUtf8Str ds).length + 2 ≤ max) (R : Out)
    (hR : scanText U v w st none pre (toUtf8Str ds) max = .ok R)
    (cls cls' : List (List Nat)) (hp : Partition cls l) (hp' : Partition cls' (l ++ ds))
    (hb : ∀ a b post, a ≠ [] → l = a ++ b :: post → (SegBoundary cls a ↔ ScanBorder U a b))
    (hb' : ∀ a b post, a ≠ [] → l ++ ds = a ++ b :: post → (SegBoundary cls' a ↔ ScanBorder U a b)) :
    R.next = (toUtf8Str ds).length ∧ ∃ P p q Q, cls = P ++ [p] ∧ cls' = P ++ (p ++ q) :: Q ∧
      ∃ m, (∀ q', q' <+: q → m ≤ clusterWidth U (p ++ q')) ∧ (∃ q', q' <+: q ∧ m = clusterWidth U (p ++ q')) ∧
        R.count + m = clusterWidth U (p ++ q) + (Q.map (clusterWidth U)).sum := by
  have e1 : cls = splitText U l := partition_unique cls _ l hp (splitText_partition U l)
    (fun a b post h1 h2 => (hb a b post h1 h2).trans (splitText_border D l a b post h1 h2).symm)
  have e2 : cls' = splitText U (l ++ ds) := partition_unique cls' _ _ hp' (splitText_partition U _)
    (fun a b post h1 h2 => (hb' a b post h1 h2).trans (splitText_border D _ a b post h1 h2).symm)
  have hlt : ∀ cs : List Nat, ∀ b ∈ toUtf8Str cs, b < 256 := by
    intro cs b hb
    rw [toUtf8Str_eq] at hb
    obtain ⟨c, _, h⟩ := List.mem_flatMap.1 hb
    exact toUtf8_lt256 c b h
  obtain ⟨st1, P, p, k, m1, ho, hs, hmore⟩ := ran_init D W A V l hl (fun x hx => hsc x (List.mem_append_left _ hx))
  obtain ⟨k', m2, hi, -, -⟩ := scanned_take W.le_two v w (State.init U) st chunks n (by rw [hcut]; exact hlt l) (SInv.init U) h 0 (.inr rfl)
  rw [hcut, m1] at m2
  have hst : st1 = st := by simp only [Prod.mk.injEq] at m2; exact m2.1
  subst hst
  obtain ⟨st', q, cl', Y, Q, r⟩ := ran D W A V ds st1 0 st1.reported p ho rfl (fun x hx => hsc x (List.mem_append_right _ hx))
  obtain ⟨a1, a2, a3⟩ := Take.scanText_machine W.le_two v w st1 none rfl pre (toUtf8Str ds) (hlt ds) hi max hmax R hR
  obtain ⟨k2, hk2⟩ := r.run
  rw [hk2] at a2
  have hcnt := r.count
  rw [← a1] at hcnt
  have hcw : ∀ x, clusterWidth U x = accWidth U x := fun x => clusterWidth_eq_acc W x
  have hfold : ∀ q' : List Nat, accWidth U (p ++ q') = (q'.foldl (push U) (p.foldl (push U) {})).width := by
    intro q'; unfold accWidth; rw [List.foldl_append]
  have hrep : st1.reported = accWidth U p := by rw [ho.rep, ho.acc]; rfl
  refine ⟨by simpa using a2, P, p, q, Q, e1.trans hs, ?_, lowest U st1.reported (p.foldl (push U) {}) q, ?_, ?_, ?_⟩
  · rw [e2, hmore, r.first]
  · intro q' hq
    rw [hcw, hfold]
    by_cases hne : q' = []
    · subst hne
      have := lowest_le_base U q st1.reported (p.foldl (push U) {})
      rw [hrep] at this ⊢
      exact this
    · exact lowest_le U q _ _ q' hne hq
  · rcases lowest_mem U q st1.reported (p.foldl (push U) {}) with h | ⟨q', h1, h2, h3⟩
    · exact ⟨[], List.nil_prefix, by rw [h, List.append_nil, hcw, hrep]⟩
    · exact ⟨q', h2, by rw [h3, hcw, hfold]⟩
  · have hsum : (Q.map (clusterWidth U)).sum = cols U Q := by
      unfold cols
      congr 1
      exact List.map_congr_left fun x _ => hcw x
    rw [hsum, hcw]
    omega

/-- A border between two pieces is not inside one. -/
theorem border_outside (P : List (List Nat)) (p q : List Nat) (Q : List (List Nat)) (hne : ∀ s ∈ P ++ (p ++ q) :: Q, s ≠ []) (hp : p ≠ [])
    (h : SegBoundary (P ++ (p ++ q) :: Q) (P.flatten ++ p)) : q = [] := by
  induction P with
  | nil =>
    rw [List.flatten_nil, List.nil_append, List.nil_append, segBoundary_cons _ _ _ hp] at h
    obtain ⟨l', h1, -⟩ := h
    have := congrArg List.length h1
    simp only [List.length_append] at this
    exact List.eq_nil_of_length_eq_zero (by omega)
  | cons s P ih =>
    have hs := hne s (by simp)
    rw [List.flatten_cons, List.append_assoc, List.cons_append, segBoundary_cons _ _ _ (by simp [hs])] at h
    obtain ⟨l', h1, h2⟩ := h
    rw [← List.append_cancel_left h1] at h2
    exact ih (fun x hx => hne x (List.mem_cons_of_mem _ hx)) h2

/-- **C45 (at a border).**  If the text of the call begins with a new character, the call counts exactly the columns that are new; also with U+FE0E. -/
theorem C45_border {U : Table} (D : DataOk U) (W : WidthOk U) (A : AsciiOk U) (V : VariationOk U) (v : Variant) (w : Nat)
    (chunks : List (List Nat)) (l : List Nat) (x : Nat) (xs : List Nat) (hl : l ≠ []) (hsc : Scannable (l ++ x :: xs)) (hcut : chunks.flatten = toUtf8Str l)
    (hx : ScanBorder U l x)
    (n : Nat) (st : State) (h : Scanned U v w (State.init U) chunks n st)
    (pre : List Nat) (max : Nat) (hmax : 3 * (toUtf8Str (x :: xs)).length + 2 ≤ max) (R : Out)
    (hR : scanText U v w st none pre (toUtf8Str (x :: xs)) max = .ok R)
    (cls cls' : List (List Nat)) (hp : Partition cls l) (hp' : Partition cls' (l ++ x :: xs))
    (hb : ∀ a b post, a ≠ [] → l = a ++ b :: post → (SegBoundary cls a ↔ ScanBorder U a b))
    (hb' : ∀ a b post, a ≠ [] → l ++ x :: xs = a ++ b :: post → (SegBoundary cls' a ↔ ScanBorder U a b)) :
    (cls.map (clusterWidth U)).sum + R.count = (cls'.map (clusterWidth U)).sum := by
  obtain ⟨-, P, p, q, Q, h1, h2, m, h3, ⟨q', h4, h4'⟩, h5⟩ :=
    C45_resumed D W A V v w chunks l (x :: xs) hl hsc hcut n st h pre max hmax R hR cls cls' hp hp' hb hb'
  have hbd := (hb' l x xs hl rfl).2 hx
  have hfl : l = P.flatten ++ p := by rw [← hp.concat, h1]; simp
  have hq : q = [] := by
    rw [h2, hfl] at hbd
    refine border_outside P p q Q (fun s hs => hp'.nonempty s (by rw [h2]; exact hs)) (hp.nonempty p (by rw [h1]; simp)) hbd
  subst hq
  rw [List.prefix_nil] at h4
  subst h4
  rw [h1, h2]
  simp only [List.append_nil, List.map_append, List.map_cons, List.map_nil, List.sum_append, List.sum_cons, List.sum_nil] at h4' h5 ⊢
  omega

/-- U+FE0E after its base, in a call of its own: the base had two columns, the character has one, and the call counts nothing. -/
example : ∃ R st n, Scanned toy .none 16 (State.init toy) [toUtf8Str [0x61, 0x231A]] n st ∧
    scanText toy .none 16 st none [] (toUtf8Str [0xFE0E, 0x62]) 40 = .ok R ∧ n = 3 ∧ R.count = 1 ∧
    splitText toy [0x61, 0x231A] = [[0x61]] ++ [[0x231A]] ∧ splitText toy [0x61, 0x231A, 0xFE0E, 0x62] = [[0x61]] ++ ([0x231A] ++ [0xFE0E]) :: [[0x62]] ∧
    clusterWidth toy [0x231A] = 2 ∧ clusterWidth toy [0x231A, 0xFE0E] = 1 ∧ clusterWidth toy [0x62] = 1 :=
  ⟨_, _, _, .cons (pre := []) (max := 30) (by decide +kernel) rfl (by decide +kernel) (.nil _), rfl, by decide +kernel, by decide +kernel, by decide +kernel,
    by decide +kernel, by decide +kernel, by decide +kernel, by decide +kernel⟩

end Verif.Props.Scan
