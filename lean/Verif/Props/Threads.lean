import Verif.Spec.Threads
import Verif.Props.SimdDetect
/-!
# C76: concurrent calls
-/

namespace Verif.Props.Threads
open Verif.Cpu Verif.Utf8 Verif.Simd Verif.SimdDetect Verif.Threads Verif.Spec.Threads

/-- The detection always ends with a width. -/
theorem detects (m : Machine) : ∃ w, maxSimdSize m = .ok w := by
  obtain ⟨a, ha, -⟩ := Props.Simd.osAvx_spec m
  obtain ⟨z, hz, -⟩ := Props.Simd.osAvx512_spec m
  unfold maxSimdSize
  rw [ha]
  simp only [Exec.bind, hz]
  repeat' split
  all_goals exact ⟨_, rfl⟩

theorem body_answer {m : Machine} {w : Nat} (h : maxSimdSize m = .ok w) (c : Call) : body m w c = answer m c := by
  cases c <;> simp only [body, answer, scanForTextAscii, convertUtf8ToUtf32, convertUtf8ToUtf16, h, Exec.bind]

/-- What holds after every schedule. -/
structure Inv (m : Machine) (prog : Nat → Program) (s : State) : Prop where
  holds : ∀ f w, s.var f = .holds w → maxSimdSize m = .ok w
  busy : ∀ f t, s.var f = .busy t → ∃ c, (s.thread t).phase = .initializer c ∧ c.fn = f
  owner : ∀ t c, (s.thread t).phase = .initializer c → s.var c.fn = .busy t
  behind : ∀ t c, (s.thread t).phase = .behind c → ∃ w, s.var c.fn = .holds w
  alive : ∀ t, (s.thread t).phase ≠ .garbage
  wants : ∀ t c, (s.thread t).phase = .declaration c ∨ (s.thread t).phase = .initializer c ∨ (s.thread t).phase = .behind c →
    prog t (s.thread t).results = some c
  alone : ∀ t, Alone m (prog t) (s.thread t).results

theorem inv_start (m : Machine) (prog : Nat → Program) : Inv m prog {} where
  holds := by intro f w h; cases h
  busy := by intro f t h; cases h
  owner := by intro t c h; cases h
  behind := by intro t c h; cases h
  alive := by intro t h; cases h
  wants := by rintro t c (h | h | h) <;> cases h
  alone := fun t => .start

theorem inv_step {m : Machine} {prog : Nat → Program} {s s' : State} {t : Nat} {l : Label} (I : Inv m prog s) (h : Step m prog s t l s') : Inv m prog s' := by
  cases h with
  | call c hp hc =>
    have key : ∀ u, ((s.setThread t { s.thread t with phase := .declaration c }).thread u).results = (s.thread u).results := by
      intro u; by_cases e : u = t <;> simp [State.setThread, e]
    refine ⟨I.holds, fun f u hb => ?_, fun u d hu => ?_, fun u d hu => ?_, fun u => ?_, fun u d hu => ?_, fun u => ?_⟩
    · obtain ⟨d, h1, h2⟩ := I.busy f u hb
      have : u ≠ t := by rintro rfl; rw [hp] at h1; cases h1
      exact ⟨d, by simpa [State.setThread, this] using h1, h2⟩
    · by_cases e : u = t
      · subst e; simp [State.setThread] at hu
      · exact I.owner u d (by simpa [State.setThread, e] using hu)
    · by_cases e : u = t
      · subst e; simp [State.setThread] at hu
      · exact I.behind u d (by simpa [State.setThread, e] using hu)
    · by_cases e : u = t
      · subst e; simp [State.setThread]
      · simpa [State.setThread, e] using I.alive u
    · rw [key]
      by_cases e : u = t
      · subst e
        simp [State.setThread] at hu
        rw [← hu]; exact hc
      · exact I.wants u d (by simpa [State.setThread, e] using hu)
    · rw [key]; exact I.alone u
  | detect c hp hv =>
    have key : ∀ u, (((s.setVar c.fn (.busy t)).setThread t { s.thread t with phase := .initializer c }).thread u).results = (s.thread u).results := by
      intro u; by_cases e : u = t <;> simp [State.setThread, State.setVar, e]
    refine ⟨fun f w hf => ?_, fun f u hb => ?_, fun u d hu => ?_, fun u d hu => ?_, fun u => ?_, fun u d hu => ?_, fun u => ?_⟩
    · by_cases e : f = c.fn
      · simp [State.setThread, State.setVar, e] at hf
      · exact I.holds f w (by simpa [State.setThread, State.setVar, e] using hf)
    · by_cases e : f = c.fn
      · simp [State.setThread, State.setVar, e] at hb
        subst hb
        exact ⟨c, by simp [State.setThread], e.symm⟩
      · obtain ⟨d, h1, h2⟩ := I.busy f u (by simpa [State.setThread, State.setVar, e] using hb)
        have : u ≠ t := by rintro rfl; rw [hp] at h1; cases h1
        exact ⟨d, by simpa [State.setThread, State.setVar, this] using h1, h2⟩
    · by_cases e : u = t
      · subst e
        simp [State.setThread] at hu
        subst hu
        simp [State.setThread, State.setVar]
      · have ho := I.owner u d (by simpa [State.setThread, State.setVar, e] using hu)
        have : d.fn ≠ c.fn := by intro e'; rw [e', hv] at ho; cases ho
        simpa [State.setThread, State.setVar, this] using ho
    · by_cases e : u = t
      · subst e; simp [State.setThread] at hu
      · obtain ⟨w, hw⟩ := I.behind u d (by simpa [State.setThread, State.setVar, e] using hu)
        have : d.fn ≠ c.fn := by intro e'; rw [e', hv] at hw; cases hw
        exact ⟨w, by simpa [State.setThread, State.setVar, this] using hw⟩
    · by_cases e : u = t
      · subst e; simp [State.setThread]
      · simpa [State.setThread, State.setVar, e] using I.alive u
    · rw [key]
      by_cases e : u = t
      · subst e
        simp [State.setThread] at hu
        rw [← hu]; exact I.wants _ c (.inl hp)
      · exact I.wants u d (by simpa [State.setThread, State.setVar, e] using hu)
    · rw [key]; exact I.alone u
  | store c w hp hw =>
    have hbusy := I.owner t c hp
    have key : ∀ u, (((s.setVar c.fn (.holds w)).setThread t { s.thread t with phase := .behind c }).thread u).results = (s.thread u).results := by
      intro u; by_cases e : u = t <;> simp [State.setThread, State.setVar, e]
    refine ⟨fun f w' hf => ?_, fun f u hb => ?_, fun u d hu => ?_, fun u d hu => ?_, fun u => ?_, fun u d hu => ?_, fun u => ?_⟩
    · by_cases e : f = c.fn
      · simp [State.setThread, State.setVar, e] at hf
        rw [← hf]; exact hw
      · exact I.holds f w' (by simpa [State.setThread, State.setVar, e] using hf)
    · by_cases e : f = c.fn
      · simp [State.setThread, State.setVar, e] at hb
      · obtain ⟨d, h1, h2⟩ := I.busy f u (by simpa [State.setThread, State.setVar, e] using hb)
        have : u ≠ t := by rintro rfl; rw [hp] at h1; cases h1; exact e h2.symm
        exact ⟨d, by simpa [State.setThread, State.setVar, this] using h1, h2⟩
    · by_cases e : u = t
      · subst e; simp [State.setThread] at hu
      · have ho := I.owner u d (by simpa [State.setThread, State.setVar, e] using hu)
        have : d.fn ≠ c.fn := by intro e'; rw [e', hbusy] at ho; cases ho; exact e rfl
        simpa [State.setThread, State.setVar, this] using ho
    · by_cases e' : d.fn = c.fn
      · exact ⟨w, by simp [State.setThread, State.setVar, e']⟩
      · by_cases e : u = t
        · subst e
          simp [State.setThread] at hu
          exact absurd (congrArg Call.fn hu).symm e'
        · obtain ⟨w', hw'⟩ := I.behind u d (by simpa [State.setThread, State.setVar, e] using hu)
          exact ⟨w', by simpa [State.setThread, State.setVar, e'] using hw'⟩
    · by_cases e : u = t
      · subst e; simp [State.setThread]
      · simpa [State.setThread, State.setVar, e] using I.alive u
    · rw [key]
      by_cases e : u = t
      · subst e
        simp [State.setThread] at hu
        rw [← hu]; exact I.wants _ c (.inr (.inl hp))
      · exact I.wants u d (by simpa [State.setThread, State.setVar, e] using hu)
    · rw [key]; exact I.alone u
  | pass c w hp hv =>
    have key : ∀ u, ((s.setThread t { s.thread t with phase := .behind c }).thread u).results = (s.thread u).results := by
      intro u; by_cases e : u = t <;> simp [State.setThread, e]
    refine ⟨I.holds, fun f u hb => ?_, fun u d hu => ?_, fun u d hu => ?_, fun u => ?_, fun u d hu => ?_, fun u => ?_⟩
    · obtain ⟨d, h1, h2⟩ := I.busy f u hb
      have : u ≠ t := by rintro rfl; rw [hp] at h1; cases h1
      exact ⟨d, by simpa [State.setThread, this] using h1, h2⟩
    · by_cases e : u = t
      · subst e; simp [State.setThread] at hu
      · exact I.owner u d (by simpa [State.setThread, e] using hu)
    · by_cases e : u = t
      · subst e
        simp [State.setThread] at hu
        exact ⟨w, by rw [← hu]; exact hv⟩
      · exact I.behind u d (by simpa [State.setThread, e] using hu)
    · by_cases e : u = t
      · subst e; simp [State.setThread]
      · simpa [State.setThread, e] using I.alive u
    · rw [key]
      by_cases e : u = t
      · subst e
        simp [State.setThread] at hu
        rw [← hu]; exact I.wants _ c (.inl hp)
      · exact I.wants u d (by simpa [State.setThread, e] using hu)
    · rw [key]; exact I.alone u
  | ret c w hp hv =>
    refine ⟨I.holds, fun f u hb => ?_, fun u d hu => ?_, fun u d hu => ?_, fun u => ?_, fun u d hu => ?_, fun u => ?_⟩
    · obtain ⟨d, h1, h2⟩ := I.busy f u hb
      have : u ≠ t := by rintro rfl; rw [hp] at h1; cases h1
      exact ⟨d, by simpa [State.setThread, this] using h1, h2⟩
    · by_cases e : u = t
      · subst e; simp [State.setThread] at hu
      · exact I.owner u d (by simpa [State.setThread, e] using hu)
    · by_cases e : u = t
      · subst e; simp [State.setThread] at hu
      · exact I.behind u d (by simpa [State.setThread, e] using hu)
    · by_cases e : u = t
      · subst e; simp [State.setThread]
      · simpa [State.setThread, e] using I.alive u
    · by_cases e : u = t
      · subst e; simp [State.setThread] at hu
      · simpa [State.setThread, e] using I.wants u d (by simpa [State.setThread, e] using hu)
    · by_cases e : u = t
      · subst e
        have := Alone.next _ c (I.alone u) (I.wants u c (.inr (.inr hp)))
        rw [← body_answer (I.holds _ _ hv)] at this
        simpa [State.setThread] using this
      · simpa [State.setThread, e] using I.alone u
  | uninitialized c hp hv =>
    obtain ⟨w, hw⟩ := I.behind t c hp
    exact absurd hw (hv w)

theorem inv_run {m : Machine} {prog : Nat → Program} {ls : List (Nat × Label)} {s : State} (h : Run m prog ls s) : Inv m prog s := by
  induction h with
  | start => exact inv_start m prog
  | step _ h2 ih => exact inv_step ih h2

/-! ## The theorems -/

/-- **C76.**  On every schedule, of any number of threads, every thread is told exactly what it would be told if it were alone, ... -/
theorem C76_alone (m : Machine) (prog : Nat → Program) (ls : List (Nat × Label)) (s : State) (h : Run m prog ls s) (t : Nat) :
    Alone m (prog t) (s.thread t).results := (inv_run h).alone t

/-- What a thread is told is a function of the number of its calls. -/
theorem C76_alone_unique (m : Machine) (p : Program) (a b : List Res) (ha : Alone m p a) (hb : Alone m p b) (hl : a.length = b.length) : a = b := by
  induction ha generalizing b with
  | start => exact (List.length_eq_zero_iff.1 hl.symm).symm
  | next rs c _ hc ih =>
    cases hb with
    | start => simp at hl
    | next rs' c' h' hc' =>
      obtain rfl := ih rs' h' (by simpa using hl)
      rw [hc] at hc'
      cases hc'
      rfl

/-- ... no thread reads a width that has not been stored, ... -/
theorem C76_initialized (m : Machine) (prog : Nat → Program) (ls : List (Nat × Label)) (s : State) (h : Run m prog ls s) (t : Nat) :
    (t, Label.uninitialized) ∉ ls := by
  induction h with
  | start => exact List.not_mem_nil
  | step h1 h2 ih =>
    intro hm
    rcases List.mem_append.1 hm with hm | hm
    · exact ih hm
    · cases List.mem_singleton.1 hm
      cases h2 with
      | uninitialized c hp hv =>
        obtain ⟨w, hw⟩ := (inv_run h1).behind t c hp
        exact hv w hw

/-- The detections of one function's width in a schedule. -/
def detections (f : Fn) (ls : List (Nat × Label)) : List (Nat × Label) := ls.filter fun x => match x.2 with | .detect g => decide (g = f) | _ => false

theorem detections_run {m : Machine} {prog : Nat → Program} {ls : List (Nat × Label)} {s : State} (h : Run m prog ls s) (f : Fn) :
    (detections f ls).length = if s.var f = .untouched then 0 else 1 := by
  induction h with
  | start => rfl
  | @step ls s s' t l h1 h2 ih =>
    have hsplit : ∀ x, detections f (ls ++ [x]) = detections f ls ++ detections f [x] := fun x => List.filter_append ..
    rw [hsplit, List.length_append, ih]
    cases h2 with
    | call c hp hc => rfl
    | detect c hp hv =>
      by_cases e : f = c.fn
      · subst e
        simp [detections, State.setThread, State.setVar, hv]
      · have : ¬ c.fn = f := fun h => e h.symm
        simp [detections, State.setThread, State.setVar, e, this]
    | store c w hp hw =>
      have hb := (inv_run h1).owner t c hp
      by_cases e : f = c.fn
      · subst e
        simp [detections, State.setThread, State.setVar, hb]
      · simp [detections, State.setThread, State.setVar, e]
    | pass c w hp hv => rfl
    | ret c w hp hv => rfl
    | uninitialized c hp hv => rfl

/-- ... the processor is asked at most once for each of the three functions, ... -/
theorem C76_once (m : Machine) (prog : Nat → Program) (ls : List (Nat × Label)) (s : State) (h : Run m prog ls s) (f : Fn) :
    (detections f ls).length ≤ 1 := by
  rw [detections_run h f]
  split <;> omega

/-- ... a thread that has more to do has a step, unless it waits for another one that does, ... -/
theorem C76_waits (m : Machine) (prog : Nat → Program) (ls : List (Nat × Label)) (s : State) (h : Run m prog ls s) (t : Nat) (c : Call)
    (hc : prog t (s.thread t).results = some c) :
    (∃ l s', Step m prog s t l s') ∨ ∃ u, u ≠ t ∧ s.var c.fn = .busy u ∧ ∃ l s', Step m prog s u l s' ∧ ∃ w, s'.var c.fn = .holds w := by
  have I := inv_run h
  obtain ⟨w, hw⟩ := detects m
  rcases e : (s.thread t).phase with _ | d | d | d | _
  · exact .inl ⟨_, _, .call s t c e hc⟩
  · obtain rfl : c = d := by have := I.wants t d (.inl e); rw [hc] at this; exact Option.some.inj this
    rcases ev : s.var c.fn with _ | u | w'
    · exact .inl ⟨_, _, .detect s t c e ev⟩
    · obtain ⟨d', h1, h2⟩ := I.busy _ u ev
      refine .inr ⟨u, ?_, rfl, _, _, .store s u d' w h1 hw, w, ?_⟩
      · rintro rfl; rw [e] at h1; cases h1
      · simp [State.setThread, State.setVar, h2]
    · exact .inl ⟨_, _, .pass s t c w' e ev⟩
  · exact .inl ⟨_, _, .store s t d w e hw⟩
  · obtain ⟨w', hw'⟩ := I.behind t d e
    exact .inl ⟨_, _, .ret s t d w' e hw'⟩
  · exact absurd e (I.alive t)

/-- How far the thread is in its call. -/
def Phase.steps : Phase → Nat
  | .outside => 0 | .declaration _ => 1 | .initializer _ => 2 | .behind _ => 3 | .garbage => 4

/-- The steps of one thread in a schedule. -/
def stepsOf (t : Nat) (ls : List (Nat × Label)) : Nat := (ls.filter fun x => decide (x.1 = t)).length

/-- ... and every call ends after at most four steps of its thread: the number of steps it has taken bounds the number of its answers from below.
Together with `C76_waits` this means that on a schedule that always lets every thread with a step go on, every call ends. -/
theorem C76_ends (m : Machine) (prog : Nat → Program) (ls : List (Nat × Label)) (s : State) (h : Run m prog ls s) (t : Nat) :
    stepsOf t ls ≤ 4 * (s.thread t).results.length + 3 := by
  have key : stepsOf t ls ≤ 4 * (s.thread t).results.length + Phase.steps (s.thread t).phase := by
    induction h with
    | start => exact Nat.zero_le _
    | @step ls s s' u l h1 h2 ih =>
      have hsplit : stepsOf t (ls ++ [(u, l)]) = stepsOf t ls + if u = t then 1 else 0 := by
        unfold stepsOf
        rw [List.filter_append, List.length_append]
        by_cases e : u = t <;> simp [e]
      rw [hsplit]
      by_cases e : u = t
      · subst e
        rw [if_pos rfl]
        cases h2 with
        | call c hp hc => simp [State.setThread, hp, Phase.steps] at ih ⊢; omega
        | detect c hp hv => simp [State.setThread, State.setVar, hp, Phase.steps] at ih ⊢; omega
        | store c w hp hw => simp [State.setThread, State.setVar, hp, Phase.steps] at ih ⊢; omega
        | pass c w hp hv => simp [State.setThread, hp, Phase.steps] at ih ⊢; omega
        | ret c w hp hv => simp [State.setThread, hp, Phase.steps] at ih ⊢; omega
        | uninitialized c hp hv => simp [State.setThread, hp, Phase.steps] at ih ⊢; omega
      · have e' : ¬ t = u := fun h => e h.symm
        rw [if_neg e, Nat.add_zero]
        have : s'.thread t = s.thread t := by cases h2 <;> simp [State.setThread, State.setVar, e']
        rw [this]; exact ih
  have hp : Phase.steps (s.thread t).phase ≤ 3 := by
    have := (inv_run h).alive t
    revert this
    cases (s.thread t).phase <;> simp [Phase.steps]
  omega

/-- Where a waiting thread is let go: from every state on every schedule a call can be ended by steps of its own thread and at most one step of
another, the one that detects. -/
theorem C76_can_end (m : Machine) (prog : Nat → Program) (ls : List (Nat × Label)) (s : State) (h : Run m prog ls s) (t : Nat) (c : Call)
    (hc : prog t (s.thread t).results = some c) :
    ∃ ts s', Goes m prog s ts s' ∧ (s'.thread t).results = (s.thread t).results ++ [answer m c] ∧ ts.length ≤ 4 ∧
      ∀ u ∈ ts, u = t ∨ s.var c.fn = .busy u := by
  have I := inv_run h
  obtain ⟨w, hw⟩ := detects m
  -- behind the declaration
  have b3 : ∀ s : State, (s.thread t).phase = .behind c → s.var c.fn = .holds w →
      ∃ s', Goes m prog s [t] s' ∧ (s'.thread t).results = (s.thread t).results ++ [answer m c] := by
    intro s h1 h2
    refine ⟨_, .step (.ret s t c w h1 h2) (.done _), ?_⟩
    simp [State.setThread, body_answer hw]
  -- in front of it, initialized
  have b2 : ∀ s : State, (s.thread t).phase = .declaration c → s.var c.fn = .holds w →
      ∃ s', Goes m prog s [t, t] s' ∧ (s'.thread t).results = (s.thread t).results ++ [answer m c] := by
    intro s h1 h2
    obtain ⟨s', g, r⟩ := b3 (s.setThread t { s.thread t with phase := .behind c }) (by simp [State.setThread]) h2
    exact ⟨s', .step (.pass s t c w h1 h2) g, by rw [r]; simp [State.setThread]⟩
  -- in the initializer
  have b1 : ∀ s : State, (s.thread t).phase = .initializer c →
      ∃ s', Goes m prog s [t, t] s' ∧ (s'.thread t).results = (s.thread t).results ++ [answer m c] := by
    intro s h1
    obtain ⟨s', g, r⟩ := b3 ((s.setVar c.fn (.holds w)).setThread t { s.thread t with phase := .behind c }) (by simp [State.setThread])
      (by simp [State.setThread, State.setVar])
    exact ⟨s', .step (.store s t c w h1 hw) g, by rw [r]; simp [State.setThread]⟩
  -- in front of it
  have b0 : ∀ s : State, Inv m prog s → (s.thread t).phase = .declaration c →
      ∃ ts s', Goes m prog s ts s' ∧ (s'.thread t).results = (s.thread t).results ++ [answer m c] ∧ ts.length ≤ 3 ∧ ∀ u ∈ ts, u = t ∨ s.var c.fn = .busy u := by
    intro s I h1
    rcases ev : s.var c.fn with _ | u | w'
    · obtain ⟨s', g, r⟩ := b1 ((s.setVar c.fn (.busy t)).setThread t { s.thread t with phase := .initializer c }) (by simp [State.setThread])
      exact ⟨_, s', .step (.detect s t c h1 ev) g, by rw [r]; simp [State.setThread], by simp, by intro u hu; left; simpa using hu⟩
    · obtain ⟨d, h2, h3⟩ := I.busy _ u ev
      have hne : t ≠ u := by rintro rfl; rw [h1] at h2; cases h2
      obtain ⟨s', g, r⟩ := b2 ((s.setVar d.fn (.holds w)).setThread u { s.thread u with phase := .behind d })
        (by simpa [State.setThread, State.setVar, hne] using h1) (by simp [State.setThread, State.setVar, h3])
      refine ⟨_, s', .step (.store s u d w h2 hw) g, by rw [r]; simp [State.setThread, State.setVar, hne], by simp, ?_⟩
      intro x hx
      simp only [List.mem_cons, List.not_mem_nil, or_false, or_self] at hx
      rcases hx with rfl | rfl
      · exact .inr rfl
      · exact .inl rfl
    · obtain rfl : w = w' := by have := I.holds _ _ ev; rw [hw] at this; cases this; rfl
      obtain ⟨s', g, r⟩ := b2 s h1 ev
      exact ⟨_, s', g, r, by simp, by intro u hu; left; simpa using hu⟩
  rcases e : (s.thread t).phase with _ | d | d | d | _
  · have st := Step.call (m := m) s t c e hc
    obtain ⟨ts, s', g, r, hl, hu⟩ := b0 _ (inv_step I st) (by simp [State.setThread])
    refine ⟨_, s', .step st g, by rw [r]; simp [State.setThread], by simp; omega, ?_⟩
    intro u hm
    rcases List.mem_cons.1 hm with rfl | hm
    · exact .inl rfl
    · exact hu u hm
  · obtain rfl : c = d := by have := I.wants t d (.inl e); rw [hc] at this; exact Option.some.inj this
    obtain ⟨ts, s', g, r, hl, hu⟩ := b0 s I e
    exact ⟨ts, s', g, r, by omega, hu⟩
  · obtain rfl : c = d := by have := I.wants t d (.inr (.inl e)); rw [hc] at this; exact Option.some.inj this
    obtain ⟨s', g, r⟩ := b1 s e
    exact ⟨_, s', g, r, by simp, by intro u hu; left; simpa using hu⟩
  · obtain rfl : c = d := by have := I.wants t d (.inr (.inr e)); rw [hc] at this; exact Option.some.inj this
    obtain ⟨w', hw'⟩ := I.behind t c e
    obtain rfl : w = w' := by have := I.holds _ _ hw'; rw [hw] at this; cases this; rfl
    obtain ⟨s', g, r⟩ := b3 s e hw'
    exact ⟨_, s', g, r, by simp, by intro u hu; left; simpa using hu⟩
  · exact absurd e (I.alive t)

/-! ## An example -/

/-- Two threads that each scan a text, once. -/
def two : Nat → Program := fun t rs =>
  match rs with
  | [] => if t = 0 then some (.scan [0x61, 0x62] 10) else if t = 1 then some (.scan [0x63] 10) else none
  | _ :: _ => none

/-- Both are in front of the declaration when the first one begins to detect; now the second one has no step; when the first one has stored the width the
second one is done before it. -/
example (m : Machine) : ∃ ls s ls' s', Run m two ls s ∧ (∀ l s'', ¬ Step m two s 1 l s'') ∧ two 1 (s.thread 1).results ≠ none ∧
    Run m two (ls ++ ls') s' ∧ (s'.thread 0).results = [] ∧ (s'.thread 1).results = [answer m (.scan [0x63] 10)] := by
  obtain ⟨w, hw⟩ := detects m
  have r1 : Run m two _ _ := .step .start (.call {} 0 (.scan [0x61, 0x62] 10) rfl rfl)
  have r2 : Run m two _ _ := .step r1 (.call _ 1 (.scan [0x63] 10) rfl rfl)
  have r3 : Run m two _ _ := .step r2 (.detect _ 0 (.scan [0x61, 0x62] 10) rfl rfl)
  have r4 : Run m two _ _ := .step r3 (.store _ 0 (.scan [0x61, 0x62] 10) w rfl hw)
  have r5 : Run m two _ _ := .step r4 (.pass _ 1 (.scan [0x63] 10) w rfl rfl)
  have r6 : Run m two _ _ := .step r5 (.ret _ 1 (.scan [0x63] 10) w rfl rfl)
  refine ⟨_, _, [(0, .store .scan w), (1, .pass), (1, .ret)], _, r3, ?_, nofun, r6, rfl, congrArg (fun r => [r]) (body_answer hw _)⟩
  intro l s'' h
  generalize hs : (State.setThread _ _ _ : State) = s3 at h
  have hp : (s3.thread 1).phase = .declaration (.scan [0x63] 10) := by rw [← hs]; rfl
  have hv : s3.var .scan = .busy 0 := by rw [← hs]; rfl
  cases h with
  | call c h1 _ => rw [hp] at h1; cases h1
  | detect c h1 h2 => rw [hp] at h1; cases h1; rw [show Call.fn _ = Fn.scan from rfl, hv] at h2; cases h2
  | store c w h1 _ => rw [hp] at h1; cases h1
  | pass c w h1 h2 => rw [hp] at h1; cases h1; rw [show Call.fn _ = Fn.scan from rfl, hv] at h2; cases h2
  | ret c w h1 _ => rw [hp] at h1; cases h1
  | uninitialized c h1 _ => rw [hp] at h1; cases h1

end Verif.Props.Threads
