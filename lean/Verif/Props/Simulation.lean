import Verif.Lemmas.Simulation
import Mathlib.Data.Rat.Floor
import Mathlib.Tactic.NormNum

/-!
# Properties C10 – C16 of the simulation driver
-/

namespace WxVerif.Props.Simulation

open WxVerif.Sim WxVerif.Schedule WxVerif.Gather WxVerif.GlobalField

/-! ## C10 — advertised process counts -/

/-- **C10.** For every number `n ≥ 1` of elements per panel side, the advertised counts are exactly the `6 k²` with
`k` a divisor of `n` other than `n` itself (and 6 when `n = 1`); each is accepted by the process topology, gives
every tile the same number of elements, and `k` tiles of that size make up the `n` elements.  Any other count is
refused. -/
theorem C10_advertised_counts (n : Nat) (hn : 1 ≤ n) :
    (∀ c, c ∈ allowedPeCounts n ↔ ∃ k, 1 ≤ k ∧ c = 6 * k ^ 2 ∧ k ∣ n ∧ (k = n → n = 1)) ∧
    (∀ c, c ∈ allowedPeCounts n → Topology.checkSize c = .ok () ∧
      ∃ k m, c = 6 * k ^ 2 ∧ adjustNumElements n c = some m ∧ k * m = n) ∧
    (∀ c, c ∉ allowedPeCounts n → adjustNumElements n c = none) := by
  have hmem : ∀ c, c ∈ allowedPeCounts n ↔ ∃ k, 1 ≤ k ∧ c = 6 * k ^ 2 ∧ k ∣ n ∧ (k = n → n = 1) := by
    intro c
    unfold allowedPeCounts
    simp only [List.mem_map, List.mem_filter, List.mem_range'_1, beq_iff_eq]
    constructor
    · rintro ⟨k, ⟨⟨h1, h2⟩, h3⟩, rfl⟩
      have hd : k ∣ n := Nat.dvd_of_mod_eq_zero h3
      refine ⟨k, h1, by ring, hd, ?_⟩
      rintro rfl
      omega
    · rintro ⟨k, h1, rfl, hd, hne⟩
      refine ⟨k, ⟨⟨h1, ?_⟩, Nat.mod_eq_zero_of_dvd hd⟩, by ring⟩
      obtain ⟨m, rfl⟩ := hd
      rcases Nat.lt_or_ge m 2 with hm | hm
      · have : m = 1 := by
          rcases Nat.eq_zero_or_pos m with h | h
          · subst h; omega
          · omega
        subst this
        have := hne (by omega)
        omega
      · have h4 : k * 2 ≤ k * m := Nat.mul_le_mul_left k hm
        omega
  refine ⟨hmem, ?_, ?_⟩
  · intro c hc
    obtain ⟨k, h1, rfl, ⟨m, rfl⟩, _⟩ := (hmem c).1 hc
    refine ⟨?_, k, m, rfl, ?_, rfl⟩
    · rw [Topology.checkSize_ok_iff]; exact ⟨k, h1, by rw [pow_two]⟩
    · unfold adjustNumElements
      rw [if_pos hc, Nat.mul_div_cancel_left _ (by omega : 0 < 6), Nat.sqrt_eq', Nat.mul_div_cancel_left _ (by omega)]
  · intro c hc
    unfold adjustNumElements
    rw [if_neg hc]

example : allowedPeCounts 12 = [6, 24, 54, 96, 216] := by decide +kernel

/-! ## C11 — stepping reaches the end time -/

section
variable {K I V : Type*} [Field K] [LinearOrder K] [IsStrictOrderedRing K] [FloorRing K]

/-- **C11.** Let no step fail.  Let `N = max(⌈t_end/dt⌉ - s0, 0)`.  Then `run()` ends by itself and performs exactly `N`
steps, numbered `s0+1 … s0+N`, whose (step size, time) are those of the schedule: constant steps `dt`, the last one
cut at `t_end`; the final time is exactly `t_end` if any step was due (else the starting time, already `≥ t_end`). -/
theorem C11_run_reaches_end (env : Env K I V) (cfg : Config K V) (i0 : I) (hdt : 0 < cfg.dt)
    (hnf : ∀ i Q dt, (∀ p, p < env.size → (env.integ i Q dt).2.2 p = 0) ∧
      (∀ p, p < env.size → env.hasNaN (env.filters dt (env.integ i Q dt).2.1 p) = false)) :
    let N := (⌈cfg.tEnd / cfg.dt⌉ - cfg.startingStep).toNat
    ∀ fuel, N < fuel → ∃ s', run env cfg fuel (init env cfg i0) = (s', some .stop) ∧
      s'.steps = expectedSteps cfg.tEnd cfg.dt cfg.startingStep N ∧
      s'.stepId = cfg.startingStep + N ∧
      (N = 0 → s'.t = cfg.startingStep * cfg.dt ∧ cfg.tEnd ≤ s'.t) ∧ (0 < N → s'.t = cfg.tEnd) ∧
      step env cfg s' = (s', .stop) := by
  intro N fuel hfuel
  obtain ⟨m, hlt, hge⟩ := remaining_exists (tEnd := cfg.tEnd) hdt cfg.startingStep
  have hm := remaining_eq_ceil hdt hlt hge
  have hmN : m = N := hm
  clear hm
  clear_value N
  subst hmN
  have hcomm : (cfg.dt * (cfg.startingStep : K)) = (cfg.startingStep : K) * cfg.dt := mul_comm _ _
  have hloop := loop_noFailure (env := env) hnf hdt m cfg.startingStep
    { init env cfg i0 with stepId := cfg.startingStep, Q := initialArray env cfg } fuel hcomm rfl rfl hlt hge hfuel
  unfold run
  rw [hloop]
  simp only
  refine ⟨_, rfl, ?_, rfl, ?_, ?_, ?_⟩
  · simp [init]
  · intro h0
    subst h0
    have : cfg.tEnd ≤ (cfg.startingStep : K) * cfg.dt := by simpa using hge
    simp [init, hcomm, this]
  · intro hpos
    rw [if_neg (by omega)]
  · apply step_done
    simp only
    split
    · rename_i h0
      subst h0
      have : cfg.tEnd ≤ (cfg.startingStep : K) * cfg.dt := by simpa using hge
      simp [init, hcomm, this]
    · simp

/-- The schedule is what it should be: every step is at most `dt` long, time strictly increases and never passes
`t_end`, and all steps but the last are exactly `dt`. -/
theorem C11_schedule (tEnd dt : K) (hdt : 0 < dt) (n : Nat) (hn : (n : Int) < ⌈tEnd / dt⌉) :
    timeAfter tEnd dt n < timeAfter tEnd dt (n + 1) ∧ timeAfter tEnd dt (n + 1) ≤ tEnd ∧
    stepSize tEnd dt n ≤ dt ∧ ((n : Int) + 1 < ⌈tEnd / dt⌉ → stepSize tEnd dt n = dt) ∧
    ((n : Int) + 1 = ⌈tEnd / dt⌉ → timeAfter tEnd dt (n + 1) = tEnd) := by
  have h1 : (n : K) * dt < tEnd := by
    rw [Int.lt_ceil, lt_div_iff₀ hdt] at hn
    exact_mod_cast hn
  have e0 : timeAfter tEnd dt n = n * dt := min_eq_left h1.le
  have hs : ((n + 1 : Nat) : K) * dt = n * dt + dt := by push_cast; ring
  have hle : timeAfter tEnd dt (n + 1) ≤ ((n + 1 : Nat) : K) * dt := min_le_left _ _
  refine ⟨?_, min_le_right _ _, ?_, ?_, ?_⟩
  · rw [e0]; exact lt_min (by rw [hs]; linarith) h1
  · unfold stepSize; rw [e0]; linarith
  · intro h2
    have h3 : ((n + 1 : Nat) : K) * dt < tEnd := by
      rw [Int.lt_ceil, lt_div_iff₀ hdt] at h2
      exact_mod_cast h2
    have e1 : timeAfter tEnd dt (n + 1) = ((n + 1 : Nat) : K) * dt := min_eq_left h3.le
    unfold stepSize; rw [e0, e1, hs]; ring
  · intro h2
    apply min_eq_right
    have := Int.ceil_le.1 h2.ge
    rw [div_le_iff₀ hdt] at this
    exact_mod_cast this

/-! ## C12 — a failing step stops the run -/

/-- **C12.** Take any history: `j` successful calls of `step()` from state `s` reach `sj`, in which another step is due.
If during that step the integrator reports failure on some process, or the new state has a NaN on some process, then
whatever the number of loop iterations allowed, the loop performs that step and no other one.  If the failure is
reported on all processes, or there is a NaN anywhere, all processes stop together (return or exception), and in the
NaN case nothing is output for that step.  (`failure_flag` is not reduced over processes: when it is zero on some
process and nonzero on another, and only then, the outcome is `split`: the processes no longer agree.) -/
theorem C12_failure_stops (env : Env K I V) (cfg : Config K V) (s : State K I V) (states : Nat → State K I V) (j : Nat)
    (h0 : states 0 = s) (hsteps : ∀ i, i < j → step env cfg (states i) = (states (i + 1), .more))
    (hdue : (states j).t < cfg.tEnd) :
    let dt := if (states j).t + (states j).dt > cfg.tEnd then cfg.tEnd - (states j).t else (states j).dt
    let res := env.integ (states j).integ (states j).Q dt
    let nan := ∃ p, p < env.size ∧ env.hasNaN (env.filters dt res.2.1 p) = true
    let fail := ∃ p, p < env.size ∧ res.2.2 p ≠ 0
    nan ∨ fail → ∀ fuel, j < fuel → ∃ s' r, loop env cfg fuel s = (s', some r) ∧ r ≠ .more ∧
      s'.steps.length = (states j).steps.length + 1 ∧
      (nan → r = .raised ∧ s'.events = (states j).events) ∧
      (¬ nan → (∀ p, p < env.size → res.2.2 p ≠ 0) → r = .stop) ∧
      (r = .split → ∃ p, p < env.size ∧ res.2.2 p = 0) := by
  intro dt res nan fail hnf
  -- reduce to the loop started at `states j`
  have hred : ∀ i fuel, i ≤ j → j < fuel + i → loop env cfg fuel (states i) = loop env cfg (fuel + i - j) (states j) := by
    intro i fuel hi hfuel
    obtain ⟨d, rfl⟩ : ∃ d, j = i + d := ⟨j - i, by omega⟩
    induction d generalizing i fuel with
    | zero => simp
    | succ d ih =>
      obtain ⟨f, rfl⟩ : ∃ f, fuel = f + 1 := ⟨fuel - 1, by omega⟩
      have hstep : loop env cfg (f + 1) (states i) = loop env cfg f (states (i + 1)) := by
        conv_lhs => unfold loop
        rw [hsteps i (by omega)]
      rw [hstep]
      have hj : i + (d + 1) = i + 1 + d := by omega
      have key : ∀ (jj : Nat), jj = i + 1 + d → loop env cfg f (states (i + 1)) = loop env cfg (f + (i + 1) - jj) (states jj) := by
        intro jj hjj
        subst hjj
        exact ih (i + 1) f (by
            intro i' hi'; exact hsteps i' (by omega)) (by rw [← hj]; exact hdue) (by
            rw [← hj]; exact hnf) (by omega) (by omega)
      rw [key (i + (d + 1)) hj]
      congr 1
      omega
  intro fuel hfuel
  have h1 := hred 0 fuel (by omega) (by omega)
  rw [h0] at h1
  rw [h1]
  obtain ⟨f, hf⟩ : ∃ f, fuel + 0 - j = f + 1 := ⟨fuel - j - 1, by omega⟩
  rw [hf]
  have hnan : nanAnywhere env (env.filters dt res.2.1) = true ↔ nan := by
    unfold nanAnywhere
    rw [List.any_eq_true]
    constructor
    · rintro ⟨p, hp, h⟩; exact ⟨p, List.mem_range.1 hp, h⟩
    · rintro ⟨p, hp, h⟩; exact ⟨p, List.mem_range.2 hp, h⟩
  have hstep : ∃ s' r, step env cfg (states j) = (s', r) ∧ r ≠ .more ∧
      s'.steps.length = (states j).steps.length + 1 ∧
      (nan → r = .raised ∧ s'.events = (states j).events) ∧
      (¬ nan → (∀ p, p < env.size → res.2.2 p ≠ 0) → r = .stop) ∧
      (r = .split → ∃ p, p < env.size ∧ res.2.2 p = 0) := by
    unfold step
    rw [if_pos hdue]
    by_cases hn : nan
    · have hb : nanAnywhere env (env.filters dt res.2.1) = true := hnan.2 hn
      simp only
      rw [if_pos hb]
      exact ⟨_, _, rfl, by simp, by simp, fun _ => ⟨rfl, rfl⟩, fun h => absurd hn h, by simp⟩
    · have hb : ¬ nanAnywhere env (env.filters dt res.2.1) = true := fun h => hn (hnan.1 h)
      simp only
      rw [if_neg hb]
      have hfail : fail := hnf.resolve_left hn
      have hall : ¬ ((List.range env.size).all fun p => res.2.2 p == 0) = true := by
        rw [List.all_eq_true]
        intro h
        obtain ⟨p, hp, hne⟩ := hfail
        have := h p (List.mem_range.2 hp)
        exact hne (by simpa using this)
      rw [if_neg hall]
      by_cases hu : ((List.range env.size).all fun p => res.2.2 p != 0) = true
      · rw [if_pos hu]
        exact ⟨_, _, rfl, by simp, by simp, fun h => absurd h hn, fun _ _ => rfl, by simp⟩
      · rw [if_neg hu]
        refine ⟨_, _, rfl, by simp, by simp, fun h => absurd h hn, ?_, ?_⟩
        swap
        · intro _
          by_contra hcon
          push Not at hcon
          apply hu
          rw [List.all_eq_true]
          intro p hp
          simpa using hcon p (List.mem_range.1 hp)
        intro _ hz
        exfalso
        apply hu
        rw [List.all_eq_true]
        intro p hp
        simpa using hz p (List.mem_range.1 hp)
  obtain ⟨s', r, h1, h2, h3⟩ := hstep
  refine ⟨s', r, ?_, h2, h3⟩
  unfold loop
  rw [h1]
  cases r <;> first | rfl | exact absurd rfl h2

/-! ## C13 — output schedule -/

/-- step numbers of the solution outputs in a history of events -/
def writesOf (ev : List (Event K V)) : List Nat := ev.filterMap fun | .write i _ _ => some i | _ => none
/-- step numbers of the saved states -/
def savesOf (ev : List (Event K V)) : List Nat := ev.filterMap fun | .saveState i _ => some i | _ => none
/-- step numbers of the block statistics -/
def statsOf (ev : List (Event K V)) : List Nat := ev.filterMap fun | .blockStats i _ => some i | _ => none

omit [LinearOrder K] [IsStrictOrderedRing K] [FloorRing K] [Field K] in
theorem outputStep_proj (env : Env K I V) (f : Freqs) (dt : K) (Q : Nat → V) (id : Nat) :
    writesOf (outputStep env f dt Q id) = (if decide (0 < f.output ∧ f.output ∣ (id : Int)) then [id] else []) ∧
    savesOf (outputStep env f dt Q id) = (if decide (0 < f.save ∧ f.save ∣ (id : Int)) then [id] else []) ∧
    statsOf (outputStep env f dt Q id) = (if decide (0 < f.stat ∧ f.stat ∣ (id : Int)) then [id] else []) := by
  have hd : ∀ g : Int, (g > 0 ∧ (id : Int) % g = 0) ↔ (0 < g ∧ g ∣ (id : Int)) := fun g =>
    and_congr Iff.rfl ⟨Int.dvd_of_emod_eq_zero, Int.emod_eq_zero_of_dvd⟩
  unfold outputStep
  simp only [hd, decide_eq_true_eq]
  refine ⟨?_, ?_, ?_⟩ <;>
    by_cases h1 : 0 < f.output ∧ f.output ∣ (id : Int) <;> by_cases h2 : 0 < f.save ∧ f.save ∣ (id : Int) <;>
    by_cases h3 : 0 < f.stat ∧ f.stat ∣ (id : Int) <;> simp [h1, h2, h3, writesOf, savesOf, statsOf]

omit [IsStrictOrderedRing K] [FloorRing K] in
theorem events_proj (env : Env K I V) (cfg : Config K V) (a : Nat) (q0 : Nat → V) (iq : I × (Nat → V)) (m : Nat)
    (proj : List (Event K V) → List Nat) (f : Int) (hnil : proj [] = [])
    (happ : ∀ x y, proj (x ++ y) = proj x ++ proj y)
    (hout : ∀ dt Q id, proj (outputStep env cfg.freqs dt Q id) = if decide (0 < f ∧ f ∣ (id : Int)) then [id] else []) :
    proj (outputStep env cfg.freqs cfg.dt q0 a ++ stepEvents env cfg a iq m) = due f a m := by
  have hfl : ∀ (l : List Nat) (g : Nat → List (Event K V)), proj (l.flatMap g) = l.flatMap fun x => proj (g x) := by
    intro l g
    induction l with
    | nil => simpa using hnil
    | cons x xs ih => rw [List.flatMap_cons, happ, ih, List.flatMap_cons]
  rw [happ, hout]
  unfold stepEvents due
  rw [hfl, List.range'_succ, List.filter_cons]
  have : ((List.range m).flatMap fun j =>
      proj (outputStep env cfg.freqs (stepSize cfg.tEnd cfg.dt (a + j))
        (advance env cfg.tEnd cfg.dt (a + j) (traj env cfg.freqs cfg.tEnd cfg.dt a iq j)).2 (a + j + 1))) =
      (List.range' (a + 1) m).filter fun id : Nat => decide (0 < f ∧ f ∣ (id : Int)) := by
    have hr : List.range' (a + 1) m = (List.range m).map (fun j => a + j + 1) := by
      rw [List.range'_eq_map_range]
      apply List.map_congr_left
      intro j _
      omega
    rw [hr, List.filter_map]
    induction List.range m with
    | nil => simp
    | cons x xs ih =>
      rw [List.flatMap_cons, hout, ih, List.filter_cons]
      simp only [Function.comp]
      split <;> simp
  rw [this]
  split <;> simp

/-- **C13.** When nothing fails, over construction and `run()` together the solution is output, the state saved and the
statistics printed at exactly the step numbers from `s0` to `s0 + N` that are multiples of the respective frequency
(never if it is not positive), each once and in order, whatever the other frequencies are; then the output is
finalized once. -/
theorem C13_output_schedule (env : Env K I V) (cfg : Config K V) (i0 : I) (hdt : 0 < cfg.dt)
    (hnf : ∀ i Q dt, (∀ p, p < env.size → (env.integ i Q dt).2.2 p = 0) ∧
      (∀ p, p < env.size → env.hasNaN (env.filters dt (env.integ i Q dt).2.1 p) = false)) :
    let N := (⌈cfg.tEnd / cfg.dt⌉ - cfg.startingStep).toNat
    ∀ fuel, N < fuel → ∃ s' ev, run env cfg fuel (init env cfg i0) = (s', some .stop) ∧
      s'.events = ev ++ [.finalize] ∧
      writesOf ev = due cfg.freqs.output cfg.startingStep N ∧
      savesOf ev = due cfg.freqs.save cfg.startingStep N ∧
      statsOf ev = due cfg.freqs.stat cfg.startingStep N ∧
      (∀ e ∈ ev, e ≠ .finalize) := by
  intro N fuel hfuel
  obtain ⟨m, hlt, hge⟩ := remaining_exists (tEnd := cfg.tEnd) hdt cfg.startingStep
  have hm := remaining_eq_ceil hdt hlt hge
  have hmN : m = N := hm
  clear hm
  clear_value N
  subst hmN
  have hcomm : (cfg.dt * (cfg.startingStep : K)) = (cfg.startingStep : K) * cfg.dt := mul_comm _ _
  have hloop := loop_noFailure (env := env) hnf hdt m cfg.startingStep
    { init env cfg i0 with stepId := cfg.startingStep, Q := initialArray env cfg } fuel hcomm rfl rfl hlt hge hfuel
  unfold run
  rw [hloop]
  simp only
  refine ⟨_, _, rfl, rfl, ?_, ?_, ?_, ?_⟩
  · exact events_proj env cfg _ _ _ m writesOf _ rfl (fun x y => List.filterMap_append) (fun dt Q id => (outputStep_proj env _ dt Q id).1)
  · exact events_proj env cfg _ _ _ m savesOf _ rfl (fun x y => List.filterMap_append) (fun dt Q id => (outputStep_proj env _ dt Q id).2.1)
  · exact events_proj env cfg _ _ _ m statsOf _ rfl (fun x y => List.filterMap_append) (fun dt Q id => (outputStep_proj env _ dt Q id).2.2)
  · have hos : ∀ (dt : K) (Q : Nat → V) id, ∀ e ∈ outputStep env cfg.freqs dt Q id, e ≠ .finalize := by
      intro dt Q id e he
      unfold outputStep at he
      simp only [List.mem_append, List.mem_ite_nil_right, List.mem_singleton] at he
      rcases he with (⟨_, rfl⟩ | ⟨_, rfl⟩) | ⟨_, rfl⟩ <;> simp
    intro e he
    rcases List.mem_append.1 he with h | h
    · exact hos _ _ _ e h
    · unfold stepEvents at h
      obtain ⟨j, _, hj⟩ := List.mem_flatMap.1 h
      exact hos _ _ _ e hj

/-! ## C14 — running twice -/

omit [FloorRing K] in
/-- **C14.** After a first `run()` that ended normally at or after the end time, a second `run()` performs no step,
changes neither time nor integrator, ends at once, resets the state to the array of the initial state (as the output of the starting
step left it) and the step number to the starting one, and finalizes the output again. -/
theorem C14_second_run (env : Env K I V) (cfg : Config K V) (s : State K I V) (h : cfg.tEnd ≤ s.t) (fuel : Nat)
    (hfuel : 0 < fuel) :
    run env cfg fuel s =
      ({ s with stepId := cfg.startingStep, Q := initialArray env cfg, events := s.events ++ [.finalize] }, some .stop) := by
  obtain ⟨f, rfl⟩ : ∃ f, fuel = f + 1 := ⟨fuel - 1, by omega⟩
  unfold run loop
  rw [step_done (by simpa using h)]

/-- **C14, from the constructor.** The state after a complete failure-free run is one for which a second run does nothing. -/
theorem C14_run_twice (env : Env K I V) (cfg : Config K V) (i0 : I) (hdt : 0 < cfg.dt)
    (hnf : ∀ i Q dt, (∀ p, p < env.size → (env.integ i Q dt).2.2 p = 0) ∧
      (∀ p, p < env.size → env.hasNaN (env.filters dt (env.integ i Q dt).2.1 p) = false))
    (fuel : Nat) (hfuel : (⌈cfg.tEnd / cfg.dt⌉ - cfg.startingStep).toNat < fuel) :
    ∃ s1 s2, run env cfg fuel (init env cfg i0) = (s1, some .stop) ∧ run env cfg fuel s1 = (s2, some .stop) ∧
      s2.steps = s1.steps ∧ s2.t = s1.t ∧ s2.Q = initialArray env cfg ∧ s2.stepId = cfg.startingStep ∧
      s2.events = s1.events ++ [.finalize] := by
  obtain ⟨s1, h1, _, _, hz, hp, _⟩ := C11_run_reaches_end env cfg i0 hdt hnf fuel hfuel
  have hge : cfg.tEnd ≤ s1.t := by
    rcases Nat.eq_zero_or_pos (⌈cfg.tEnd / cfg.dt⌉ - cfg.startingStep).toNat with h | h
    · exact (hz h).2
    · rw [hp h]
  refine ⟨s1, _, h1, C14_second_run env cfg s1 hge fuel (by omega), ?_⟩
  simp

/-! ## C15 — restarting -/

/-- **C15.** Let the method be one-step (its result does not depend on the integrator's internal state) and nothing
fail.  Run from step 0; let `k` be a step before the end whose state was saved, and let writing the solution not change that state, or
not be due at step `k` (see C77 for when it does change it).  A new simulation started from
that saved state at step `k` performs exactly the remaining steps of the first run, with the same sizes and times,
produces exactly the same later outputs (including the states saved), and ends at the same time, step and state. -/
theorem C15_restart_partial (env : Env K I V) (cfg : Config K V) (i0 i1 : I) (hdt : 0 < cfg.dt) (hstart : cfg.startingStep = 0)
    (hone : ∀ i i' Q dt, (env.integ i Q dt).2 = (env.integ i' Q dt).2)
    (hnf : ∀ i Q dt, (∀ p, p < env.size → (env.integ i Q dt).2.2 p = 0) ∧
      (∀ p, p < env.size → env.hasNaN (env.filters dt (env.integ i Q dt).2.1 p) = false))
    (fuel : Nat) (hfuel : ⌈cfg.tEnd / cfg.dt⌉.toNat < fuel)
    (s1 : State K I V) (h1 : run env cfg fuel (init env cfg i0) = (s1, some .stop))
    (k : Nat) (hk : (k : K) * cfg.dt < cfg.tEnd) (Qk : Nat → V) (hsaved : Event.saveState k Qk ∈ s1.events)
    (hwritten : 0 < cfg.freqs.output → cfg.freqs.output ∣ (k : Int) → env.written Qk = Qk) :
    let cfg' : Config K V := { cfg with startingStep := k, initialQ := Qk }
    ∃ s2 stepsBefore evBefore evAfter, run env cfg' fuel (init env cfg' i1) = (s2, some .stop) ∧
      s1.steps = stepsBefore ++ s2.steps ∧ stepsBefore.length = k ∧
      s1.events = evBefore ++ evAfter ∧ s2.events = outputStep env cfg.freqs cfg.dt Qk k ++ evAfter ∧
      s2.t = s1.t ∧ s2.stepId = s1.stepId ∧ s2.Q = s1.Q := by
  intro cfg'
  obtain ⟨m, hlt, hge⟩ := remaining_exists (tEnd := cfg.tEnd) hdt 0
  have hm := remaining_eq_ceil hdt hlt hge
  simp only [Nat.cast_zero, sub_zero] at hm
  have hkm : k < m := by
    by_contra hcon
    have h2 : ((0 + m : Nat) : K) * cfg.dt ≤ (k : K) * cfg.dt := by
      apply mul_le_mul_of_nonneg_right _ hdt.le
      exact_mod_cast (by omega : 0 + m ≤ k)
    exact absurd (lt_of_le_of_lt (hge.trans h2) hk) (lt_irrefl _)
  -- first run
  have hloop1 := loop_noFailure (env := env) hnf hdt m 0
    { init env cfg i0 with stepId := cfg.startingStep, Q := initialArray env cfg } fuel (by simp [init, hstart]) rfl
    hstart hlt hge (by omega)
  unfold run at h1
  rw [hloop1] at h1
  simp only [Prod.mk.injEq, and_true] at h1
  -- second run
  have hloop2 := loop_noFailure (env := env) (cfg := cfg') hnf hdt (m - k) k
    { init env cfg' i1 with stepId := cfg'.startingStep, Q := initialArray env cfg' } fuel
    (by simp [init, cfg', mul_comm]) rfl rfl
    (fun j hj => by have := hlt (k + j) (by omega); rwa [Nat.zero_add] at this)
    (by rw [show k + (m - k) = 0 + m by omega]; exact hge) (by omega)
  -- one-step methods: trajectories depend on the solution only
  have key : ∀ (n : Nat) (x y : I × (Nat → V)), x.2 = y.2 → (advance env cfg.tEnd cfg.dt n x).2 =
      (advance env cfg.tEnd cfg.dt n y).2 := by
    rintro n ⟨x1, x2⟩ ⟨y1, y2⟩ h
    simp only at h
    subst h
    unfold advance
    simp only
    rw [hone x1 y1]
  have htraj : ∀ (a : Nat) (i i' : I) (Q : Nat → V) (j : Nat),
      (traj env cfg.freqs cfg.tEnd cfg.dt a (i, Q) j).2 = (traj env cfg.freqs cfg.tEnd cfg.dt a (i', Q) j).2 := by
    intro a i i' Q j
    induction j with
    | zero => rfl
    | succ j ih =>
      simp only [traj, next]
      rw [key _ _ _ ih]
  have htrajadd : ∀ (iq : I × (Nat → V)) (j : Nat),
      traj env cfg.freqs cfg.tEnd cfg.dt 0 iq (k + j) = traj env cfg.freqs cfg.tEnd cfg.dt k (traj env cfg.freqs cfg.tEnd cfg.dt 0 iq k) j := by
    intro iq j
    induction j with
    | zero => rfl
    | succ j ih =>
      change next env cfg.freqs cfg.tEnd cfg.dt (0 + (k + j)) (traj env cfg.freqs cfg.tEnd cfg.dt 0 iq (k + j)) = _
      rw [ih, Nat.zero_add]
      rfl
  -- the saved state is the state after the output of step k
  have hQk : Qk = (traj env cfg.freqs cfg.tEnd cfg.dt 0 (i0, initialArray env cfg) k).2 := by
    rw [← h1] at hsaved
    simp only [List.mem_append, List.mem_singleton, reduceCtorEq, or_false] at hsaved
    have hos : ∀ dt Q id, Event.saveState k Qk ∈ outputStep env cfg.freqs dt Q id → id = k ∧ afterOutput env cfg.freqs Q id = Qk := by
      intro dt Q id he
      unfold outputStep at he
      simp only [List.mem_append, List.mem_ite_nil_right, List.mem_singleton, reduceCtorEq, and_false, or_false,
        false_or, Event.saveState.injEq] at he
      exact ⟨he.2.1.symm, he.2.2.symm⟩
    rcases hsaved with h | h
    · obtain ⟨e1, e2⟩ := hos _ _ _ h
      rw [hstart] at e1
      subst e1
      rw [← e2]; rfl
    · unfold stepEvents at h
      obtain ⟨j, _, hj⟩ := List.mem_flatMap.1 h
      obtain ⟨e1, e2⟩ := hos _ _ _ hj
      rw [← e2, ← e1, Nat.zero_add]
      simp only [traj, next, Nat.zero_add]
      rfl
  -- and the output that the restarted simulation makes of it leaves it alone
  have hQk' : initialArray env cfg' = Qk := by
    change (if cfg.freqs.output > 0 ∧ (k : Int) % cfg.freqs.output = 0 then env.written Qk else Qk) = Qk
    split_ifs with h
    · exact hwritten h.1 (Int.dvd_of_emod_eq_zero h.2)
    · rfl
  rw [hQk'] at hloop2
  have hafter : ∀ j, (traj env cfg.freqs cfg.tEnd cfg.dt k (i1, Qk) j).2 =
      (traj env cfg.freqs cfg.tEnd cfg.dt 0 (i0, initialArray env cfg) (k + j)).2 := by
    intro j
    rw [htrajadd, htraj k i1 (traj env cfg.freqs cfg.tEnd cfg.dt 0 (i0, initialArray env cfg) k).1 Qk j, hQk]
  have hev : stepEvents env cfg 0 (i0, initialArray env cfg) m =
      stepEvents env cfg 0 (i0, initialArray env cfg) k ++ stepEvents env cfg' k (i1, Qk) (m - k) := by
    conv_lhs => rw [show m = k + (m - k) by omega]
    unfold stepEvents
    rw [List.range_add, List.flatMap_append]
    congr 1
    rw [List.flatMap_map]
    apply List.flatMap_congr
    intro j _
    have h2 := key (k + j) _ _ (hafter j)
    rw [show 0 + (k + j) = k + j by omega, ← h2]
  unfold run
  rw [hQk', hloop2]
  simp only
  refine ⟨_, expectedSteps cfg.tEnd cfg.dt 0 k,
    outputStep env cfg.freqs cfg.dt cfg.initialQ cfg.startingStep ++ stepEvents env cfg 0 (i0, initialArray env cfg) k,
    stepEvents env cfg' k (i1, Qk) (m - k) ++ [.finalize], rfl, ?_, ?_, ?_, ?_, ?_, ?_, ?_⟩
  · rw [← h1]
    simp only [init, List.nil_append]
    conv_lhs => rw [show m = k + (m - k) by omega]
    rw [expectedSteps_add, Nat.zero_add]
  · simp [expectedSteps]
  · rw [← h1]
    simp only [init]
    rw [hev]
    simp only [List.append_assoc]
  · simp only [init, List.append_assoc]; rfl
  · rw [← h1]
    simp only
    rw [if_neg (by omega), if_neg (by omega)]
  · rw [← h1]
    simp only
    omega
  · rw [← h1]
    have := hafter (m - k)
    rw [show k + (m - k) = m by omega] at this
    exact this

end

/-- A failure-free one-step method on ℚ (explicit Euler for `q' = -q`), `dt = 1/3`, `t_end = 1`: the hypotheses of
C11–C15 are met, three steps are made and the last one is not shortened; with `t_end = 9/10` it is. -/
def exEnv : Env ℚ Unit ℚ where
  integ := fun _ Q dt => ((), fun r => Q r - dt * Q r, fun _ => 0)
  filters := fun _ Q => Q
  hasNaN := fun _ => false
  winds := fun _ Q => Q
  written := fun Q => Q
  size := 6

/-- its configuration -/
def exCfg : Config ℚ ℚ where
  tEnd := 9 / 10
  dt := 1 / 3
  startingStep := 0
  initialQ := fun r => r + 1
  freqs := ⟨2, 1, 0⟩

example : (∀ i Q dt, (∀ p, p < exEnv.size → (exEnv.integ i Q dt).2.2 p = 0) ∧
      (∀ p, p < exEnv.size → exEnv.hasNaN (exEnv.filters dt (exEnv.integ i Q dt).2.1 p) = false)) ∧
    (∀ i i' Q dt, (exEnv.integ i Q dt).2 = (exEnv.integ i' Q dt).2) ∧ 0 < exCfg.dt ∧
    ⌈exCfg.tEnd / exCfg.dt⌉ = 3 := by
  refine ⟨fun _ _ _ => ⟨fun _ _ => rfl, fun _ _ => rfl⟩, fun _ _ _ _ => rfl, by norm_num [exCfg], ?_⟩
  norm_num [exCfg]

example : (run exEnv exCfg 5 (init exEnv exCfg ())).1.steps = [(1, 1 / 3, 1 / 3), (2, 1 / 3, 2 / 3), (3, 7 / 30, 9 / 10)] := by
  decide +kernel

example : writesOf (run exEnv exCfg 5 (init exEnv exCfg ())).1.events = [0, 2] ∧
    savesOf (run exEnv exCfg 5 (init exEnv exCfg ())).1.events = [0, 1, 2, 3] := by
  decide +kernel

/-! ## C16 — starting state -/

/-- **C16.** Whatever happens when rank 0 reads the requested starting state (unless it is interrupted by something
that is not an `Exception`), all processes agree: either all start from the requested step with their tile of the
loaded field, or all start from the initial condition at step 0.  (`shape` is the tile shape the simulation
expects.) -/
theorem C16_starting_state_agreement {α : Type*} [Inhabited α] (k startingStep : Nat) (hk : 1 ≤ k)
    (read : Except ExcKind (List (List (List α))))
    (hread : ∀ e, read = .error e → e ≠ .baseException)
    (hrect : ∀ F, read = .ok F → ∃ rows cols, 1 ≤ rows ∧ ∀ M ∈ F, IsMat rows cols M)
    (shape : Nat × Nat) (initialTile : Nat → List (List α)) :
    let shapeOk : List (List α) → Bool := fun M => M.length == shape.1 && M.all fun row => row.length == shape.2
    (∃ F D, read = .ok F ∧ 0 < startingStep ∧ distributeCube (6 * k ^ 2) F = some D ∧
      ∀ r, r < 6 * k ^ 2 → ∃ tile, D r = some tile ∧
        determineStartingState (6 * k ^ 2) startingStep read shapeOk initialTile r = some (tile, startingStep)) ∨
    (∀ r, r < 6 * k ^ 2 →
      determineStartingState (6 * k ^ 2) startingStep read shapeOk initialTile r = some (initialTile r, 0)) := by
  intro shapeOk
  have hsp : ∀ (V : Type) (e : ExcKind) (r : Nat), ∃ x, Mpi.singleProcess (V := V) 0 ⟨.none, some e⟩ r = .raised x ∧
      (e ≠ .baseException → (kindOf x).caught = true) := by
    intro V e r
    by_cases h0 : r = 0
    · subst h0
      refine ⟨.user e, rfl, ?_⟩
      intro he; cases e <;> simp_all [kindOf, ExcKind.caught]
    · refine ⟨.skip, ?_, fun _ => rfl⟩
      have hs : (r != 0) = true := by simpa using h0
      simp [Mpi.singleProcess, Mpi.bcast, Mpi.transmit, Mpi.innerExc, Mpi.shouldSkip, hs]
  have hok : ∀ r, ∃ v, Mpi.singleProcess (V := Unit) (E := ExcKind) 0 ⟨.none, none⟩ r = .normal v := by
    intro r
    by_cases h0 : r = 0
    · subst h0; exact ⟨_, rfl⟩
    · refine ⟨.none, ?_⟩
      have hs : (r != 0) = true := by simpa using h0
      simp [Mpi.singleProcess, Mpi.bcast, Mpi.transmit, Mpi.innerExc, Mpi.innerRet, Mpi.shouldSkip, hs]
  by_cases hpos : 0 < startingStep
  swap
  · right; intro r _; unfold determineStartingState; rw [if_neg hpos]
  cases hr : read with
  | error e =>
    right
    intro r _
    obtain ⟨x, hx, hc⟩ := hsp Unit e r
    unfold determineStartingState loadStateFromFile
    rw [if_pos hpos]
    simp only [hx, hc (hread e hr), if_true]
  | ok F =>
    obtain ⟨rows, cols, hrows, hmat⟩ := hrect F hr
    cases hd : distributeCube (6 * k ^ 2) F with
    | none =>
      right
      intro r _
      obtain ⟨v, hv⟩ := hok r
      obtain ⟨x, hx, hc⟩ := hsp Unit .valueError r
      unfold determineStartingState loadStateFromFile
      rw [if_pos hpos]
      simp only [hv, hd, hx, hc (by simp), if_true]
    | some D =>
      -- then the field is a cube divisible in tiles, and all tiles have the same shape
      have hsome : (distributeCube (6 * k ^ 2) F).isSome := by rw [hd]; rfl
      have e2 : k ^ 2 = k * k := pow_two k
      have hcube : ∃ t, IsCube (k * t) F := by
        rw [e2] at hsome
        unfold distributeCube at hsome
        rw [Topology.numLines_sq] at hsome
        simp only at hsome
        split at hsome
        · simp at hsome
        · rename_i h6
          simp only [not_or, ne_eq, not_not] at h6
          split at hsome
          · simp at hsome
          · rename_i hdiv
            simp only [ne_eq, not_not] at hdiv
            obtain ⟨h6, hsq⟩ := h6
            obtain ⟨M, Fs, rfl⟩ : ∃ M Fs, F = M :: Fs := by
              cases F with
              | nil => simp at h6
              | cons M Fs => exact ⟨M, Fs, rfl⟩
            obtain ⟨hM1, hM2⟩ := hmat M (by simp)
            obtain ⟨r0, rs, rfl⟩ : ∃ r0 rs, M = r0 :: rs := by
              cases M with
              | nil => simp at hM1; omega
              | cons a b => exact ⟨a, b, rfl⟩
            have hs : panelShape ((r0 :: rs) :: Fs) = (rows, cols) := by
              unfold panelShape
              simp only [List.headD_cons]
              rw [hM1, hM2 r0 (by simp)]
            rw [hs] at hsq hdiv
            simp only at hsq hdiv
            refine ⟨rows / k, h6, ?_⟩
            rw [Nat.mul_comm, hdiv]
            intro M' hM'
            have := hmat M' hM'
            rwa [← hsq] at this
      obtain ⟨t, hcube⟩ := hcube
      have htiles : ∀ r, r < 6 * k ^ 2 → ∃ M, D r = some M ∧ IsMat t t M := by
        rw [e2] at hd ⊢
        obtain ⟨hlen, hmat'⟩ := hcube
        let G : Nat → Nat → Nat → α := fun p i j => (((F.getD p []).getD i []).getD j default)
        have hFG : F = (List.range 6).map fun p => ofFn (k * t) (k * t) (G p) := by
          apply List.ext_getElem (by simp [hlen])
          intro p hp hp'
          simp only [List.getElem_map, List.getElem_range]
          have hm := hmat' F[p] (List.getElem_mem hp)
          conv_lhs => rw [isMat_eq_ofFn hm]
          simp [G, List.getD_eq_getElem?_getD, hp]
        obtain ⟨D', hD', hDr⟩ := distributeCube_blocks (t := t) hk G
        rw [← hFG, hd] at hD'
        injection hD' with hD'
        subst hD'
        intro r hr
        obtain ⟨hp, hrow, hcol⟩ := Topology.placeOf_valid hr
        have henc := Topology.enc_placeOf (k := k) (rank := r)
        unfold Topology.enc at henc
        have := hDr _ hp _ hrow _ hcol
        rw [← Nat.add_assoc, henc] at this
        exact ⟨_, this, ofFn_isMat _ _ _⟩
      have hshape : ∀ M : List (List α), IsMat t t M →
          shapeOk M = (t == shape.1 && decide (t = 0 ∨ t = shape.2)) := by
        intro M hM
        obtain ⟨h1, h2⟩ := hM
        simp only [shapeOk]
        rw [h1]
        congr 1
        rw [Bool.eq_iff_iff, List.all_eq_true, decide_eq_true_eq]
        constructor
        · intro h
          rcases Nat.eq_zero_or_pos t with h0 | h0
          · exact Or.inl h0
          · right
            obtain ⟨row, hrow⟩ : ∃ row, row ∈ M := by
              cases M with
              | nil => simp at h1; omega
              | cons a b => exact ⟨a, by simp⟩
            have := h row hrow
            rw [h2 row hrow] at this
            simpa using this
        · rintro (h0 | h0) row hrow
          · subst h0
            rw [List.length_eq_zero_iff] at h1
            subst h1
            simp at hrow
          · rw [h2 row hrow, h0]; simp
      by_cases hsh : (t == shape.1 && decide (t = 0 ∨ t = shape.2)) = true
      · left
        refine ⟨F, D, rfl, hpos, hd, fun r hrank => ?_⟩
        obtain ⟨M, hM, hMat⟩ := htiles r hrank
        refine ⟨M, hM, ?_⟩
        obtain ⟨v, hv⟩ := hok r
        unfold determineStartingState loadStateFromFile
        rw [if_pos hpos]
        simp only [hv, hd, hM, hshape M hMat, hsh, if_true]
      · right
        intro r hrank
        obtain ⟨M, hM, hMat⟩ := htiles r hrank
        obtain ⟨v, hv⟩ := hok r
        unfold determineStartingState loadStateFromFile
        rw [if_pos hpos]
        simp only [hv, hd, hM, hshape M hMat, hsh]
        rfl

/-- an interruption that is not an `Exception` on the reading process is the one case where processes disagree -/
example : determineStartingState (α := Nat) 6 3 (.error .baseException) (fun _ => true) (fun _ => []) 0 = none ∧
    determineStartingState (α := Nat) 6 3 (.error .baseException) (fun _ => true) (fun _ => []) 1 = some ([], 0) := by
  decide +kernel

example : determineStartingState (α := Nat) 6 3 (.ok [[[0]], [[1]], [[2]], [[3]], [[4]], [[5]]]) (fun M => M.length == 1)
    (fun _ => []) 4 = some ([[4]], 3) := by
  decide +kernel

end WxVerif.Props.Simulation
