/-
C77: requesting solution output does not change the computed solution.
-/
import Verif.Model.WriteResult
import Verif.Lemmas.Simulation
import Mathlib.Data.Real.Archimedean
import Mathlib.Algebra.Order.Floor.Ring

namespace WxVerif.Props.WriteResult

open WxVerif.Sim WxVerif.WriteResult

section
variable {K I V : Type*} [Field K] [LinearOrder K]

/-- The parts of two states of a simulation that do not concern output are the same: time, step size, step number, integrator, solution and
the history of steps. -/
def SameSolution (s s' : State K I V) : Prop :=
  s.t = s'.t ∧ s.dt = s'.dt ∧ s.stepId = s'.stepId ∧ s.integ = s'.integ ∧ s.Q = s'.Q ∧ s.steps = s'.steps

private theorem after_id {env : Env K I V} (h : ∀ Q, env.written Q = Q) (f : Freqs) (Q : Nat → V) (id : Nat) : afterOutput env f Q id = Q := by
  unfold afterOutput
  split <;> simp [h]

private theorem step_same {env : Env K I V} (h : ∀ Q, env.written Q = Q) (cfg : Config K V) (f : Freqs) {s s' : State K I V}
    (hs : SameSolution s s') :
    (step env cfg s).2 = (step env { cfg with freqs := f } s').2 ∧
      SameSolution (step env cfg s).1 (step env { cfg with freqs := f } s').1 := by
  obtain ⟨h1, h2, h3, h4, h5, h6⟩ := hs
  unfold step
  rw [h1, h2, h3, h4, h5, h6]
  by_cases ht : s'.t < cfg.tEnd
  · simp only [if_pos ht]
    generalize hx : env.filters _ _ = x
    by_cases hn : nanAnywhere env x = true
    · simp only [if_pos hn]
      exact ⟨trivial, rfl, rfl, rfl, rfl, rfl, rfl⟩
    · simp only [if_neg hn]
      refine ⟨trivial, rfl, rfl, rfl, rfl, ?_, rfl⟩
      simp only [after_id h]
  · simp only [if_neg ht]
    exact ⟨trivial, h1, h2, h3, h4, h5, h6⟩

private theorem loop_same {env : Env K I V} (h : ∀ Q, env.written Q = Q) (cfg : Config K V) (f : Freqs) (n : Nat) :
    ∀ {s s' : State K I V}, SameSolution s s' →
      (loop env cfg n s).2 = (loop env { cfg with freqs := f } n s').2 ∧
        SameSolution (loop env cfg n s).1 (loop env { cfg with freqs := f } n s').1 := by
  induction n with
  | zero => exact fun hs => ⟨rfl, hs⟩
  | succ n ih =>
    intro s s' hs
    obtain ⟨e, hs'⟩ := step_same h cfg f hs
    unfold loop
    rcases h1 : step env cfg s with ⟨s1, r1⟩
    rcases h2 : step env { cfg with freqs := f } s' with ⟨s2, r2⟩
    rw [h1, h2] at e hs'
    simp only at e
    subst e
    cases r1 <;> first | exact ih hs' | exact ⟨rfl, hs'⟩

/-- **C77.** A program that calls `step()` itself until it stops, instead of `run()`, takes the same steps and ends with the same solution: `run`
only adds the last call to the output. -/
theorem C77_manual_steps (env : Env K I V) (cfg : Config K V) (i0 : I) (fuel : Nat) :
    let r := run env cfg fuel (init env cfg i0)
    let r' := loop env cfg fuel (init env cfg i0)
    r.2 = r'.2 ∧ SameSolution r.1 r'.1 ∧ (r.1.events = r'.1.events ∨ r.1.events = r'.1.events ++ [.finalize]) := by
  simp only [run]
  have e : ({ init env cfg i0 with stepId := cfg.startingStep, Q := initialArray env cfg } : State K I V) = init env cfg i0 := rfl
  rw [e]
  rcases loop env cfg fuel (init env cfg i0) with ⟨s, _ | r⟩
  · exact ⟨rfl, ⟨rfl, rfl, rfl, rfl, rfl, rfl⟩, Or.inl rfl⟩
  · cases r <;> first
      | exact ⟨rfl, ⟨rfl, rfl, rfl, rfl, rfl, rfl⟩, Or.inl rfl⟩
      | exact ⟨rfl, ⟨rfl, rfl, rfl, rfl, rfl, rfl⟩, Or.inr rfl⟩

/-- **C77.** If writing a result does not assign to the array of the solution, then two runs that differ only in the three output frequencies
compute the same thing: same time, step numbers, step sizes, solution and ending — for every integrator, filter and configuration, also when
steps fail or produce NaN. -/
theorem C77_output_neutral (env : Env K I V) (h : ∀ Q, env.written Q = Q) (cfg : Config K V) (f : Freqs) (i0 : I) (fuel : Nat) :
    let r := run env cfg fuel (init env cfg i0)
    let r' := run env { cfg with freqs := f } fuel (init env { cfg with freqs := f } i0)
    r.2 = r'.2 ∧ SameSolution r.1 r'.1 := by
  have hq : ∀ g, initialArray env { cfg with freqs := g } = cfg.initialQ := fun g => after_id h _ _ _
  have hq0 : initialArray env cfg = cfg.initialQ := after_id h _ _ _
  have h0 : SameSolution { init env cfg i0 with stepId := cfg.startingStep, Q := initialArray env cfg }
      { init env { cfg with freqs := f } i0 with stepId := cfg.startingStep, Q := initialArray env { cfg with freqs := f } } := by
    refine ⟨rfl, rfl, rfl, rfl, ?_, rfl⟩
    simp only [hq, hq0]
  obtain ⟨e, hs⟩ := loop_same h cfg f fuel h0
  simp only
  unfold run
  rcases h1 : loop env cfg fuel { init env cfg i0 with stepId := cfg.startingStep, Q := initialArray env cfg } with ⟨s1, r1⟩
  rcases h2 : loop env { cfg with freqs := f } fuel
    { init env { cfg with freqs := f } i0 with stepId := cfg.startingStep, Q := initialArray env { cfg with freqs := f } } with ⟨s2, r2⟩
  rw [h1, h2] at e hs
  simp only at e hs
  subst e
  rcases r1 with _ | r1
  · exact ⟨rfl, hs⟩
  · cases r1 <;> exact ⟨rfl, hs⟩

end

/-- a method on ℚ whose steps may produce NaN, with neutral output -/
example : ∃ env : Env ℚ Unit ℚ, (∀ Q, env.written Q = Q) ∧ env.integ () (fun _ => 1) 1 = ((), fun _ => 0, fun _ => 0) :=
  ⟨⟨fun _ Q dt => ((), fun r => Q r - dt * Q r, fun _ => 0), fun _ Q => Q, fun q => q > 10, fun _ Q => Q, fun Q => Q, 6⟩, fun _ => rfl, by
    simp⟩

/-- **C77.** Which output managers leave the solution alone: all of them, except that the netCDF manager changes a shallow-water solution
over a mountain that is not flat. -/
theorem C77_managers (m : Manager) (T : Tools) (caseNumber : Int) (topo : Nat → Option Field) (r : Nat) (Q Q' : Local)
    (h : written m T caseNumber topo r Q = some Q') :
    Q' = Q ↔ ¬ (m = .netcdf ∧ (∃ h hu1 hu2, Q = .sw h hu1 hu2) ∧ ∃ hs, topo r = some hs ∧ ∃ j i, hs j i ≠ 0) := by
  cases Q with
  | sw hh hu1 hu2 =>
    cases m <;> simp only [written, Option.some.injEq, reduceCtorEq] at h
    · subst h
      simp only [netcdfSw, Local.sw.injEq, and_true, true_and]
      rcases ht : topo r with _ | hs
      · simp [writtenHeight]
      · simp only [writtenHeight, Option.some.injEq]
        constructor
        · rintro e ⟨-, x, rfl, j, i, hne⟩
          exact hne (by have := congrFun (congrFun e j) i; simpa using this)
        · intro hn
          funext j i
          have : hs j i = 0 := by
            by_contra hne
            exact hn ⟨⟨_, _, _, rfl, rfl, rfl⟩, hs, rfl, j, i, hne⟩
          simp [this]
    · subst h
      simp
  | euler q =>
    simp only [written] at h
    split_ifs at h
    cases h
    simp
  | plane q =>
    simp only [written] at h
    split_ifs at h
    cases h
    simp

/-- the managers work on their own grids -/
example (T : Tools) (q : Nat → Nat → Field) : written .netcdf T 31 (fun _ => none) 0 (.euler q) = some (.euler q) := rfl

/-! ## The mountain -/

/-- A flow that the integrator keeps exactly as it is (a steady state), with the netCDF output of shallow water. -/
noncomputable def steady (size : Nat) (T : Tools) (caseNumber : Int) (topo : Nat → Option Field) : Env ℝ Unit Local where
  integ := fun _ Q _ => ((), Q, fun _ => 0)
  filters := fun _ Q => Q
  hasNaN := fun _ => false
  winds := fun _ Q => Q
  written := fun Q r => (written .netcdf T caseNumber topo r (Q r)).getD (Q r)
  size := size

private theorem iter_written (size : Nat) (T : Tools) (caseNumber : Int) (topo : Nat → Option Field) (r : Nat) (hs : Field)
    (ht : topo r = some hs) (c : Nat) : ∀ (Q : Nat → Local) (h hu1 hu2 : Field), Q r = .sw h hu1 hu2 →
      ((steady size T caseNumber topo).written^[c] Q) r = .sw (fun j i => h j i + c * hs j i) hu1 hu2 := by
  induction c with
  | zero => intro Q h hu1 hu2 hq; simpa using hq
  | succ c ih =>
    intro Q h hu1 hu2 hq
    rw [Function.iterate_succ_apply, ih _ (fun j i => h j i + hs j i) hu1 hu2]
    · congr 1
      funext j i
      push_cast
      ring
    · simp [steady, written, netcdfSw, writtenHeight, hq, ht]

private theorem steady_traj (size : Nat) (T : Tools) (caseNumber : Int) (topo : Nat → Option Field) (f : Freqs) (F : Nat) (hF : 0 < F)
    (hf : f.output = F) (tEnd dt : ℝ) (a : Nat) (Q : Nat → Local) (j : Nat) :
    traj (steady size T caseNumber topo) f tEnd dt a ((), Q) j =
      ((), (steady size T caseNumber topo).written^[(a + j) / F - a / F] Q) := by
  induction j with
  | zero => simp [traj]
  | succ j ih =>
    unfold traj
    rw [ih]
    unfold next advance afterOutput
    have hdvd : (((a + j + 1 : Nat) : Int) % f.output = 0) ↔ F ∣ a + j + 1 := by
      rw [hf, ← Int.natCast_mod]
      norm_cast
      exact (Nat.dvd_iff_mod_eq_zero).symm
    have hpos : f.output > 0 := by rw [hf]; exact_mod_cast hF
    have hdiv : (a + (j + 1)) / F = (a + j) / F + if F ∣ a + j + 1 then 1 else 0 := Nat.succ_div
    have hle : a / F ≤ (a + j) / F := Nat.div_le_div_right (Nat.le_add_right a j)
    simp only [hpos, true_and, hdvd, hdiv]
    by_cases hd : F ∣ a + j + 1
    · simp only [hd, if_true]
      rw [show (a + j) / F + 1 - a / F = ((a + j) / F - a / F) + 1 by omega, Function.iterate_succ_apply']
      rfl
    · simp only [hd, if_false]
      rfl

private theorem steady_run (size : Nat) (T : Tools) (caseNumber : Int) (topo : Nat → Option Field) (cfg : Config ℝ Local) (hdt : 0 < cfg.dt)
    (N F : Nat) (hF : 0 < F) (hf : cfg.freqs.output = F) (hN : (N : Int) = ⌈cfg.tEnd / cfg.dt⌉) (ha : cfg.startingStep ≤ N) (fuel : Nat)
    (hfuel : N < fuel) :
    (run (steady size T caseNumber topo) cfg fuel (init (steady size T caseNumber topo) cfg ())).1.Q =
      (steady size T caseNumber topo).written^[N / F - cfg.startingStep / F + if F ∣ cfg.startingStep then 1 else 0] cfg.initialQ := by
  have hnf : NoFailure (steady size T caseNumber topo) := fun _ _ _ => ⟨fun _ _ => rfl, fun _ _ => rfl⟩
  have hm : (⌈cfg.tEnd / cfg.dt⌉ - cfg.startingStep).toNat = N - cfg.startingStep := by rw [← hN]; omega
  obtain ⟨s', hr, hq, -⟩ := run_noFailure hnf cfg () hdt fuel (by rw [hm]; omega)
  rw [hr]
  simp only [hq, hm]
  rw [steady_traj size T caseNumber topo cfg.freqs F hF hf, Nat.add_sub_cancel' ha]
  have hpos : cfg.freqs.output > 0 := by rw [hf]; exact_mod_cast hF
  have hdvd : (((cfg.startingStep : Nat) : Int) % cfg.freqs.output = 0) ↔ F ∣ cfg.startingStep := by
    rw [hf, ← Int.natCast_mod]
    norm_cast
    exact (Nat.dvd_iff_mod_eq_zero).symm
  simp only [initialArray, afterOutput, hpos, true_and, hdvd]
  by_cases hd : F ∣ cfg.startingStep
  · simp only [hd, if_true]
    rw [Function.iterate_add_apply]
    rfl
  · simp [hd]

/-- **C77** (negated) Shallow water over a mountain with netCDF output: every output adds the height of the mountain to the fluid depth of
the running simulation.  For a flow that the integrator preserves exactly, with output every `F` steps, the depth after `N` steps is the
initial one plus `N/F + 1` times the mountain. -/
theorem C77_topography_fails (size : Nat) (T : Tools) (caseNumber : Int) (topo : Nat → Option Field) (cfg : Config ℝ Local) (hdt : 0 < cfg.dt)
    (N F : Nat) (hF : 0 < F) (hf : cfg.freqs.output = F) (hN : (N : Int) = ⌈cfg.tEnd / cfg.dt⌉) (h0 : cfg.startingStep = 0) (fuel : Nat)
    (hfuel : N < fuel) (r : Nat) (hs h hu1 hu2 : Field) (ht : topo r = some hs) (hq : cfg.initialQ r = .sw h hu1 hu2) :
    (run (steady size T caseNumber topo) cfg fuel (init (steady size T caseNumber topo) cfg ())).1.Q r =
      .sw (fun j i => h j i + (N / F + 1 : Nat) * hs j i) hu1 hu2 := by
  rw [steady_run size T caseNumber topo cfg hdt N F hF hf hN (by omega) fuel hfuel, h0]
  simp only [Nat.zero_div, Nat.sub_zero, dvd_zero, if_true]
  exact iter_written size T caseNumber topo r hs ht _ _ _ _ _ hq

/-- **C77** (negated) So two runs of the same steady flow that differ only in the output frequency end with different depths wherever the
mountain is not flat. -/
theorem C77_frequency_fails (size : Nat) (T : Tools) (caseNumber : Int) (topo : Nat → Option Field) (cfg : Config ℝ Local) (hdt : 0 < cfg.dt)
    (N F F' : Nat) (hF : 0 < F) (hf : cfg.freqs.output = F) (hF' : 0 < F') (f' : Freqs) (hf' : f'.output = F')
    (hN : (N : Int) = ⌈cfg.tEnd / cfg.dt⌉) (h0 : cfg.startingStep = 0) (fuel : Nat)
    (hfuel : N < fuel) (r j i : Nat) (hs h hu1 hu2 : Field) (ht : topo r = some hs) (hq : cfg.initialQ r = .sw h hu1 hu2)
    (hne : hs j i ≠ 0) (hcount : N / F ≠ N / F') :
    (run (steady size T caseNumber topo) cfg fuel (init (steady size T caseNumber topo) cfg ())).1.Q r ≠
      (run (steady size T caseNumber topo) { cfg with freqs := f' } fuel
        (init (steady size T caseNumber topo) { cfg with freqs := f' } ())).1.Q r := by
  have e1 := C77_topography_fails size T caseNumber topo cfg hdt N F hF hf hN h0 fuel hfuel r hs h hu1 hu2 ht hq
  have e2 := C77_topography_fails size T caseNumber topo { cfg with freqs := f' } hdt N F' hF' hf' hN h0 fuel hfuel r hs h hu1 hu2 ht hq
  rw [e1, e2]
  intro he
  simp only [Local.sw.injEq, and_true] at he
  have := congrFun (congrFun he j) i
  have h2 : ((N / F + 1 : Nat) : ℝ) = ((N / F' + 1 : Nat) : ℝ) := by
    have h3 : ((N / F + 1 : Nat) : ℝ) * hs j i = ((N / F' + 1 : Nat) : ℝ) * hs j i := by linarith
    exact mul_right_cancel₀ hne h3
  have : N / F + 1 = N / F' + 1 := by exact_mod_cast h2
  omega

/-- **C77** (negated) Restarting is not neutral either: a run that goes on from the state saved at step `k` (a multiple of the output
frequency `F`), which contains `k/F + 1` mountains, ends with one mountain more than the uninterrupted run. -/
theorem C77_restart_fails (size : Nat) (T : Tools) (caseNumber : Int) (topo : Nat → Option Field) (cfg : Config ℝ Local) (hdt : 0 < cfg.dt)
    (N F k : Nat) (hF : 0 < F) (hf : cfg.freqs.output = F) (hN : (N : Int) = ⌈cfg.tEnd / cfg.dt⌉) (hk : k ≤ N) (hd : F ∣ k)
    (h0 : cfg.startingStep = k) (fuel : Nat)
    (hfuel : N < fuel) (r : Nat) (hs h hu1 hu2 : Field) (ht : topo r = some hs)
    (hq : cfg.initialQ r = .sw (fun j i => h j i + (k / F + 1 : Nat) * hs j i) hu1 hu2) :
    (run (steady size T caseNumber topo) cfg fuel (init (steady size T caseNumber topo) cfg ())).1.Q r =
      .sw (fun j i => h j i + (N / F + 2 : Nat) * hs j i) hu1 hu2 := by
  rw [steady_run size T caseNumber topo cfg hdt N F hF hf hN (by omega) fuel hfuel, h0, if_pos hd,
    iter_written size T caseNumber topo r hs ht _ _ _ _ _ hq]
  congr 1
  funext j i
  have hle : k / F ≤ N / F := Nat.div_le_div_right hk
  have e : ((N / F + 2 : Nat) : ℝ) = ((k / F + 1 : Nat) : ℝ) + ((N / F - k / F + 1 : Nat) : ℝ) := by
    rw [← Nat.cast_add]
    congr 1
    omega
  rw [e]
  ring

/-- the hypotheses are met: one hour in steps of ten minutes, output every two steps, a hill of height 2 on every tile -/
noncomputable example : ∃ (cfg : Config ℝ Local), 0 < cfg.dt ∧ cfg.freqs.output = (2 : Nat) ∧ ((6 : Nat) : Int) = ⌈cfg.tEnd / cfg.dt⌉ ∧
    cfg.startingStep = 0 ∧ cfg.initialQ 0 = .sw (fun _ _ => 1) (fun _ _ => 0) (fun _ _ => 0) :=
  ⟨⟨3600, 600, 0, fun _ => .sw (fun _ _ => 1) (fun _ _ => 0) (fun _ _ => 0), ⟨2, 0, 0⟩⟩, by norm_num, rfl, by norm_num, rfl, rfl⟩

end WxVerif.Props.WriteResult
