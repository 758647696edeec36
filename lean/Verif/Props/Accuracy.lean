import Verif.Spec.Accuracy
import Verif.Props.Simulation
import Verif.Props.ConvergenceMore
import Verif.Props.ConvergenceAdaptive
import Verif.Props.EpiConvergence

/-!
# C93: a whole run of a simulation reaches the solution at the end time, to the order of its scheme
-/

namespace WxVerif.Props.Accuracy

open Set WxVerif.Sim Schedule SpecAccuracy SpecConvergence SpecEpiConvergence Multistep

universe u

variable {V : Type u} [NormedAddCommGroup V] [NormedSpace ℝ V] {I : Type*}

/-- the step sizes of the run, continued with the full step -/
noncomputable def sizes (tEnd dt : ℝ) (n : Nat) : ℝ := if n * dt < tEnd then stepSize tEnd dt n else dt

theorem sizes_pos {tEnd dt : ℝ} (hdt : 0 < dt) (n : Nat) : 0 < sizes tEnd dt n ∧ sizes tEnd dt n ≤ dt := by
  unfold sizes
  split
  · rename_i h
    unfold stepSize timeAfter
    rw [min_eq_left h.le]
    push_cast
    refine ⟨sub_pos.2 (lt_min (by linarith) h), ?_⟩
    have := min_le_left (((n : ℝ) + 1) * dt) tEnd
    linarith
  · exact ⟨hdt, le_rfl⟩

theorem time_sizes {tEnd dt : ℝ} (hT : 0 ≤ tEnd) {N : Nat} (hN : ∀ j < N, (j : ℝ) * dt < tEnd) : ∀ n ≤ N, time (sizes tEnd dt) n = timeAfter tEnd dt n
  | 0, _ => by simp [time, timeAfter, hT]
  | n + 1, h => by
    rw [WxVerif.EpiConvergence.time_succ, time_sizes hT hN n (by omega), sizes, if_pos (hN n (by omega)), stepSize]
    ring

/-- the states of an undisturbed run follow the integrator -/
theorem follows {env : Env ℝ I V} {P : Nat} (hu : Undisturbed env P) (cfg : Config ℝ V) (h0 : cfg.startingStep = 0) (i0 : I) (hdt : 0 < cfg.dt) (hT : 0 ≤ cfg.tEnd)
    (fuel : Nat) (hfuel : ⌈cfg.tEnd / cfg.dt⌉.toNat < fuel) :
    ∃ (N : Nat) (σ : Nat → I × (Nat → V)) (s' : State ℝ I V), (∀ j < N, (j : ℝ) * cfg.dt < cfg.tEnd) ∧ cfg.tEnd ≤ (N : ℝ) * cfg.dt ∧
      run env cfg fuel (init env cfg i0) = (s', some .stop) ∧ s'.t = cfg.tEnd ∧ σ 0 = (i0, cfg.initialQ) ∧
      (∀ n < N, σ (n + 1) = ((env.integ (σ n).1 (σ n).2 (sizes cfg.tEnd cfg.dt n)).1, (env.integ (σ n).1 (σ n).2 (sizes cfg.tEnd cfg.dt n)).2.1)) ∧
      s'.Q = (σ N).2 ∧
      (∀ k d Q, Event.write k d Q ∈ s'.events → k ≤ N ∧ Q = (σ k).2) ∧
      (∀ k Q, Event.saveState k Q ∈ s'.events → k ≤ N ∧ Q = (σ k).2) ∧
      ∀ k Q, Event.blockStats k Q ∈ s'.events → k ≤ N ∧ Q = (σ k).2 := by
  have nf : NoFailure env := fun i Q dt => ⟨fun p hp => hu.ok i Q dt p hp, fun p _ => hu.number _⟩
  obtain ⟨N, hlt, hge⟩ := remaining_exists (tEnd := cfg.tEnd) hdt cfg.startingStep
  have hN := remaining_eq_ceil hdt hlt hge
  rw [h0] at hlt hge hN
  simp only [zero_add] at hlt hge
  have fu : (⌈cfg.tEnd / cfg.dt⌉ - cfg.startingStep).toNat < fuel := by rw [h0]; simpa using hfuel
  obtain ⟨s', e1, e2, e3⟩ := run_noFailure nf cfg i0 hdt fuel fu
  obtain ⟨s'', f1, -, -, fz, fp, -⟩ := Simulation.C11_run_reaches_end env cfg i0 hdt nf fuel fu
  rw [e1] at f1
  obtain rfl : s' = s'' := (Prod.mk.inj f1).1
  have ao : ∀ Q id, afterOutput env cfg.freqs Q id = Q := fun Q id => by unfold afterOutput; rw [hu.written]; split <;> rfl
  have ia : initialArray env cfg = cfg.initialQ := ao _ _
  rw [h0, ia, ← hN] at e2 e3
  set σ := traj env cfg.freqs cfg.tEnd cfg.dt 0 (i0, cfg.initialQ) with hσ
  have adv : ∀ n < N, (advance env cfg.tEnd cfg.dt n (σ n)) =
      ((env.integ (σ n).1 (σ n).2 (sizes cfg.tEnd cfg.dt n)).1, (env.integ (σ n).1 (σ n).2 (sizes cfg.tEnd cfg.dt n)).2.1) := by
    intro n hn
    unfold advance
    rw [hu.winds, hu.filters, sizes, if_pos (hlt n hn)]
  have nx : ∀ n < N, σ (n + 1) = advance env cfg.tEnd cfg.dt n (σ n) := by
    intro n hn
    change next env cfg.freqs cfg.tEnd cfg.dt (0 + n) (σ n) = _
    rw [zero_add]
    unfold next
    rw [ao]
  have out : ∀ (d : ℝ) (Q : Nat → V) (id : Nat) (e : Event ℝ V), e ∈ outputStep env cfg.freqs d Q id →
      e = .write id d Q ∨ e = .saveState id Q ∨ e = .blockStats id Q := by
    intro d Q id e he
    unfold outputStep at he
    rw [ao] at he
    simp only [List.mem_append] at he
    rcases he with (he | he) | he
    all_goals
      split at he
      · simp only [List.mem_singleton] at he
        simp [he]
      · simp at he
  have ev : ∀ e ∈ s'.events, e = .finalize ∨ ∃ (k : Nat) (d : ℝ), k ≤ N ∧ (e = .write k d (σ k).2 ∨ e = .saveState k (σ k).2 ∨ e = .blockStats k (σ k).2) := by
    intro e he
    rw [e3] at he
    simp only [List.mem_append, List.mem_singleton] at he
    rcases he with (he | he) | he
    · exact Or.inr ⟨0, cfg.dt, Nat.zero_le _, out _ _ _ e he⟩
    · unfold stepEvents at he
      rw [List.mem_flatMap] at he
      obtain ⟨j, hj, he⟩ := he
      have hj := List.mem_range.1 hj
      simp only [zero_add] at he
      refine Or.inr ⟨j + 1, stepSize cfg.tEnd cfg.dt j, by omega, ?_⟩
      have := out _ _ _ e he
      rw [nx j hj]
      exact this
    · exact Or.inl he
  have tN : s'.t = cfg.tEnd := by
    rcases Nat.eq_zero_or_pos N with h | h
    · have := fz (by rw [h0, ← hN]; exact h)
      rw [h0] at this
      simp at this
      rw [h] at hge
      simp at hge
      rw [this.1]
      exact le_antisymm hT hge
    · exact fp (by rw [h0, ← hN]; exact h)
  refine ⟨N, σ, s', hlt, hge, e1, tN, rfl, fun n hn => by rw [nx n hn, adv n hn], e2, ?_, ?_, ?_⟩
  · intro k d Q he
    rcases ev _ he with h | ⟨k', d', hk, h | h | h⟩ <;> simp at h
    obtain ⟨rfl, -, rfl⟩ := h
    exact ⟨hk, rfl⟩
  · intro k Q he
    rcases ev _ he with h | ⟨k', d', hk, h | h | h⟩ <;> simp at h
    obtain ⟨rfl, rfl⟩ := h
    exact ⟨hk, rfl⟩
  · intro k Q he
    rcases ev _ he with h | ⟨k', d', hk, h | h | h⟩ <;> simp at h
    obtain ⟨rfl, rfl⟩ := h
    exact ⟨hk, rfl⟩

/-- it is enough that the states of the sequence of steps are close to the solution -/
theorem within {env : Env ℝ I V} {P : Nat} (hu : Undisturbed env P) {y : ℝ → Fin P → V} {tEnd dt : ℝ} (hdt : 0 < dt) (hT : 0 ≤ tEnd) {i0 : I} {initialQ : Nat → V}
    {freqs : Freqs} {B : ℝ}
    (H : ∀ (N : Nat) (σ : Nat → I × (Nat → V)), (∀ j < N, (j : ℝ) * dt < tEnd) → tEnd ≤ (N : ℝ) * dt → σ 0 = (i0, initialQ) →
      (∀ n < N, σ (n + 1) = ((env.integ (σ n).1 (σ n).2 (sizes tEnd dt n)).1, (env.integ (σ n).1 (σ n).2 (sizes tEnd dt n)).2.1)) →
      ∀ n ≤ N, ‖whole P (σ n).2 - y (time (sizes tEnd dt) n)‖ ≤ B) :
    RunWithin env P i0 y tEnd dt initialQ freqs B := by
  intro fuel hfuel
  obtain ⟨N, σ, s', hlt, hge, e1, et, s0, hs, eq, w1, w2, w3⟩ := follows hu ⟨tEnd, dt, 0, initialQ, freqs⟩ rfl i0 hdt hT fuel hfuel
  have h := H N σ hlt hge s0 hs
  have h' : ∀ n ≤ N, ‖whole P (σ n).2 - y (timeAfter tEnd dt n)‖ ≤ B := fun n hn => by rw [← time_sizes hT hlt n hn]; exact h n hn
  refine ⟨s', e1, et, ?_, ?_, ?_, ?_⟩
  · rw [eq]
    have := h' N le_rfl
    rwa [timeAfter, min_eq_right hge] at this
  · intro k d Q he
    obtain ⟨hk, rfl⟩ := w1 k d Q he
    exact h' k hk
  · intro k Q he
    obtain ⟨hk, rfl⟩ := w2 k Q he
    exact h' k hk
  · intro k Q he
    obtain ⟨hk, rfl⟩ := w3 k Q he
    exact h' k hk

theorem one_step {env : Env ℝ I V} {P : Nat} (hu : Undisturbed env P) {step : (Fin P → V) → ℝ → Fin P → V} (ho : OneStep env P step) {y : ℝ → Fin P → V} {tEnd dt : ℝ}
    (hdt : 0 < dt) (hT : 0 ≤ tEnd) (i0 : I) {initialQ : Nat → V} (hi : whole P initialQ = y 0) (freqs : Freqs) {B : ℝ} (hB : RunsWithin step y tEnd dt B) :
    RunWithin env P i0 y tEnd dt initialQ freqs B := by
  refine within hu hdt hT fun N σ hlt hge s0 hs => ?_
  let q : Nat → Fin P → V := fun n => Nat.rec (y 0) (fun n v => step v (sizes tEnd dt n)) n
  have eq : ∀ n ≤ N, whole P (σ n).2 = q n := by
    intro n
    induction n with
    | zero => intro _; rw [s0]; exact hi
    | succ n ih =>
      intro hn
      rw [hs n (by omega)]
      change whole P (env.integ (σ n).1 (σ n).2 (sizes tEnd dt n)).2.1 = step (q n) (sizes tEnd dt n)
      rw [ho, ih (by omega)]
  intro n hn
  rw [eq n hn]
  refine hB (sizes tEnd dt) q (sizes_pos hdt) rfl (fun _ => rfl) n ?_
  rw [time_sizes hT hlt n hn]
  exact min_le_right _ _

/-- **C93** A simulation that advances by a scheme of order `p`, run from step 0 to the end time with the configured step, ends by itself, and the final
state and all the states it outputs and saves on the way differ from the exact solution by at most a constant times `dt^p`, also when the end time is
not a multiple of the step and whatever is output. -/
theorem C93_one_step {P : Nat} {step : (Fin P → V) → ℝ → Fin P → V} {y : ℝ → Fin P → V} {tEnd : ℝ} (hT : 0 ≤ tEnd) {p : Nat} (h : Converges step y tEnd p) :
    AccurateRuns step y tEnd p := by
  obtain ⟨C, h0, h00, H⟩ := h
  exact ⟨C, h0, h00, fun dt d0 d1 I env i0 initialQ freqs hu ho hi => one_step hu ho d0 hT i0 hi freqs (H dt d0 d1)⟩

/-- **C93** The same for a scheme that calls a nonlinear solver: the tolerance of the solver is added. -/
theorem C93_with_solver {P : Nat} {step : (((Fin P → V) → Fin P → V) → (Fin P → V) → Fin P → V) → (Fin P → V) → ℝ → Fin P → V} {y : ℝ → Fin P → V} {tEnd : ℝ}
    (hT : 0 ≤ tEnd) {p : Nat} (h : ConvergesWithSolver step y tEnd p) : AccurateRunsWithSolver step y tEnd p := by
  obtain ⟨C, h0, ρ, h00, ρ0, H⟩ := h
  exact ⟨C, h0, ρ, h00, ρ0, fun dt tol d0 d1 t0 t1 newton hn I env i0 initialQ freqs hu ho hi => one_step hu ho d0 hT i0 hi freqs (H dt tol d0 d1 t0 t1 newton hn)⟩

/-- **C93** for the schemes of the code: the runs with explicit Euler, the third-order explicit scheme, and — with a nonlinear solver — backward Euler,
Crank–Nicolson and the two-stage diagonally implicit scheme are accurate to their order. -/
theorem C93_schemes [CompleteSpace V] {P : Nat} {f : (Fin P → V) → Fin P → V} {y : ℝ → Fin P → V} {tEnd : ℝ} (hT : 0 ≤ tEnd) (hs : SmoothSolution f y tEnd 3) :
    AccurateRuns (Schemes.euler1 f) y tEnd 1 ∧ AccurateRuns (Schemes.tvdrk3 f) y tEnd 3 ∧
    AccurateRunsWithSolver (fun newton => Schemes.backwardEuler newton f) y tEnd 1 ∧ AccurateRunsWithSolver (fun newton => Schemes.crankNicolson newton f) y tEnd 2 ∧
    ∀ g, AccurateRunsWithSolver (fun newton => Schemes.sdirk newton g f) y tEnd 2 := by
  have weaker : ∀ p : Nat, p ≤ 3 → SmoothSolution f y tEnd p := fun p hp => ⟨hs.solves, fun t ht => (hs.smooth t ht).of_le (by exact_mod_cast hp)⟩
  exact ⟨C93_one_step hT (Convergence.C90_euler1 (weaker 1 (by norm_num))), C93_one_step hT (Convergence.C90_tvdrk3 hs),
    C93_with_solver hT (Convergence.C90_backward_euler (weaker 1 (by norm_num))), C93_with_solver hT (Convergence.C90_crank_nicolson (weaker 2 (by norm_num))),
    fun g => C93_with_solver hT (Convergence.C90_sdirk g (weaker 2 (by norm_num)))⟩

/-! ## Exponential propagation integrators -/

/-- the simulation advances by an exponential propagation integrator, whose history is the integrator's state -/
def MultiStep {P : Nat} (env : Env ℝ (Epi.St ℝ (Fin P → V)) V) (cfg : Epi.Cfg ℝ) (ext : Epi.Ext ℝ (Fin P → V)) : Prop :=
  ∀ i Q dt st Q', Epi.step cfg ext i (whole P Q) dt = some (st, Q') → (env.integ i Q dt).1 = st ∧ whole P (env.integ i Q dt).2.1 = Q'

/-- the last step is not shortened, or by more than what the integrators see as a change of the step -/
def LastStepVisible (tEnd dt : ℝ) : Prop := ∀ k : Nat, k * dt < tEnd → tEnd < (k + 1) * dt → tEnd + 1 / 10 ^ 10 < (k + 1) * dt

theorem sizes_cases {tEnd dt : ℝ} (n : Nat) :
    sizes tEnd dt n = dt ∨ (n * dt < tEnd ∧ tEnd < (n + 1) * dt ∧ sizes tEnd dt n = tEnd - n * dt) := by
  unfold sizes
  split
  · rename_i h
    unfold stepSize timeAfter
    rw [min_eq_left h.le]
    push_cast
    rcases le_or_gt (((n : ℝ) + 1) * dt) tEnd with h' | h'
    · left; rw [min_eq_left h']; ring
    · right; exact ⟨h, h', by rw [min_eq_right h'.le]⟩
  · exact Or.inl rfl

theorem sizes_full {tEnd dt : ℝ} {n : Nat} (h : ((n : ℝ) + 1) * dt ≤ tEnd) : sizes tEnd dt n = dt := by
  rcases sizes_cases (tEnd := tEnd) (dt := dt) n with e | ⟨-, h2, -⟩
  · exact e
  · exact absurd h (not_le.2 h2)

theorem sizes_stepwise {tEnd dt : ℝ} (hdt : 0 < dt) (hl : LastStepVisible tEnd dt) : Stepwise (sizes tEnd dt) := by
  intro n
  rcases sizes_cases (tEnd := tEnd) (dt := dt) n with e | ⟨h1, h2, e⟩ <;> rcases sizes_cases (tEnd := tEnd) (dt := dt) (n + 1) with e' | ⟨h1', h2', e'⟩
  · left; rw [e, e']
  · right
    have := hl (n + 1) h1' h2'
    rw [e, e', abs_of_pos (by push_cast at *; linarith)]
    push_cast at *
    linarith
  · right
    have := hl n h1 h2
    rw [e, e', abs_sub_comm, abs_of_pos (by linarith)]
    linarith
  · push_cast at h1'
    linarith

theorem starts_sizes {tEnd dt : ℝ} (hdt : 0 < dt) {N : Nat} (hN : ∀ j < N, (j : ℝ) * dt < tEnd) (m n : Nat) (hn : n ≤ N) : starts (sizes tEnd dt) m n ≤ m + 1 := by
  classical
  unfold starts
  refine (Finset.card_le_card (t := Finset.range m ∪ {N - 1}) fun j hj => ?_).trans ((Finset.card_union_le _ _).trans (by simp))
  rw [Finset.mem_filter, Finset.mem_range] at hj
  rw [Finset.mem_union, Finset.mem_range, Finset.mem_singleton]
  by_contra hc
  rw [not_or] at hc
  have full : ∀ k ≤ j, sizes tEnd dt k = dt := by
    intro k hk
    have := hN (k + 1) (by omega)
    push_cast at this
    exact sizes_full this.le
  refine hj.2 ⟨by omega, fun k h1 h2 hr => ?_⟩
  rcases hr with hr | ⟨-, hr⟩
  · omega
  · rw [full _ (by omega), full _ h2, sub_self, abs_zero] at hr
    norm_num at hr

theorem multi_step {P : Nat} {env : Env ℝ (Epi.St ℝ (Fin P → V)) V} (hu : Undisturbed env P) {cfg : Epi.Cfg ℝ} {ext : Epi.Ext ℝ (Fin P → V)} (hm : MultiStep env cfg ext)
    {y : ℝ → Fin P → V} {tEnd dt : ℝ} (hdt : 0 < dt) (hT : 0 ≤ tEnd) {initialQ : Nat → V} (hi : whole P initialQ = y 0) (freqs : Freqs) {B : ℝ}
    (hB : ∀ (N n : Nat), (∀ j < N, (j : ℝ) * dt < tEnd) → n ≤ N → time (sizes tEnd dt) n ≤ tEnd →
      ∃ st Q, Epi.run cfg ext (sizes tEnd dt) (y 0) n = some (st, Q) ∧ ‖Q - y (time (sizes tEnd dt) n)‖ ≤ B) :
    RunWithin env P Epi.init y tEnd dt initialQ freqs B := by
  refine within hu hdt hT fun N σ hlt hge s0 hs => ?_
  have tm : ∀ n ≤ N, time (sizes tEnd dt) n ≤ tEnd := fun n hn => by rw [time_sizes hT hlt n hn]; exact min_le_right _ _
  have eq : ∀ n ≤ N, Epi.run cfg ext (sizes tEnd dt) (y 0) n = some ((σ n).1, whole P (σ n).2) := by
    intro n
    induction n with
    | zero => intro _; rw [s0, ← hi]; rfl
    | succ n ih =>
      intro hn
      have e := ih (by omega)
      obtain ⟨st, Q, e', -⟩ := hB N (n + 1) hlt hn (tm _ hn)
      rw [e']
      rw [Epi.run, e] at e'
      obtain ⟨h1, h2⟩ := hm _ _ _ _ _ e'
      rw [hs n (by omega), h1, h2]
  intro n hn
  obtain ⟨st, Q, e', hQ⟩ := hB N n hlt hn (tm n hn)
  rw [eq n hn, Option.some.injEq, Prod.mk.injEq] at e'
  rw [e'.2]
  exact hQ

/-- **C93** (partial: order three instead of the order in the name, see C92.)  A simulation with the exponential propagation integrator of order 3 to 6 reaches the
solution at the end time to third order, up to the tolerance of its solvers; the shortened last step is a change of the step, and is made by the start-up method. -/
theorem C93_epi_partial [CompleteSpace V] {P : Nat} {f : (Fin P → V) → Fin P → V} {y : ℝ → Fin P → V} {tEnd : ℝ} (hT : 0 ≤ tEnd) (order substeps : Nat) (ho : 3 ≤ order)
    (cfg : Epi.Cfg ℝ) (h : Epi.epi order substeps = some cfg) (hsub : 0 < substeps) (hs : SmoothSolution f y tEnd order) :
    ∃ C dt0 ρ : ℝ, 0 < dt0 ∧ 0 < ρ ∧ ∀ dt tol, 0 < dt → dt ≤ dt0 → 0 ≤ tol → tol ≤ dt0 → LastStepVisible tEnd dt → ∀ ext, Accurate f y tEnd ρ tol ext →
      ∀ (env : Env ℝ (Epi.St ℝ (Fin P → V)) V) (initialQ : Nat → V) (freqs : Freqs), Undisturbed env P → MultiStep env cfg ext → whole P initialQ = y 0 →
        RunWithin env P Epi.init y tEnd dt initialQ freqs (C * (dt ^ 3 + tol)) := by
  obtain ⟨C, h0, ρ, a, b, H⟩ := EpiConvergence.C92_epi order substeps cfg h hsub hs
  refine ⟨|C| * (order + 1), min h0 1, ρ, lt_min a one_pos, b, fun dt tol h1 h2 h3 h4 hl ext hx env initialQ freqs hu hm hi => ?_⟩
  refine multi_step hu hm h1 hT hi freqs fun N n hlt hn ht => ?_
  obtain ⟨st, Q, e, hQ⟩ := H dt tol h1 (h2.trans (min_le_left _ _)) h3 (h4.trans (min_le_left _ _)) ext hx _ (sizes_pos h1) (sizes_stepwise h1 hl) n ht
  refine ⟨st, Q, e, hQ.trans ?_⟩
  have c : (starts (sizes tEnd dt) (order - 2) n : ℝ) ≤ order := by exact_mod_cast (starts_sizes h1 hlt (order - 2) n hn).trans (by omega)
  have c3 := mul_le_mul_of_nonneg_right c (by positivity : 0 ≤ dt ^ 3)
  have hp : dt ^ order ≤ dt ^ 3 := pow_le_pow_of_le_one h1.le (h2.trans (min_le_right _ _)) ho
  have : dt ^ order + starts (sizes tEnd dt) (order - 2) n * dt ^ 3 + tol ≤ (order + 1) * (dt ^ 3 + tol) := by
    have : 0 ≤ (order : ℝ) * tol := by positivity
    linarith
  calc C * (dt ^ order + starts (sizes tEnd dt) (order - 2) n * dt ^ 3 + tol) ≤ |C| * (dt ^ order + starts (sizes tEnd dt) (order - 2) n * dt ^ 3 + tol) :=
        mul_le_mul_of_nonneg_right (le_abs_self C) (by positivity)
    _ ≤ |C| * ((order + 1) * (dt ^ 3 + tol)) := mul_le_mul_of_nonneg_left this (abs_nonneg _)
    _ = _ := by ring

/-- **C93** The same for the method of order two, with its full order and for every step and end time. -/
theorem C93_epi2 [CompleteSpace V] {P : Nat} {f : (Fin P → V) → Fin P → V} {y : ℝ → Fin P → V} {tEnd : ℝ} (hT : 0 ≤ tEnd) (substeps : Nat)
    (cfg : Epi.Cfg ℝ) (h : Epi.epi 2 substeps = some cfg) (hsub : 0 < substeps) (hs : SmoothSolution f y tEnd 2) :
    ∃ C dt0 ρ : ℝ, 0 < dt0 ∧ 0 < ρ ∧ ∀ dt tol, 0 < dt → dt ≤ dt0 → 0 ≤ tol → tol ≤ dt0 → ∀ ext, Accurate f y tEnd ρ tol ext →
      ∀ (env : Env ℝ (Epi.St ℝ (Fin P → V)) V) (initialQ : Nat → V) (freqs : Freqs), Undisturbed env P → MultiStep env cfg ext → whole P initialQ = y 0 →
        RunWithin env P Epi.init y tEnd dt initialQ freqs (C * (dt ^ 2 + tol)) := by
  obtain ⟨C, h0, ρ, a, b, H⟩ := EpiConvergence.C92_epi2 substeps cfg h hsub hs
  exact ⟨C, h0, ρ, a, b, fun dt tol h1 h2 h3 h4 ext hx env initialQ freqs hu hm hi =>
    multi_step hu hm h1 hT hi freqs fun N n _ _ ht => H dt tol h1 h2 h3 h4 ext hx _ (sizes_pos h1) n ht⟩

/-! ## Non-vacuity -/

/-- a simulation on `P` processes that advances by the scheme `step` -/
def plain (P : Nat) (step : (Fin P → V) → ℝ → Fin P → V) : Env ℝ Unit V where
  integ := fun _ Q dt => ((), fun r => if h : r < P then step (whole P Q) dt ⟨r, h⟩ else 0, fun _ => 0)
  filters := fun _ Q => Q
  hasNaN := fun _ => false
  winds := fun _ Q => Q
  written := fun Q => Q
  size := P

/-- the same with a history -/
noncomputable def plainMulti (P : Nat) (cfg : Epi.Cfg ℝ) (ext : Epi.Ext ℝ (Fin P → V)) : Env ℝ (Epi.St ℝ (Fin P → V)) V where
  integ := fun i Q dt =>
    let r := (Epi.step cfg ext i (whole P Q) dt).getD (i, whole P Q)
    (r.1, fun k => if h : k < P then r.2 ⟨k, h⟩ else 0, fun _ => 0)
  filters := fun _ Q => Q
  hasNaN := fun _ => false
  winds := fun _ Q => Q
  written := fun Q => Q
  size := P

/-- Six processes, each with its own `y' = y²`: the simulations are undisturbed and advance by their schemes, the solution is smooth, and an end time that is
not a multiple of the step is admitted. -/
example : Undisturbed (plain (V := ℝ) 6 (Schemes.tvdrk3 fun Q r => Q r * Q r)) 6 ∧
    OneStep (plain (V := ℝ) 6 (Schemes.tvdrk3 fun Q r => Q r * Q r)) 6 (Schemes.tvdrk3 fun Q r => Q r * Q r) ∧
    (∀ cfg ext, Undisturbed (plainMulti (V := ℝ) 6 cfg ext) 6 ∧ MultiStep (plainMulti (V := ℝ) 6 cfg ext) cfg ext) ∧
    SmoothSolution (fun (Q : Fin 6 → ℝ) r => Q r * Q r) (fun t _ => 1 / (2 - t)) 1 3 ∧ LastStepVisible 1 (3 / 10) := by
  refine ⟨⟨rfl, fun _ _ _ _ _ => rfl, fun _ => rfl, fun _ _ => rfl, fun _ _ => rfl, fun _ => rfl⟩, fun i Q dt => ?_, fun cfg ext => ⟨⟨rfl, fun _ _ _ _ _ => rfl, fun _ => rfl,
    fun _ _ => rfl, fun _ _ => rfl, fun _ => rfl⟩, fun i Q dt st Q' h => ?_⟩, ⟨fun t ht => ?_, fun t _ => ?_⟩, fun k h1 h2 => ?_⟩
  · funext r; simp [whole, plain]
  · simp only [plainMulti, h, Option.getD_some, true_and]
    funext r; simp [whole]
  · exact hasDerivWithinAt_pi.2 fun r => (Convergence.square_solution 3).solves t ht
  · exact (contDiff_pi.2 fun r => (contDiff_apply ℝ ℝ r).mul (contDiff_apply ℝ ℝ r)).contDiffAt
  · have : k = 3 := by
      have a : (k : ℝ) < 10 / 3 := by linarith
      have b : (7 / 3 : ℝ) < k := by linarith
      have a' : k < 4 := by
        by_contra hc
        have : (4 : ℝ) ≤ k := by exact_mod_cast not_lt.1 hc
        linarith
      have b' : 2 < k := by
        by_contra hc
        have : (k : ℝ) ≤ 2 := by exact_mod_cast not_lt.1 hc
        linarith
      omega
    subst this
    norm_num

end WxVerif.Props.Accuracy
